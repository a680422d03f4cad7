import Verif.Grf.DegLemmas
import Verif.Grf.PropsMulti
import Verif.Grf.PropsSmtFile

/-!
# C120: from the text of a file to validity over the real numbers, with the sampling core of the program
-/

set_option linter.unusedSectionVars false

namespace Verif.Grf

open Verif.Vts (isWs skipWs isNum isAlpha digits1 Ws Digits skipWs_ws skipWs_cons skipWs_wc isNum_iff isWs_iff)

/-! ### The polynomials that are read -/

theorem normal_foldr {p : MPoly} (f : Mono × ℚ → Mono × ℚ) (hf : ∀ t ∈ p, (f t).1.Stripped) {q : MPoly} (hq : Normal q) :
    Normal (p.foldr (fun t r => addTerm (f t).1 (f t).2 r) q) := by
  induction p with
  | nil => exact hq
  | cons t p ih =>
    rw [List.foldr_cons]
    exact normal_addTerm (hf t (by simp)) (ih fun u hu => hf u (by simp [hu]))

theorem normal_add' {p q : MPoly} (hp : Normal p) (hq : Normal q) : Normal (p.add q) :=
  normal_foldr id hp.strip hq

theorem normal_neg' {p : MPoly} (hp : Normal p) : Normal p.neg := by
  refine ⟨?_, ?_, ?_⟩
  · intro t ht
    obtain ⟨u, hu, rfl⟩ := List.mem_map.1 ht
    have := hp.coef u hu
    simpa using this
  · intro t ht
    obtain ⟨u, hu, rfl⟩ := List.mem_map.1 ht
    exact hp.strip u hu
  · have : p.neg.map Prod.fst = p.map Prod.fst := by
      unfold MPoly.neg
      rw [List.map_map]
      rfl
    rw [this]
    exact hp.nodup

theorem normal_sub' {p q : MPoly} (hp : Normal p) (hq : Normal q) : Normal (p.sub q) := normal_add' hp (normal_neg' hq)

theorem stripped_mul : ∀ {a b : Mono}, a.Stripped → b.Stripped → (a.mul b).Stripped
  | [], b, _, hb => by rwa [show Mono.mul [] b = b by cases b <;> rfl]
  | x :: a, [], ha, _ => by rwa [show Mono.mul (x :: a) [] = x :: a from rfl]
  | x :: a, y :: b, ha, hb => by
    rw [show Mono.mul (x :: a) (y :: b) = (x + y) :: Mono.mul a b from rfl]
    have ha' : a = [] ∨ Mono.Stripped a := by
      by_cases h : a = []
      · exact Or.inl h
      · right
        unfold Mono.Stripped at *
        rwa [List.getLast?_cons_of_ne_nil h] at ha
    have hb' : b = [] ∨ Mono.Stripped b := by
      by_cases h : b = []
      · exact Or.inl h
      · right
        unfold Mono.Stripped at *
        rwa [List.getLast?_cons_of_ne_nil h] at hb
    by_cases hm : Mono.mul a b = []
    · have hab : a = [] ∧ b = [] := by
        cases a with
        | nil => exact ⟨rfl, by cases b with | nil => rfl | cons u b => cases hm⟩
        | cons u a => cases b <;> cases hm
      rw [hm]
      rw [hab.1] at ha
      simp only [Mono.Stripped, List.getLast?_singleton, ne_eq, Option.some.injEq] at ha ⊢
      omega
    · refine stripped_cons ?_ hm
      rcases ha' with rfl | ha' <;> rcases hb' with rfl | hb'
      · exact absurd rfl hm
      · rwa [show Mono.mul [] b = b by cases b <;> rfl]
      · cases a with
        | nil => exact absurd rfl hm
        | cons u a => rwa [show Mono.mul (u :: a) [] = u :: a from rfl]
      · exact stripped_mul ha' hb'

theorem normal_mul' {p q : MPoly} (hp : Normal p) (hq : Normal q) : Normal (p.mul q) := by
  have h1 := hp.strip
  clear hp
  unfold MPoly.mul
  induction p with
  | nil => exact normal_nil
  | cons t p ih =>
    rw [List.foldr_cons]
    refine normal_add' ?_ (ih fun u hu => h1 u (by simp [hu]))
    exact normal_foldr (fun u => (t.1.mul u.1, t.2 * u.2)) (fun u hu => stripped_mul (h1 t (by simp)) (hq.strip u hu)) normal_nil

theorem normal_const' (c : ℚ) : Normal (MPoly.const c) := by
  unfold MPoly.const
  split
  · exact normal_nil
  · next h => exact normal_single _ h (by simp [Mono.Stripped])

theorem vars_add' {p q : MPoly} {v : ℕ} (h : v ∈ (p.add q).vars) : v ∈ p.vars ∨ v ∈ q.vars := by
  obtain ⟨t, ht, hv⟩ := MPoly.mem_vars.1 h
  obtain ⟨u, hu, he⟩ := mem_add ht
  rw [he] at hv
  rcases List.mem_append.1 hu with hu | hu
  · exact Or.inl (MPoly.mem_vars.2 ⟨u, hu, hv⟩)
  · exact Or.inr (MPoly.mem_vars.2 ⟨u, hu, hv⟩)

theorem vars_neg' {p : MPoly} {v : ℕ} (h : v ∈ p.neg.vars) : v ∈ p.vars := by
  obtain ⟨t, ht, hv⟩ := MPoly.mem_vars.1 h
  obtain ⟨u, hu, rfl⟩ := List.mem_map.1 ht
  exact MPoly.mem_vars.2 ⟨u, hu, hv⟩

theorem vars_sub' {p q : MPoly} {v : ℕ} (h : v ∈ (p.sub q).vars) : v ∈ p.vars ∨ v ∈ q.vars :=
  (vars_add' h).imp id vars_neg'

theorem vars_const' {c : ℚ} {v : ℕ} (h : v ∈ (MPoly.const c).vars) : False := by
  obtain ⟨t, ht, hv⟩ := MPoly.mem_vars.1 h
  unfold MPoly.const at ht
  split at ht
  · cases ht
  · rw [List.mem_singleton] at ht
    subst ht
    simp [Mono.exp] at hv

/-- Quotients of polynomials are polynomials in their variables. -/
def QuotNormal (quot : MPoly → MPoly → Option MPoly) : Prop :=
  ∀ p d q, quot p d = some q → Normal p → Normal q ∧ ∀ w ∈ q.vars, w ∈ p.vars

/-- The names of the second context that are not names of the first. -/
def NewNames (c c' : Ctx) (ws : List String) : Prop :=
  ∀ s, (c'.varMap.lookup s).isSome → (c.varMap.lookup s).isSome ∨ s ∈ ws

/-- Normal polynomials in variables of the context. -/
def InCtx (c : Ctx) (p : MPoly) : Prop := Normal p ∧ ∀ w ∈ p.vars, ∃ s, c.varMap.lookup s = some w

theorem InCtx.mono {c c' : Ctx} {p : MPoly} (h : CtxLe c c') (hp : InCtx c p) : InCtx c' p :=
  ⟨hp.1, fun w hw => (hp.2 w hw).imp fun s hs => h s w hs⟩

theorem NewNames.trans {a b c : Ctx} {ws us : List String} (h : NewNames a b ws) (h' : NewNames b c us) :
    NewNames a c (ws ++ us) := by
  intro s hs
  rcases h' s hs with h1 | h1
  · rcases h s h1 with h2 | h2
    · exact Or.inl h2
    · exact Or.inr (by simp [h2])
  · exact Or.inr (by simp [h1])

theorem getVar_new (c : Ctx) (s : String) : NewNames c (c.getVar s).2 [s] := by
  intro t ht
  unfold Ctx.getVar at ht
  split at ht
  · exact Or.inl ht
  · split at ht
    · by_cases h : t = s
      · exact Or.inr (by simp [h])
      · left
        have hb : (t == s) = false := by simpa using h
        simpa [List.lookup_cons, hb] using ht
    · by_cases h : t = s
      · exact Or.inr (by simp [h])
      · left
        have hb : (t == s) = false := by simpa using h
        simpa [List.lookup_cons, hb] using ht

theorem readTm_in {quot : MPoly → MPoly → Option MPoly} (hn : QuotNormal quot) :
    ∀ (t : Tm) (c c' : Ctx) (p : MPoly), CtxOK c → readTm quot c t = .ok (p, c') →
      CtxOK c' ∧ CtxLe c c' ∧ NewNames c c' t.words ∧ InCtx c' p := by
  have two : ∀ (a b : Tm), (∀ (c c' : Ctx) (p : MPoly), CtxOK c → readTm quot c a = .ok (p, c') →
        CtxOK c' ∧ CtxLe c c' ∧ NewNames c c' a.words ∧ InCtx c' p) →
      (∀ (c c' : Ctx) (p : MPoly), CtxOK c → readTm quot c b = .ok (p, c') →
        CtxOK c' ∧ CtxLe c c' ∧ NewNames c c' b.words ∧ InCtx c' p) →
      ∀ (c c₁ c₂ : Ctx) (p q : MPoly), CtxOK c → readTm quot c a = .ok (p, c₁) → readTm quot c₁ b = .ok (q, c₂) →
        CtxOK c₂ ∧ CtxLe c c₂ ∧ NewNames c c₂ (a.words ++ b.words) ∧ InCtx c₂ p ∧ InCtx c₂ q := by
    intro a b iha ihb c c₁ c₂ p q hc ha hb
    obtain ⟨h1, h2, h3, h4⟩ := iha c c₁ p hc ha
    obtain ⟨k1, k2, k3, k4⟩ := ihb c₁ c₂ q h1 hb
    exact ⟨k1, fun t i h => k2 t i (h2 t i h), h3.trans k3, h4.mono k2, k4⟩
  intro t
  induction t with
  | num q =>
    intro c c' p hc h
    cases h
    exact ⟨hc, fun _ _ h => h, fun s hs => Or.inl hs, normal_const' q, fun w hw => (vars_const' hw).elim⟩
  | word s =>
    intro c c' p hc h
    cases h
    obtain ⟨h1, h2, _, h4⟩ := getVar_ok hc s
    refine ⟨h1, h4, getVar_new c s, normal_var _, fun w hw => ?_⟩
    rw [vars_var] at hw
    subst hw
    exact ⟨s, h2⟩
  | add a b iha ihb =>
    intro c c' p hc h
    unfold readTm at h
    simp only [bind, Except.bind] at h
    split at h
    · cases h
    · next r hr =>
      split at h
      · cases h
      · next r' hr' =>
        cases h
        obtain ⟨h1, h2, h3, h4, h5⟩ := two a b iha ihb c r.2 r'.2 r.1 r'.1 hc hr hr'
        exact ⟨h1, h2, h3, normal_add' h4.1 h5.1, fun w hw => (vars_add' hw).elim (h4.2 w) (h5.2 w)⟩
  | mul a b iha ihb =>
    intro c c' p hc h
    unfold readTm at h
    simp only [bind, Except.bind] at h
    split at h
    · cases h
    · next r hr =>
      split at h
      · cases h
      · next r' hr' =>
        cases h
        obtain ⟨h1, h2, h3, h4, h5⟩ := two a b iha ihb c r.2 r'.2 r.1 r'.1 hc hr hr'
        exact ⟨h1, h2, h3, normal_mul' h4.1 h5.1, fun w hw => (vars_mul hw).elim (h4.2 w) (h5.2 w)⟩
  | sub a b iha ihb =>
    intro c c' p hc h
    unfold readTm at h
    simp only [bind, Except.bind] at h
    split at h
    · cases h
    · next r hr =>
      split at h
      · cases h
      · next r' hr' =>
        cases h
        obtain ⟨h1, h2, h3, h4, h5⟩ := two a b iha ihb c r.2 r'.2 r.1 r'.1 hc hr hr'
        exact ⟨h1, h2, h3, normal_sub' h4.1 h5.1, fun w hw => (vars_sub' hw).elim (h4.2 w) (h5.2 w)⟩
  | neg a iha =>
    intro c c' p hc h
    unfold readTm at h
    simp only [bind, Except.bind] at h
    split at h
    · cases h
    · next r hr =>
      cases h
      obtain ⟨h1, h2, h3, h4⟩ := iha c r.2 r.1 hc hr
      exact ⟨h1, h2, h3, normal_sub' (normal_const' 0) h4.1, fun w hw => (vars_sub' hw).elim (fun h => (vars_const' h).elim) (h4.2 w)⟩
  | div a b iha ihb =>
    intro c c' p hc h
    unfold readTm at h
    simp only [bind, Except.bind] at h
    split at h
    · cases h
    · next r hr =>
      split at h
      · cases h
      · next r' hr' =>
        split at h
        · cases h
        · next q hq' =>
          cases h
          obtain ⟨h1, h2, h3, h4, h5⟩ := two a b iha ihb c r.2 r'.2 r.1 r'.1 hc hr hr'
          obtain ⟨k1, k2⟩ := hn _ _ _ hq' h4.1
          exact ⟨h1, h2, h3, k1, fun w hw => h4.2 w (k2 w hw)⟩

/-- The words of formulas. -/
def Fm.words (f : Fm) : List String := f.lhs.words ++ f.rhs.words

/-- What is read for a formula. -/
structure ReadAs (quot : MPoly → MPoly → Option MPoly) (c' : Ctx) (f : Fm) (a : Atom) : Prop where
  op : a.op = f.op
  fresh : Fresh a
  inCtx : InCtx c' a.poly
  value : ∀ {K : Type} [Field K] [LinearOrder K] [IsStrictOrderedRing K], QuotOK K quot → ∀ e : Ctx, CtxLe c' e →
    ∀ ρ : ℕ → K, f.defined (nameVal e ρ) → a.poly.eval ρ = f.lhs.value (nameVal e ρ) - f.rhs.value (nameVal e ρ)

theorem readFm_in {quot : MPoly → MPoly → Option MPoly} (hn : QuotNormal quot) {f : Fm} {c c' : Ctx} {a : Atom}
    (hc : CtxOK c) (h : readFm quot c f = .ok (a, c')) :
    CtxOK c' ∧ CtxLe c c' ∧ NewNames c c' f.words ∧ ReadAs quot c' f a := by
  unfold readFm at h
  simp only [bind, Except.bind] at h
  split at h
  · cases h
  · next l hl =>
    split at h
    · cases h
    · next r hr =>
      have hop : mkAtom l.1 f.op.toString r.1 = .ok ⟨l.1.sub r.1, f.op, (l.1.sub r.1).vars⟩ := by
        unfold mkAtom
        have : Op.ofString f.op.toString = some f.op := by cases f.op <;> decide
        rw [this]
      rw [hop] at h
      cases h
      obtain ⟨h1, h2, h3, h4⟩ := readTm_in hn f.lhs c l.2 l.1 hc hl
      obtain ⟨k1, k2, k3, k4⟩ := readTm_in hn f.rhs l.2 r.2 r.1 h1 hr
      refine ⟨k1, fun t i h => k2 t i (h2 t i h), h3.trans k3, rfl, fun v hv => hv,
        ⟨normal_sub' h4.1 k4.1, fun w hw => (vars_sub' hw).elim ((h4.mono k2).2 w) (k4.2 w)⟩, ?_⟩
      intro K _ _ _ hq e he ρ hd
      obtain ⟨_, _, _, m4⟩ := readTm_ok (K := K) hq f.lhs c l.2 l.1 hc hl
      obtain ⟨_, _, _, n4⟩ := readTm_ok (K := K) hq f.rhs l.2 r.2 r.1 h1 hr
      show MPoly.eval ρ (l.1.sub r.1) = _
      rw [MPoly.eval_sub, m4 e (fun t i h => he t i (k2 t i h)) ρ hd.1, n4 e he ρ hd.2]

theorem ReadAs.mono {quot : MPoly → MPoly → Option MPoly} {c c' : Ctx} (h : CtxLe c c') {f : Fm} {a : Atom}
    (ha : ReadAs quot c f a) : ReadAs quot c' f a :=
  ⟨ha.op, ha.fresh, ha.inCtx.mono h, fun hq e he => ha.value hq e fun t i hi => he t i (h t i hi)⟩

theorem readFms_in {quot : MPoly → MPoly → Option MPoly} (hn : QuotNormal quot) : ∀ (fs : List Fm) (c c' : Ctx)
    (as : List Atom), CtxOK c → readFms quot c fs = .ok (as, c') →
      CtxOK c' ∧ CtxLe c c' ∧ NewNames c c' (fs.flatMap Fm.words) ∧ List.Forall₂ (ReadAs quot c') fs as := by
  intro fs
  induction fs with
  | nil =>
    intro c c' as hc h
    cases h
    exact ⟨hc, fun _ _ h => h, fun s hs => Or.inl hs, .nil⟩
  | cons f fs ih =>
    intro c c' as hc h
    unfold readFms at h
    simp only [bind, Except.bind] at h
    split at h
    · cases h
    · next r hr =>
      split at h
      · cases h
      · next r' hr' =>
        cases h
        obtain ⟨h1, h2, h3, h4⟩ := readFm_in hn hc hr
        obtain ⟨k1, k2, k3, k4⟩ := ih r.2 r'.2 r'.1 h1 hr'
        refine ⟨k1, fun t i h => k2 t i (h2 t i h), ?_, .cons (h4.mono k2) k4⟩
        rw [List.flatMap_cons]
        exact h3.trans k3

theorem forall₂_right {α β : Type} {P : α → β → Prop} {l : List α} {m : List β} (h : List.Forall₂ P l m) {b : β}
    (hb : b ∈ m) : ∃ a ∈ l, P a b := by
  induction h with
  | nil => cases hb
  | cons hp _ ih =>
    rcases List.mem_cons.1 hb with rfl | hb
    · exact ⟨_, by simp, hp⟩
    · obtain ⟨a, ha, hab⟩ := ih hb
      exact ⟨a, by simp [ha], hab⟩

/-- The number of variables is at most the number of different words. -/
theorem ctx_bound {c : Ctx} (hc : CtxOK c) {ws : List String} (h : NewNames Ctx.init c ws) {s : String} {i : ℕ}
    (hs : c.varMap.lookup s = some i) : i < ws.dedup.length := by
  obtain ⟨_, h2, h3⟩ := hc
  have hi : i ∈ (List.range c.varMap.length).reverse := by
    rw [← h2]
    exact List.mem_map.2 ⟨_, mem_of_lookup hs, rfl⟩
  rw [List.mem_reverse, List.mem_range] at hi
  have hsub : c.varMap.map Prod.fst ⊆ ws.dedup := by
    intro t ht
    rw [List.mem_dedup]
    have hl : (c.varMap.lookup t).isSome := by
      cases hl : c.varMap.lookup t with
      | some j => rfl
      | none => exact absurd ht (lookup_none hl)
    rcases h t hl with h | h
    · simp [Ctx.init] at h
    · exact h
  have := (List.subperm_of_subset h3 hsub).length_le
  rw [List.length_map] at this
  omega

/-! ### The loop -/

/-- Promotions when no hypothesis is an equation. -/
theorem promotes_noeq {K : Type} [Field K] [LinearOrder K] [IsStrictOrderedRing K] {S : Sage K} {st st' : State} {is : List ℕ}
    (h : Promotes S st is st') : st.goal.gb = [] → (∀ a ∈ st.hyps, a.op ≠ .eq) → st'.goal.main = st.goal.main ∧
      ∃ ps, st'.goal.hyps = st.goal.hyps ++ ps ∧ (ps ++ st'.hyps).Perm st.hyps := by
  induction h with
  | refl st => exact fun _ _ => ⟨rfl, [], by simp⟩
  | step st st₁ st' i is hi hs ih =>
    intro h1 h2
    obtain ⟨a, g, ha, hg, rfl⟩ := promote_ok hi
    have hop : a.op ≠ .eq := h2 a (List.mem_of_getElem? ha)
    have hg' : g = { st.goal with hyps := st.goal.hyps ++ [a] } := by
      unfold Goal.addHyp Goal.simplify Goal.simplifyNew at hg
      rw [if_neg hop, if_neg (by simp [h1])] at hg
      cases hg
      rfl
    subst hg'
    obtain ⟨e2, ps, e3, e4⟩ := ih h1 (by
      intro b hb
      apply h2
      rcases List.mem_append.1 hb with hb | hb
      · exact List.mem_of_mem_take hb
      · exact List.mem_of_mem_drop hb)
    exact ⟨e2, a :: ps, by rw [e3]; simp, (List.Perm.cons a e4).trans (take_drop_perm ha)⟩

/-- Hiding is sound over the real numbers, in both modes, with the sampling core of the program. -/
theorem iCheck_real (S : Sage ℚ) (R : CadEnv) (hE : RootsOK ℝ R) (hu : UniformOK R) (hel : ElimOK R) (n : ℕ)
    (extra : ℕ → State → List MPoly) (more) (solve) {int : List Char → Option ℤ} {A B : List Atom} {s : State} {b : Bool}
    {lines rest : List (List Char)} {fuel : ℕ} {ret : List (List ℕ)} {st' : State} (hs : seqState A B = .ok s)
    (hseq : StrictSequentN n s.hyps s.goal.main)
    (hextra : ∀ k st, ∀ p ∈ extra k st, ∃ a ∈ st.goal.main :: st.goal.hyps, p = a.poly ∨ p = purePolyBase a.poly)
    (hlev : ∀ k (st : State), st.goal.main = s.goal.main → (st.goal.hyps ++ st.hyps).Perm s.hyps →
      LevelsOK R n (extra k st ++ st.goal.main.poly :: st.goal.hyps.map Atom.poly) 1 st.hyps)
    (h : iCheck (cadCore S R n 1 extra more solve) int fuel 0 b s lines = .ok (ret, st', rest)) :
    ∀ ρ : ℕ → ℝ, (∀ a, Kept A (hideAnte s.hyps.length st'.ids) a → a.holds ρ) →
      ∃ x, Kept B (hideSucc A.length B.length st'.ids) x ∧ x.holds ρ := by
  unfold seqState at hs
  split at hs
  · cases hs
  · next g others hr =>
    cases hs
    obtain ⟨is, m, h1, ⟨ds, h2, h3⟩, _⟩ := iCheck_spec _ int fuel 0 b _ lines ret st' rest h
    obtain ⟨hids, hsub⟩ := h1.ids (idsOK_init (A ++ others.map Atom.negate) _)
    obtain ⟨e2, ps, e3, e4⟩ := promotes_noeq h1 rfl (by
      intro a ha h0
      rcases hseq.hypOps a ha with h | h | h <;> rw [h] at h0 <;> cases h0)
    simp only [List.nil_append] at e3
    refine hiding_of_promoted hr hids hsub e4 ?_
    intro ρ hp
    have hmem : ∀ a ∈ st'.goal.main :: st'.goal.hyps, a ∈ g :: (A ++ others.map Atom.negate) := by
      intro a ha
      rw [e2, e3] at ha
      rcases List.mem_cons.1 ha with rfl | ha
      · simp
      · exact List.mem_cons_of_mem _ (e4.subset (List.mem_append_left _ ha))
    have hst : StrictSequentN n st'.goal.hyps st'.goal.main :=
      ⟨by rw [e2]; exact hseq.mainOp, fun a ha => hseq.hypOps a (by rw [e3] at ha; exact e4.subset (List.mem_append_left _ ha)),
        fun a ha => hseq.fresh a (hmem a ha), fun a ha => hseq.poly a (hmem a ha)⟩
    have := multi_core_sound S R hE hu hel n st'.goal hst (extra m st' ++ st'.goal.main.poly :: st'.goal.hyps.map Atom.poly)
      (by
        intro a ha
        apply List.mem_append.2 (Or.inr _)
        rcases List.mem_cons.1 ha with rfl | ha
        · simp
        · exact List.mem_cons_of_mem _ (List.mem_map.2 ⟨a, ha, rfl⟩))
      (by
        intro p hp
        have : ∃ a ∈ st'.goal.main :: st'.goal.hyps, p = a.poly ∨ p = purePolyBase a.poly := by
          rcases List.mem_append.1 hp with hp | hp
          · exact hextra m st' p hp
          · rcases List.mem_cons.1 hp with rfl | hp
            · exact ⟨_, by simp, Or.inl rfl⟩
            · obtain ⟨a, ha, rfl⟩ := List.mem_map.1 hp
              exact ⟨a, by simp [ha], Or.inl rfl⟩
        obtain ⟨a, ha, rfl | rfl⟩ := this
        · exact hseq.poly a (hmem a ha)
        · exact ⟨normal_base (hseq.poly a (hmem a ha)).1, fun w hw => (hseq.poly a (hmem a ha)).2 w (vars_base hw)⟩)
      1 le_rfl st'.hyps (hlev m st' e2 (by rw [e3]; exact e4)) ds h2 h3 ρ (by rw [e3]; exact hp)
    rwa [e2] at this

/-! ### C120 -/

/-- What holds of **C120**, in any number of variables: let a file contain one sequent, with relations `<`, `>`, `!=` on the
left and `<=`, `>=`, `=` on the right, and let `grf_on_file` be run on it in a new process, in either mode and whatever is
typed in. If it returns, then at every assignment of real numbers to the names in the text at which no divisor is zero, some
formula of the succedent that is not reported follows from the formulas of the antecedent that are not reported. The
assumptions on the sequent that is read (`hyps` and `main`) and on Sage are those of C72_partial: no resultant and no
discriminant of a projection is 0, and no stack has both rational and irrational roots. `extra` are the polynomials installed
in earlier rounds. A file and a run that meet the assumptions are at the end of `PropsFileRealOne` (C120_one_partial is
an instance of this theorem). -/
theorem C120_partial (E : SmtEnv ℚ) (S : Sage ℚ) (R : CadEnv) (hE : RootsOK ℝ R) (hu : UniformOK R) (hel : ElimOK R)
    (hq : QuotOK ℝ E.quot) (hqn : QuotNormal E.quot) (n : ℕ) (extra : ℕ → State → List MPoly) (more) (solve)
    (hcore : E.core 0 = cadCore S R n 1 extra more solve) (text : List Char) (q : FileSeq) (ht : FileText E.num text [q])
    (hn : n = max 1 ((q.ante ++ q.succ).flatMap fun f => f.lhs.words ++ f.rhs.words).dedup.length)
    (hante : ∀ f ∈ q.ante, f.op = .lt ∨ f.op = .gt ∨ f.op = .ne)
    (hsucc : ∀ f ∈ q.succ, f.op = .le ∨ f.op = .ge ∨ f.op = .eq)
    (hextra : ∀ k st, ∀ p ∈ extra k st, ∃ a ∈ st.goal.main :: st.goal.hyps, p = a.poly ∨ p = purePolyBase a.poly)
    (hlev : ∀ A B hyps main ids, readFms E.quot Ctx.init q.ante = .ok A → readFms E.quot A.2 q.succ = .ok B →
      seqState A.1 B.1 = .ok ⟨hyps, ⟨main, [], []⟩, ids⟩ →
      ∀ k (st : State), st.goal.main = main → (st.goal.hyps ++ st.hyps).Perm hyps →
      LevelsOK R n (extra k st ++ st.goal.main.poly :: st.goal.hyps.map Atom.poly) 1 st.hyps)
    (interactive out : Bool) (lines : List (List Char)) (o : SmtOut)
    (h : grfOnFile E interactive out lines text = .ok o) : ∃ as ss : List ℕ,
      o.ret = (as.length, ss.length) ∧ o.file = (if out then some (resultText q.name as ss) else none) ∧
      ∀ σ : String → ℝ, (∀ f ∈ q.ante ++ q.succ, f.defined σ) →
        (∀ i f, i ∉ as → q.ante[i]? = some f → f.holds σ) → ∃ i f, i ∉ ss ∧ q.succ[i]? = some f ∧ f.holds σ := by
  rw [C74_reading E interactive out lines text _ ht] at h
  split at h
  · cases h
  · next x hx =>
    obtain ⟨z, hz, hz'⟩ := seqsRun_append (l := []) hx
    cases hz
    unfold seqRun at hz'
    split at hz'
    · cases hz'
    · next A hA =>
      split at hz'
      · cases hz'
      · next B hB =>
        split at hz'
        · cases hz'
        · next s hs =>
          split at hz'
          · cases hz'
          · next r hr =>
            cases hz'
            cases h
            obtain ⟨ret, st', rest⟩ := r
            refine ⟨_, _, rfl, rfl, ?_⟩
            change iCheck (E.core 0) _ _ _ _ _ _ = _ at hr
            rw [hcore] at hr
            obtain ⟨a1, a2, a3, a4⟩ := readFms_in hqn q.ante Ctx.init A.2 A.1 init_ok hA
            obtain ⟨b1, b2, b3, b4⟩ := readFms_in hqn q.succ A.2 B.2 B.1 a1 hB
            have hbound : ∀ f a, ReadAs E.quot B.2 f a → Fresh a ∧ Normal a.poly ∧ ∀ w ∈ a.poly.vars, w < n := by
              intro f a ha
              refine ⟨ha.fresh, ha.inCtx.1, fun w hw => ?_⟩
              obtain ⟨s, hs⟩ := ha.inCtx.2 w hw
              have := ctx_bound b1 (a3.trans b3) hs
              rw [← List.flatMap_append] at this
              have e : ((q.ante ++ q.succ).flatMap Fm.words) =
                ((q.ante ++ q.succ).flatMap fun f => f.lhs.words ++ f.rhs.words) := rfl
              rw [e] at this
              omega
            have hAm : ∀ a ∈ A.1, (a.op = .lt ∨ a.op = .gt ∨ a.op = .ne) ∧ Fresh a ∧ Normal a.poly ∧ ∀ w ∈ a.poly.vars, w < n := by
              intro a ha
              obtain ⟨f, hf, hfa⟩ := forall₂_right a4 ha
              rw [hfa.op]
              exact ⟨hante f hf, hbound f a (hfa.mono b2)⟩
            have hBm : ∀ a ∈ B.1, (a.op = .le ∨ a.op = .ge ∨ a.op = .eq) ∧ Fresh a ∧ Normal a.poly ∧ ∀ w ∈ a.poly.vars, w < n := by
              intro a ha
              obtain ⟨f, hf, hfa⟩ := forall₂_right b4 ha
              rw [hfa.op]
              exact ⟨hsucc f hf, hbound f a hfa⟩
            have hinit : s = ⟨s.hyps, ⟨s.goal.main, [], []⟩, s.ids⟩ := by
              unfold seqState at hs
              split at hs <;> cases hs
              rfl
            have hseq : StrictSequentN n s.hyps s.goal.main := by
              unfold seqState at hs
              split at hs
              · cases hs
              · next g others hrev =>
                cases hs
                have hmemB : ∀ a ∈ g :: others, a ∈ B.1 := by
                  intro a ha
                  rw [← hrev] at ha
                  exact List.mem_reverse.1 ha
                have hall : ∀ a ∈ A.1 ++ others.map Atom.negate,
                    (a.op = .lt ∨ a.op = .gt ∨ a.op = .ne) ∧ Fresh a ∧ Normal a.poly ∧ ∀ w ∈ a.poly.vars, w < n := by
                  intro a ha
                  rcases List.mem_append.1 ha with ha | ha
                  · exact hAm a ha
                  · obtain ⟨c, hc, rfl⟩ := List.mem_map.1 ha
                    obtain ⟨h1, h2⟩ := hBm c (hmemB c (by simp [hc]))
                    refine ⟨?_, h2⟩
                    show c.op.negate = .lt ∨ c.op.negate = .gt ∨ c.op.negate = .ne
                    rcases h1 with h1 | h1 | h1 <;> rw [h1] <;> simp [Op.negate]
                obtain ⟨g1, g2⟩ := hBm g (hmemB g (by simp))
                refine ⟨g1, fun a ha => (hall a ha).1, fun a ha => ?_, fun a ha => ?_⟩
                · rcases List.mem_cons.1 ha with rfl | ha
                  · exact g2.1
                  · exact (hall a ha).2.1
                · rcases List.mem_cons.1 ha with rfl | ha
                  · exact g2.2
                  · exact (hall a ha).2.2
            exact text_of_atoms hq init_ok hA hB (iCheck_real S R hE hu hel n extra more solve hs hseq hextra
              (hlev A B s.hyps s.goal.main s.ids hA hB (by rw [← hinit]; exact hs)) hr)

end Verif.Grf
