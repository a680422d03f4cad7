import Verif.Grf.Smt2
import Verif.Grf.PropsLoop
import Mathlib.Data.Finset.Card

/-!
# C42, C43, C44, C53, C54, C55: the input files of geometric relevance filtering
-/

set_option linter.unusedSectionVars false

namespace Verif.Grf

/-! ### C42 -/

/-- Distinct generators below the number of generators, in the order of the requests. -/
def CtxOK (c : Ctx) : Prop :=
  c.varMap.length ≤ c.gens ∧ c.varMap.map Prod.snd = (List.range c.varMap.length).reverse ∧
    (c.varMap.map Prod.fst).Nodup

theorem lookup_none {l : List (String × ℕ)} {s : String} (h : l.lookup s = none) : s ∉ l.map Prod.fst := by
  intro hs
  obtain ⟨⟨a, b⟩, hab, rfl⟩ := List.mem_map.1 hs
  have := List.lookup_eq_none_iff.1 h (a, b) hab
  simp at this

theorem mem_of_lookup {l : List (String × ℕ)} {s : String} {i : ℕ} (h : l.lookup s = some i) : (s, i) ∈ l := by
  induction l with
  | nil => simp at h
  | cons e l ih =>
    obtain ⟨t, j⟩ := e
    rw [List.lookup_cons] at h
    split at h
    · next hs => cases h; rw [eq_of_beq hs]; simp
    · simp [ih h]

theorem lookup_of_mem {l : List (String × ℕ)} (hl : (l.map Prod.fst).Nodup) {s : String} {i : ℕ} (h : (s, i) ∈ l) :
    l.lookup s = some i := by
  induction l with
  | nil => simp at h
  | cons e l ih =>
    obtain ⟨t, j⟩ := e
    rw [List.map_cons, List.nodup_cons] at hl
    rw [List.lookup_cons]
    rcases List.mem_cons.1 h with h' | h2
    · cases h'; simp
    · have : s ≠ t := by
        rintro rfl
        exact hl.1 (List.mem_map.2 ⟨_, h2, rfl⟩)
      have hb : (s == t) = false := by simpa using this
      rw [hb]
      exact ih hl.2 h2

theorem getVar_ok {c : Ctx} (hc : CtxOK c) (s : String) :
    CtxOK (c.getVar s).2 ∧ (c.getVar s).2.varMap.lookup s = some (c.getVar s).1 ∧
      c.gens ≤ (c.getVar s).2.gens ∧
      ∀ t i, c.varMap.lookup t = some i → (c.getVar s).2.varMap.lookup t = some i := by
  obtain ⟨h1, h2, h3⟩ := hc
  unfold Ctx.getVar
  split
  · next i hi => exact ⟨⟨h1, h2, h3⟩, hi, le_refl _, fun t i h => h⟩
  · next hn =>
    have keep : ∀ (j : ℕ) (t : String) (i : ℕ), c.varMap.lookup t = some i →
        List.lookup t ((s, j) :: c.varMap) = some i := by
      intro j t i h
      have hts : t ≠ s := by rintro rfl; rw [hn] at h; cases h
      have hb : (t == s) = false := by simpa using hts
      rw [List.lookup_cons, hb]
      exact h
    split
    · next hlt =>
      refine ⟨⟨by show _ + 1 ≤ c.gens; omega, ?_, ?_⟩, ?_, le_refl _, keep _⟩
      · show c.varMap.length :: c.varMap.map Prod.snd = (List.range (c.varMap.length + 1)).reverse
        rw [List.range_succ, List.reverse_append, h2]
        rfl
      · show (s :: c.varMap.map Prod.fst).Nodup
        exact List.nodup_cons.2 ⟨lookup_none hn, h3⟩
      · show List.lookup s ((s, _) :: _) = _
        simp
    · next hge =>
      have he : c.gens = c.varMap.length := by omega
      refine ⟨⟨by show _ + 1 ≤ _ + 1; omega, ?_, ?_⟩, ?_, by show c.gens ≤ c.gens + 1; omega, keep _⟩
      · show c.gens :: c.varMap.map Prod.snd = (List.range (c.varMap.length + 1)).reverse
        rw [List.range_succ, List.reverse_append, h2, he]
        rfl
      · show (s :: c.varMap.map Prod.fst).Nodup
        exact List.nodup_cons.2 ⟨lookup_none hn, h3⟩
      · show List.lookup s ((s, _) :: _) = _
        simp

theorem init_ok : CtxOK Ctx.init := by simp [CtxOK, Ctx.init]

theorem ctx_inj {c : Ctx} (hc : CtxOK c) {s t : String} {i : ℕ} (hs : c.varMap.lookup s = some i)
    (ht : c.varMap.lookup t = some i) : s = t := by
  obtain ⟨_, h2, _⟩ := hc
  have hnd : (c.varMap.map Prod.snd).Nodup := by rw [h2]; exact List.nodup_reverse.2 List.nodup_range
  have := List.inj_on_of_nodup_map hnd (mem_of_lookup hs) (mem_of_lookup ht) rfl
  exact congrArg Prod.fst this

theorem ctx_lt {c : Ctx} (hc : CtxOK c) {s : String} {i : ℕ} (hs : c.varMap.lookup s = some i) : i < c.gens := by
  obtain ⟨h1, h2, _⟩ := hc
  have : i ∈ c.varMap.map Prod.snd := List.mem_map.2 ⟨_, mem_of_lookup hs, rfl⟩
  rw [h2] at this
  have := List.mem_range.1 (List.mem_reverse.1 this)
  omega

theorem getVars_ok : ∀ (ss : List String) (c : Ctx), CtxOK c →
    CtxOK (c.getVars ss).2 ∧ (c.getVars ss).1 = ss.map (fun s => ((c.getVars ss).2.varMap.lookup s).getD 0) ∧
      (∀ s ∈ ss, ((c.getVars ss).2.varMap.lookup s).isSome) ∧
      ∀ t i, c.varMap.lookup t = some i → (c.getVars ss).2.varMap.lookup t = some i
  | [], c, hc => ⟨hc, rfl, by simp, fun _ _ h => h⟩
  | s :: ss, c, hc => by
    obtain ⟨h1, h2, _, h4⟩ := getVar_ok hc s
    obtain ⟨k1, k2, k3, k4⟩ := getVars_ok ss (c.getVar s).2 h1
    have hs : (((c.getVar s).2.getVars ss).2.varMap.lookup s) = some (c.getVar s).1 := k4 s _ h2
    refine ⟨k1, ?_, ?_, fun t i h => k4 t i (h4 t i h)⟩
    · show (c.getVar s).1 :: ((c.getVar s).2.getVars ss).1 =
        (((c.getVar s).2.getVars ss).2.varMap.lookup s).getD 0 :: ss.map _
      rw [hs, k2]
      rfl
    · intro t ht
      show (((c.getVar s).2.getVars ss).2.varMap.lookup t).isSome
      rcases List.mem_cons.1 ht with rfl | ht
      · rw [hs]; rfl
      · exact k3 t ht

/-- **C42**: in every history of requests for variables to a new context, the generators returned for two requests are
equal exactly when the names are equal, and all of them are generators of the ring at the end of the history. -/
theorem C42_names (ss : List String) :
    (Ctx.init.getVars ss).1.length = ss.length ∧
    (∀ i ∈ (Ctx.init.getVars ss).1, i < (Ctx.init.getVars ss).2.gens) ∧
    ∀ (a b : ℕ) (s t : String) (i j : ℕ), ss[a]? = some s → ss[b]? = some t →
      (Ctx.init.getVars ss).1[a]? = some i → (Ctx.init.getVars ss).1[b]? = some j → (s = t ↔ i = j) := by
  obtain ⟨h1, h2, h3, _⟩ := getVars_ok ss Ctx.init init_ok
  have look : ∀ s ∈ ss, ∀ i, i = (((Ctx.init.getVars ss).2.varMap.lookup s).getD 0) →
      (Ctx.init.getVars ss).2.varMap.lookup s = some i := by
    intro s hs i hi
    obtain ⟨k, hk⟩ := Option.isSome_iff_exists.1 (h3 s hs)
    rw [hi, hk]; rfl
  refine ⟨?_, ?_, ?_⟩
  · have := congrArg List.length h2
    simpa using this
  · intro i hi
    rw [h2] at hi
    obtain ⟨s, hs, he⟩ := List.mem_map.1 hi
    exact ctx_lt h1 (look s hs i he.symm)
  · intro a b s t i j ha hb hi hj
    rw [h2, List.getElem?_map, ha] at hi
    rw [h2, List.getElem?_map, hb] at hj
    simp only [Option.map_some, Option.some.injEq] at hi hj
    have hs := look s (List.mem_of_getElem? ha) i hi.symm
    have ht := look t (List.mem_of_getElem? hb) j hj.symm
    constructor
    · rintro rfl; rw [hs] at ht; exact Option.some.inj ht
    · rintro rfl; exact ctx_inj h1 hs ht

theorem getVar_names (c : Ctx) (hc : CtxOK c) (hg : c.gens = max 1 c.varMap.length) (s : String) :
    (c.getVar s).2.gens = max 1 (c.getVar s).2.varMap.length ∧
    ((c.getVar s).2.varMap.map Prod.fst).toFinset = insert s (c.varMap.map Prod.fst).toFinset ∧
    (s ∉ c.varMap.map Prod.fst → (c.getVar s).1 = c.varMap.length) := by
  unfold Ctx.getVar
  split
  · next i hi =>
    have hm : s ∈ c.varMap.map Prod.fst := List.mem_map.2 ⟨_, mem_of_lookup hi, rfl⟩
    exact ⟨hg, (Finset.insert_eq_self.2 (List.mem_toFinset.2 hm)).symm, fun h => absurd hm h⟩
  · have := hc.1
    split
    · refine ⟨?_, by simp, fun _ => rfl⟩
      show c.gens = max 1 (c.varMap.length + 1)
      omega
    · refine ⟨?_, by simp, fun _ => ?_⟩
      · show c.gens + 1 = max 1 (c.varMap.length + 1)
        omega
      · show c.gens = c.varMap.length
        omega

theorem getVars_names : ∀ (ss : List String) (c : Ctx), CtxOK c → c.gens = max 1 c.varMap.length →
    (c.getVars ss).2.gens = max 1 (c.getVars ss).2.varMap.length ∧
    ((c.getVars ss).2.varMap.map Prod.fst).toFinset = (c.varMap.map Prod.fst).toFinset ∪ ss.toFinset
  | [], c, _, hg => ⟨hg, by simp [Ctx.getVars]⟩
  | s :: ss, c, hc, hg => by
    obtain ⟨h1, h2, _⟩ := getVar_names c hc hg s
    obtain ⟨k1, k2⟩ := getVars_names ss (c.getVar s).2 (getVar_ok hc s).1 h1
    refine ⟨k1, ?_⟩
    show (((c.getVar s).2.getVars ss).2.varMap.map Prod.fst).toFinset = _
    rw [k2, h2, List.toFinset_cons, Finset.insert_union, Finset.union_insert]

theorem getVars_append : ∀ (ss ts : List String) (c : Ctx),
    (c.getVars (ss ++ ts)).1 = (c.getVars ss).1 ++ ((c.getVars ss).2.getVars ts).1
  | [], _, _ => rfl
  | s :: ss, ts, c => by
    show (c.getVar s).1 :: ((c.getVar s).2.getVars (ss ++ ts)).1 = _
    rw [getVars_append ss ts]
    rfl

/-- **C42** (the ring): at the end of every history the ring has as many generators as there are different names, at
least one; and a name that is requested for the first time gets the generator whose number is the number of different
names before it. -/
theorem C42_ring (ss : List String) :
    (Ctx.init.getVars ss).2.gens = max 1 ss.toFinset.card ∧
    ∀ (pre post : List String) (s : String), ss = pre ++ s :: post → s ∉ pre →
      (Ctx.init.getVars ss).1[pre.length]? = some pre.toFinset.card := by
  have card : ∀ ss, (Ctx.init.getVars ss).2.varMap.length = ss.toFinset.card := by
    intro ss
    obtain ⟨_, h2⟩ := getVars_names ss Ctx.init init_ok rfl
    have h3 := (getVars_ok ss Ctx.init init_ok).1.2.2
    have h4 := List.toFinset_card_of_nodup h3
    rw [h2] at h4
    simpa [Ctx.init] using h4.symm
  refine ⟨by rw [← card]; exact (getVars_names ss Ctx.init init_ok rfl).1, ?_⟩
  rintro pre post s rfl hs
  obtain ⟨h1, h2⟩ := getVars_names pre Ctx.init init_ok rfl
  have hlen := (C42_names pre).1
  rw [getVars_append, List.getElem?_append_right (by omega), hlen, Nat.sub_self]
  have h3 := (getVar_names _ (getVars_ok pre Ctx.init init_ok).1 h1 s).2.2
  show some ((Ctx.init.getVars pre).2.getVar s).1 = _
  rw [h3, card]
  rw [← List.mem_toFinset, h2]
  simpa [Ctx.init] using hs

example : Ctx.init.getVars ["a", "b", "a", "c"] = ([0, 1, 0, 2], ⟨3, [("c", 2), ("b", 1), ("a", 0)]⟩) := by
  decide

variable {K : Type} [Field K] [LinearOrder K] [IsStrictOrderedRing K]

/-! ### C44 -/

/-- The meaning of a sequent: some formula of the succedent follows from the antecedent. -/
def SeqHolds (ante succ : List Atom) (ρ : ℕ → K) : Prop :=
  (∀ a ∈ ante, a.holds ρ) → ∃ s ∈ succ, s.holds ρ

theorem negate_holds (a : Atom) (ρ : ℕ → K) : a.negate.holds ρ ↔ ¬ a.holds ρ :=
  (C31_atoms (K := K) testSage).2.2.1 a ρ

/-- **C44**: the problem given to the decision loop holds at a point exactly when the sequent holds there (so that one is
valid if and only if the other is); for sequents with an empty succedent, and only for them, an exception is
raised. -/
theorem C44_reduction (ante succ : List Atom) :
    (succ = [] → seqState ante succ = .error .indexError) ∧
    (succ ≠ [] → ∃ st, seqState ante succ = .ok st ∧ st.goal.hyps = [] ∧ st.goal.gb = [] ∧
      ∀ ρ : ℕ → K, ((∀ h ∈ st.hyps, h.holds ρ) → st.goal.main.holds ρ) ↔ SeqHolds ante succ ρ) := by
  constructor
  · rintro rfl; rfl
  · intro hne
    obtain ⟨g, rest, hr⟩ : ∃ g rest, succ.reverse = g :: rest := by
      cases h : succ.reverse with
      | nil => exact absurd (List.reverse_eq_nil_iff.1 h) hne
      | cons g rest => exact ⟨g, rest, rfl⟩
    have hmem : ∀ s, s ∈ succ ↔ s = g ∨ s ∈ rest := by
      intro s
      rw [← List.mem_reverse, hr, List.mem_cons]
    refine ⟨⟨ante ++ rest.map Atom.negate, ⟨g, [], []⟩, _⟩, by unfold seqState; rw [hr], rfl, rfl, ?_⟩
    intro ρ
    show ((∀ h ∈ ante ++ rest.map Atom.negate, h.holds ρ) → g.holds ρ) ↔ _
    constructor
    · intro h ha
      by_contra hcon
      push Not at hcon
      apply hcon g ((hmem g).2 (Or.inl rfl))
      apply h
      intro x hx
      rcases List.mem_append.1 hx with hx | hx
      · exact ha x hx
      · obtain ⟨y, hy, rfl⟩ := List.mem_map.1 hx
        exact (negate_holds y ρ).2 (hcon y ((hmem y).2 (Or.inr hy)))
    · intro h hh
      obtain ⟨s, hs, hsρ⟩ := h fun a ha => hh a (by simp [ha])
      rcases (hmem s).1 hs with rfl | hs
      · exact hsρ
      · exact absurd hsρ ((negate_holds s ρ).1 (hh _ (List.mem_append.2 (Or.inr (List.mem_map.2 ⟨s, hs, rfl⟩)))))

example : ((seqState [⟨MPoly.var 0, .gt, [0]⟩] [⟨MPoly.var 1, .lt, [1]⟩, ⟨MPoly.var 0, .ge, [0]⟩]).toOption.map
    fun st => (st.hyps, st.goal.main)) =
    some ([⟨MPoly.var 0, .gt, [0]⟩, ⟨MPoly.var 1, .ge, [1]⟩], ⟨MPoly.var 0, .ge, [0]⟩) := by decide +kernel

/-! ### C43 -/

/-- The identities recorded in a state are those of its hypotheses. -/
def IdsOK (orig : List Atom) (st : State) : Prop :=
  st.ids.Nodup ∧ st.hyps.map some = st.ids.map fun i => orig[i]?

theorem ids_promote {S : Sage K} {orig : List Atom} {st st' : State} {i : ℕ} (h : IdsOK orig st)
    (hp : st.promote S i = .ok st') : IdsOK orig st' ∧ st'.ids.Sublist st.ids := by
  obtain ⟨a, g, ha, _, rfl⟩ := promote_ok hp
  obtain ⟨h1, h2⟩ := h
  have hsub : (st.ids.take i ++ st.ids.drop (i + 1)).Sublist st.ids := by
    rw [← List.eraseIdx_eq_take_drop_succ]
    exact List.eraseIdx_sublist ..
  refine ⟨⟨h1.sublist hsub, ?_⟩, hsub⟩
  show (st.hyps.take i ++ st.hyps.drop (i + 1)).map some = (st.ids.take i ++ st.ids.drop (i + 1)).map _
  rw [List.map_append, List.map_append, List.map_take, List.map_take, List.map_drop, List.map_drop, h2]

theorem ids_rounds {C : Core K} {orig : List Atom} {n k : ℕ} {st st' : State} (h : Rounds C n st k st')
    (ho : IdsOK orig st) : IdsOK orig st' ∧ st'.ids.Sublist st.ids := by
  induction h with
  | refl n st => exact ⟨ho, List.Sublist.refl _⟩
  | step n k st st₁ st' bads h hs ih =>
    obtain ⟨i, hi⟩ := round_some h
    obtain ⟨h1, h2⟩ := ids_promote ho hi
    obtain ⟨h3, h4⟩ := ih h1
    exact ⟨h3, h4.trans h2⟩

theorem idsOK_init (l : List Atom) (g : Goal) : IdsOK l ⟨l, g, List.range l.length⟩ := by
  refine ⟨List.nodup_range, ?_⟩
  apply List.ext_getElem?
  intro i
  rw [List.getElem?_map, List.getElem?_map]
  by_cases hi : i < l.length
  · rw [List.getElem?_range hi, List.getElem?_eq_getElem hi]
    show some (some l[i]) = some l[i]?
    rw [List.getElem?_eq_getElem hi]
  · rw [List.getElem?_eq_none (by show l.length ≤ i; omega), List.getElem?_eq_none (by simpa using hi)]; rfl

/-- The core of the examples: the points `x0 = -2, x1 = 1` and `x0 = 1, x1 = 1`. -/
def seqCore : Core ℚ := testCore [[(0, -2), (1, 1)], [(0, 1), (1, 1)]] []

/-- **C43** is violated: for the sequent `x0 > 0 ⊢ x1 < 0, x0 + 1 > 0` the reported formulas of the antecedent
are those with number 1, and there is only one (with number 0). -/
theorem C43_violated : ∃ (C : Core ℚ) (ante succ : List Atom) (i : ℕ) (as ss : List ℕ),
    performGrf C ante succ = .ok (as, ss) ∧ i ∈ as ∧ ante.length ≤ i := by
  refine ⟨seqCore, [⟨MPoly.var 0, .gt, [0]⟩],
    [⟨MPoly.var 1, .lt, [1]⟩, ⟨(MPoly.var 0).add (MPoly.const 1), .gt, [0]⟩], 1, [1], [0], ?_, by simp, by simp⟩
  have h : (performGrf seqCore [⟨MPoly.var 0, .gt, [0]⟩]
    [⟨MPoly.var 1, .lt, [1]⟩, ⟨(MPoly.var 0).add (MPoly.const 1), .gt, [0]⟩]).toOption = some ([1], [0]) := by
    decide +kernel
  revert h
  cases performGrf seqCore [⟨MPoly.var 0, .gt, [0]⟩]
    [⟨MPoly.var 1, .lt, [1]⟩, ⟨(MPoly.var 0).add (MPoly.const 1), .gt, [0]⟩] with
  | error e => intro h; cases h
  | ok r => intro h; cases h; rfl

theorem performGrf_ok {C : Core K} {ante succ : List Atom} {as ss : List ℕ}
    (h : performGrf C ante succ = .ok (as, ss)) :
    ∃ g rest ret st', succ.reverse = g :: rest ∧
      check C ((ante ++ rest.map Atom.negate).length + 1) 0
        ⟨ante ++ rest.map Atom.negate, ⟨g, [], []⟩, List.range (ante ++ rest.map Atom.negate).length⟩ = .ok (ret, st') ∧
      as = hideAnte (ante ++ rest.map Atom.negate).length st'.ids ∧
      ss = hideSucc ante.length succ.length st'.ids := by
  unfold performGrf at h
  simp only [bind, Except.bind] at h
  split at h
  · cases h
  · next st hst =>
    unfold seqState at hst
    split at hst
    · cases hst
    · next g rest hr =>
      cases hst
      split at h
      · cases h
      · next r hr' =>
        obtain ⟨ret, st'⟩ := r
        cases h
        exact ⟨g, rest, ret, st', hr, hr', rfl, rfl⟩

/-- What holds instead of **C43**: the numbers reported for the succedent are positions in it and the last formula is not
among them; for sequents with one succedent the numbers reported for the antecedent are positions in it. For
more succedents the numbers from the length of the antecedent on are those of the negated formulas of the
succedent, in reverse order. Both lists are strictly increasing. -/
theorem C43_partial (C : Core K) (ante succ : List Atom) (as ss : List ℕ)
    (h : performGrf C ante succ = .ok (as, ss)) :
    (∀ j ∈ ss, j + 1 < succ.length) ∧ (succ.length = 1 → ∀ i ∈ as, i < ante.length) ∧
    (∀ i ∈ as, ante.length ≤ i → succ.length - 2 - (i - ante.length) ∈ ss ∧ i - ante.length + 1 < succ.length) ∧
    as.Pairwise (· < ·) ∧ ss.Pairwise (· < ·) := by
  obtain ⟨g, rest, ret, st', hr, hc, rfl, rfl⟩ := performGrf_ok h
  have hlen : succ.length = rest.length + 1 := by
    have := congrArg List.length hr
    simpa using this
  refine ⟨?_, ?_, ?_, List.pairwise_lt_range.filter _, List.pairwise_lt_range.filter _⟩
  · intro j hj
    have := (List.mem_filter.1 hj).2
    simp only [Bool.and_eq_true, decide_eq_true_eq] at this
    exact this.1
  · intro h1 i hi
    have h0 : rest = [] := by
      cases rest with
      | nil => rfl
      | cons _ _ => simp only [List.length_cons] at hlen; omega
    subst h0
    have := (List.mem_filter.1 hi).1
    simpa using List.mem_range.1 this
  · intro i hi hge
    obtain ⟨h1, h2⟩ := List.mem_filter.1 hi
    have h1 := List.mem_range.1 h1
    simp only [List.length_append, List.length_map] at h1
    simp only [decide_eq_true_eq] at h2
    refine ⟨List.mem_filter.2 ⟨List.mem_range.2 (by omega), ?_⟩, by omega⟩
    simp only [Bool.and_eq_true, decide_eq_true_eq]
    refine ⟨by omega, ?_⟩
    have he : ante.length + (succ.length - 2 - (succ.length - 2 - (i - ante.length))) = i := by omega
    rw [he]
    exact h2

example : (performGrf seqCore [⟨MPoly.var 1, .gt, [1]⟩, ⟨MPoly.var 0, .gt, [0]⟩]
    [⟨(MPoly.var 0).add (MPoly.const 1), .gt, [0]⟩]).toOption = some ([0], []) := by decide +kernel

/-! ### C53 -/

/-- The formulas at the positions that are not in the list. -/
def Kept (l : List Atom) (hide : List ℕ) (a : Atom) : Prop := ∃ i, i ∉ hide ∧ l[i]? = some a

/-- Like the decision core of C34: a goal that is true at the sample points of the last round is valid. -/
def CoreSound (C : Core K) : Prop := ∀ n st ds, C.samples n st = .ok ds →
  (∀ d ∈ ds, st.goal.evalOnDict C.toSage d = .ok true) →
  ∀ ρ : ℕ → K, (∀ a ∈ st.goal.hyps, a.holds ρ) → st.goal.main.holds ρ

theorem perm_ids {orig ps hs : List Atom} {ids : List ℕ} (hp : (ps ++ hs).Perm orig) (hn : ids.Nodup)
    (hr : ∀ i ∈ ids, i < orig.length) (hi : hs.map some = ids.map fun i => orig[i]?) :
    ∀ a ∈ ps, ∃ i, i ∉ ids ∧ orig[i]? = some a := by
  have h1 : (List.range orig.length).map (fun i => orig[i]?) = orig.map some := by
    apply List.ext_getElem?
    intro i
    rw [List.getElem?_map, List.getElem?_map]
    by_cases h : i < orig.length
    · rw [List.getElem?_range h, List.getElem?_eq_getElem h]
      show some orig[i]? = some (some orig[i])
      rw [List.getElem?_eq_getElem h]
    · rw [List.getElem?_eq_none (by simpa using h), List.getElem?_eq_none (by omega)]; rfl
  have h2 : (ids ++ (List.range orig.length).filter fun i => i ∉ ids).Perm (List.range orig.length) := by
    rw [List.perm_ext_iff_of_nodup]
    · intro i
      simp only [List.mem_append, List.mem_filter, List.mem_range, decide_eq_true_eq]
      constructor
      · rintro (h | h)
        · exact hr i h
        · exact h.1
      · intro h
        by_cases hi : i ∈ ids
        · exact Or.inl hi
        · exact Or.inr ⟨h, hi⟩
    · refine List.nodup_append.2 ⟨hn, List.nodup_range.filter _, ?_⟩
      rintro a ha b hb rfl
      have := (List.mem_filter.1 hb).2
      simp [ha] at this
    · exact List.nodup_range
  have h3 := (h2.map fun i => orig[i]?)
  rw [h1, List.map_append, ← hi] at h3
  have h4 : (ps.map some ++ hs.map some).Perm (hs.map some ++
      ((List.range orig.length).filter fun i => i ∉ ids).map fun i => orig[i]?) := by
    rw [← List.map_append]
    exact (hp.map some).trans h3.symm
  have h5 := (List.perm_append_left_iff _).1 (List.perm_append_comm.trans h4)
  intro a ha
  have : some a ∈ ((List.range orig.length).filter fun i => i ∉ ids).map fun i => orig[i]? :=
    h5.subset (List.mem_map.2 ⟨a, ha, rfl⟩)
  obtain ⟨i, hi, he⟩ := List.mem_map.1 this
  have := (List.mem_filter.1 hi).2
  exact ⟨i, by simpa using this, he⟩

/-- The formulas that remain when those with the identities of the hypotheses that are left are hidden. -/
theorem hiding_of_promoted_at {ante succ rest ps : List Atom} {g : Atom} {st' : State} (hr : succ.reverse = g :: rest)
    (hids : IdsOK (ante ++ rest.map Atom.negate) st')
    (hsub : st'.ids.Sublist (List.range (ante ++ rest.map Atom.negate).length))
    (hperm : (ps ++ st'.hyps).Perm (ante ++ rest.map Atom.negate)) (ρ : ℕ → K)
    (hps : (∀ a ∈ ps, a.holds ρ) → g.holds ρ) :
    (∀ a, Kept ante (hideAnte (ante ++ rest.map Atom.negate).length st'.ids) a → a.holds ρ) →
      ∃ s, Kept succ (hideSucc ante.length succ.length st'.ids) s ∧ s.holds ρ := by
  have hlen : succ.length = rest.length + 1 := by
    have := congrArg List.length hr
    simpa using this
  have hsucc : succ = rest.reverse ++ [g] := by
    have := congrArg List.reverse hr
    simpa using this
  have hprom := perm_ids hperm hids.1 (fun i hi => by simpa using List.mem_range.1 (hsub.subset hi)) hids.2
  intro hante
  by_contra hcon
  push Not at hcon
  have hg : Kept succ (hideSucc ante.length succ.length st'.ids) g := by
    refine ⟨rest.length, ?_, ?_⟩
    · intro hm
      have := (List.mem_filter.1 hm).2
      simp only [Bool.and_eq_true, decide_eq_true_eq] at this
      omega
    · rw [hsucc, List.getElem?_append_right (by simp)]; simp
  apply hcon g hg
  apply hps
  intro a ha
  obtain ⟨i, hi, hia⟩ := hprom a ha
  by_cases hlt : i < ante.length
  · rw [List.getElem?_append_left hlt] at hia
    refine hante a ⟨i, ?_, hia⟩
    intro hm
    have := (List.mem_filter.1 hm).2
    exact hi (by simpa using this)
  · rw [List.getElem?_append_right (by omega), List.getElem?_map] at hia
    cases hb : rest[i - ante.length]? with
    | none => rw [hb] at hia; cases hia
    | some b =>
      rw [hb] at hia
      cases hia
      apply (negate_holds b ρ).2
      obtain ⟨hbl, _⟩ := List.getElem?_eq_some_iff.1 hb
      refine hcon b ⟨rest.length - 1 - (i - ante.length), ?_, ?_⟩
      · intro hm
        have := (List.mem_filter.1 hm).2
        simp only [Bool.and_eq_true, decide_eq_true_eq] at this
        apply hi
        have he : ante.length + (succ.length - 2 - (rest.length - 1 - (i - ante.length))) = i := by omega
        rw [he] at this
        exact this.2
      · rw [hsucc, List.getElem?_append_left (by rw [List.length_reverse]; omega),
          List.getElem?_reverse (by omega)]
        have he : rest.length - 1 - (rest.length - 1 - (i - ante.length)) = i - ante.length := by omega
        rw [he, hb]

theorem hiding_of_promoted {ante succ rest ps : List Atom} {g : Atom} {st' : State} (hr : succ.reverse = g :: rest)
    (hids : IdsOK (ante ++ rest.map Atom.negate) st')
    (hsub : st'.ids.Sublist (List.range (ante ++ rest.map Atom.negate).length))
    (hperm : (ps ++ st'.hyps).Perm (ante ++ rest.map Atom.negate))
    (hps : ∀ ρ : ℕ → K, (∀ a ∈ ps, a.holds ρ) → g.holds ρ) :
    ∀ ρ : ℕ → K, (∀ a, Kept ante (hideAnte (ante ++ rest.map Atom.negate).length st'.ids) a → a.holds ρ) →
      ∃ s, Kept succ (hideSucc ante.length succ.length st'.ids) s ∧ s.holds ρ :=
  fun ρ => hiding_of_promoted_at hr hids hsub hperm ρ (hps ρ)

/-- **C53**: hiding is sound. If `perform_grf` returns, then the sequent that is left when exactly the reported
formulas are removed is valid, and so is the given sequent. -/
theorem C53_hiding (C : Core K) (hS : SageOK C.toSage) (hC : CoreSound C) (ante succ : List Atom) (as ss : List ℕ)
    (h : performGrf C ante succ = .ok (as, ss)) :
    (∀ ρ : ℕ → K, (∀ a, Kept ante as a → a.holds ρ) → ∃ s, Kept succ ss s ∧ s.holds ρ) ∧
    ∀ ρ : ℕ → K, SeqHolds ante succ ρ := by
  obtain ⟨g, rest, ret, st', hr, hc, rfl, rfl⟩ := performGrf_ok h
  obtain ⟨k, ret', hrounds, hlast⟩ := check_rounds C _ 0 _ st' ret hc
  obtain ⟨hids, hsub⟩ := ids_rounds hrounds (idsOK_init (ante ++ rest.map Atom.negate) _)
  -- the promoted hypotheses imply the goal
  obtain ⟨ps, hperm, hps, _⟩ := C34_sound C hS _ g _ ret st' _ hc fun n ds h1 h2 => hC n st' ds h1 h2
  have main := hiding_of_promoted hr hids hsub hperm hps
  refine ⟨main, fun ρ ha => ?_⟩
  obtain ⟨s, ⟨i, _, hi⟩, hs⟩ := main ρ fun a ⟨i, _, hi⟩ => ha a (List.mem_of_getElem? hi)
  exact ⟨s, List.mem_of_getElem? hi, hs⟩

/-- A sound core for goals like `x0 + 1 > 0`: no sample point when `x0 > 0` is among the hypotheses of the goal,
a point that falsifies the goal when the given one does, and otherwise an exception. -/
def soundCore : Core ℚ :=
  { testCore [] [] with
    samples := fun _ st =>
      if (⟨MPoly.var 0, .gt, [0]⟩ : Atom) ∈ st.goal.hyps ∧
          st.goal.main = ⟨(MPoly.var 0).add (MPoly.const 1), .gt, [0]⟩ then .ok []
      else if (st.goal.evalOnDict (testSage (K := ℚ)) [(0, -2), (1, 1)]).toOption = some false then
        .ok [[(0, -2), (1, 1)]]
      else .error .assertion }

theorem soundCore_ok : SageOK soundCore.toSage ∧ CoreSound soundCore := by
  refine ⟨testSage_ok, ?_⟩
  intro n st ds h ht ρ hh
  change (if (⟨MPoly.var 0, .gt, [0]⟩ : Atom) ∈ st.goal.hyps ∧
          st.goal.main = ⟨(MPoly.var 0).add (MPoly.const 1), .gt, [0]⟩ then .ok []
      else if (st.goal.evalOnDict (testSage (K := ℚ)) [(0, -2), (1, 1)]).toOption = some false then
        .ok [[(0, -2), (1, 1)]]
      else .error .assertion : Except GErr (List (Dict ℚ))) = .ok ds at h
  split at h
  · next hg =>
    rw [hg.2]
    have h1 : MPoly.eval ρ (MPoly.var 0) > 0 := hh _ hg.1
    show MPoly.eval ρ ((MPoly.var 0).add (MPoly.const 1)) > 0
    rw [MPoly.eval_var] at h1
    rw [MPoly.eval_add, MPoly.eval_var, MPoly.eval_const]
    push_cast
    linarith
  · split at h
    · next hf =>
      cases h
      have := ht _ (List.mem_singleton_self _)
      have h2 : st.goal.evalOnDict (testSage (K := ℚ)) [(0, -2), (1, 1)] = .ok true := this
      rw [h2] at hf
      cases hf
    · cases h

/-- The hypotheses of C53 are met by a run that hides a formula on each side. -/
example : SageOK soundCore.toSage ∧ CoreSound soundCore ∧
    (performGrf soundCore [⟨MPoly.var 1, .gt, [1]⟩, ⟨MPoly.var 0, .gt, [0]⟩]
      [⟨MPoly.var 1, .lt, [1]⟩, ⟨(MPoly.var 0).add (MPoly.const 1), .gt, [0]⟩]).toOption =
      some ([0, 2], [0]) :=
  ⟨soundCore_ok.1, soundCore_ok.2, by decide +kernel⟩

/-! ### C54 -/

/-- The value of a term of the text when the words stand for the values `σ`. -/
def Tm.value (σ : String → K) : Tm → K
  | .num q => q
  | .word s => σ s
  | .add a b => a.value σ + b.value σ
  | .mul a b => a.value σ * b.value σ
  | .sub a b => a.value σ - b.value σ
  | .neg a => - a.value σ
  | .div a b => a.value σ / b.value σ

/-- No divisor is zero. -/
def Tm.defined (σ : String → K) : Tm → Prop
  | .num _ => True
  | .word _ => True
  | .add a b => a.defined σ ∧ b.defined σ
  | .mul a b => a.defined σ ∧ b.defined σ
  | .sub a b => a.defined σ ∧ b.defined σ
  | .neg a => a.defined σ
  | .div a b => a.defined σ ∧ b.defined σ ∧ b.value σ ≠ 0

/-- The words of a term. -/
def Tm.words : Tm → List String
  | .num _ => []
  | .word s => [s]
  | .add a b => a.words ++ b.words
  | .mul a b => a.words ++ b.words
  | .sub a b => a.words ++ b.words
  | .neg a => a.words
  | .div a b => a.words ++ b.words

def Fm.defined (σ : String → K) (f : Fm) : Prop := f.lhs.defined σ ∧ f.rhs.defined σ

/-- The meaning of a formula of the text. -/
def Fm.holds (σ : String → K) (f : Fm) : Prop := rel f.op (f.lhs.value σ) (f.rhs.value σ)

/-- Exact division of polynomials. -/
def QuotOK (K : Type) [Field K] [LinearOrder K] (quot : MPoly → MPoly → Option MPoly) : Prop :=
  ∀ p d q, quot p d = some q → ∀ ρ : ℕ → K, q.eval ρ * d.eval ρ = p.eval ρ

/-- The names of a context at a point. -/
def nameVal (c : Ctx) (ρ : ℕ → K) (s : String) : K := ρ ((c.varMap.lookup s).getD 0)

/-- One context has the names of the other. -/
def CtxLe (c c' : Ctx) : Prop := ∀ t i, c.varMap.lookup t = some i → c'.varMap.lookup t = some i

theorem readTm_ok {quot : MPoly → MPoly → Option MPoly} (hq : QuotOK K quot) : ∀ (t : Tm) (c c' : Ctx) (p : MPoly),
    CtxOK c → readTm quot c t = .ok (p, c') → CtxOK c' ∧ CtxLe c c' ∧
      (∀ w ∈ t.words, (c'.varMap.lookup w).isSome) ∧
      ∀ (e : Ctx), CtxLe c' e → ∀ ρ : ℕ → K, t.defined (nameVal e ρ) → p.eval ρ = t.value (nameVal e ρ) := by
  have two : ∀ (a b : Tm), (∀ (c c' : Ctx) (p : MPoly), CtxOK c → readTm quot c a = .ok (p, c') → CtxOK c' ∧ CtxLe c c' ∧
      (∀ w ∈ a.words, (c'.varMap.lookup w).isSome) ∧
      ∀ (e : Ctx), CtxLe c' e → ∀ ρ : ℕ → K, a.defined (nameVal e ρ) → p.eval ρ = a.value (nameVal e ρ)) →
      (∀ (c c' : Ctx) (p : MPoly), CtxOK c → readTm quot c b = .ok (p, c') → CtxOK c' ∧ CtxLe c c' ∧
      (∀ w ∈ b.words, (c'.varMap.lookup w).isSome) ∧
      ∀ (e : Ctx), CtxLe c' e → ∀ ρ : ℕ → K, b.defined (nameVal e ρ) → p.eval ρ = b.value (nameVal e ρ)) →
      ∀ (c c₁ c₂ : Ctx) (p q : MPoly), CtxOK c → readTm quot c a = .ok (p, c₁) → readTm quot c₁ b = .ok (q, c₂) →
      CtxOK c₂ ∧ CtxLe c c₂ ∧ (∀ w ∈ a.words ++ b.words, (c₂.varMap.lookup w).isSome) ∧
      ∀ (e : Ctx), CtxLe c₂ e → ∀ ρ : ℕ → K, (a.defined (nameVal e ρ) → p.eval ρ = a.value (nameVal e ρ)) ∧
        (b.defined (nameVal e ρ) → q.eval ρ = b.value (nameVal e ρ)) := by
    intro a b iha ihb c c₁ c₂ p q hc ha hb
    obtain ⟨h1, h2, h3, h4⟩ := iha c c₁ p hc ha
    obtain ⟨k1, k2, k3, k4⟩ := ihb c₁ c₂ q h1 hb
    refine ⟨k1, fun t i h => k2 t i (h2 t i h), ?_, ?_⟩
    · intro w hw
      rcases List.mem_append.1 hw with hw | hw
      · obtain ⟨i, hi⟩ := Option.isSome_iff_exists.1 (h3 w hw)
        rw [k2 w i hi]; rfl
      · exact k3 w hw
    · intro e he ρ
      exact ⟨h4 e (fun t i h => he t i (k2 t i h)) ρ, k4 e he ρ⟩
  intro t
  induction t with
  | num q =>
    intro c c' p hc h
    cases h
    refine ⟨hc, fun _ _ h => h, by simp [Tm.words], fun e he ρ _ => ?_⟩
    rw [MPoly.eval_const]; rfl
  | word s =>
    intro c c' p hc h
    cases h
    obtain ⟨h1, h2, _, h4⟩ := getVar_ok hc s
    refine ⟨h1, h4, ?_, fun e he ρ _ => ?_⟩
    · intro w hw
      simp only [Tm.words, List.mem_singleton] at hw
      subst hw
      rw [h2]; rfl
    · rw [MPoly.eval_var]
      show _ = ρ ((e.varMap.lookup s).getD 0)
      rw [he s _ h2]; rfl
  | neg a iha =>
    intro c c' p hc h
    unfold readTm at h
    simp only [bind, Except.bind] at h
    split at h
    · cases h
    · next r hr =>
      cases h
      obtain ⟨h1, h2, h3, h4⟩ := iha c r.2 r.1 hc hr
      refine ⟨h1, h2, h3, fun e he ρ hd => ?_⟩
      rw [MPoly.eval_sub, MPoly.eval_const, h4 e he ρ hd]
      simp [Tm.value]
  | add a b iha ihb =>
    intro c c' p hc h
    unfold readTm at h
    simp only [bind, Except.bind] at h
    split at h
    · cases h
    · next r hr =>
      split at h
      · cases h
      · next r' hr' =>
        cases h
        obtain ⟨h1, h2, h3, h4⟩ := two a b iha ihb c r.2 r'.2 r.1 r'.1 hc hr hr'
        refine ⟨h1, h2, h3, fun e he ρ hd => ?_⟩
        rw [MPoly.eval_add, (h4 e he ρ).1 hd.1, (h4 e he ρ).2 hd.2]; rfl
  | mul a b iha ihb =>
    intro c c' p hc h
    unfold readTm at h
    simp only [bind, Except.bind] at h
    split at h
    · cases h
    · next r hr =>
      split at h
      · cases h
      · next r' hr' =>
        cases h
        obtain ⟨h1, h2, h3, h4⟩ := two a b iha ihb c r.2 r'.2 r.1 r'.1 hc hr hr'
        refine ⟨h1, h2, h3, fun e he ρ hd => ?_⟩
        rw [MPoly.eval_mul, (h4 e he ρ).1 hd.1, (h4 e he ρ).2 hd.2]; rfl
  | sub a b iha ihb =>
    intro c c' p hc h
    unfold readTm at h
    simp only [bind, Except.bind] at h
    split at h
    · cases h
    · next r hr =>
      split at h
      · cases h
      · next r' hr' =>
        cases h
        obtain ⟨h1, h2, h3, h4⟩ := two a b iha ihb c r.2 r'.2 r.1 r'.1 hc hr hr'
        refine ⟨h1, h2, h3, fun e he ρ hd => ?_⟩
        rw [MPoly.eval_sub, (h4 e he ρ).1 hd.1, (h4 e he ρ).2 hd.2]; rfl
  | div a b iha ihb =>
    intro c c' p hc h
    unfold readTm at h
    simp only [bind, Except.bind] at h
    split at h
    · cases h
    · next r hr =>
      split at h
      · cases h
      · next r' hr' =>
        split at h
        · cases h
        · next q hq' =>
          cases h
          obtain ⟨h1, h2, h3, h4⟩ := two a b iha ihb c r.2 r'.2 r.1 r'.1 hc hr hr'
          refine ⟨h1, h2, h3, fun e he ρ hd => ?_⟩
          have := hq _ _ _ hq' ρ
          rw [(h4 e he ρ).1 hd.1, (h4 e he ρ).2 hd.2.1] at this
          show _ = a.value _ / b.value _
          rw [eq_div_iff hd.2.2, this]

theorem readFm_ok {quot : MPoly → MPoly → Option MPoly} (hq : QuotOK K quot) {f : Fm} {c c' : Ctx} {a : Atom}
    (hc : CtxOK c) (h : readFm quot c f = .ok (a, c')) : CtxOK c' ∧ CtxLe c c' ∧
      ∀ (e : Ctx), CtxLe c' e → ∀ ρ : ℕ → K, f.defined (nameVal e ρ) → (a.holds ρ ↔ f.holds (nameVal e ρ)) := by
  unfold readFm at h
  simp only [bind, Except.bind] at h
  split at h
  · cases h
  · next l hl =>
    split at h
    · cases h
    · next r hr =>
      have hop : mkAtom l.1 f.op.toString r.1 = .ok ⟨l.1.sub r.1, f.op, (l.1.sub r.1).vars⟩ := by
        unfold mkAtom
        have : Op.ofString f.op.toString = some f.op := by cases f.op <;> decide
        rw [this]
      rw [hop] at h
      cases h
      obtain ⟨h1, h2, _, h4⟩ := readTm_ok hq f.lhs c l.2 l.1 hc hl
      obtain ⟨k1, k2, _, k4⟩ := readTm_ok hq f.rhs l.2 r.2 r.1 h1 hr
      refine ⟨k1, fun t i h => k2 t i (h2 t i h), fun e he ρ hd => ?_⟩
      show rel f.op (MPoly.eval ρ (l.1.sub r.1)) 0 ↔ _
      rw [MPoly.eval_sub, rel_sub, h4 e (fun t i h => he t i (k2 t i h)) ρ hd.1, k4 e he ρ hd.2]
      rfl

theorem readFms_ok {quot : MPoly → MPoly → Option MPoly} (hq : QuotOK K quot) : ∀ (fs : List Fm) (c c' : Ctx)
    (as : List Atom), CtxOK c → readFms quot c fs = .ok (as, c') → CtxOK c' ∧ CtxLe c c' ∧ as.length = fs.length ∧
      ∀ (e : Ctx), CtxLe c' e → ∀ (ρ : ℕ → K) (i : ℕ) (f : Fm) (a : Atom), fs[i]? = some f → as[i]? = some a →
        f.defined (nameVal e ρ) → (a.holds ρ ↔ f.holds (nameVal e ρ)) := by
  intro fs
  induction fs with
  | nil =>
    intro c c' as hc h
    cases h
    exact ⟨hc, fun _ _ h => h, rfl, by simp⟩
  | cons f fs ih =>
    intro c c' as hc h
    unfold readFms at h
    simp only [bind, Except.bind] at h
    split at h
    · cases h
    · next r hr =>
      split at h
      · cases h
      · next r' hr' =>
        cases h
        obtain ⟨h1, h2, h3⟩ := readFm_ok hq hc hr
        obtain ⟨k1, k2, k3, k4⟩ := ih r.2 r'.2 r'.1 h1 hr'
        refine ⟨k1, fun t i h => k2 t i (h2 t i h), by simp [k3], ?_⟩
        intro e he ρ i f' a hf ha hd
        cases i with
        | zero =>
          simp only [List.getElem?_cons_zero, Option.some.injEq] at hf ha
          subst hf ha
          exact h3 e (fun t i h => he t i (k2 t i h)) ρ hd
        | succ i => exact k4 e he ρ i f' a (by simpa using hf) (by simpa using ha) hd

/-- **C54**: if the formulas of a sequent are read without an exception, then there is an assignment of variables
of the polynomial ring to the names of the text, different for different names, such that every formula and the atom
that was made of it have the same truth value at every point at which no divisor in the formula is zero. -/
theorem C54_reading (quot : MPoly → MPoly → Option MPoly) (hq : QuotOK K quot) (fs : List Fm) (as : List Atom)
    (c' : Ctx) (h : readFms quot Ctx.init fs = .ok (as, c')) :
    as.length = fs.length ∧ ∃ idx : String → ℕ,
      (∀ s t, (∃ f ∈ fs, s ∈ f.lhs.words ++ f.rhs.words) → (∃ f ∈ fs, t ∈ f.lhs.words ++ f.rhs.words) →
        idx s = idx t → s = t) ∧
      ∀ (ρ : ℕ → K) (i : ℕ) (f : Fm) (a : Atom), fs[i]? = some f → as[i]? = some a →
        f.defined (fun s => ρ (idx s)) → (a.holds ρ ↔ f.holds fun s => ρ (idx s)) := by
  obtain ⟨h1, _, h3, h4⟩ := readFms_ok hq fs Ctx.init c' as init_ok h
  refine ⟨h3, fun s => (c'.varMap.lookup s).getD 0, ?_, fun ρ i f a => h4 c' (fun _ _ h => h) ρ i f a⟩
  have words : ∀ (fs : List Fm) (c c' : Ctx) (as : List Atom), CtxOK c → readFms quot c fs = .ok (as, c') →
      ∀ s, (∃ f ∈ fs, s ∈ f.lhs.words ++ f.rhs.words) → (c'.varMap.lookup s).isSome := by
    intro fs
    induction fs with
    | nil => intro c c' as _ _ s ⟨f, hf, _⟩; simp at hf
    | cons g fs ih =>
      intro c c' as hc h s ⟨f, hf, hs⟩
      unfold readFms at h
      simp only [bind, Except.bind] at h
      split at h
      · cases h
      · next r hr =>
        split at h
        · cases h
        · next r' hr' =>
          cases h
          obtain ⟨k1, k2, _⟩ := readFm_ok hq hc hr
          rcases List.mem_cons.1 hf with rfl | hf
          · have hle := (readFms_ok hq fs r.2 r'.2 r'.1 k1 hr').2.1
            have : (r.2.varMap.lookup s).isSome := by
              unfold readFm at hr
              simp only [bind, Except.bind] at hr
              split at hr
              · cases hr
              · next l hl =>
                split at hr
                · cases hr
                · next m hm =>
                  split at hr
                  · cases hr
                  · cases hr
                    obtain ⟨a1, _, a3, _⟩ := readTm_ok hq f.lhs c l.2 l.1 hc hl
                    obtain ⟨_, b2, b3, _⟩ := readTm_ok hq f.rhs l.2 m.2 m.1 a1 hm
                    rcases List.mem_append.1 hs with hs | hs
                    · obtain ⟨i, hi⟩ := Option.isSome_iff_exists.1 (a3 s hs)
                      show (m.2.varMap.lookup s).isSome
                      rw [b2 s i hi]; rfl
                    · exact b3 s hs
            obtain ⟨i, hi⟩ := Option.isSome_iff_exists.1 this
            rw [hle s i hi]; rfl
          · exact ih r.2 r'.2 r'.1 k1 hr' s ⟨f, hf, hs⟩
  intro s t hs ht hst
  obtain ⟨i, hi⟩ := Option.isSome_iff_exists.1 (words fs _ _ _ init_ok h s hs)
  obtain ⟨j, hj⟩ := Option.isSome_iff_exists.1 (words fs _ _ _ init_ok h t ht)
  simp only [hi, hj, Option.getD_some] at hst
  subst hst
  exact ctx_inj h1 hi hj

/-- Division by constants, for the examples. -/
def constQuot (p d : MPoly) : Option MPoly :=
  match d with
  | [(m, c)] => if c ≠ 0 ∧ m = [] then some (p.mul (.const c⁻¹)) else none
  | _ => none

theorem constQuot_ok : QuotOK ℚ constQuot := by
  intro p d q h ρ
  unfold constQuot at h
  split at h
  · next m c =>
    split at h
    · next hc =>
      cases h
      obtain ⟨hc, rfl⟩ := hc
      rw [MPoly.eval_mul, MPoly.eval_const]
      have : MPoly.eval ρ [([], c)] = c := by simp [MPoly.eval, Mono.evalFrom]
      rw [this]
      rw [Rat.cast_inv, Rat.cast_id, mul_assoc, inv_mul_cancel₀ hc, mul_one]
    · cases h
  · cases h

/-- The formulas `(>= (- y (/ x 2.)) z)` and `(< x 1.)` are read and have these three variables. -/
example : ((readFms constQuot Ctx.init [⟨.ge, .sub (.word "y") (.div (.word "x") (.num 2)), .word "z"⟩,
    ⟨.lt, .word "x", .num 1⟩]).toOption.map fun r => (r.1.map fun a => (a.op, a.vars), r.2.gens)) =
    some ([(.ge, [0, 1, 2]), (.lt, [1])], 3) := by decide +kernel

/-! ### C55 -/

/-- From the atoms to the formulas of the text: what holds for the atoms that are read in a context holds for the
formulas. -/
theorem point_of_values {quot : MPoly → MPoly → Option MPoly} (hq : QuotOK K quot) {ante succ : List Fm} {c : Ctx}
    (hc : CtxOK c) {A B : List Atom × Ctx} (hA : readFms quot c ante = .ok A) (hB : readFms quot A.2 succ = .ok B)
    (σ : String → K) : ∃ ρ : ℕ → K,
      (∀ (i : ℕ) (f : Fm) (a : Atom), ante[i]? = some f → A.1[i]? = some a → f.defined σ → (a.holds ρ ↔ f.holds σ)) ∧
      (∀ (i : ℕ) (f : Fm) (a : Atom), succ[i]? = some f → B.1[i]? = some a → f.defined σ → (a.holds ρ ↔ f.holds σ)) ∧
      ∀ f ∈ ante ++ succ, (f.defined σ → f.defined (nameVal B.2 ρ)) ∧ f.lhs.value (nameVal B.2 ρ) = f.lhs.value σ ∧
        f.rhs.value (nameVal B.2 ρ) = f.rhs.value σ := by
  obtain ⟨a1, a2, a3, a4⟩ := readFms_ok hq ante c A.2 A.1 hc hA
  obtain ⟨b1, b2, b3, b4⟩ := readFms_ok hq succ A.2 B.2 B.1 a1 hB
  -- the words have the given values at a point
  let ρ : ℕ → K := fun i => ((B.2.varMap.find? fun e => e.2 == i).map fun e => σ e.1).getD 0
  have hρ : ∀ s i, B.2.varMap.lookup s = some i → ρ i = σ s := by
    intro s i hs
    have hm := mem_of_lookup hs
    cases hf : B.2.varMap.find? fun e => e.2 == i with
    | none =>
      have := List.find?_eq_none.1 hf _ hm
      simp at this
    | some e =>
      have h1 := List.find?_some hf
      have h2 := List.mem_of_find?_eq_some hf
      have h3 : e.2 = i := by simpa using h1
      have h4 := lookup_of_mem b1.2.2 (s := e.1) (i := i) (by rw [← h3]; exact h2)
      have h5 := ctx_inj b1 h4 hs
      show ((B.2.varMap.find? fun e => e.2 == i).map fun e => σ e.1).getD 0 = σ s
      rw [hf]
      simp [h5]
  have hword : ∀ (t : Tm), (∀ w ∈ t.words, (B.2.varMap.lookup w).isSome) →
      t.value (nameVal B.2 ρ) = t.value σ ∧ (t.defined σ → t.defined (nameVal B.2 ρ)) := by
    intro t
    induction t with
    | num q => intro _; exact ⟨rfl, fun h => h⟩
    | word s =>
      intro hw
      refine ⟨?_, fun h => h⟩
      obtain ⟨i, hi⟩ := Option.isSome_iff_exists.1 (hw s (by simp [Tm.words]))
      show ρ ((B.2.varMap.lookup s).getD 0) = σ s
      rw [hi]
      exact hρ s i hi
    | neg a iha =>
      intro hw
      obtain ⟨h1, h2⟩ := iha hw
      exact ⟨by simp only [Tm.value, h1], h2⟩
    | add a b iha ihb =>
      intro hw
      obtain ⟨h1, h2⟩ := iha fun w hw' => hw w (List.mem_append.2 (Or.inl hw'))
      obtain ⟨k1, k2⟩ := ihb fun w hw' => hw w (List.mem_append.2 (Or.inr hw'))
      exact ⟨by simp only [Tm.value, h1, k1], fun h => ⟨h2 h.1, k2 h.2⟩⟩
    | mul a b iha ihb =>
      intro hw
      obtain ⟨h1, h2⟩ := iha fun w hw' => hw w (List.mem_append.2 (Or.inl hw'))
      obtain ⟨k1, k2⟩ := ihb fun w hw' => hw w (List.mem_append.2 (Or.inr hw'))
      exact ⟨by simp only [Tm.value, h1, k1], fun h => ⟨h2 h.1, k2 h.2⟩⟩
    | sub a b iha ihb =>
      intro hw
      obtain ⟨h1, h2⟩ := iha fun w hw' => hw w (List.mem_append.2 (Or.inl hw'))
      obtain ⟨k1, k2⟩ := ihb fun w hw' => hw w (List.mem_append.2 (Or.inr hw'))
      exact ⟨by simp only [Tm.value, h1, k1], fun h => ⟨h2 h.1, k2 h.2⟩⟩
    | div a b iha ihb =>
      intro hw
      obtain ⟨h1, h2⟩ := iha fun w hw' => hw w (List.mem_append.2 (Or.inl hw'))
      obtain ⟨k1, k2⟩ := ihb fun w hw' => hw w (List.mem_append.2 (Or.inr hw'))
      exact ⟨by simp only [Tm.value, h1, k1], fun h => ⟨h2 h.1, k2 h.2.1, by rw [k1]; exact h.2.2⟩⟩
  have hfmWords : ∀ (fs : List Fm) (c c' : Ctx) (as : List Atom), CtxOK c → readFms quot c fs = .ok (as, c') →
      CtxLe c' B.2 → ∀ f ∈ fs, (f.holds (nameVal B.2 ρ) ↔ f.holds σ) ∧ (f.defined σ → f.defined (nameVal B.2 ρ)) ∧
        f.lhs.value (nameVal B.2 ρ) = f.lhs.value σ ∧ f.rhs.value (nameVal B.2 ρ) = f.rhs.value σ := by
    intro fs
    induction fs with
    | nil => intro c c' as _ _ _ f hf; simp at hf
    | cons g fs ih =>
      intro c c' as hc h hle f hf
      unfold readFms at h
      simp only [bind, Except.bind] at h
      split at h
      · cases h
      · next r hr =>
        split at h
        · cases h
        · next r' hr' =>
          cases h
          obtain ⟨k1, k2, _⟩ := readFm_ok hq hc hr
          rcases List.mem_cons.1 hf with rfl | hf
          · have hle' := (readFms_ok hq fs r.2 r'.2 r'.1 k1 hr').2.1
            unfold readFm at hr
            simp only [bind, Except.bind] at hr
            split at hr
            · cases hr
            · next l hl =>
              split at hr
              · cases hr
              · next m hm =>
                split at hr
                · cases hr
                · cases hr
                  obtain ⟨a1, _, a3, _⟩ := readTm_ok hq f.lhs c l.2 l.1 hc hl
                  obtain ⟨_, b2, b3, _⟩ := readTm_ok hq f.rhs l.2 m.2 m.1 a1 hm
                  have hup : ∀ w, (m.2.varMap.lookup w).isSome → (B.2.varMap.lookup w).isSome := by
                    intro w hw
                    obtain ⟨i, hi⟩ := Option.isSome_iff_exists.1 hw
                    rw [hle w i (hle' w i hi)]; rfl
                  obtain ⟨v1, d1⟩ := hword f.lhs fun w hw => by
                    obtain ⟨i, hi⟩ := Option.isSome_iff_exists.1 (a3 w hw)
                    exact hup w (by rw [b2 w i hi]; rfl)
                  obtain ⟨v2, d2⟩ := hword f.rhs fun w hw => hup w (b3 w hw)
                  refine ⟨?_, fun h => ⟨d1 h.1, d2 h.2⟩, v1, v2⟩
                  unfold Fm.holds
                  rw [v1, v2]
          · exact ih r.2 r'.2 r'.1 k1 hr' hle f hf
  have hAf := hfmWords ante c A.2 A.1 hc hA b2
  have hBf := hfmWords succ A.2 B.2 B.1 a1 hB (fun _ _ h => h)
  refine ⟨ρ, fun i f a hf ha hd => ?_, fun i f a hf ha hd => ?_, fun f hf => ?_⟩
  · have hmem := List.mem_of_getElem? hf
    rw [a4 B.2 b2 ρ i f a hf ha ((hAf f hmem).2.1 hd), (hAf f hmem).1]
  · have hmem := List.mem_of_getElem? hf
    rw [b4 B.2 (fun _ _ h => h) ρ i f a hf ha ((hBf f hmem).2.1 hd), (hBf f hmem).1]
  · rcases List.mem_append.1 hf with hf | hf
    · exact (hAf f hf).2
    · exact (hBf f hf).2

theorem point_of_names {quot : MPoly → MPoly → Option MPoly} (hq : QuotOK K quot) {ante succ : List Fm} {c : Ctx}
    (hc : CtxOK c) {A B : List Atom × Ctx} (hA : readFms quot c ante = .ok A) (hB : readFms quot A.2 succ = .ok B)
    (σ : String → K) : ∃ ρ : ℕ → K,
      (∀ (i : ℕ) (f : Fm) (a : Atom), ante[i]? = some f → A.1[i]? = some a → f.defined σ → (a.holds ρ ↔ f.holds σ)) ∧
      ∀ (i : ℕ) (f : Fm) (a : Atom), succ[i]? = some f → B.1[i]? = some a → f.defined σ → (a.holds ρ ↔ f.holds σ) := by
  obtain ⟨ρ, h1, h2, _⟩ := point_of_values hq hc hA hB σ
  exact ⟨ρ, h1, h2⟩

theorem text_of_atoms {quot : MPoly → MPoly → Option MPoly} (hq : QuotOK K quot) {ante succ : List Fm} {c : Ctx}
    (hc : CtxOK c) {A B : List Atom × Ctx} (hA : readFms quot c ante = .ok A) (hB : readFms quot A.2 succ = .ok B)
    {as ss : List ℕ}
    (hide : ∀ ρ : ℕ → K, (∀ a, Kept A.1 as a → a.holds ρ) → ∃ s, Kept B.1 ss s ∧ s.holds ρ) :
    ∀ σ : String → K, (∀ f ∈ ante ++ succ, f.defined σ) →
      (∀ i f, i ∉ as → ante[i]? = some f → f.holds σ) → ∃ i f, i ∉ ss ∧ succ[i]? = some f ∧ f.holds σ := by
  obtain ⟨a1, _, a3, _⟩ := readFms_ok hq ante c A.2 A.1 hc hA
  obtain ⟨_, _, b3, _⟩ := readFms_ok hq succ A.2 B.2 B.1 a1 hB
  intro σ hdef hante
  obtain ⟨ρ, hAρ, hBρ⟩ := point_of_names hq hc hA hB σ
  obtain ⟨s, ⟨i, hi, hs⟩, hsρ⟩ := hide ρ (by
    rintro a ⟨i, hi, ha⟩
    obtain ⟨hil, _⟩ := List.getElem?_eq_some_iff.1 ha
    have hf : ante[i]? = some (ante[i]'(by omega)) := List.getElem?_eq_getElem _
    rw [hAρ i _ a hf ha (hdef _ (by simp))]
    exact hante i _ hi hf)
  obtain ⟨hil, _⟩ := List.getElem?_eq_some_iff.1 hs
  have hf : succ[i]? = some (succ[i]'(by omega)) := List.getElem?_eq_getElem _
  exact ⟨i, _, hi, hf, (hBρ i _ s hf hs (hdef _ (by simp))).1 hsρ⟩

/-- **C55**: soundness for input files. If the command for a sequent is processed without an exception in a new
context, then at every assignment of values to the names in the text at which no divisor is zero, some formula of
the succedent that is not reported follows from the formulas of the antecedent that are not reported. -/
theorem C55_file (quot : MPoly → MPoly → Option MPoly) (hq : QuotOK K quot) (C : Core K) (hS : SageOK C.toSage)
    (hC : CoreSound C) (ante succ : List Fm) (as ss : List ℕ)
    (h : runSequent quot C Ctx.init ante succ = .ok (as, ss)) :
    ∀ σ : String → K, (∀ f ∈ ante ++ succ, f.defined σ) →
      (∀ i f, i ∉ as → ante[i]? = some f → f.holds σ) → ∃ i f, i ∉ ss ∧ succ[i]? = some f ∧ f.holds σ := by
  unfold runSequent at h
  simp only [bind, Except.bind] at h
  split at h
  · cases h
  · next A hA =>
    split at h
    · cases h
    · next B hB =>
      exact text_of_atoms hq init_ok hA hB (C53_hiding C hS hC A.1 B.1 as ss h).1

/-- The text `(antecedent (> y 0.) (> x 0.)) (succedent (> (+ x 1.) 0.))`: here `y` is the first variable, so the
core is asked about the second one. -/
example : (runSequent constQuot (testCore [[(0, 1), (1, -2)], [(0, 1), (1, 1)]] []) Ctx.init
    [⟨.gt, .word "y", .num 0⟩, ⟨.gt, .word "x", .num 0⟩]
    [⟨.gt, .add (.word "x") (.num 1), .num 0⟩]).toOption = some ([0], []) ∧ QuotOK ℚ constQuot :=
  ⟨by decide +kernel, constQuot_ok⟩

/-! ### C56 -/

/-- **C56** is violated: whole numbers without a dot are taken for names of variables. The sequent
`(antecedent (> x 5)) (succedent (> x 3))`, which is valid when the words `5` and `3` stand for these numbers, is read as
a sequent in three variables that is not valid. -/
theorem C56_violated (quot : MPoly → MPoly → Option MPoly) :
    ∃ (f g : Fm) (a b : Atom) (c c' : Ctx),
      readFm quot Ctx.init f = .ok (a, c) ∧ readFm quot c g = .ok (b, c') ∧
      (∀ σ : String → ℚ, σ "5" = 5 → σ "3" = 3 → f.holds σ → g.holds σ) ∧
      ∃ ρ : ℕ → ℚ, a.holds ρ ∧ ¬ b.holds ρ := by
  refine ⟨⟨.gt, .word "x", .word "5"⟩, ⟨.gt, .word "x", .word "3"⟩,
    ⟨(MPoly.var 0).sub (MPoly.var 1), .gt, ((MPoly.var 0).sub (MPoly.var 1)).vars⟩,
    ⟨(MPoly.var 0).sub (MPoly.var 2), .gt, ((MPoly.var 0).sub (MPoly.var 2)).vars⟩,
    ⟨2, [("5", 1), ("x", 0)]⟩, ⟨3, [("3", 2), ("5", 1), ("x", 0)]⟩, rfl, rfl, ?_, ?_⟩
  · intro σ h5 h3 h
    have h' : σ "x" > σ "5" := h
    show σ "x" > σ "3"
    rw [h5] at h'
    rw [h3]
    linarith
  · refine ⟨fun i => if i = 2 then 1 else if i = 0 then 1 else 0, ?_, ?_⟩
    · show MPoly.eval _ ((MPoly.var 0).sub (MPoly.var 1)) > 0
      rw [MPoly.eval_sub, MPoly.eval_var, MPoly.eval_var]
      norm_num
    · show ¬ (MPoly.eval _ ((MPoly.var 0).sub (MPoly.var 2)) > 0)
      rw [MPoly.eval_sub, MPoly.eval_var, MPoly.eval_var]
      norm_num

end Verif.Grf
