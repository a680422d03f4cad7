import Verif.Grf.PropsFileRealOne
import Verif.Grf.PropsGeneric

/-!
# C120 for relations of any kind: from the text of a file to the points at which no two sides are equal
-/

set_option linter.unusedSectionVars false

namespace Verif.Grf

open Topology

/-- Hiding is sound at the points at which no polynomial vanishes. -/
theorem iCheck_generic (S : Sage ℚ) (R : CadEnv) (hE : RootsOK ℝ R) (hu : UniformOK R) (hel : ElimOK R) (n : ℕ)
    (extra : ℕ → State → List MPoly) (more) (solve) {int : List Char → Option ℤ} {A B : List Atom} {s : State} {b : Bool}
    {lines rest : List (List Char)} {fuel : ℕ} {ret : List (List ℕ)} {st' : State} (hs : seqState A B = .ok s)
    (hops : ∀ a ∈ s.hyps, a.op ≠ .eq) (hfresh : ∀ a ∈ s.goal.main :: s.hyps, Fresh a)
    (hpoly : ∀ a ∈ s.goal.main :: s.hyps, Normal a.poly ∧ ∀ w ∈ a.poly.vars, w < n)
    (hextra : ∀ k st, ∀ p ∈ extra k st, ∃ a ∈ st.goal.main :: st.goal.hyps, p = a.poly ∨ p = purePolyBase a.poly)
    (hlev : ∀ k (st : State), st.goal.main = s.goal.main → (st.goal.hyps ++ st.hyps).Perm s.hyps →
      LevelsOK R n (extra k st ++ st.goal.main.poly :: st.goal.hyps.map Atom.poly) 1 st.hyps)
    (h : iCheck (cadCore S R n 1 extra more solve) int fuel 0 b s lines = .ok (ret, st', rest)) (ρ : ℕ → ℝ)
    (hρ : ∀ a ∈ A ++ B, a.poly = [] ∨ a.poly.eval ρ ≠ 0) :
    (∀ a, Kept A (hideAnte s.hyps.length st'.ids) a → a.holds ρ) →
      ∃ x, Kept B (hideSucc A.length B.length st'.ids) x ∧ x.holds ρ := by
  unfold seqState at hs
  split at hs
  · cases hs
  · next g others hr =>
    cases hs
    obtain ⟨is, m, h1, ⟨ds, h2, h3⟩, _⟩ := iCheck_spec _ int fuel 0 b _ lines ret st' rest h
    obtain ⟨hids, hsub⟩ := h1.ids (idsOK_init (A ++ others.map Atom.negate) _)
    obtain ⟨e2, ps, e3, e4⟩ := promotes_noeq h1 rfl hops
    simp only [List.nil_append] at e3
    refine hiding_of_promoted_at hr hids hsub e4 ρ ?_
    intro hp
    have hmem : ∀ a ∈ st'.goal.main :: st'.goal.hyps, a ∈ g :: (A ++ others.map Atom.negate) := by
      intro a ha
      rw [e2, e3] at ha
      rcases List.mem_cons.1 ha with rfl | ha
      · simp
      · exact List.mem_cons_of_mem _ (e4.subset (List.mem_append_left _ ha))
    have hB : ∀ a ∈ g :: others, a ∈ B := fun a ha => by
      rw [← hr] at ha
      exact List.mem_reverse.1 ha
    have hnz : ∀ a ∈ g :: (A ++ others.map Atom.negate), a.poly = [] ∨ a.poly.eval ρ ≠ 0 := by
      intro a ha
      rcases List.mem_cons.1 ha with rfl | ha
      · exact hρ _ (List.mem_append_right _ (hB _ (by simp)))
      · rcases List.mem_append.1 ha with ha | ha
        · exact hρ _ (List.mem_append_left _ ha)
        · obtain ⟨c, hc, rfl⟩ := List.mem_map.1 ha
          exact hρ c (List.mem_append_right _ (hB c (by simp [hc])))
    have := multi_core_generic S R hE hu hel n st'.goal (fun a ha => hfresh a (hmem a ha)) (fun a ha => hpoly a (hmem a ha))
      (extra m st' ++ st'.goal.main.poly :: st'.goal.hyps.map Atom.poly)
      (by
        intro a ha
        apply List.mem_append.2 (Or.inr _)
        rcases List.mem_cons.1 ha with rfl | ha
        · simp
        · exact List.mem_cons_of_mem _ (List.mem_map.2 ⟨a, ha, rfl⟩))
      (by
        intro p hp
        have : ∃ a ∈ st'.goal.main :: st'.goal.hyps, p = a.poly ∨ p = purePolyBase a.poly := by
          rcases List.mem_append.1 hp with hp | hp
          · exact hextra m st' p hp
          · rcases List.mem_cons.1 hp with rfl | hp
            · exact ⟨_, by simp, Or.inl rfl⟩
            · obtain ⟨a, ha, rfl⟩ := List.mem_map.1 hp
              exact ⟨a, by simp [ha], Or.inl rfl⟩
        obtain ⟨a, ha, rfl | rfl⟩ := this
        · exact hpoly a (hmem a ha)
        · exact ⟨normal_base (hpoly a (hmem a ha)).1, fun w hw => (hpoly a (hmem a ha)).2 w (vars_base hw)⟩)
      1 le_rfl st'.hyps (hlev m st' e2 (by rw [e3]; exact e4)) ds h2 h3 ρ (fun a ha => hnz a (hmem a ha))
      (by rw [e3]; exact hp)
    rwa [e2] at this

theorem forall₂_snoc {α β : Type} {P : α → β → Prop} {b : β} : ∀ {l : List α} {m : List β},
    List.Forall₂ P l (m ++ [b]) → ∃ l' a, l = l' ++ [a] ∧ List.Forall₂ P l' m
  | [], [], h => by cases h
  | [], _ :: _, h => by cases h
  | x :: l, [], h => by
    cases h with
    | cons _ h => cases h; exact ⟨[], x, rfl, .nil⟩
  | x :: l, y :: m, h => by
    cases h with
    | cons h1 h =>
      obtain ⟨l', a, rfl, h2⟩ := forall₂_snoc h
      exact ⟨x :: l', a, rfl, .cons h1 h2⟩

/-- A polynomial that is 0 at all points is the zero polynomial. -/
theorem eq_nil_of_eval {p : MPoly} (hp : Normal p) (h : ∀ ρ : ℕ → ℝ, p.eval ρ = 0) : p = [] := by
  by_contra h0
  obtain ⟨σ, -, hne⟩ := exists_near_ne (ps := [p]) (by simpa using ⟨hp, h0⟩) (Filter.univ_mem (f := 𝓝 (fun _ => (0 : ℝ))))
  exact hne p (by simp) (h σ)

/-- What holds of **C120** for relations of any kind, apart from equations on the left and `!=` on the right (which become
equations, unless they are the last formula), with the other assumptions of C120_partial: if `grf_on_file` returns, then some
formula of the succedent that is not reported follows from the formulas of the antecedent that are not reported, at every
assignment of real numbers to the names at which no divisor is zero and no formula has two sides of the same value, except for
formulas whose sides have the same value everywhere. -/
theorem C120_generic_partial (E : SmtEnv ℚ) (S : Sage ℚ) (R : CadEnv) (hE : RootsOK ℝ R) (hu : UniformOK R) (hel : ElimOK R)
    (hq : QuotOK ℝ E.quot) (hqn : QuotNormal E.quot) (n : ℕ) (extra : ℕ → State → List MPoly) (more) (solve)
    (hcore : E.core 0 = cadCore S R n 1 extra more solve) (text : List Char) (q : FileSeq) (ht : FileText E.num text [q])
    (hn : n = max 1 ((q.ante ++ q.succ).flatMap fun f => f.lhs.words ++ f.rhs.words).dedup.length)
    (hante : ∀ f ∈ q.ante, f.op ≠ .eq) (hsucc : ∀ f ∈ q.succ.dropLast, f.op ≠ .ne)
    (hextra : ∀ k st, ∀ p ∈ extra k st, ∃ a ∈ st.goal.main :: st.goal.hyps, p = a.poly ∨ p = purePolyBase a.poly)
    (hlev : ∀ A B hyps main ids, readFms E.quot Ctx.init q.ante = .ok A → readFms E.quot A.2 q.succ = .ok B →
      seqState A.1 B.1 = .ok ⟨hyps, ⟨main, [], []⟩, ids⟩ →
      ∀ k (st : State), st.goal.main = main → (st.goal.hyps ++ st.hyps).Perm hyps →
      LevelsOK R n (extra k st ++ st.goal.main.poly :: st.goal.hyps.map Atom.poly) 1 st.hyps)
    (interactive out : Bool) (lines : List (List Char)) (o : SmtOut)
    (h : grfOnFile E interactive out lines text = .ok o) : ∃ as ss : List ℕ,
      o.ret = (as.length, ss.length) ∧ o.file = (if out then some (resultText q.name as ss) else none) ∧
      ∀ σ : String → ℝ, (∀ f ∈ q.ante ++ q.succ, f.defined σ) →
        (∀ f ∈ q.ante ++ q.succ, f.lhs.value σ ≠ f.rhs.value σ ∨
          ∀ τ : String → ℝ, f.defined τ ∧ f.lhs.value τ = f.rhs.value τ) →
        (∀ i f, i ∉ as → q.ante[i]? = some f → f.holds σ) → ∃ i f, i ∉ ss ∧ q.succ[i]? = some f ∧ f.holds σ := by
  rw [C74_reading E interactive out lines text _ ht] at h
  split at h
  · cases h
  · next x hx =>
    obtain ⟨z, hz, hz'⟩ := seqsRun_append (l := []) hx
    cases hz
    unfold seqRun at hz'
    split at hz'
    · cases hz'
    · next A hA =>
      split at hz'
      · cases hz'
      · next B hB =>
        split at hz'
        · cases hz'
        · next s hs =>
          split at hz'
          · cases hz'
          · next r hr =>
            cases hz'
            cases h
            obtain ⟨ret, st', rest⟩ := r
            refine ⟨_, _, rfl, rfl, ?_⟩
            change iCheck (E.core 0) _ _ _ _ _ _ = _ at hr
            rw [hcore] at hr
            obtain ⟨a1, a2, a3, a4⟩ := readFms_in hqn q.ante Ctx.init A.2 A.1 init_ok hA
            obtain ⟨b1, b2, b3, b4⟩ := readFms_in hqn q.succ A.2 B.2 B.1 a1 hB
            have hbound : ∀ f a, ReadAs E.quot B.2 f a → Fresh a ∧ Normal a.poly ∧ ∀ w ∈ a.poly.vars, w < n := by
              intro f a ha
              refine ⟨ha.fresh, ha.inCtx.1, fun w hw => ?_⟩
              obtain ⟨s, hs⟩ := ha.inCtx.2 w hw
              have := ctx_bound b1 (a3.trans b3) hs
              rw [← List.flatMap_append] at this
              have e : ((q.ante ++ q.succ).flatMap Fm.words) =
                ((q.ante ++ q.succ).flatMap fun f => f.lhs.words ++ f.rhs.words) := rfl
              rw [e] at this
              omega
            have hread : ∀ a ∈ A.1 ++ B.1, ∃ f ∈ q.ante ++ q.succ, ReadAs E.quot B.2 f a := by
              intro a ha
              rcases List.mem_append.1 ha with ha | ha
              · obtain ⟨f, hf, hfa⟩ := forall₂_right a4 ha
                exact ⟨f, List.mem_append_left _ hf, hfa.mono b2⟩
              · obtain ⟨f, hf, hfa⟩ := forall₂_right b4 ha
                exact ⟨f, List.mem_append_right _ hf, hfa⟩
            have hall : ∀ a ∈ A.1 ++ B.1, Fresh a ∧ Normal a.poly ∧ ∀ w ∈ a.poly.vars, w < n := by
              intro a ha
              obtain ⟨f, _, hfa⟩ := hread a ha
              exact hbound f a hfa
            have hinit : s = ⟨s.hyps, ⟨s.goal.main, [], []⟩, s.ids⟩ := by
              unfold seqState at hs
              split at hs <;> cases hs
              rfl
            have hseq : (∀ a ∈ s.hyps, a.op ≠ .eq) ∧
                ∀ a ∈ s.goal.main :: s.hyps, Fresh a ∧ Normal a.poly ∧ ∀ w ∈ a.poly.vars, w < n := by
              unfold seqState at hs
              split at hs
              · cases hs
              · next g others hrev =>
                cases hs
                have hmemB : ∀ a ∈ g :: others, a ∈ B.1 := by
                  intro a ha
                  rw [← hrev] at ha
                  exact List.mem_reverse.1 ha
                refine ⟨fun a ha => ?_, fun a ha => ?_⟩
                · rcases List.mem_append.1 ha with ha | ha
                  · obtain ⟨f, hf, hfa⟩ := forall₂_right a4 ha
                    rw [hfa.op]
                    exact hante f hf
                  · obtain ⟨c, hc, rfl⟩ := List.mem_map.1 ha
                    have hrev' : B.1 = others.reverse ++ [g] := by
                      have := congrArg List.reverse hrev
                      simpa using this
                    rw [hrev'] at b4
                    obtain ⟨fs, f, hsplit, hfs⟩ := forall₂_snoc b4
                    obtain ⟨f', hf', hfa⟩ := forall₂_right hfs (List.mem_reverse.2 hc)
                    have := hsucc f' (by rw [hsplit]; simpa using hf')
                    show c.op.negate ≠ .eq
                    rw [hfa.op]
                    revert this
                    cases f'.op <;> simp [Op.negate]
                · rcases List.mem_cons.1 ha with rfl | ha
                  · exact hall _ (List.mem_append_right _ (hmemB _ (by simp)))
                  · rcases List.mem_append.1 ha with ha | ha
                    · exact hall _ (List.mem_append_left _ ha)
                    · obtain ⟨c, hc, rfl⟩ := List.mem_map.1 ha
                      exact hall c (List.mem_append_right _ (hmemB c (by simp [hc])))
            intro σ hdef hne hkept
            obtain ⟨ρ, hAρ, hBρ, hval⟩ := point_of_values hq init_ok hA hB σ
            obtain ⟨x, ⟨i, hi, hx⟩, hxρ⟩ := iCheck_generic S R hE hu hel n extra more solve hs hseq.1
              (fun a ha => (hseq.2 a ha).1) (fun a ha => (hseq.2 a ha).2) hextra
              (hlev A B s.hyps s.goal.main s.ids hA hB (by rw [← hinit]; exact hs)) hr ρ (by
                intro a ha
                obtain ⟨f, hf, hfa⟩ := hread a ha
                rcases hne f hf with h | h
                · right
                  obtain ⟨v1, v2, v3⟩ := hval f hf
                  rw [hfa.value hq B.2 (fun _ _ h => h) ρ (v1 (hdef f hf)), v2, v3]
                  exact sub_ne_zero.2 h
                · left
                  refine eq_nil_of_eval hfa.inCtx.1 fun ρ' => ?_
                  rw [hfa.value hq B.2 (fun _ _ h => h) ρ' (h _).1, (h _).2, sub_self]) (by
                rintro a ⟨i, hi, ha⟩
                obtain ⟨hil, _⟩ := List.getElem?_eq_some_iff.1 ha
                have hlen := a4.length_eq
                have hf : q.ante[i]? = some (q.ante[i]'(by omega)) := List.getElem?_eq_getElem _
                rw [hAρ i _ a hf ha (hdef _ (by simp))]
                exact hkept i _ hi hf)
            obtain ⟨hil, _⟩ := List.getElem?_eq_some_iff.1 hx
            have hlen := b4.length_eq
            have hf : q.succ[i]? = some (q.succ[i]'(by omega)) := List.getElem?_eq_getElem _
            exact ⟨i, _, hi, hf, (hBρ i _ x hf hx (hdef _ (by simp))).1 hxρ⟩

/-- The assumptions of C120_generic_partial are met by the file with the sequent `⊢ x * x != 2` of C120_violated, and the run
returns: the formula is true wherever its two sides are not equal, and false elsewhere. -/
example : ∃ (E : SmtEnv ℚ) (S : Sage ℚ) (R : CadEnv) (q : FileSeq), RootsOK ℝ R ∧ UniformOK R ∧ ElimOK R ∧
    QuotOK ℝ E.quot ∧ QuotNormal E.quot ∧
    E.core 0 = cadCore S R 1 1 (fun _ _ => []) (fun _ _ _ => .ok []) (fun _ _ _ => none) ∧
    FileText E.num "(sequent \"s\" (antecedent) (succedent (!= (* x x) 2.)))".toList [q] ∧
    1 = max 1 ((q.ante ++ q.succ).flatMap fun f => f.lhs.words ++ f.rhs.words).dedup.length ∧
    (∀ f ∈ q.ante, f.op ≠ .eq) ∧ (∀ f ∈ q.succ.dropLast, f.op ≠ .ne) ∧
    (∀ A B hyps main ids, readFms E.quot Ctx.init q.ante = .ok A → readFms E.quot A.2 q.succ = .ok B →
      seqState A.1 B.1 = .ok ⟨hyps, ⟨main, [], []⟩, ids⟩ →
      ∀ (st : State), st.goal.main = main → (st.goal.hyps ++ st.hyps).Perm hyps →
      LevelsOK R 1 ([] ++ st.goal.main.poly :: st.goal.hyps.map Atom.poly) 1 st.hyps) ∧
    ∃ o, grfOnFile E false true [] "(sequent \"s\" (antecedent) (succedent (!= (* x x) 2.)))".toList = .ok o := by
  obtain ⟨R, h1, h2, h3⟩ := C72_assumptions_met
  have hnum : testNum false ['2'] [] = 2 := by decide +kernel
  have ht := text_ne testNum
  rw [hnum] at ht
  refine ⟨testEnv (cadCore testSage R 1 1 (fun _ _ => []) (fun _ _ _ => .ok []) (fun _ _ _ => none)), testSage, R, _, h1, h2,
    h3.elimOK, constQuot_real, constQuot_normal, rfl, ht, by decide +kernel, by simp, by simp, ?_, ?_⟩
  · intro A B hyps main ids hA hB hs st hmain hp
    cases hA
    have hB' : B = ([⟨[([], -2), ([2], 1)], .ne, [0]⟩], ⟨1, [("x", 0)]⟩) :=
      Except.ok.inj (hB.symm.trans (read_ne constQuot))
    subst hB'
    cases hs
    have h0 := hp.eq_nil
    rw [List.append_eq_nil_iff] at h0
    rw [h0.1, hmain]
    exact levels_two R st.hyps
  · obtain ⟨f, -, h, -⟩ := C120_violated
      (testEnv (cadCore testSage R 1 1 (fun _ _ => []) (fun _ _ _ => .ok []) (fun _ _ _ => none))) testSage R 1
      (fun _ _ _ => .ok []) (fun _ _ _ => none) rfl hnum []
    exact ⟨_, h⟩

end Verif.Grf
