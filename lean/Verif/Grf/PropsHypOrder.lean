import Verif.Grf.PropsCex
import Verif.Grf.PropsLoopExact

/-!
# C109: the order of the hypotheses
-/

set_option linter.unusedSectionVars false

namespace Verif.Grf

section

variable {K : Type} [Field K] [LinearOrder K] [IsStrictOrderedRing K]

/-- **C109, partial** (missing: `C109_violated`; sequents with two or more equations). Whatever the order of the
hypotheses, a sequent is not proved in one order and refuted in another one: if it is reported as proved for the order
`hyps`, and the core is sound for the last state, then no counterexample is reported for any order `hyps'`. -/
theorem C109_partial (C : Core K) (hS : SageOK C.toSage) (n : ℕ) (hn : 0 < n) (hR : RingOK C.toSage n)
    (hC : PointsOK C n) (hyps hyps' : List Atom) (hp : hyps.Perm hyps') (main : Atom)
    (hv : ∀ a ∈ main :: hyps, ∀ v ∈ a.vars ++ a.poly.vars, v < n)
    (heq : hyps.countP (fun a => decide (a.op = .eq)) ≤ 1)
    (fuel fuel' : ℕ) (ids ids' : List ℕ) (ret : List (List ℕ)) (st' : State)
    (hcore : ∀ k ds, C.samples k st' = .ok ds → (∀ d ∈ ds, st'.goal.evalOnDict C.toSage d = .ok true) →
      ∀ ρ : ℕ → K, (∀ a ∈ st'.goal.hyps, a.holds ρ) → st'.goal.main.holds ρ)
    (h : check C fuel 0 ⟨hyps, ⟨main, [], []⟩, ids⟩ = .ok (ret, st')) :
    check C fuel' 0 ⟨hyps', ⟨main, [], []⟩, ids'⟩ ≠ .error .counterexample := by
  intro h'
  obtain ⟨_, _, _, hval⟩ := C34_sound C hS hyps main fuel ret st' ids h hcore
  obtain ⟨_, _, _, _, _, _, d, _, hd⟩ := C105_partial C hS n hn hR hC hyps' main
    (fun a ha => hv a (by
      rcases List.mem_cons.1 ha with rfl | ha
      · simp
      · exact List.mem_cons_of_mem _ (hp.mem_iff.2 ha)))
    (by rw [← hp.countP_eq]; exact heq) fuel' ids' h'
  obtain ⟨h1, h2⟩ := hd (fun i => (d.lookup i).getD 0) fun i x hx => by simp [hx]
  exact h2 (hval _ fun a ha => h1 a (hp.mem_iff.1 ha))

end

/-! ### the violation -/

/-- `x0 > 0` -/
def ordPos : Atom := ⟨MPoly.var 0, .gt, [0]⟩

/-- `x0 < 0` -/
def ordNeg : Atom := ⟨MPoly.var 0, .lt, [0]⟩

/-- `x0^3 < 0` -/
def ordCube : Atom := ⟨(MPoly.var 0).mul ((MPoly.var 0).mul (MPoly.var 0)), .lt, [0]⟩

/-- `x0^2 < 0` -/
def ordMain : Atom := ⟨(MPoly.var 0).mul (MPoly.var 0), .lt, [0]⟩

/-- The indices come in increasing order, as the keys of the dictionary `p.get_values(x)` do (`grf.sage:943`). -/
def SolverInc (C : Core ℚ) : Prop := ∀ n bads w s, C.solve n bads w = some s → s.Pairwise (· < ·)

/-- The points give a value to the variable. -/
def HasVal (d : Dict ℚ) : Prop := (d.lookup 0).isSome

theorem ord_covers {d : Dict ℚ} (hd : HasVal d) {a : Atom} (ha : (∀ v ∈ a.vars, v = 0) ∧ ∀ v ∈ a.poly.vars, v = 0) :
    Covers d a := by
  refine ⟨?_, fun v hv => ?_, fun v hv => ?_⟩
  · rintro rfl
    simp [HasVal] at hd
  · rw [ha.1 v hv]; exact hd
  · rw [ha.2 v hv]; exact hd

theorem ord_eval (S : Sage ℚ) {d : Dict ℚ} (hd : HasVal d) :
    ordPos.evalOnDict S d = .ok (some (decide (0 < ptOf d 0))) ∧
    ordNeg.evalOnDict S d = .ok (some (decide (ptOf d 0 < 0))) ∧
    ordCube.evalOnDict S d = .ok (some (decide (ptOf d 0 < 0))) ∧
    ordMain.evalOnDict S d = .ok (some false) := by
  have h1 := evalOnDict_covered S (a := ordPos) (ord_covers hd (by decide +kernel))
  have h2 := evalOnDict_covered S (a := ordNeg) (ord_covers hd (by decide +kernel))
  have h3 := evalOnDict_covered S (a := ordCube) (ord_covers hd (by decide +kernel))
  have h4 := evalOnDict_covered S (a := ordMain) (ord_covers hd (by decide +kernel))
  rw [h1, h2, h3, h4]
  simp only [ordPos, ordNeg, ordCube, ordMain, Op.test, MPoly.eval_mul, MPoly.eval_var, Except.ok.injEq, Option.some.injEq,
    decide_eq_decide]
  refine ⟨by simp, by simp, ?_, by simpa using mul_self_nonneg _⟩
  constructor
  · intro h
    by_contra h0
    push Not at h0
    have : 0 ≤ ptOf d 0 * (ptOf d 0 * ptOf d 0) := by positivity
    linarith
  · intro h
    have : 0 < ptOf d 0 * ptOf d 0 := mul_pos_of_neg_of_neg h h
    nlinarith

theorem round_inv {K : Type} [Field K] [LinearOrder K] {C : Core K} {n : ℕ} {st st' : State} {bads : List (List ℕ)}
    (h : round C n st = .ok (bads, some st')) : ∃ ds tr cand i rest, C.samples n st = .ok ds ∧
      allBads C n st ds = .ok (tr, bads) ∧ goodHyps C st bads = .ok cand ∧ sortCand st cand = i :: rest ∧
      st.promote C.toSage i = .ok st' := by
  unfold round at h
  simp only [bind, Except.bind] at h
  cases hs : C.samples n st with
  | error e => rw [hs] at h; cases h
  | ok ds =>
    rw [hs] at h
    simp only at h
    cases ha : allBads C n st ds with
    | error e => rw [ha] at h; cases h
    | ok r =>
      rw [ha] at h
      obtain ⟨tr, bads'⟩ := r
      simp only at h
      split at h
      · cases h
      · cases hg : goodHyps C st bads' with
        | error e => rw [hg] at h; cases h
        | ok cand =>
          rw [hg] at h
          simp only at h
          cases hc : sortCand st cand with
          | nil => rw [hc] at h; cases h
          | cons i rest =>
            rw [hc] at h
            simp only at h
            cases hp : st.promote C.toSage i with
            | error e => rw [hp] at h; cases h
            | ok st₁ =>
              rw [hp] at h
              simp only [Except.ok.injEq, Prod.mk.injEq, Option.some.injEq] at h
              obtain ⟨rfl, rfl⟩ := h
              exact ⟨ds, tr, cand, i, rest, rfl, ha, hg, hc, hp⟩

/-- The first hypothesis comes first if it is selected and has the least degree. -/
theorem sortCand_zero {st : State} {s : List ℕ} (hs : s.Pairwise (· < ·)) (h0 : 0 ∈ s)
    (hdeg : ∀ j, (st.hyps.getD 0 ⟨[], .eq, []⟩).poly.totalDegree ≤ (st.hyps.getD j ⟨[], .eq, []⟩).poly.totalDegree ∨
      j ∉ s) : ∃ rest, sortCand st s = 0 :: rest := by
  cases s with
  | nil => cases h0
  | cons a s =>
    have ha : a = 0 := by
      rcases List.mem_cons.1 h0 with h | h
      · exact h.symm
      · have := (List.pairwise_cons.1 hs).1 0 h
        omega
    subst ha
    unfold sortCand
    obtain ⟨l₁, l₂, h1, h2, h3⟩ := List.mergeSort_cons
      (le := fun i j => decide ((st.hyps.getD i ⟨[], .eq, []⟩).poly.totalDegree ≤
        (st.hyps.getD j ⟨[], .eq, []⟩).poly.totalDegree))
      (by intro a b c; simp only [decide_eq_true_eq]; exact le_trans)
      (by intro a b; simp only [Bool.or_eq_true, decide_eq_true_eq]; exact le_total _ _) 0 s
    cases l₁ with
    | nil => exact ⟨l₂, h1⟩
    | cons b l₁ =>
      have hb := h3 b (by simp)
      have hbs : b ∈ s := by
        have hperm := List.mergeSort_perm s fun i j => decide ((st.hyps.getD i ⟨[], .eq, []⟩).poly.totalDegree ≤
          (st.hyps.getD j ⟨[], .eq, []⟩).poly.totalDegree)
        rw [h2] at hperm
        exact hperm.mem_iff.1 (by simp)
      rcases hdeg b with h | h
      · simp only [Bool.not_eq_true', decide_eq_false_iff_not] at hb
        exact absurd h hb
      · exact absurd (by simp [hbs]) h

/-- What is assumed of the core: as long as the goal is `x0^2 < 0` and the promoted hypotheses are about the sign of `x0`,
the sample points give a value to `x0` and one of them is negative and one positive; local search returns points with a
value of `x0`; the solver returns an optimal solution if there is a solution. -/
structure OrdCore (C : Core ℚ) : Prop where
  sage : SageOK C.toSage
  samples : ∀ k st, st.goal.main = ordMain → (∀ a ∈ st.goal.hyps, a = ordPos ∨ a = ordNeg) →
    ∃ ds, C.samples k st = .ok ds ∧ (∀ d ∈ ds, HasVal d) ∧ (∃ d ∈ ds, ptOf d 0 < 0) ∧ ∃ d ∈ ds, 0 < ptOf d 0
  more : ∀ k st d, HasVal d → ∃ near, C.more k st d = .ok near ∧ ∀ e ∈ near, HasVal e
  opt : SolverOpt C
  complete : SolverComplete C
  inc : SolverInc C

/-- truth value of the three hypotheses -/
def ordTrue (a : Atom) (x : ℚ) : Bool := if a = ordPos then decide (0 < x) else decide (x < 0)

theorem ord_hyp (S : Sage ℚ) {d : Dict ℚ} (hd : HasVal d) {a : Atom} (ha : a = ordPos ∨ a = ordNeg ∨ a = ordCube) :
    a.evalOnDict S d = .ok (some (ordTrue a (ptOf d 0))) := by
  obtain ⟨h1, h2, h3, _⟩ := ord_eval S hd
  rcases ha with rfl | rfl | rfl
  · rw [h1]; simp [ordTrue]
  · rw [h2]; simp [ordTrue, show ordNeg ≠ ordPos by decide +kernel]
  · rw [h3]; simp [ordTrue, show ordCube ≠ ordPos by decide +kernel]

theorem ord_goal (S : Sage ℚ) {d : Dict ℚ} (hd : HasVal d) : ∀ (hs : List Atom), (∀ a ∈ hs, a = ordPos ∨ a = ordNeg) →
    evalHyps S d hs = .ok (!hs.all fun a => ordTrue a (ptOf d 0))
  | [], _ => rfl
  | a :: hs, h => by
    unfold evalHyps
    simp only [bind, Except.bind]
    rw [ord_hyp S hd (by rcases h a (by simp) with h | h <;> simp [h])]
    simp only
    rw [ord_goal S hd hs fun b hb => h b (by simp [hb])]
    cases hc : ordTrue a (ptOf d 0) <;> simp [hc]

theorem ord_goal' (S : Sage ℚ) {d : Dict ℚ} (hd : HasVal d) {hs : List Atom} (h : ∀ a ∈ hs, a = ordPos ∨ a = ordNeg)
    (gb : List MPoly) :
    Goal.evalOnDict S ⟨ordMain, hs, gb⟩ d = .ok (!hs.all fun a => ordTrue a (ptOf d 0)) := by
  unfold Goal.evalOnDict
  simp only [bind, Except.bind]
  rw [(ord_eval S hd).2.2.2]
  simp only
  rw [ord_goal S hd hs h]
  simp

/-- The exact theorem about rounds, for the sequents considered here. -/
theorem ord_exact {C : Core ℚ} (hC : OrdCore C) (n : ℕ) (hs gs : List Atom) (ids : List ℕ) (hne : hs ≠ [])
    (hhs : ∀ a ∈ hs, a = ordPos ∨ a = ordNeg ∨ a = ordCube) (hgs : ∀ a ∈ gs, a = ordPos ∨ a = ordNeg) :
    ∃ ds, C.samples n ⟨hs, ⟨ordMain, gs, []⟩, ids⟩ = .ok ds ∧ (∀ d ∈ ds, HasVal d) ∧ (∃ d ∈ ds, ptOf d 0 < 0) ∧
      (∃ d ∈ ds, 0 < ptOf d 0) ∧
      ((∀ x : ℚ, ∃ a ∈ gs, ordTrue a x = false) → round C n ⟨hs, ⟨ordMain, gs, []⟩, ids⟩ = .ok ([], none)) ∧
      ((∀ x : ℚ, ∃ a ∈ gs ++ hs, ordTrue a x = false) →
        ((∃ d ∈ ds, (∀ a ∈ gs, ordTrue a (ptOf d 0) = true) ∧ ∃ a ∈ hs, ordTrue a (ptOf d 0) = true) →
          ∃ bads st', round C n ⟨hs, ⟨ordMain, gs, []⟩, ids⟩ = .ok (bads, some st')) ∧
        ((∃ d ∈ ds, ∀ a ∈ gs, ordTrue a (ptOf d 0) = true) →
          (∀ x : ℚ, (∀ a ∈ gs, ordTrue a x = true) → ∀ a ∈ hs, ordTrue a x = false) →
          round C n ⟨hs, ⟨ordMain, gs, []⟩, ids⟩ = .error .indexError)) := by
  classical
  obtain ⟨ds, hds, hval, hneg, hpos⟩ := hC.samples n ⟨hs, ⟨ordMain, gs, []⟩, ids⟩ rfl hgs
  have hm : ∀ d, ∃ near, d ∈ ds → C.more n ⟨hs, ⟨ordMain, gs, []⟩, ids⟩ d = .ok near ∧ ∀ e ∈ near, HasVal e := by
    intro d
    by_cases hd : d ∈ ds
    · obtain ⟨near, h1, h2⟩ := hC.more n ⟨hs, ⟨ordMain, gs, []⟩, ids⟩ d (hval d hd)
      exact ⟨near, fun _ => ⟨h1, h2⟩⟩
    · exact ⟨[], fun h => absurd h hd⟩
  choose near hnear using hm
  have hv : ∀ d₀ ∈ ds, ∀ d ∈ d₀ :: near d₀, HasVal d := by
    intro d₀ hd₀ d hd
    rcases List.mem_cons.1 hd with rfl | hd
    · exact hval d hd₀
    · exact (hnear d₀ hd₀).2 d hd
  obtain ⟨e1, e2, e3⟩ := C36_exact C hC.sage hC.opt hC.complete n ⟨hs, ⟨ordMain, gs, []⟩, ids⟩ hne ds hds near
    (fun d hd => (hnear d hd).1) (fun d => !gs.all fun a => ordTrue a (ptOf d 0))
    (fun d a => some (ordTrue a (ptOf d 0)))
    (fun d₀ hd₀ d hd => ord_goal' C.toSage (hv d₀ hd₀ d hd) hgs [])
    (fun d₀ hd₀ d hd a ha => ord_hyp C.toSage (hv d₀ hd₀ d hd) (hhs a ha)) _ (fun e => Iff.rfl)
  have hg : ∀ d, (!gs.all fun a => ordTrue a (ptOf d 0)) = false ↔ ∀ a ∈ gs, ordTrue a (ptOf d 0) = true := by
    intro d; simp
  have hg' : ∀ d, (!gs.all fun a => ordTrue a (ptOf d 0)) = true ↔ ∃ a ∈ gs, ordTrue a (ptOf d 0) = false := by
    intro d; simp
  refine ⟨ds, hds, hval, hneg, hpos, fun h => e1 fun d _ => (hg' d).2 (h _), fun h => ?_⟩
  obtain ⟨f1, f2⟩ := e3 fun e _ => by
    obtain ⟨a, ha, hf⟩ := h (ptOf e 0)
    rcases List.mem_append.1 ha with ha | ha
    · exact Or.inl ((hg' e).2 ⟨a, ha, hf⟩)
    · exact Or.inr ⟨a, ha, by simp [hf]⟩
  constructor
  · rintro ⟨d, hd, h1, a, ha, h2⟩
    obtain ⟨bads, st', hr, _⟩ := f1 ⟨d, ⟨d, hd, (hg d).2 h1, by simp⟩, (hg d).2 h1, a, ha, by simp [h2]⟩
    exact ⟨bads, st', hr⟩
  · rintro ⟨d, hd, h1⟩ h2
    refine f2 ⟨d, hd, (hg d).2 h1⟩ fun e _ => ?_
    by_cases hge : ∀ a ∈ gs, ordTrue a (ptOf e 0) = true
    · exact Or.inr fun a ha => by simp [h2 _ hge a ha]
    · push Not at hge
      obtain ⟨a, ha, hf⟩ := hge
      exact Or.inl ((hg' e).2 ⟨a, ha, by simpa using hf⟩)

/-- If the first hypothesis is among the selected ones, it is promoted. -/
theorem ord_promote {C : Core ℚ} (hC : OrdCore C) {n : ℕ} {a : Atom} {hs gs : List Atom} {ids : List ℕ}
    (ha : a = ordPos ∨ a = ordNeg) (hhs : ∀ b ∈ hs, b = ordPos ∨ b = ordNeg ∨ b = ordCube) {bads : List (List ℕ)}
    {st' : State} (hr : round C n ⟨a :: hs, ⟨ordMain, gs, []⟩, ids⟩ = .ok (bads, some st'))
    (hsel : ∀ ds tr cand, C.samples n ⟨a :: hs, ⟨ordMain, gs, []⟩, ids⟩ = .ok ds →
      allBads C n ⟨a :: hs, ⟨ordMain, gs, []⟩, ids⟩ ds = .ok (tr, bads) →
      goodHyps C ⟨a :: hs, ⟨ordMain, gs, []⟩, ids⟩ bads = .ok cand → cand ≠ [] → 0 ∈ cand) :
    st' = ⟨hs, ⟨ordMain, gs ++ [a], []⟩, ids.drop 1⟩ := by
  obtain ⟨ds, tr, cand, i, rest, h1, h2, h3, h4, h5⟩ := round_inv hr
  have h0 := hsel ds tr cand h1 h2 h3 (by rintro rfl; simp [sortCand] at h4)
  have hinc := hC.inc _ _ _ _ (goodHyps_solve h3)
  have hlt := (hC.opt _ _ _ _ (goodHyps_solve h3)).2.1
  obtain ⟨rest', h6⟩ := sortCand_zero (st := ⟨a :: hs, ⟨ordMain, gs, []⟩, ids⟩) hinc h0 (by
    intro j
    by_cases hj : j ∈ cand
    · left
      have hjl := hlt j hj
      have hd1 : a.poly.totalDegree = 1 := by rcases ha with rfl | rfl <;> decide +kernel
      simp only [List.getD_cons_zero, hd1]
      cases j with
      | zero => simp [hd1]
      | succ j =>
        simp only [List.length_cons] at hjl
        rw [List.getD_cons_succ, List.getD_eq_getElem _ _ (by omega)]
        rcases hhs _ (List.getElem_mem (by omega : j < hs.length)) with h | h | h <;> rw [h] <;> decide +kernel
    · exact Or.inr hj)
  rw [h6] at h4
  obtain ⟨rfl, -⟩ := List.cons.inj h4
  have hgb : Goal.addHyp C.toSage ⟨ordMain, gs, []⟩ a = .ok ⟨ordMain, gs ++ [a], []⟩ := by
    rcases ha with rfl | rfl <;> rfl
  unfold State.promote at h5
  simp only [List.getElem?_cons_zero, bind, Except.bind, hgb, Except.ok.injEq] at h5
  rw [← h5]
  simp

theorem ord_hits {C : Core ℚ} (hC : OrdCore C) {n : ℕ} {hs gs : List Atom} {ids : List ℕ}
    (hhs : ∀ b ∈ hs, b = ordPos ∨ b = ordNeg ∨ b = ordCube) (hgs : ∀ a ∈ gs, a = ordPos ∨ a = ordNeg)
    {bads : List (List ℕ)} {ds : List (Dict ℚ)} {tr : Bool} {cand : List ℕ} (hval : ∀ d ∈ ds, HasVal d)
    (h2 : allBads C n ⟨hs, ⟨ordMain, gs, []⟩, ids⟩ ds = .ok (tr, bads))
    (h3 : goodHyps C ⟨hs, ⟨ordMain, gs, []⟩, ids⟩ bads = .ok cand) (hne : cand ≠ []) {d : Dict ℚ} (hd : d ∈ ds)
    (hg : ∀ a ∈ gs, ordTrue a (ptOf d 0) = true) :
    ∃ i ∈ cand, ∃ a, hs[i]? = some a ∧ ordTrue a (ptOf d 0) = false := by
  obtain ⟨near, hnear, _⟩ := hC.more n ⟨hs, ⟨ordMain, gs, []⟩, ids⟩ d (hval d hd)
  have hgoal : Goal.evalOnDict C.toSage ⟨ordMain, gs, []⟩ d = .ok false := by
    rw [ord_goal' C.toSage (hval d hd) hgs []]
    simpa using hg
  obtain ⟨i, hi, a, ha, hf⟩ := C35_hits C
    (fun n bads w s h => ⟨(hC.opt n bads w s h).2.1, (hC.opt n bads w s h).2.2.1⟩) n _ ds bads tr cand h2 h3 hne d hd hgoal
    near hnear d (by simp) hgoal
  refine ⟨i, hi, a, ha, ?_⟩
  rw [ord_hyp C.toSage (hval d hd) (hhs a (List.mem_of_getElem? ha))] at hf
  simpa using hf

/-- The order `x0 > 0, x0 < 0, x0^3 < 0`. -/
theorem ord_first {C : Core ℚ} (hC : OrdCore C) (fuel : ℕ) (hf : 2 ≤ fuel) (ids : List ℕ) :
    check C fuel 0 ⟨[ordPos, ordNeg, ordCube], ⟨ordMain, [], []⟩, ids⟩ = .error .indexError := by
  have hnP : ordNeg ≠ ordPos := by decide +kernel
  have hcP : ordCube ≠ ordPos := by decide +kernel
  obtain ⟨fuel, rfl⟩ : ∃ f, fuel = f + 2 := ⟨fuel - 2, by omega⟩
  obtain ⟨ds, hds, hval, ⟨dn, hdn, hneg⟩, ⟨dp, hdp, hpos⟩, -, h⟩ :=
    ord_exact hC 0 [ordPos, ordNeg, ordCube] [] ids (by simp) (by simp) (by simp)
  obtain ⟨h1, -⟩ := h (fun x => by
    by_cases hx : 0 < x
    · exact ⟨ordNeg, by simp, by simp [ordTrue, hnP, hx.le]⟩
    · exact ⟨ordPos, by simp, by simpa [ordTrue] using hx⟩)
  obtain ⟨bads, st', hr⟩ := h1 ⟨dp, hdp, by simp, ordPos, by simp, by simpa [ordTrue] using hpos⟩
  have hst := ord_promote hC (Or.inl rfl) (by simp) hr (by
    intro ds' tr cand k1 k2 k3 k4
    rw [hds] at k1
    cases k1
    obtain ⟨i, hi, a, ha, hfa⟩ := ord_hits hC (by simp) (by simp) hval k2 k3 k4 hdn (by simp)
    match i, ha with
    | 0, _ => exact hi
    | 1, ha => simp at ha; subst ha; simp [ordTrue, hnP] at hfa; linarith
    | 2, ha => simp at ha; subst ha; simp [ordTrue, hcP] at hfa; linarith
    | _ + 3, ha => simp at ha)
  subst hst
  obtain ⟨ds₂, hds₂, hval₂, -, ⟨dp₂, hdp₂, hpos₂⟩, -, h⟩ :=
    ord_exact hC 1 [ordNeg, ordCube] [ordPos] (ids.drop 1) (by simp) (by simp) (by simp)
  obtain ⟨-, h2⟩ := h (fun x => by
    by_cases hx : 0 < x
    · exact ⟨ordNeg, by simp, by simp [ordTrue, hnP, hx.le]⟩
    · exact ⟨ordPos, by simp, by simpa [ordTrue] using hx⟩)
  have hr2 := h2 ⟨dp₂, hdp₂, by simpa [ordTrue] using hpos₂⟩ (fun x hx a ha => by
    have hx' : 0 < x := by simpa [ordTrue] using hx ordPos (by simp)
    simp at ha
    rcases ha with rfl | rfl
    · simp [ordTrue, hnP, hx'.le]
    · simp [ordTrue, hcP, hx'.le])
  unfold check
  simp only [bind, Except.bind]
  rw [hr]
  simp only [List.nil_append]
  unfold check
  simp only [bind, Except.bind]
  rw [hr2]

/-- The order `x0 < 0, x0 > 0, x0^3 < 0`. -/
theorem ord_second {C : Core ℚ} (hC : OrdCore C) (fuel : ℕ) (hf : 3 ≤ fuel) (ids : List ℕ) :
    ∃ ret, check C fuel 0 ⟨[ordNeg, ordPos, ordCube], ⟨ordMain, [], []⟩, ids⟩ =
      .ok (ret, ⟨[ordCube], ⟨ordMain, [ordNeg, ordPos], []⟩, (ids.drop 1).drop 1⟩) := by
  have hnP : ordNeg ≠ ordPos := by decide +kernel
  have hcP : ordCube ≠ ordPos := by decide +kernel
  obtain ⟨fuel, rfl⟩ : ∃ f, fuel = f + 3 := ⟨fuel - 3, by omega⟩
  obtain ⟨ds, hds, hval, ⟨dn, hdn, hneg⟩, ⟨dp, hdp, hpos⟩, -, h⟩ :=
    ord_exact hC 0 [ordNeg, ordPos, ordCube] [] ids (by simp) (by simp) (by simp)
  obtain ⟨h1, -⟩ := h (fun x => by
    by_cases hx : 0 < x
    · exact ⟨ordNeg, by simp, by simp [ordTrue, hnP, hx.le]⟩
    · exact ⟨ordPos, by simp, by simpa [ordTrue] using hx⟩)
  obtain ⟨bads, st', hr⟩ := h1 ⟨dp, hdp, by simp, ordPos, by simp, by simpa [ordTrue] using hpos⟩
  have hst := ord_promote hC (Or.inr rfl) (by simp) hr (by
    intro ds' tr cand k1 k2 k3 k4
    rw [hds] at k1
    cases k1
    obtain ⟨i, hi, a, ha, hfa⟩ := ord_hits hC (by simp) (by simp) hval k2 k3 k4 hdp (by simp)
    have hmin := (hC.opt _ _ _ _ (goodHyps_solve k3)).2.2.2 [0, 1] (by simp) (by simp) (by
      intro b hb
      obtain ⟨d₀, hd₀, near, hnear, d, hd, -, htrue⟩ := allBads_from C 0 _ ds tr bads k2 b hb
      have hdv : HasVal d := by
        obtain ⟨near', hn1, hn2⟩ := hC.more 0 ⟨[ordNeg, ordPos, ordCube], ⟨ordMain, [], []⟩, ids⟩ d₀ (hval d₀ hd₀)
        rw [hnear] at hn1
        cases hn1
        rcases List.mem_cons.1 hd with rfl | hd
        · exact hval d hd₀
        · exact hn2 d hd
      have hspec := trueHyps_spec C.toSage d [ordNeg, ordPos, ordCube] 0 b htrue
      by_contra hno
      push Not at hno
      obtain ⟨m0, a0, e0, g0, t0⟩ := (hspec 0).1 (hno 0 (by simp))
      obtain ⟨m1, a1, e1, g1, t1⟩ := (hspec 1).1 (hno 1 (by simp))
      obtain rfl : m0 = 0 := by omega
      obtain rfl : m1 = 1 := by omega
      simp at g0 g1
      subst g0 g1
      rw [ord_hyp C.toSage hdv (by simp)] at t0 t1
      simp [ordTrue, hnP] at t0 t1
      linarith)
    have hw : weightHyps ⟨[ordNeg, ordPos, ordCube], ⟨ordMain, [], []⟩, ids⟩ = [1, 1, 20] := by
      unfold weightHyps
      dsimp only
      decide +kernel
    rw [hw] at hmin
    match i, ha with
    | 0, _ => exact hi
    | 1, ha => simp at ha; subst ha; simp [ordTrue] at hfa; linarith
    | 2, _ =>
      have := List.single_le_sum (l := cand.map fun i => [1, 1, 20].getD i 0) (by simp) 20
        (List.mem_map.2 ⟨2, hi, rfl⟩)
      simp at hmin this
      omega
    | _ + 3, ha => simp at ha)
  subst hst
  obtain ⟨ds₂, hds₂, hval₂, ⟨dn₂, hdn₂, hneg₂⟩, -, -, h⟩ :=
    ord_exact hC 1 [ordPos, ordCube] [ordNeg] (ids.drop 1) (by simp) (by simp) (by simp)
  obtain ⟨h2, -⟩ := h (fun x => by
    by_cases hx : 0 < x
    · exact ⟨ordNeg, by simp, by simp [ordTrue, hnP, hx.le]⟩
    · exact ⟨ordPos, by simp, by simpa [ordTrue] using hx⟩)
  obtain ⟨bads₂, st₂, hr₂⟩ := h2 ⟨dn₂, hdn₂, by simpa [ordTrue, hnP] using hneg₂, ordCube, by simp,
    by simpa [ordTrue, hcP] using hneg₂⟩
  have hst₂ := ord_promote hC (Or.inl rfl) (by simp) hr₂ (by
    intro ds' tr cand k1 k2 k3 k4
    rw [hds₂] at k1
    cases k1
    obtain ⟨i, hi, a, ha, hfa⟩ := ord_hits hC (by simp) (by simp) hval₂ k2 k3 k4 hdn₂ (by simpa [ordTrue, hnP] using hneg₂)
    match i, ha with
    | 0, _ => exact hi
    | 1, ha => simp at ha; subst ha; simp [ordTrue, hcP] at hfa; linarith
    | _ + 2, ha => simp at ha)
  subst hst₂
  obtain ⟨-, -, -, -, -, h3, -⟩ :=
    ord_exact hC 2 [ordCube] [ordNeg, ordPos] ((ids.drop 1).drop 1) (by simp) (by simp) (by simp)
  have hr₃ := h3 (fun x => by
    by_cases hx : 0 < x
    · exact ⟨ordNeg, by simp, by simp [ordTrue, hnP, hx.le]⟩
    · exact ⟨ordPos, by simp, by simpa [ordTrue] using hx⟩)
  refine ⟨bads, ?_⟩
  unfold check
  simp only [bind, Except.bind]
  rw [hr]
  simp only [List.nil_append]
  unfold check
  simp only [bind, Except.bind]
  rw [hr₂]
  simp only [List.cons_append, List.nil_append]
  unfold check
  simp only [bind, Except.bind]
  rw [hr₃]

/-- **C109** is violated: the valid sequent `x0 > 0, x0 < 0, x0^3 < 0 ⊢ x0^2 < 0` (its hypotheses contradict each other) ends
with `IndexError`, and is proved when the first two hypotheses are exchanged. This is so for all points of local search and
all optimal solvers, if the sample points contain a negative and a positive one. -/
theorem C109_violated (C : Core ℚ) (hC : OrdCore C) (fuel : ℕ) (hf : 3 ≤ fuel) (ids : List ℕ) :
    ∃ h₁ h₂ h₃ main : Atom, mkAtom (MPoly.var 0) ">" (MPoly.const 0) = .ok h₁ ∧
      mkAtom (MPoly.var 0) "<" (MPoly.const 0) = .ok h₂ ∧
      mkAtom ((MPoly.var 0).mul ((MPoly.var 0).mul (MPoly.var 0))) "<" (MPoly.const 0) = .ok h₃ ∧
      mkAtom ((MPoly.var 0).mul (MPoly.var 0)) "<" (MPoly.const 0) = .ok main ∧
      check C fuel 0 ⟨[h₁, h₂, h₃], ⟨main, [], []⟩, ids⟩ = .error .indexError ∧
      ∃ ret st', check C fuel 0 ⟨[h₂, h₁, h₃], ⟨main, [], []⟩, ids⟩ = .ok (ret, st') ∧
      ∀ ρ : ℕ → ℝ, ¬ (h₁.holds ρ ∧ h₂.holds ρ) := by
  obtain ⟨ret, h2⟩ := ord_second hC fuel hf ids
  refine ⟨ordPos, ordNeg, ordCube, ordMain, ?_, ?_, ?_, ?_, ord_first hC fuel (by omega) ids, ret, _, h2, ?_⟩
  · decide +kernel
  · decide +kernel
  · decide +kernel
  · decide +kernel
  · rintro ρ ⟨h1, h2⟩
    simp only [Atom.holds, ordPos, ordNeg, rel, MPoly.eval_var] at h1 h2
    exact lt_asymm h1 h2

/-- The sampling core of the program is such a core, when the functions of Sage are right. -/
theorem ordCore_cad (S : Sage ℚ) (hS : SageOK S) (E : CadEnv) (hE : RootsOK ℝ E) (hE' : CountOK E) (numSps : ℕ)
    (more : ℕ → State → Dict ℚ → Except GErr (List (Dict ℚ)))
    (hmore : ∀ k st d, HasVal d → ∃ near, more k st d = .ok near ∧ ∀ e ∈ near, HasVal e)
    (solve : ℕ → List (List ℕ) → List ℕ → Option (List ℕ))
    (hopt : SolverOpt (cadCore S E 1 numSps (fun _ _ => []) more solve))
    (hcomp : SolverComplete (cadCore S E 1 numSps (fun _ _ => []) more solve))
    (hinc : SolverInc (cadCore S E 1 numSps (fun _ _ => []) more solve)) :
    OrdCore (cadCore S E 1 numSps (fun _ _ => []) more solve) := by
  refine ⟨hS, fun k st hm hh => ?_, hmore, hopt, hcomp, hinc⟩
  have hU : Univ (MPoly.var 0) := ⟨⟨0, by decide +kernel⟩, 1, by decide +kernel⟩
  have hval : ∀ a : ℚ, val (MPoly.var 0) a = 0 ↔ a = 0 := by
    intro a
    simp [val, MPoly.eval_var]
  obtain ⟨m, hroots⟩ : ∃ m, E.roots (MPoly.var 0) = [(0, m)] := by
    have h1 := hE.roots _ hU
    have h2 := hE'.roots _ hU
    obtain ⟨m, hm⟩ := (h1 0).2 ((hval 0).2 rfl)
    cases hr : E.roots (MPoly.var 0) with
    | nil => rw [hr] at hm; cases hm
    | cons e l =>
      have hz : ∀ e ∈ E.roots (MPoly.var 0), e.1 = 0 := fun e he => (hval _).1 ((h1 e.1).1 ⟨e.2, he⟩)
      cases l with
      | nil =>
        refine ⟨e.2, ?_⟩
        have := hz e (by rw [hr]; simp)
        rw [← this]
      | cons e' l =>
        rw [hr] at h2 hz
        have a1 := hz e (by simp)
        have a2 := hz e' (by simp)
        simp [a1, a2] at h2
  have htop : filterProjSet (st.goal.main.poly :: st.goal.hyps.map Atom.poly) = [MPoly.var 0] := by
    have hp : ∀ p ∈ st.goal.main.poly :: st.goal.hyps.map Atom.poly, p.isConstant = false ∧ purePolyBase p = MPoly.var 0 := by
      intro p hp
      rcases List.mem_cons.1 hp with rfl | hp
      · rw [hm]; decide +kernel
      · obtain ⟨a, ha, rfl⟩ := List.mem_map.1 hp
        rcases hh a ha with rfl | rfl <;> decide +kernel
    generalize st.goal.main.poly = q at hp ⊢
    generalize st.goal.hyps.map Atom.poly = l at hp ⊢
    unfold filterProjSet
    rw [List.filter_eq_self.2 fun p h => by simp [(hp p h).1], List.map_congr_left fun p h => (hp p h).2]
    rw [List.map_const']
    have : ∀ n, (List.replicate (n + 1) (MPoly.var 0)).dedup = [MPoly.var 0] := by
      intro n
      induction n with
      | zero => decide +kernel
      | succ n ih => rw [List.replicate_succ, List.dedup_cons_of_mem (by simp [List.replicate_succ]), ih]
    exact this _
  have hsam : (cadCore S E 1 numSps (fun _ _ => []) more solve).samples k st =
      .ok [[(0, -1)], [(0, 0)], [(0, 1)]] := by
    show samplePtDicts S E 1 ([] ++ st.goal.main.poly :: st.goal.hyps.map Atom.poly) (some st.goal) numSps st.hyps = _
    unfold samplePtDicts
    rw [List.nil_append, htop]
    have hord : projOrd [MPoly.var 0] (List.range 1) = [0] := by decide +kernel
    have hiso : isoRootIntvls E [MPoly.var 0] = [((0, 0), m)] := by
      have hp : MPoly.const 1 = ((([MPoly.var 0].filter fun p => decide (E.roots p = [])).foldl MPoly.mul (MPoly.const 1))) := by
        simp [hroots]
      unfold isoRootIntvls
      simp only [← hp]
      simp [hroots]
    have hsec : sectorSps E [] [((0, 0), m)] 1 st.hyps 0 = [-1, 0, 1] := by
      have : ∀ u : Bool → ℕ → ℕ → ℚ → ℚ → ℚ, sectorRoots u 1 [(0, 0)] = [-1, 0, 1] := by
        intro u
        show ([((⌊(0 : ℚ) - 1⌋ : ℤ) : ℚ), ((⌈(0 : ℚ) + 1⌉ : ℤ) : ℚ)] ++ [] ++ [(0 : ℚ)]).insertionSort (· ≤ ·) = _
        decide +kernel
      exact this (E.uniform [])
    have hps : projSets E [0] (1 - 1) [MPoly.var 0] = [[MPoly.var 0]] := rfl
    simp only [hord, hps, hiso, hsec, bind, Except.bind, liftAll]
    decide +kernel
  refine ⟨_, hsam, ?_, ⟨[(0, -1)], by simp, by decide +kernel⟩, ⟨[(0, 1)], by simp, by decide +kernel⟩⟩
  unfold HasVal
  decide +kernel

theorem testCore_ord : OrdCore (testCore [[(0, -1)], [(0, 1)]] [[(0, 1 / 2)]]) where
  sage := testSage_ok
  samples := fun k st _ _ => ⟨_, rfl, by unfold HasVal; decide +kernel, ⟨[(0, -1)], by simp, by decide +kernel⟩,
    ⟨[(0, 1)], by simp, by decide +kernel⟩⟩
  more := fun k st d _ => ⟨_, rfl, by unfold HasVal; decide +kernel⟩
  opt := fun _ _ _ _ h => bruteSolve_opt h
  complete := (bruteSolve_ok _ _).2
  inc := by
    intro n bads w s h
    have h1 : s ∈ (List.range n).sublists.filter (hits bads) := List.argmin_mem h
    exact List.pairwise_lt_range.sublist (List.mem_sublists.1 (List.mem_filter.1 h1).1)

/-- The assumptions of `C109_violated` are met by a core with two sample points and a point of local search. -/
example : check (testCore [[(0, -1)], [(0, 1)]] [[(0, 1 / 2)]]) 3 0
    ⟨[ordPos, ordNeg, ordCube], ⟨ordMain, [], []⟩, [0, 1, 2]⟩ = .error .indexError :=
  ord_first testCore_ord 3 (by simp) _

/-- The assumptions of `C109_partial` are met by the same sequent, which is proved in the other order. -/
example : let C := testCore [[(0, -1)], [(0, 1)]] [[(0, 1 / 2)]]
    ∀ fuel ids, check C fuel 0 ⟨[ordCube, ordPos, ordNeg], ⟨ordMain, [], []⟩, ids⟩ ≠ .error .counterexample := by
  intro C fuel ids
  obtain ⟨ret, h⟩ := ord_second testCore_ord 3 (by simp) [0, 1, 2]
  refine C109_partial C testSage_ok 1 (by simp) ⟨?_, fun ps h => h⟩ ⟨?_, ?_, ?_⟩ [ordNeg, ordPos, ordCube] _
    (by decide +kernel) ordMain (by decide +kernel) (by decide +kernel) 3 fuel [0, 1, 2] ids ret _ ?_ h
  · intro p B hp _ v hv
    simp only [C, testCore, testSage] at hv
    split at hv
    · simp [MPoly.vars] at hv
    · exact hp v hv
  · intro k st ds h d hd v hv
    obtain rfl : v = 0 := by omega
    cases h
    simp at hd
    rcases hd with rfl | rfl <;> decide +kernel
  · intro k st d ds _ h e he v hv
    obtain rfl : v = 0 := by omega
    cases h
    simp at he
    subst he
    decide +kernel
  · intro k st
    simp [C, testCore]
  · intro k ds _ _ ρ hρ
    have h1 := hρ ordPos (by simp)
    have h2 := hρ ordNeg (by simp)
    simp only [Atom.holds, ordPos, ordNeg, rel, MPoly.eval_var] at h1 h2
    exact absurd h1 (lt_asymm h2)

end Verif.Grf
