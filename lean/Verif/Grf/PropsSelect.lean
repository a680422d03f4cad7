import Verif.Grf.PropsLoop
import Mathlib.Algebra.BigOperators.Group.List.Basic
import Mathlib.Algebra.Order.BigOperators.Group.List

/-!
# C73: the selected hypotheses are irredundant and related to the goal

`SolverOpt` is what the 0-1 optimisation is asked for: a duplicate-free list of indices that meets the
constraints, of least total weight. `bruteSolve` has this property.
-/

set_option linter.unusedSectionVars false

namespace Verif.Grf

variable {K : Type} [Field K] [LinearOrder K] [IsStrictOrderedRing K]

/-- The solver returns a duplicate-free list of indices that meets the constraints (every bad set misses one of
them), and no other such list has a smaller total weight. -/
def SolverOpt (C : Core K) : Prop := ∀ n bads w s, C.solve n bads w = some s →
  s.Nodup ∧ (∀ i ∈ s, i < n) ∧ (∀ b ∈ bads, ∃ i ∈ s, i ∉ b) ∧
    ∀ s' : List ℕ, s'.Nodup → (∀ i ∈ s', i < n) → (∀ b ∈ bads, ∃ i ∈ s', i ∉ b) →
      (s.map fun i => w.getD i 0).sum ≤ (s'.map fun i => w.getD i 0).sum

/-- Every recorded set is the set of true hypotheses at a sample point where the goal is false. -/
theorem badLoop_from (S : Sage K) (st : State) : ∀ (ds : List (Dict K)) (bads out : List (List ℕ)),
    badLoop S st ds bads = .ok out →
    ∀ b ∈ out, b ∈ bads ∨ ∃ d ∈ ds, st.goal.evalOnDict S d = .ok false ∧ trueHyps S d 0 st.hyps = .ok b := by
  intro ds
  induction ds with
  | nil => intro bads out h b hb; cases h; exact Or.inl hb
  | cons d ds ih =>
    intro bads out h b hb
    unfold badLoop at h
    simp only [bind, Except.bind] at h
    split at h
    · cases h
    · next g hg =>
      cases g with
      | true =>
        simp only [if_true] at h
        rcases ih bads out h b hb with h' | ⟨e, he, h'⟩
        · exact Or.inl h'
        · exact Or.inr ⟨e, by simp [he], h'⟩
      | false =>
        simp only [Bool.false_eq_true, if_false] at h
        split at h
        · cases h
        · next b' hb' =>
          split at h
          · cases h
          · rcases ih _ out h b hb with h' | ⟨e, he, h'⟩
            · unfold addBad at h'
              split at h'
              · rcases List.mem_append.1 h' with h' | h'
                · exact Or.inl (List.mem_dedup.1 (List.mem_filter.1 h').1)
                · rw [List.mem_singleton] at h'
                  subst h'
                  exact Or.inr ⟨d, by simp, hg, hb'⟩
              · exact Or.inl h'
            · exact Or.inr ⟨e, by simp [he], h'⟩

theorem allBads_from (C : Core K) (n : ℕ) (st : State) : ∀ (ds : List (Dict K)) (tr : Bool)
    (bads : List (List ℕ)), allBads C n st ds = .ok (tr, bads) → ∀ b ∈ bads,
      ∃ d₀ ∈ ds, ∃ near, C.more n st d₀ = .ok near ∧ ∃ d ∈ d₀ :: near,
        st.goal.evalOnDict C.toSage d = .ok false ∧ trueHyps C.toSage d 0 st.hyps = .ok b := by
  intro ds
  induction ds with
  | nil => intro tr bads h b hb; cases h; simp at hb
  | cons e ds ih =>
    intro tr bads h b hb
    unfold allBads at h
    simp only [bind, Except.bind] at h
    split at h
    · cases h
    · next x hx =>
      split at h
      · cases h
      · next r hr =>
        have hrec : b ∈ r.2 → ∃ d₀ ∈ e :: ds, ∃ near, C.more n st d₀ = .ok near ∧ ∃ d ∈ d₀ :: near,
            st.goal.evalOnDict C.toSage d = .ok false ∧ trueHyps C.toSage d 0 st.hyps = .ok b := by
          intro hb'
          obtain ⟨d₀, hd₀, h'⟩ := ih r.1 r.2 hr b hb'
          exact ⟨d₀, by simp [hd₀], h'⟩
        cases x with
        | none => cases h; exact hrec hb
        | some bs =>
          cases h
          rcases List.mem_append.1 hb with hb' | hb'
          · refine ⟨e, by simp, ?_⟩
            unfold badSubsets at hx
            simp only [bind, Except.bind] at hx
            split at hx
            · cases hx
            · split at hx
              · cases hx
              · split at hx
                · cases hx
                · split at hx
                  · cases hx
                  · next near hnear =>
                    split at hx
                    · cases hx
                    · next out hout =>
                      cases hx
                      refine ⟨near, hnear, ?_⟩
                      rcases badLoop_from C.toSage st _ _ _ hout b hb' with h' | h'
                      · simp at h'
                      · exact h'
          · exact hrec hb'

theorem hypWeight_pos (gv : List ℕ) (h : Atom) : 0 < hypWeight gv h := by
  unfold hypWeight
  split <;> omega

theorem weight_getD (st : State) {i : ℕ} (hi : i < st.hyps.length) :
    (weightHyps st).getD i 0 =
      hypWeight ((st.goal.hyps ++ [st.goal.main]).flatMap fun h => h.poly.vars) st.hyps[i] := by
  unfold weightHyps
  rw [List.getD_eq_getElem?_getD, List.getElem?_map, List.getElem?_eq_getElem hi]
  rfl

theorem goodHyps_solve {C : Core K} {st : State} {bads : List (List ℕ)} {cand : List ℕ}
    (hc : goodHyps C st bads = .ok cand) : C.solve st.hyps.length bads (weightHyps st) = some cand := by
  unfold goodHyps at hc
  split at hc
  · cases hc
  · next s hs => cases hc; exact hs

/-- **C73**: no selected hypothesis is superfluous. For each of them there is a sample point of the round, at which
the goal is false, that no other selected hypothesis falsifies: there the others are all true, and it is not. -/
theorem C73_irredundant (C : Core K) (hC : SolverOpt C) (n : ℕ) (st : State) (ds : List (Dict K))
    (bads : List (List ℕ)) (tr : Bool) (cand : List ℕ)
    (hb : allBads C n st ds = .ok (tr, bads)) (hc : goodHyps C st bads = .ok cand) :
    cand.Nodup ∧ ∀ i ∈ cand, ∃ d₀ ∈ ds, ∃ near, C.more n st d₀ = .ok near ∧ ∃ d ∈ d₀ :: near,
      st.goal.evalOnDict C.toSage d = .ok false ∧
      (∃ a, st.hyps[i]? = some a ∧ a.evalOnDict C.toSage d ≠ .ok (some true)) ∧
      ∀ j ∈ cand, j ≠ i → ∃ a, st.hyps[j]? = some a ∧ a.evalOnDict C.toSage d = .ok (some true) := by
  obtain ⟨hnd, hlt, hhit, hmin⟩ := hC _ _ _ _ (goodHyps_solve hc)
  refine ⟨hnd, fun i hi => ?_⟩
  obtain ⟨b, hbm, hbi⟩ : ∃ b ∈ bads, ∀ j ∈ cand.erase i, j ∈ b := by
    by_contra hno
    push Not at hno
    have h1 := hmin (cand.erase i) (hnd.erase i) (fun j hj => hlt j (List.mem_of_mem_erase hj)) hno
    have h2 : (cand.map fun i => (weightHyps st).getD i 0).sum =
        (weightHyps st).getD i 0 + ((cand.erase i).map fun i => (weightHyps st).getD i 0).sum := by
      rw [((List.perm_cons_erase hi).map _).sum_eq, List.map_cons, List.sum_cons]
    have h3 : 0 < (weightHyps st).getD i 0 := by
      rw [weight_getD st (hlt i hi)]; exact hypWeight_pos _ _
    omega
  obtain ⟨d₀, hd₀, near, hnear, d, hd, hg, htrue⟩ := allBads_from C n st ds tr bads hb b hbm
  have hspec := trueHyps_spec C.toSage d st.hyps 0 b htrue
  have hib : i ∉ b := by
    obtain ⟨j, hj, hjb⟩ := hhit b hbm
    by_cases hji : j = i
    · rwa [hji] at hjb
    · exact absurd (hbi j ((List.mem_erase_of_ne hji).2 hj)) hjb
  refine ⟨d₀, hd₀, near, hnear, d, hd, hg, ?_, ?_⟩
  · refine ⟨st.hyps[i]'(hlt i hi), List.getElem?_eq_getElem _, fun hev => hib ?_⟩
    exact (hspec i).2 ⟨i, _, by simp, List.getElem?_eq_getElem _, hev⟩
  · intro j hj hji
    obtain ⟨m, a, h1, h2, h3⟩ := (hspec j).1 (hbi j ((List.mem_erase_of_ne hji).2 hj))
    rw [Nat.zero_add] at h1
    subst h1
    exact ⟨a, h2, h3⟩

theorem totalDegree_le {p : MPoly} {d : ℕ} (h : ∀ t ∈ p, t.1.sum ≤ d) : p.totalDegree ≤ d := by
  unfold MPoly.totalDegree
  induction p with
  | nil => simp
  | cons t p ih =>
    simp only [List.map_cons, List.foldr_cons]
    exact max_le (h t (by simp)) (ih fun u hu => h u (by simp [hu]))

/-- **C73**: hypotheses without a variable in common with the goal are only selected when there is no cheap
alternative. If some hypotheses `s` that share variables with the goal falsify all recorded sets, and the sum of
`max (10*(degree-1) + 100*(number of variables-1)) 1` over them is below 10000, then every selected
hypothesis shares a variable with the goal. (`deg i` bounds the sums of the exponents in the terms of hypothesis `i`.) -/
theorem C73_relevant (C : Core K) (hC : SolverOpt C) (st : State) (bads : List (List ℕ)) (cand : List ℕ)
    (hc : goodHyps C st bads = .ok cand) (s : List ℕ) (hs : s.Nodup) (hlt : ∀ i ∈ s, i < st.hyps.length)
    (hhit : ∀ b ∈ bads, ∃ i ∈ s, i ∉ b)
    (hrel : ∀ i ∈ s, ∀ a, st.hyps[i]? = some a → ∃ v ∈ a.poly.vars, ∃ g ∈ st.goal.main :: st.goal.hyps,
      v ∈ g.poly.vars)
    (deg : ℕ → ℕ) (hdeg : ∀ i ∈ s, ∀ a, st.hyps[i]? = some a → ∀ t ∈ a.poly, t.1.sum ≤ deg i)
    (hcheap : (s.map fun i => max (10 * (deg i - 1) + 100 * ((st.hyps.getD i ⟨[], .eq, []⟩).poly.vars.length - 1)) 1).sum
      < 10000) :
    ∀ i ∈ cand, ∀ a, st.hyps[i]? = some a → ∃ v ∈ a.poly.vars, ∃ g ∈ st.goal.main :: st.goal.hyps,
      v ∈ g.poly.vars := by
  obtain ⟨_, hlt', _, hmin⟩ := hC _ _ _ _ (goodHyps_solve hc)
  set gv := (st.goal.hyps ++ [st.goal.main]).flatMap fun h => h.poly.vars with hgv
  have hgvm : ∀ v, v ∈ gv ↔ ∃ g ∈ st.goal.main :: st.goal.hyps, v ∈ g.poly.vars := by
    intro v
    simp only [hgv, List.mem_flatMap, List.mem_append, List.mem_cons]
    constructor <;> rintro ⟨g, hg, hv⟩ <;> exact ⟨g, by tauto, hv⟩
  have hle := hmin s hs hlt hhit
  have hcost : (s.map fun i => (weightHyps st).getD i 0).sum ≤
      (s.map fun i => max (10 * (deg i - 1) + 100 * ((st.hyps.getD i ⟨[], .eq, []⟩).poly.vars.length - 1)) 1).sum := by
    apply List.sum_le_sum
    intro i hi
    have hil := hlt i hi
    obtain ⟨v, hv, hg⟩ := hrel i hi _ (List.getElem?_eq_getElem hil)
    rw [weight_getD st hil, List.getD_eq_getElem?_getD, List.getElem?_eq_getElem hil, Option.getD_some]
    unfold hypWeight
    rw [if_neg]
    · have h1 := totalDegree_le (hdeg i hi _ (List.getElem?_eq_getElem hil))
      omega
    · rw [List.length_eq_zero_iff, List.eq_nil_iff_forall_not_mem]
      intro h
      exact h v (List.mem_filter.2 ⟨hv, decide_eq_true ((hgvm v).2 hg)⟩)
  have hle := hle.trans hcost
  intro i hi a ha
  have hil := hlt' i hi
  rw [List.getElem?_eq_getElem hil, Option.some.injEq] at ha
  subst ha
  by_contra hno
  push Not at hno
  have hw : (weightHyps st).getD i 0 = 10000 := by
    rw [weight_getD st hil]
    unfold hypWeight
    rw [if_pos]
    rw [List.length_eq_zero_iff, List.eq_nil_iff_forall_not_mem]
    intro v hv
    rw [List.mem_filter, decide_eq_true_eq] at hv
    obtain ⟨g, hg, hvg⟩ := (hgvm v).1 hv.2
    exact hno v hv.1 g hg hvg
  have hsum : (weightHyps st).getD i 0 ≤ (cand.map fun i => (weightHyps st).getD i 0).sum :=
    List.single_le_sum (by simp) _ (List.mem_map.2 ⟨i, hi, rfl⟩)
  omega

theorem bruteSolve_opt {n : ℕ} {bads : List (List ℕ)} {w s : List ℕ} (h : bruteSolve n bads w = some s) :
    s.Nodup ∧ (∀ i ∈ s, i < n) ∧ (∀ b ∈ bads, ∃ i ∈ s, i ∉ b) ∧
    ∀ s' : List ℕ, s'.Nodup → (∀ i ∈ s', i < n) → (∀ b ∈ bads, ∃ i ∈ s', i ∉ b) →
      (s.map fun i => w.getD i 0).sum ≤ (s'.map fun i => w.getD i 0).sum := by
  unfold bruteSolve at h
  have hm := List.argmin_mem h
  rw [List.mem_filter, List.mem_sublists] at hm
  refine ⟨hm.1.nodup List.nodup_range, fun i hi => List.mem_range.1 (hm.1.subset hi), ?_, ?_⟩
  · simpa [hits] using hm.2
  · intro s' h1 h2 h3
    have hp : s'.Perm ((List.range n).filter fun i => decide (i ∈ s')) := by
      rw [List.perm_ext_iff_of_nodup h1 (List.nodup_range.filter _)]
      intro i
      rw [List.mem_filter, List.mem_range, decide_eq_true_eq]
      exact ⟨fun h => ⟨h2 i h, h⟩, fun h => h.2⟩
    have hmem : ((List.range n).filter fun i => decide (i ∈ s')) ∈ (List.range n).sublists.filter (hits bads) := by
      rw [List.mem_filter, List.mem_sublists]
      refine ⟨List.filter_sublist, ?_⟩
      unfold hits
      rw [List.all_eq_true]
      intro b hb
      obtain ⟨i, hi, hib⟩ := h3 b hb
      rw [List.any_eq_true]
      exact ⟨i, hp.subset hi, by simpa using hib⟩
    have := List.le_of_mem_argmin hmem h
    rw [(hp.map _).sum_eq]
    exact this

/-- The hypotheses of C73 hold for a core with the solver by enumeration: for `x0 > 0, x1 > 0 ⊢ x0 + 1 > 0` with the
sample point `x0 = -2, x1 = 1` the recorded set is `{1}` and `x0 > 0` is selected. -/
example : SolverOpt (testCore [[(0, -2), (1, 1)]] []) ∧
    (allBads (testCore [[(0, -2), (1, 1)]] []) 0
      ⟨[⟨MPoly.var 0, .gt, [0]⟩, ⟨MPoly.var 1, .gt, [1]⟩],
        ⟨⟨(MPoly.var 0).add (MPoly.const 1), .gt, [0]⟩, [], []⟩, [0, 1]⟩ [[(0, -2), (1, 1)]]).toOption =
      some (false, [[1]]) ∧
    (goodHyps (testCore [[(0, -2), (1, 1)]] [])
      ⟨[⟨MPoly.var 0, .gt, [0]⟩, ⟨MPoly.var 1, .gt, [1]⟩],
        ⟨⟨(MPoly.var 0).add (MPoly.const 1), .gt, [0]⟩, [], []⟩, [0, 1]⟩ [[1]]).toOption = some [0] :=
  ⟨fun _ _ _ _ h => bruteSolve_opt h, by decide +kernel, by decide +kernel⟩

/-- C73_relevant: there the hypothesis `x0 > 0` alone is such a cheap alternative. -/
example : (∀ b ∈ [[1]], ∃ i ∈ [0], i ∉ b) ∧ (∀ t ∈ MPoly.var 0, t.1.sum ≤ 1) ∧
    max (10 * (1 - 1) + 100 * ((MPoly.var 0).vars.length - 1)) 1 < 10000 := by decide +kernel

end Verif.Grf
