import Verif.Grf.PropsSelect

/-!
# C84: which of the selected hypotheses is promoted

The program announces "Sorting candidates by hypothesis weight" and promotes the first one; the key of the sorting is the
total degree, not the weight.
-/

set_option linter.unusedSectionVars false

namespace Verif.Grf

variable {K : Type} [Field K] [LinearOrder K] [IsStrictOrderedRing K]

/-- `d` is the total degree: the largest sum of the exponents of a term (0 without terms). -/
def HasDegree (p : MPoly) (d : ℕ) : Prop := (∀ t ∈ p, t.1.sum ≤ d) ∧ (d = 0 ∨ ∃ t ∈ p, t.1.sum = d)

theorem hasDegree_iff (p : MPoly) (d : ℕ) : HasDegree p d ↔ p.totalDegree = d := by
  have h1 : HasDegree p p.totalDegree := by
    unfold HasDegree MPoly.totalDegree
    induction p with
    | nil => simp
    | cons t p ih =>
      simp only [List.map_cons, List.foldr_cons, List.mem_cons, forall_eq_or_imp, exists_eq_or_imp]
      refine ⟨⟨le_max_left _ _, fun u hu => (ih.1 u hu).trans (le_max_right _ _)⟩, ?_⟩
      rcases le_total t.1.deg ((p.map fun t => t.1.deg).foldr max 0) with h | h
      · rw [max_eq_right h]
        rcases ih.2 with h' | h'
        · exact Or.inl h'
        · exact Or.inr (Or.inr h')
      · rw [max_eq_left h]
        exact Or.inr (Or.inl rfl)
  constructor
  · rintro ⟨h2, h3⟩
    apply le_antisymm (totalDegree_le h2)
    rcases h3 with rfl | ⟨t, ht, rfl⟩
    · exact Nat.zero_le _
    · exact h1.1 t ht
  · rintro rfl; exact h1

theorem round_promotes {C : Core K} {n : ℕ} {st st' : State} {bads : List (List ℕ)}
    (h : round C n st = .ok (bads, some st')) : ∃ cand i rest, goodHyps C st bads = .ok cand ∧
      sortCand st cand = i :: rest ∧ st.promote C.toSage i = .ok st' := by
  unfold round at h
  simp only [bind, Except.bind] at h
  split at h
  · cases h
  · split at h
    · cases h
    · split at h
      · cases h
      · split at h
        · cases h
        · next cand hc =>
          split at h
          · cases h
          · next i rest hs =>
            split at h
            · cases h
            · next _ st₁ h1 => cases h; exact ⟨cand, i, rest, hc, hs, h1⟩

theorem sortCand_head {st : State} {cand rest : List ℕ} {i : ℕ} (h : sortCand st cand = i :: rest) :
    i ∈ cand ∧ (∀ j ∈ cand,
      (st.hyps.getD i ⟨[], .eq, []⟩).poly.totalDegree ≤ (st.hyps.getD j ⟨[], .eq, []⟩).poly.totalDegree) ∧
    (cand.Nodup → ∀ l r, cand = l ++ i :: r → ∀ j ∈ l,
      (st.hyps.getD i ⟨[], .eq, []⟩).poly.totalDegree < (st.hyps.getD j ⟨[], .eq, []⟩).poly.totalDegree) := by
  have htr : ∀ a b c : ℕ, decide ((st.hyps.getD a ⟨[], .eq, []⟩).poly.totalDegree ≤ (st.hyps.getD b ⟨[], .eq, []⟩).poly.totalDegree) = true →
      decide ((st.hyps.getD b ⟨[], .eq, []⟩).poly.totalDegree ≤ (st.hyps.getD c ⟨[], .eq, []⟩).poly.totalDegree) = true →
      decide ((st.hyps.getD a ⟨[], .eq, []⟩).poly.totalDegree ≤ (st.hyps.getD c ⟨[], .eq, []⟩).poly.totalDegree) = true := by
    intro a b c h1 h2
    simp only [decide_eq_true_eq] at *
    exact h1.trans h2
  have hto : ∀ a b : ℕ, (decide ((st.hyps.getD a ⟨[], .eq, []⟩).poly.totalDegree ≤ (st.hyps.getD b ⟨[], .eq, []⟩).poly.totalDegree) ||
      decide ((st.hyps.getD b ⟨[], .eq, []⟩).poly.totalDegree ≤ (st.hyps.getD a ⟨[], .eq, []⟩).poly.totalDegree)) = true := by
    intro a b
    simp only [Bool.or_eq_true, decide_eq_true_eq]
    exact le_total _ _
  have hpw := List.pairwise_mergeSort htr hto cand
  have hmem : ∀ j, j ∈ sortCand st cand ↔ j ∈ cand := fun j => List.mem_mergeSort
  have hperm : (sortCand st cand).Perm cand := List.mergeSort_perm _ _
  change (sortCand st cand).Pairwise _ at hpw
  rw [h, List.pairwise_cons] at hpw
  have hle : ∀ j ∈ cand,
      (st.hyps.getD i ⟨[], .eq, []⟩).poly.totalDegree ≤ (st.hyps.getD j ⟨[], .eq, []⟩).poly.totalDegree := by
    intro j hj
    rw [← hmem, h] at hj
    rcases List.mem_cons.1 hj with rfl | hj
    · exact le_rfl
    · simpa using hpw.1 j hj
  refine ⟨(hmem i).1 (by rw [h]; simp), hle, ?_⟩
  rintro hnd l r rfl j hj
  by_contra hlt
  have hsub : [j, i].Sublist (l ++ i :: r) := by
    have h1 : [j].Sublist l := List.singleton_sublist.2 hj
    have h2 : [i].Sublist (i :: r) := by simp
    exact h1.append h2
  have h3 : [j, i].Sublist (sortCand st (l ++ i :: r)) :=
    List.pair_sublist_mergeSort htr hto (by simpa using hlt) hsub
  have hnd' : (sortCand st (l ++ i :: r)).Nodup := hperm.nodup_iff.2 hnd
  rw [h] at h3 hnd'
  have hji : j ≠ i := by
    rintro rfl
    rw [List.nodup_append] at hnd
    exact hnd.2.2 j hj j (by simp) rfl
  cases h3 with
  | cons _ h4 => exact (List.nodup_cons.1 hnd').1 (h4.subset (by simp))
  | cons_cons _ h4 => exact hji rfl

/-- **C84**, as far as it holds: the promoted hypothesis is one of the selected ones, and none of these has a smaller total
degree. Those selected before it have a larger one. Missing: the weights of the selection also count the variables, so the
promoted hypothesis need not have the least weight, see `C84_violated`. -/
theorem C84_partial (C : Core K) (n : ℕ) (st st' : State) (bads : List (List ℕ))
    (h : round C n st = .ok (bads, some st')) :
    ∃ cand i, goodHyps C st bads = .ok cand ∧ i ∈ cand ∧ st'.hyps = st.hyps.eraseIdx i ∧
      (∃ a g, st.hyps[i]? = some a ∧ st.goal.addHyp C.toSage a = .ok g ∧ st'.goal = g) ∧
      (∀ j ∈ cand, ∀ a b da db, st.hyps[i]? = some a → st.hyps[j]? = some b → HasDegree a.poly da → HasDegree b.poly db →
        da ≤ db) ∧
      (cand.Nodup → ∀ l r, cand = l ++ i :: r → ∀ j ∈ l, ∀ a b da db, st.hyps[i]? = some a → st.hyps[j]? = some b →
        HasDegree a.poly da → HasDegree b.poly db → da < db) := by
  obtain ⟨cand, i, rest, h1, h2, h3⟩ := round_promotes h
  obtain ⟨h4, h5, h6⟩ := sortCand_head h2
  obtain ⟨a, g, h7, h8, rfl⟩ := promote_ok h3
  have hget : ∀ j b, st.hyps[j]? = some b → st.hyps.getD j ⟨[], .eq, []⟩ = b := by
    intro j b hb
    rw [List.getD_eq_getElem?_getD, hb]; rfl
  refine ⟨cand, i, h1, h4, ?_, ⟨a, g, h7, h8, rfl⟩, ?_, ?_⟩
  · exact (List.eraseIdx_eq_take_drop_succ _ _).symm
  · intro j hj a b da db ha hb hda hdb
    have := h5 j hj
    rwa [hget i a ha, hget j b hb, (hasDegree_iff _ _).1 hda, (hasDegree_iff _ _).1 hdb] at this
  · intro hnd l r hl j hj a b da db ha hb hda hdb
    have := h6 hnd l r hl j hj
    rwa [hget i a ha, hget j b hb, (hasDegree_iff _ _).1 hda, (hasDegree_iff _ _).1 hdb] at this

/-- **C84** holds when the selected hypotheses have the same number of variables and share one with the goal: then none of
them has a smaller weight than the promoted one. -/
theorem C84_weight_partial (C : Core K) (n m : ℕ) (st st' : State) (bads : List (List ℕ)) (cand : List ℕ)
    (h : round C n st = .ok (bads, some st')) (hc : goodHyps C st bads = .ok cand)
    (hlt : ∀ j ∈ cand, j < st.hyps.length)
    (hm : ∀ j ∈ cand, ∀ a, st.hyps[j]? = some a → a.poly.vars.length = m ∧ ∃ v ∈ a.poly.vars, ∃ g ∈ st.goal.main :: st.goal.hyps,
      v ∈ g.poly.vars) :
    ∃ i ∈ cand, st'.hyps = st.hyps.eraseIdx i ∧ ∀ j ∈ cand, (weightHyps st).getD i 0 ≤ (weightHyps st).getD j 0 := by
  obtain ⟨cand', i, rest, h1, h2, h3⟩ := round_promotes h
  rw [hc] at h1; cases h1
  obtain ⟨h4, h5, -⟩ := sortCand_head h2
  obtain ⟨a, g, h7, h8, rfl⟩ := promote_ok h3
  refine ⟨i, h4, (List.eraseIdx_eq_take_drop_succ _ _).symm, fun j hj => ?_⟩
  have hw : ∀ j (hj : j ∈ cand), (weightHyps st).getD j 0 =
      max (10 * ((st.hyps.getD j ⟨[], .eq, []⟩).poly.totalDegree - 1) + 100 * (m - 1)) 1 := by
    intro j hj
    have hjl := hlt j hj
    obtain ⟨e1, v, hv, g, hg, hvg⟩ := hm j hj _ (List.getElem?_eq_getElem hjl)
    rw [weight_getD st hjl, List.getD_eq_getElem?_getD, List.getElem?_eq_getElem hjl, Option.getD_some]
    unfold hypWeight
    rw [if_neg, e1]
    rw [List.length_eq_zero_iff, List.eq_nil_iff_forall_not_mem]
    intro h
    refine h v (List.mem_filter.2 ⟨hv, decide_eq_true ?_⟩)
    rw [List.mem_flatMap]
    refine ⟨g, ?_, hvg⟩
    rcases List.mem_cons.1 hg with rfl | hg
    · simp
    · exact List.mem_append_left _ hg
  rw [hw i h4, hw j hj]
  have := h5 j hj
  omega

/-- `x0 * x0 * x0 > 0, x0 + x1 > 0 ⊢ x0 + x1 > 10` -/
def heavyState : State :=
  ⟨[⟨(MPoly.var 0).mul ((MPoly.var 0).mul (MPoly.var 0)), .gt, [0]⟩, ⟨(MPoly.var 0).add (MPoly.var 1), .gt, [0, 1]⟩],
    ⟨⟨((MPoly.var 0).add (MPoly.var 1)).sub (MPoly.const 10), .gt, [0, 1]⟩, [], []⟩, [0, 1]⟩

/-- a core with two sample points, at each of which one of the hypotheses is false -/
def heavyCore : Core ℚ := testCore [[(0, 1), (1, -3)], [(0, -1), (1, 3)]] []

/-- **C84** is violated: both hypotheses are selected, the first one has the weight 20, the second one 100, and the second
one is promoted. -/
theorem C84_violated : (weightHyps heavyState) = [20, 100] ∧ ∃ bads st', round heavyCore 0 heavyState = .ok (bads, some st') ∧
    (goodHyps heavyCore heavyState bads).toOption = some [0, 1] ∧ st'.hyps = heavyState.hyps.take 1 := by
  refine ⟨by decide +kernel, ?_⟩
  have hb : allBads heavyCore 0 heavyState [[(0, 1), (1, -3)], [(0, -1), (1, 3)]] = .ok (false, [[0], [1]]) := by
    have h : (allBads heavyCore 0 heavyState [[(0, 1), (1, -3)], [(0, -1), (1, 3)]]).toOption = some (false, [[0], [1]]) := by
      decide +kernel
    cases hr : allBads heavyCore 0 heavyState [[(0, 1), (1, -3)], [(0, -1), (1, 3)]] with
    | error e => rw [hr] at h; cases h
    | ok r => rw [hr] at h; cases h; rfl
  have hg : goodHyps heavyCore heavyState [[0], [1]] = .ok [0, 1] := by
    have h : (goodHyps heavyCore heavyState [[0], [1]]).toOption = some [0, 1] := by decide +kernel
    cases hr : goodHyps heavyCore heavyState [[0], [1]] with
    | error e => rw [hr] at h; cases h
    | ok r => rw [hr] at h; cases h; rfl
  obtain ⟨rest, hs⟩ : ∃ rest, sortCand heavyState [0, 1] = 1 :: rest := by
    cases hs : sortCand heavyState [0, 1] with
    | nil =>
      have := congrArg List.length hs
      rw [sortCand, List.length_mergeSort] at this
      cases this
    | cons i rest =>
      obtain ⟨h1, h2, -⟩ := sortCand_head hs
      rcases List.mem_cons.1 h1 with rfl | h1
      · exact absurd (h2 1 (by simp)) (by decide +kernel)
      · rw [List.mem_singleton] at h1; subst h1; exact ⟨rest, rfl⟩
  obtain ⟨st', hp, hh⟩ : ∃ st', heavyState.promote heavyCore.toSage 1 = .ok st' ∧ st'.hyps = heavyState.hyps.take 1 := by
    have h : (heavyState.promote heavyCore.toSage 1).toOption.map (fun st => st.hyps) = some (heavyState.hyps.take 1) := by
      decide +kernel
    cases hr : heavyState.promote heavyCore.toSage 1 with
    | error e => rw [hr] at h; cases h
    | ok r => rw [hr] at h; exact ⟨r, rfl, Option.some.inj h⟩
  refine ⟨[[0], [1]], st', ?_, by rw [hg]; rfl, hh⟩
  unfold round
  show (do
    let r ← allBads heavyCore 0 heavyState [[(0, 1), (1, -3)], [(0, -1), (1, 3)]]
    if r.1 = true then .ok ([], none)
    else do
      let cand ← goodHyps heavyCore heavyState r.2
      match sortCand heavyState cand with
      | [] => .error .indexError
      | i :: _ => do
        let st' ← heavyState.promote heavyCore.toSage i
        .ok (r.2, some st')) = Except.ok ([[0], [1]], some st')
  rw [hb]
  simp only [bind, Except.bind, Bool.false_eq_true, if_false]
  rw [hg]
  simp only
  rw [hs]
  simp only
  rw [hp]

-- C84_partial: here the degrees are 3 and 1
example : HasDegree ((MPoly.var 0).mul ((MPoly.var 0).mul (MPoly.var 0))) 3 ∧ HasDegree ((MPoly.var 0).add (MPoly.var 1)) 1 := by
  rw [hasDegree_iff, hasDegree_iff]; decide +kernel

-- C84_weight_partial: a selection of one hypothesis, of `x0 > 0, x1 > 0 ⊢ x0 + 1 > 0`
example : (round (testCore [[(0, -2), (1, 1)]] []) 0 ⟨[⟨MPoly.var 0, .gt, [0]⟩, ⟨MPoly.var 1, .gt, [1]⟩],
      ⟨⟨(MPoly.var 0).add (MPoly.const 1), .gt, [0]⟩, [], []⟩, [0, 1]⟩).toOption.map (fun r => (r.1, r.2.map fun st => st.hyps)) =
    some ([[1]], some [⟨MPoly.var 1, .gt, [1]⟩]) ∧
    (MPoly.var 0).vars = [0] ∧ ((MPoly.var 0).add (MPoly.const 1)).vars = [0] := by decide +kernel

end Verif.Grf
