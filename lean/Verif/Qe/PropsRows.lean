import Verif.Qe.PropsSize
import Verif.Qe.ChApart
import Verif.Qe.PropsCohenHormander

/-!
# C95, C96: the returned cases

`real_full` and `complex_full` return lists of conjunctions of sign conditions on the parameters. `R`, the lists of
coefficients, `value` and `Normal` are as in `PropsMuchnik`; a valuation of the parameters is a ring homomorphism `φ`.
-/

set_option linter.unusedSectionVars false

open Polynomial

namespace Verif.Qe

variable {R : Type} [CommRing R] [DecidableEq R]

/-! ### C95 -/

/-- **C95**, Muchnik over the reals: no two of the returned conjunctions hold at the same parameters. -/
theorem C95_real [IsDomain R] (A : MAlg R) (hsign : ∀ c, A.sign c = -1 ∨ A.sign c = 0 ∨ A.sign c = 1)
    (lesser eqs greater : List (List R)) (hn : ∀ p ∈ lesser ++ eqs ++ greater, Normal p) (fuel : ℕ)
    (out : QOut (List (List R) × List (List R) × List (List R))) (h : realFull A fuel lesser eqs greater = .ok out)
    {K : Type} [Field K] [LinearOrder K] [IsStrictOrderedRing K] (φ : R →+* K) :
    out.ret.Pairwise fun z z' =>
      ¬ (((∀ c ∈ z.1, value φ c 0 < 0) ∧ (∀ c ∈ z.2.1, value φ c 0 = 0) ∧ ∀ c ∈ z.2.2, 0 < value φ c 0) ∧
        (∀ c ∈ z'.1, value φ c 0 < 0) ∧ (∀ c ∈ z'.2.1, value φ c 0 = 0) ∧ ∀ c ∈ z'.2.2, 0 < value φ c 0) := by
  obtain ⟨N, S, ret0, h1, -, -, hmem, h4, -⟩ :=
    realFull_spec.{0} A hsign lesser eqs greater fun p hp => canon_of_normal (hn p hp)
  obtain ⟨S', hS'⟩ := realFull_seq h
  have h5 := muchnikSeq_mono A fuel (max N fuel) (le_max_right _ _) _ _ _ hS'
  rw [realFull_of_seq A (hS'.trans h5.symm), (h1 _ (le_max_left _ _)).2] at h
  cases h
  have key : ret0.Pairwise fun z z' =>
      ¬ (((∀ c ∈ z.1, value φ c 0 < 0) ∧ (∀ c ∈ z.2.1, value φ c 0 = 0) ∧ ∀ c ∈ z.2.2, 0 < value φ c 0) ∧
        (∀ c ∈ z'.1, value φ c 0 < 0) ∧ (∀ c ∈ z'.2.1, value φ c 0 = 0) ∧ ∀ c ∈ z'.2.2, 0 < value φ c 0) := by
    refine List.Pairwise.imp_of_mem ?_ h4.2
    rintro z z' hz hz' ⟨c, hc, hne⟩ ⟨⟨a1, a2, a3⟩, b1, b2, b3⟩
    have m1 := (hmem z hz c).2 hc
    have m2 := (hmem z' hz' c).2 hc
    have e : ∀ w : List (List R) × List (List R) × List (List R), c ∈ w.2.1 ++ w.1 ++ w.2.2 →
        (∀ c ∈ w.1, value φ c 0 < 0) → (∀ c ∈ w.2.1, value φ c 0 = 0) → (∀ c ∈ w.2.2, 0 < value φ c 0) →
        (c ∈ w.1 ↔ value φ c 0 < 0) ∧ (c ∈ w.2.1 ↔ value φ c 0 = 0) ∧ (c ∈ w.2.2 ↔ 0 < value φ c 0) := by
      intro w m w1 w2 w3
      simp only [List.mem_append] at m
      refine ⟨⟨w1 c, fun hv => ?_⟩, ⟨w2 c, fun hv => ?_⟩, ⟨w3 c, fun hv => ?_⟩⟩
      · rcases m with (m | m) | m
        · exact absurd (w2 c m) hv.ne
        · exact m
        · exact absurd (w3 c m) hv.not_gt
      · rcases m with (m | m) | m
        · exact m
        · exact absurd (w1 c m) (by rw [hv]; exact lt_irrefl _)
        · exact absurd (w3 c m) (by rw [hv]; exact lt_irrefl _)
      · rcases m with (m | m) | m
        · exact absurd (w2 c m) hv.ne'
        · exact absurd (w1 c m) hv.not_gt
        · exact m
    obtain ⟨p1, p2, p3⟩ := e z m1 a1 a2 a3
    obtain ⟨q1, q2, q3⟩ := e z' m2 b1 b2 b3
    exact hne ⟨p1.trans q1.symm, p2.trans q2.symm, p3.trans q3.symm⟩
  exact key.sublist List.filter_sublist

/-- **C95**, Muchnik over the complex numbers. -/
theorem C95_complex [IsDomain R] (A : MAlg R) (eqs neqs : List (List R)) (hn : ∀ p ∈ eqs ++ neqs, Normal p) (fuel : ℕ)
    (out : QOut (List (List R) × List (List R))) (h : complexFull A fuel eqs neqs = .ok out)
    {K : Type} [Field K] (φ : R →+* K) :
    out.ret.Pairwise fun z z' =>
      ¬ (((∀ c ∈ z.1, value φ c 0 = 0) ∧ ∀ c ∈ z.2, value φ c 0 ≠ 0) ∧
        (∀ c ∈ z'.1, value φ c 0 = 0) ∧ ∀ c ∈ z'.2, value φ c 0 ≠ 0) := by
  obtain ⟨N, S, ret0, h1, -, -, hmem, h4, -⟩ :=
    complexFull_spec.{0} A eqs neqs fun p hp => canon_of_normal (hn p hp)
  obtain ⟨S', hS'⟩ := complexFull_seq h
  have h5 := muchnikSeq_mono A fuel (max N fuel) (le_max_right _ _) _ _ _ hS'
  rw [complexFull_of_seq A (hS'.trans h5.symm), (h1 _ (le_max_left _ _)).2] at h
  cases h
  have key : ret0.Pairwise fun z z' =>
      ¬ (((∀ c ∈ z.1, value φ c 0 = 0) ∧ ∀ c ∈ z.2, value φ c 0 ≠ 0) ∧
        (∀ c ∈ z'.1, value φ c 0 = 0) ∧ ∀ c ∈ z'.2, value φ c 0 ≠ 0) := by
    refine List.Pairwise.imp_of_mem ?_ h4.2
    rintro z z' hz hz' ⟨c, hc, hne⟩ ⟨⟨a1, a2⟩, b1, b2⟩
    have m1 := (hmem z hz c).2 hc
    have m2 := (hmem z' hz' c).2 hc
    rw [List.mem_append] at m1 m2
    refine hne ⟨⟨fun m => ?_, fun m => ?_⟩, fun m => ?_, fun m => ?_⟩
    · exact m2.resolve_right fun m' => b2 c m' (a1 c m)
    · exact m1.resolve_right fun m' => a2 c m' (b1 c m)
    · exact m2.resolve_left fun m' => a2 c m (b1 c m')
    · exact m1.resolve_left fun m' => b2 c m (a1 c m')
  exact key.sublist List.filter_sublist

/-- **C95**, Cohen-Hörmander, for all inputs whatsoever on which it answers. -/
theorem C95_ch (A : MAlg R) (lesser eqs greater : List (List R)) (fuel : ℕ)
    (out : List (List R × List R × List R)) (h : chFull A fuel lesser eqs greater = .ok out)
    {K : Type} [Field K] [LinearOrder K] [IsStrictOrderedRing K] (φ : R →+* K) :
    out.Pairwise fun z z' =>
      ¬ (((∀ c ∈ z.1, φ c < 0) ∧ (∀ c ∈ z.2.1, φ c = 0) ∧ ∀ c ∈ z.2.2, 0 < φ c) ∧
        (∀ c ∈ z'.1, φ c < 0) ∧ (∀ c ∈ z'.2.1, φ c = 0) ∧ ∀ c ∈ z'.2.2, 0 < φ c) := by
  unfold chFull at h
  simp only [bind, Except.bind] at h
  split at h
  · cases h
  · next tables ht =>
    split at h
    · cases h
    · next good hg =>
      cases h
      have h1 := (realTable_spread A _ _ _ _ (by intro k s h; simp [dGet] at h) ht).sublist
        ((filterM_sublist hg).map Prod.snd)
      rw [List.pairwise_map]
      refine List.Pairwise.imp_of_mem ?_ (List.pairwise_map.1 h1.2)
      rintro z z' hz hz' ⟨k, s, s', e, e', hne⟩ ⟨⟨a1, a2, a3⟩, b1, b2, b3⟩
      have hs := (h1.1 _ (List.mem_map.2 ⟨z, hz, rfl⟩)).2 k s e
      have hs' := (h1.1 _ (List.mem_map.2 ⟨z', hz', rfl⟩)).2 k s' e'
      have hm : ∀ {c : Ctx R} {s : ℤ}, dGet c k = some s → k ∈ (c.filter fun e => e.2 = s).map Prod.fst := by
        intro c s e
        unfold dGet at e
        rw [Option.map_eq_some_iff] at e
        obtain ⟨p, hp, rfl⟩ := e
        have h1 := List.find?_some hp
        simp only [decide_eq_true_eq] at h1
        exact List.mem_map.2 ⟨p, List.mem_filter.2 ⟨List.mem_of_find?_eq_some hp, by simp⟩, h1⟩
      have e := hm e
      have e' := hm e'
      have i1 := a1 k
      have i2 := a2 k
      have i3 := a3 k
      have j1 := b1 k
      have j2 := b2 k
      have j3 := b3 k
      rcases hs with rfl | rfl | rfl <;> rcases hs' with rfl | rfl | rfl
      · exact hne rfl
      · exact absurd (j2 e') (i1 e).ne
      · exact absurd (j3 e') (i1 e).not_gt
      · exact absurd (i2 e) (j1 e').ne
      · exact hne rfl
      · exact absurd (i2 e) (j3 e').ne'
      · exact absurd (i3 e) (j1 e').not_gt
      · exact absurd (j2 e') (i3 e).ne'
      · exact hne rfl

-- C95: the answers for `x² + y = 0`, with 6, 4 and 2 conjunctions
example : (realFull ZY.alg 20 [] [[ZY.y, 0, 1]] []).toOption.map (fun o => o.ret.length) = some 6 ∧
    (complexFull ZY.alg 20 [[ZY.y, 0, 1]] []).toOption.map (fun o => o.ret.length) = some 4 ∧
    (chFull ZY.alg 20 [] [[ZY.y, 0, 1]] []).toOption.map (fun o => o.length) = some 2 := by
  refine ⟨?_, ?_, ?_⟩ <;> decide +kernel

example : (∀ p ∈ [] ++ [[ZY.y, 0, 1]] ++ [], Normal p) ∧ (∀ p ∈ [[ZY.y, 0, 1]] ++ [], Normal p) ∧
    ∀ c, ZY.alg.sign c = -1 ∨ ZY.alg.sign c = 0 ∨ ZY.alg.sign c = 1 := by
  refine ⟨?_, ?_, fun c => ?_⟩
  · intro p hp h
    simp only [List.nil_append, List.append_nil, List.mem_singleton] at hp
    subst hp; simp
  · intro p hp h
    simp only [List.append_nil, List.mem_singleton] at hp
    subst hp; simp
  · simp only [ZY.alg]
    rcases Int.sign_trichotomy (c.coeffs.headD 0) with h | h | h <;> rw [h] <;> decide

/-! ### C96 -/

theorem value_single {K : Type*} [Field K] (φ : R →+* K) (c : R) (x : K) : value φ [c] x = φ c :=
  value_const φ (by simp) x

theorem exists_ok_of {ε α : Type} {e : Except ε α} {p : α → Bool} (h : (e.toOption.map p) = some true) :
    ∃ a, e = .ok a ∧ p a = true := by
  cases e with
  | error _ => cases h
  | ok a => exact ⟨a, rfl, by simpa [Except.toOption] using h⟩

/-- **C96** is violated: for `x² + y = 0` the answers over the reals and over the complex numbers have the conjunctions
`4y < 0 ∧ y > 0` and `y = 0 ∧ 4y ≠ 0`; for `x² + y > 0, x² + 2y > 0` the answer of Cohen-Hörmander has
`4y < 0 ∧ -y < 0 ∧ 8y < 0`. None of them is possible. -/
theorem C96_violated :
    (∃ out, realFull ZY.alg 20 [] [[ZY.y, 0, 1]] [] = .ok out ∧ ([[4 * ZY.y]], [], [[ZY.y]]) ∈ out.ret) ∧
    (∀ φ : ZY →+* ℝ, ¬ (value φ [4 * ZY.y] 0 < 0 ∧ 0 < value φ [ZY.y] 0)) ∧
    (∃ out, complexFull ZY.alg 20 [[ZY.y, 0, 1]] [] = .ok out ∧ ([[ZY.y]], [[4 * ZY.y]]) ∈ out.ret) ∧
    (∀ φ : ZY →+* ℂ, ¬ (value φ [ZY.y] 0 = 0 ∧ value φ [4 * ZY.y] 0 ≠ 0)) ∧
    (∃ out, chFull ZY.alg 20 [] [] [[ZY.y, 0, 1], [2 * ZY.y, 0, 1]] = .ok out ∧
      ([4 * ZY.y, -ZY.y, 8 * ZY.y], [], []) ∈ out) ∧
    ∀ φ : ZY →+* ℝ, ¬ (φ (4 * ZY.y) < 0 ∧ φ (-ZY.y) < 0) := by
  refine ⟨?_, fun φ h => ?_, ?_, fun φ h => ?_, ?_, fun φ h => ?_⟩
  · obtain ⟨out, h, h'⟩ := exists_ok_of (e := realFull ZY.alg 20 [] [[ZY.y, 0, 1]] [])
      (p := fun out => decide ((([[4 * ZY.y]], [], [[ZY.y]]) : List (List ZY) × List (List ZY) × List (List ZY)) ∈ out.ret))
      (by decide +kernel)
    exact ⟨out, h, by simpa using h'⟩
  · simp only [value_single, map_mul, map_ofNat] at h
    linarith [h.1, h.2]
  · obtain ⟨out, h, h'⟩ := exists_ok_of (e := complexFull ZY.alg 20 [[ZY.y, 0, 1]] [])
      (p := fun out => decide ((([[ZY.y]], [[4 * ZY.y]]) : List (List ZY) × List (List ZY)) ∈ out.ret))
      (by decide +kernel)
    exact ⟨out, h, by simpa using h'⟩
  · simp only [value_single, map_mul, map_ofNat] at h
    exact h.2 (by rw [h.1, mul_zero])
  · obtain ⟨out, h, h'⟩ := exists_ok_of (e := chFull ZY.alg 20 [] [] [[ZY.y, 0, 1], [2 * ZY.y, 0, 1]])
      (p := fun out => decide ((([4 * ZY.y, -ZY.y, 8 * ZY.y], [], []) : List ZY × List ZY × List ZY) ∈ out))
      (by decide +kernel)
    exact ⟨out, h, by simpa using h'⟩
  · simp only [map_mul, map_ofNat, map_neg] at h
    linarith [h.1, h.2]

/-- What holds instead of **C96**: at parameters where a returned conjunction holds there is a point satisfying the sign
conditions (missing: that there are such parameters). -/
theorem C96_partial [IsDomain R] (A : MAlg R) (h0 : A.hasVar 0 = false)
    (hsign : ∀ c, A.sign c = -1 ∨ A.sign c = 0 ∨ A.sign c = 1)
    (lesser eqs greater : List (List R)) (hn : ∀ p ∈ lesser ++ eqs ++ greater, Normal p) (fuel : ℕ)
    (out : QOut (List (List R) × List (List R) × List (List R))) (h : realFull A fuel lesser eqs greater = .ok out)
    {K : Type} [Field K] [LinearOrder K] [IsStrictOrderedRing K] [Verif.Alg.PolyIVT K] (φ : R →+* K)
    (hφ : ScalarSigns A φ) (z : List (List R) × List (List R) × List (List R)) (hz : z ∈ out.ret)
    (h1 : ∀ c ∈ z.1, value φ c 0 < 0) (h2 : ∀ c ∈ z.2.1, value φ c 0 = 0) (h3 : ∀ c ∈ z.2.2, 0 < value φ c 0) :
    ∃ x, (∀ q ∈ lesser, value φ q x < 0) ∧ (∀ q ∈ eqs, value φ q x = 0) ∧ ∀ q ∈ greater, 0 < value φ q x := by
  obtain ⟨N, S, ret0, h4, -, -, hmem, -, hsem⟩ :=
    realFull_spec.{0} A hsign lesser eqs greater fun p hp => canon_of_normal (hn p hp)
  obtain ⟨S', hS'⟩ := realFull_seq h
  have h5 := muchnikSeq_mono A fuel (max N fuel) (le_max_right _ _) _ _ _ hS'
  rw [realFull_of_seq A (hS'.trans h5.symm), (h4 _ (le_max_left _ _)).2] at h
  cases h
  have hz0 : z ∈ ret0 := List.mem_of_mem_filter hz
  have hval : ∀ c ∈ z.1 ++ z.2.1 ++ z.2.2, value φ c 0 = φ (c.headD 0) := by
    intro c hc
    have hc' : c ∈ z.2.1 ++ z.1 ++ z.2.2 := by
      simp only [List.mem_append] at hc ⊢; tauto
    have := ((mem_varFragOf A S c).1 ((hmem z hz0 c).1 hc')).2.1
    exact value_const φ (by simpa [isConst] using this) 0
  have := hsem φ ⟨by rw [hφ 0 h0, map_zero]; simp [signZ], fun c hc => by rw [hφ c hc, signZ_eq]⟩
  simp only [eval_P] at this
  refine this.1 ⟨z, hz0, fun c hc => ?_, fun c hc => ?_, fun c hc => ?_⟩
  · rw [← hval c (by simp [hc])]; exact h1 c hc
  · rw [← hval c (by simp [hc])]; exact h2 c hc
  · rw [← hval c (by simp [hc])]; exact h3 c hc

-- C96_partial: `x² + y = 0` at `y = -1`, where the conjunction `y < 0 ∧ 4y < 0` holds
example : ZY.alg.hasVar 0 = false ∧ ScalarSigns ZY.alg (ZY.at' (-1)) ∧
    value (ZY.at' (-1)) [ZY.y] 0 < 0 ∧ value (ZY.at' (-1)) [4 * ZY.y] 0 < 0 := by
  refine ⟨by decide, scalarSigns_zy _, ?_, ?_⟩
  · rw [value_single, ZY.at'_y]; norm_num
  · rw [value_single, map_mul, ZY.at'_y, map_ofNat]; norm_num

example : (realFull ZY.alg 20 [] [[ZY.y, 0, 1]] []).toOption.map
    (fun o => decide ((([[ZY.y], [4 * ZY.y]], [], []) : List (List ZY) × List (List ZY) × List (List ZY)) ∈ o.ret)) =
      some true := by
  decide +kernel

end Verif.Qe
