import Verif.Qe.RealIndex
import Verif.Qe.PropsMuchnik

/-!
# C23, C24, C26: the Muchnik procedure over the real numbers

`R`, the lists of coefficients, `value` and `Normal` are as in `PropsMuchnik`. A valuation of the
parameters is a ring homomorphism `φ` from `R` to an ordered field `K` in which polynomials have the
intermediate value property (for instance ℝ).
-/

set_option linter.unusedSectionVars false

open Polynomial Verif.Alg

namespace Verif.Qe

variable {R : Type} [CommRing R] [DecidableEq R]

/-- The sign of a number, as an integer. -/
def signZ {K : Type*} [Zero K] [LinearOrder K] (x : K) : ℤ := if x < 0 then -1 else if x = 0 then 0 else 1

/-- The signs of scalars are computed correctly. -/
def ScalarSigns {K : Type*} [Field K] [LinearOrder K] (A : MAlg R) (φ : R →+* K) : Prop :=
  ∀ c : R, A.hasVar c = false → A.sign c = signZ (φ c)

theorem signZ_eq {K : Type*} [Field K] [LinearOrder K] [IsStrictOrderedRing K] (x : K) :
    signZ x = sg x := by
  unfold signZ
  rcases sg_cases x with ⟨h, e⟩ | ⟨h, e⟩ | ⟨h, e⟩ <;> rw [e]
  · rw [if_pos h]
  · rw [if_neg (by rw [h]; exact lt_irrefl _), if_pos h]
  · rw [if_neg h.le.not_gt, if_neg h.ne']

/-! ### C24 -/

/-- **C24**: at parameters realising the signs of the root diagram `d`, `real_extend` does not raise, and
the columns `cols` of the resulting diagram are in increasing order: the sign vector of the members of the
family at `-∞`, on the interval before the first root `xs[0]`, at `xs[0]`, on the interval up to `xs[1]`, ...,
on the interval after the last root, and at `+∞`. The `xs` are exactly the roots of the nonzero members. -/
theorem C24_real_diagram [IsDomain R] (A : MAlg R) (ps : List (List R)) (hps : ∀ p ∈ ps, Normal p) :
    ∃ (N : ℕ) (S : List (List R)), (∀ fuel ≥ N, muchnikSeq A fuel [[]] ps = .ok S) ∧
      ∀ {K : Type} [Field K] [LinearOrder K] [IsStrictOrderedRing K] [PolyIVT K] (φ : R →+* K)
        (d : Diagram R ℚ),
        (∀ q, (∃ row, (q, row) ∈ d) ↔ q ∈ S ∧ q.length ≤ 1) →
        (∀ q ∈ S, q.length ≤ 1 → dRow d q =
          [(0, signZ (φ (q.headD 0))), (1/2, signZ (φ (q.headD 0))), (1, signZ (φ (q.headD 0)))]) →
        ∃ (D : Diagram R ℚ) (cols : List ℚ) (xs : List K),
          realExtend A d (S.filter fun p => !decide (p.length ≤ 1)) = .ok D ∧
          cols.length = 2 * xs.length + 3 ∧ cols.Pairwise (· < ·) ∧ xs.Pairwise (· < ·) ∧
          (∀ q ∈ S, ((dRow D q).map Prod.fst).Nodup ∧ ∀ i, i ∈ (dRow D q).map Prod.fst ↔ i ∈ cols) ∧
          (∀ x, x ∈ xs ↔ ∃ q ∈ S, (∃ y, value φ q y ≠ 0) ∧ value φ q x = 0) ∧
          (∃ M, ∀ q ∈ S, ∀ x < M, dRead D q (cols.getD 0 0) = .ok (signZ (value φ q x))) ∧
          (∀ i ≤ xs.length, ∀ x, (∀ y ∈ xs.take i, y < x) → (∀ y ∈ xs.drop i, x < y) →
            ∀ q ∈ S, dRead D q (cols.getD (2 * i + 1) 0) = .ok (signZ (value φ q x))) ∧
          (∀ i < xs.length, ∀ q ∈ S,
            dRead D q (cols.getD (2 * i + 2) 0) = .ok (signZ (value φ q (xs.getD i 0)))) ∧
          (∃ M, ∀ q ∈ S, ∀ x > M,
            dRead D q (cols.getD (2 * xs.length + 2) 0) = .ok (signZ (value φ q x))) := by
  obtain ⟨N, S, h1, hS, h2⟩ := muchnikSeq_total A ps fun p hp => canon_of_normal (hps p hp)
  refine ⟨N, S, h1, ?_⟩
  intro K _ _ _ _ φ d hk hrow
  have hkeys : ∀ q, q ∈ keys d ↔ q ∈ S ∧ isConst q = true := by
    intro q
    rw [keys, List.mem_map]
    constructor
    · rintro ⟨⟨q', row⟩, h, rfl⟩
      have := (hk q').1 ⟨row, h⟩
      exact ⟨this.1, by simpa [isConst] using this.2⟩
    · rintro ⟨h, h'⟩
      obtain ⟨row, h⟩ := (hk q).2 ⟨h, by simpa [isConst] using h'⟩
      exact ⟨(q, row), h, rfl⟩
  have hrow' : ∀ q ∈ keys d, dRow d q =
      [(0, sg (φ (q.headD 0))), (1/2, sg (φ (q.headD 0))), (1, sg (φ (q.headD 0)))] := by
    intro q hq
    obtain ⟨h, h'⟩ := (hkeys q).1 hq
    rw [hrow q h (by simpa [isConst] using h'), signZ_eq]
  have hcv : ∀ q ∈ keys d, ∀ i, Is3 i → cv d q i = sg (φ (q.headD 0)) := by
    rintro q hq i (rfl | rfl | rfl)
    · rw [cv_eq_dRow, hrow' q hq]; simp [dGet]
    · rw [cv_eq_dRow, hrow' q hq]; simp [dGet]
    · rw [cv_eq_dRow, hrow' q hq]; norm_num [dGet]
  have hPc : ∀ q ∈ keys d, P φ q = C (φ (q.headD 0)) := by
    intro q hq
    exact P_const φ ((isConst_iff q).1 ((hkeys q).1 hq).2)
  have h3 : ∀ i : ℚ, (i = 0 ∨ i ∈ segCols [((1:ℚ)/2, (1:ℚ))]) ↔ Is3 i := by
    intro i; simp [segCols, Is3]
  have hz : Is3 0 := Or.inl rfl
  have hshape : RShape d [(1/2, 1)] := by
    refine ⟨by simp, ⟨by norm_num, by norm_num, trivial⟩, rfl, ?_, ?_, (hkeys []).2 ⟨hS.zero, rfl⟩,
      ⟨?_, by simp, trivial⟩, ?_, ?_⟩
    · intro q hq i
      rw [ck, hrow' q hq, h3]; simp [Is3]
    · intro q
      by_cases hq : q ∈ keys d
      · rw [ck, hrow' q hq]; norm_num
      · have : dGet d q = none := dGet_none d q hq
        rw [ck, dRow, this]; simp
    · intro q hq h0
      rw [hcv q hq _ (Or.inr (Or.inl rfl)), ← hcv q hq 0 hz]; exact h0
    · intro q hq i hi
      rw [hcv q hq i ((h3 i).1 hi)]; exact sign3_sg _
    · intro q hq _ h0 i hi
      rw [hcv q hq i ((h3 i).1 hi), ← hcv q hq 0 hz]; exact h0
  have hsem : RSem φ d [(1/2, 1)] := by
    refine ⟨?_, [], .last _ _ _ ?_ ?_⟩
    · intro q hq
      rw [hPc q hq, sgBot_C, hcv q hq 0 hz]
    · intro q hq y _
      rw [hPc q hq, eval_C, hcv q hq _ (Or.inr (Or.inl rfl))]
    · intro q hq
      rw [hPc q hq, sgTop_C, hcv q hq _ (Or.inr (Or.inr rfl))]
  rcases realExtend_spec A hS (S.filter fun p => !isConst p) [] (by simp) d [(1/2, 1)] hshape
    (by intro q; rw [hkeys]; simp) with ⟨_, h⟩ | ⟨D, gs, e1, e2, e3, _, e5⟩
  · exact absurd hsem (h φ)
  have hD := e5 φ hsem
  obtain ⟨xs, hxs⟩ := hD.seg
  obtain ⟨hlen, hsorted, _⟩ := hxs.sorted
  have hne : ∀ q, (∃ y, value φ q y ≠ 0) ↔ P φ q ≠ 0 := by
    intro q
    constructor
    · rintro ⟨y, hy⟩ h0
      rw [← eval_P, h0, eval_zero] at hy
      exact hy rfl
    · intro h0
      by_contra hcon
      push Not at hcon
      exact h0 (Polynomial.funext fun x => by rw [eval_P, hcon, eval_zero])
  have hclen : (segCols gs).length = 2 * xs.length + 2 := by rw [segCols_length, hlen]; ring
  have hread : ∀ q ∈ S, ∀ i, i = 0 ∨ i ∈ segCols gs → dRead D q i = .ok (cv D q i) := fun q hq i hi =>
    dRead_ok ((e2.ck q ((e3 q).2 hq) i).2 hi)
  have hmem : ∀ i < (segCols gs).length, (segCols gs).getD i 0 ∈ segCols gs := by
    intro i hi
    rw [List.getD_eq_getElem?_getD, List.getElem?_eq_getElem hi]
    exact List.getElem_mem hi
  have hlastcol : (segCols gs).getD (2 * xs.length + 1) 0 = segLast 0 gs := by
    have : ∀ (gs : List (ℚ × ℚ)) (n : ℕ) (l : ℚ), gs.length = n + 1 →
        (segCols gs).getD (2 * n + 1) 0 = segLast l gs := by
      intro gs
      induction gs with
      | nil => intro n l h; simp at h
      | cons x gs ih =>
        obtain ⟨g, e⟩ := x
        intro n l h
        cases n with
        | zero =>
          have : gs = [] := by simpa using h
          subst this; rfl
        | succ n =>
          have := ih n e (by simpa using h)
          rw [show 2 * (n + 1) + 1 = 2 * n + 1 + 1 + 1 by ring]
          exact this
    exact this gs xs.length 0 hlen
  refine ⟨D, 0 :: segCols gs, xs, e1, by simp [hclen], segCols_sorted e2.chain, hsorted, ?_, ?_, ?_,
    ?_, ?_, ?_⟩
  · intro q hq
    refine ⟨e2.nodup q, fun i => ?_⟩
    rw [List.mem_cons]
    exact e2.ck q ((e3 q).2 hq) i
  · intro x
    constructor
    · intro hx
      obtain ⟨e, he, hq⟩ := hxs.root_col x hx
      obtain ⟨q, hqk, hq0, hq1⟩ := e2.seg.inner e he
      refine ⟨q, (e3 q).1 hqk, (hne q).2 fun h => ?_, ?_⟩
      · rw [← hD.bot q hqk, Ne, sgBot_eq_zero] at hq1
        exact hq1 h
      · rw [← eval_P, ← sg_eq_zero_iff, hq q hqk, hq0]
    · rintro ⟨q, hq, h0, hx⟩
      have hqk := (e3 q).2 hq
      rcases hxs.root_or_gap x trivial with h | ⟨g, hg, h⟩
      · exact h
      · have := e2.seg.gap g hg q hqk (by
          rw [← hD.bot q hqk, Ne, sgBot_eq_zero]; exact (hne q).1 h0)
        rw [← h q hqk, eval_P, hx, sg_zero] at this
        exact absurd rfl this
  · obtain ⟨M, hM⟩ := exists_bot φ (keys D)
    refine ⟨M, fun q hq x hx => ?_⟩
    have hqk := (e3 q).2 hq
    rw [signZ_eq, ← eval_P, hM q hqk x hx, hD.bot q hqk]
    exact hread q hq 0 (Or.inl rfl)
  · intro i hi x ha hb q hq
    have hqk := (e3 q).2 hq
    have := hxs.gapAt i hi x trivial ha hb q hqk
    rw [signZ_eq, ← eval_P, this]
    exact hread q hq _ (Or.inr (hmem _ (by omega)))
  · intro i hi q hq
    have hqk := (e3 q).2 hq
    have := hxs.rootAt i hi q hqk
    rw [signZ_eq, ← eval_P, this]
    exact hread q hq _ (Or.inr (hmem _ (by omega)))
  · obtain ⟨M, hM⟩ := exists_top φ (keys D)
    refine ⟨M, fun q hq x hx => ?_⟩
    have hqk := (e3 q).2 hq
    rw [signZ_eq, ← eval_P, hM q hqk x hx, hxs.top 0 q hqk, ← hlastcol]
    exact hread q hq _ (Or.inr (hmem _ (by omega)))

/-- The hypotheses of C24 hold for the family generated by `x² - 2`: the root diagram has the rows
`0`, `2`, `-2`, `4`, `-8`. The extended diagram has three roots: of `x² - 2`, of its derivative, and of
`x² - 2` again. -/
example : (do
      let S ← muchnikSeq intAlg 40 [[]] [[(-2 : ℤ), 0, 1]]
      let D ← realExtend intAlg ((S.filter fun q => decide (q.length ≤ 1)).map fun q =>
        (q, [(0, signZ (q.headD 0)), (1/2, signZ (q.headD 0)), (1, signZ (q.headD 0))]))
        (S.filter fun p => !decide (p.length ≤ 1))
      .ok (((dRow D [-2, 0, 1]).map fun c => c.2).count 0, (dRow D [-2, 0, 1]).length) :
        Except QErr (ℕ × ℕ)).toOption = some (2, 9) := by
  decide +kernel

/-! ### C23 -/

/-- **C23**: the returned disjunction is an equivalence: when some coefficient of the input has a
parameter, then at all valuations of the parameters one of the returned conjunctions (conditions `< 0`,
`= 0` and `> 0`) holds exactly when there is a point satisfying all the sign conditions. All the
conditions are free of the eliminated variable. -/
theorem C23_real_full [IsDomain R] (A : MAlg R) (h0 : A.hasVar 0 = false)
    (hmul : ∀ (c : R) (n : ℕ), n ≠ 0 → A.hasVar c = true → A.hasVar (c * n) = true)
    (hsign : ∀ c, A.sign c = -1 ∨ A.sign c = 0 ∨ A.sign c = 1)
    (lesser eqs greater : List (List R)) (hn : ∀ p ∈ lesser ++ eqs ++ greater, Normal p)
    (hpar : ∃ p ∈ lesser ++ eqs ++ greater, ∃ c ∈ p, A.hasVar c = true) :
    ∃ (N : ℕ) (out : QOut (List (List R) × List (List R) × List (List R))),
      (∀ fuel ≥ N, realFull A fuel lesser eqs greater = .ok out) ∧
      (∀ z ∈ out.ret, ∀ c ∈ z.1 ++ z.2.1 ++ z.2.2, c.length ≤ 1) ∧
      ∀ {K : Type} [Field K] [LinearOrder K] [IsStrictOrderedRing K] [PolyIVT K] (φ : R →+* K),
        ScalarSigns A φ →
        ((∃ z ∈ out.ret, (∀ c ∈ z.1, value φ c 0 < 0) ∧ (∀ c ∈ z.2.1, value φ c 0 = 0) ∧
            ∀ c ∈ z.2.2, 0 < value φ c 0) ↔
          ∃ x, (∀ q ∈ lesser, value φ q x < 0) ∧ (∀ q ∈ eqs, value φ q x = 0) ∧
            ∀ q ∈ greater, 0 < value φ q x) := by
  obtain ⟨N, S, ret0, h1, hS, hin, hmem, -, hsem⟩ :=
    realFull_spec A hsign lesser eqs greater fun p hp => canon_of_normal (hn p hp)
  obtain ⟨p, hp, hpc⟩ := hpar
  have hne := varFrag_ne_nil A h0 hmul hS p.length p le_rfl (hin p hp) hpc
  have hconst : ∀ z ∈ ret0, ∀ c ∈ z.1 ++ z.2.1 ++ z.2.2, c.length ≤ 1 := by
    intro z hz c hc
    have hc' : c ∈ z.2.1 ++ z.1 ++ z.2.2 := by
      simp only [List.mem_append] at hc ⊢; tauto
    have := ((mem_varFragOf A S c).1 ((hmem z hz c).1 hc')).2.1
    simpa [isConst] using this
  have hall : ret0.filter (fun c => (c.2.1 ++ c.1 ++ c.2.2).length ≠ 0) = ret0 := by
    rw [List.filter_eq_self]
    intro z hz
    obtain ⟨c, hc⟩ := List.exists_mem_of_ne_nil _ hne
    have := (hmem z hz c).2 hc
    rw [decide_eq_true_eq]
    exact fun h => List.ne_nil_of_mem this (List.length_eq_zero_iff.1 h)
  refine ⟨N, _, fun fuel hf => (h1 fuel hf).2, ?_, ?_⟩
  · show ∀ z ∈ ret0.filter _, _
    rw [hall]; exact hconst
  · intro K _ _ _ _ φ hφ
    show (∃ z ∈ ret0.filter _, _) ↔ _
    rw [hall]
    have := hsem φ ⟨by rw [hφ 0 h0, map_zero]; simp [signZ], fun c hc => by rw [hφ c hc, signZ_eq]⟩
    simp only [eval_P] at this
    rw [← this]
    have hval : ∀ z ∈ ret0, ∀ c ∈ z.1 ++ z.2.1 ++ z.2.2, value φ c 0 = φ (c.headD 0) :=
      fun z hz c hc => value_const φ (hconst z hz c hc) 0
    constructor
    · rintro ⟨z, hz, ha, hb, hc⟩
      refine ⟨z, hz, fun c h => ?_, fun c h => ?_, fun c h => ?_⟩
      · rw [← hval z hz c (by simp [h])]; exact ha c h
      · rw [← hval z hz c (by simp [h])]; exact hb c h
      · rw [← hval z hz c (by simp [h])]; exact hc c h
    · rintro ⟨z, hz, ha, hb, hc⟩
      refine ⟨z, hz, fun c h => ?_, fun c h => ?_, fun c h => ?_⟩
      · rw [hval z hz c (by simp [h])]; exact ha c h
      · rw [hval z hz c (by simp [h])]; exact hb c h
      · rw [hval z hz c (by simp [h])]; exact hc c h

/-- The hypotheses of C23 hold for the input `y*x - 1 = 0`, `x² + y < 0` (where `x` is to be eliminated),
and the valuations `y ↦ a` for all real numbers `a` are allowed. -/
example : parAlg.hasVar 0 = false ∧
    (∀ (c : ℤ[X]) (n : ℕ), n ≠ 0 → parAlg.hasVar c = true → parAlg.hasVar (c * n) = true) ∧
    (∀ c, parAlg.sign c = -1 ∨ parAlg.sign c = 0 ∨ parAlg.sign c = 1) ∧
    (∀ p ∈ [[X, 0, 1]] ++ [[(-1 : ℤ[X]), X]] ++ [], Normal p) ∧
    (∃ p ∈ [[X, 0, 1]] ++ [[(-1 : ℤ[X]), X]] ++ [], ∃ c ∈ p, parAlg.hasVar c = true) ∧
    ∀ a : ℝ, ScalarSigns parAlg (Polynomial.eval₂RingHom (Int.castRingHom ℝ) a) := by
  refine ⟨by simp [parAlg], ?_, ?_, ?_, ⟨[X, 0, 1], by simp, X, by simp, by simp [parAlg]⟩, ?_⟩
  · intro c n hn hc
    simp only [parAlg, decide_eq_true_eq] at hc ⊢
    have : (n : ℤ[X]) = C (n : ℤ) := by simp
    rw [this, natDegree_mul_C (by exact_mod_cast hn)]
    exact hc
  · intro c
    simp only [parAlg]
    rcases Int.sign_trichotomy (c.coeff 0) with h | h | h <;> simp [h]
  · intro p hp h
    simp only [List.append_nil, List.cons_append, List.nil_append, List.mem_cons, List.not_mem_nil,
      or_false] at hp
    rcases hp with rfl | rfl <;> simp
  · intro a c hv
    simp only [parAlg, decide_eq_false_iff_not, not_lt, Nat.le_zero] at hv
    rw [natDegree_eq_zero] at hv
    obtain ⟨k, rfl⟩ := hv
    rw [coe_eval₂RingHom, eval₂_C]
    simp only [parAlg, signZ]
    rw [coeff_C_zero, eq_intCast]
    rcases lt_trichotomy k 0 with h | h | h
    · rw [Int.sign_eq_neg_one_of_neg h, if_pos (by exact_mod_cast h)]
    · subst h; simp
    · rw [Int.sign_eq_one_of_pos h, if_neg (by push Not; exact_mod_cast h.le),
        if_neg (by exact_mod_cast h.ne')]

/-! ### C26 -/

/-- **C26** is violated by `real_full`: `0 = 0` is satisfiable, `1 = 0` is not, and the returned value
is the empty list for both. -/
theorem C26_violated_real :
    ((realFull intAlg 5 [] [[]] []).toOption.map QOut.ret = some [] ∧
      (realFull intAlg 5 [] [[1]] []).toOption.map QOut.ret = some []) ∧
    (∀ φ : ℤ →+* ℝ, (∃ x, ∀ q ∈ [([] : List ℤ)], value φ q x = 0) ∧
      ¬ ∃ x, ∀ q ∈ [[(1 : ℤ)]], value φ q x = 0) := by
  refine ⟨⟨by decide +kernel, by decide +kernel⟩, fun φ => ⟨⟨0, by simp [value]⟩, ?_⟩⟩
  rintro ⟨x, hx⟩
  have := hx [1] (by simp)
  simp [value] at this

/-- What holds instead of **C26** for `real_full`: the line printed at the end is right (the returned
value is missing: it is always empty). -/
theorem C26_real_partial [IsDomain R] (A : MAlg R) (hA : ∀ c, A.hasVar c = false)
    (hsign : ∀ c, A.sign c = -1 ∨ A.sign c = 0 ∨ A.sign c = 1)
    (lesser eqs greater : List (List R)) (hn : ∀ p ∈ lesser ++ eqs ++ greater, Normal p) :
    ∃ (N : ℕ) (out : QOut (List (List R) × List (List R) × List (List R))),
      (∀ fuel ≥ N, realFull A fuel lesser eqs greater = .ok out) ∧ out.ret = [] ∧
      ∀ {K : Type} [Field K] [LinearOrder K] [IsStrictOrderedRing K] [PolyIVT K] (φ : R →+* K),
        ScalarSigns A φ →
        (out.satisfiable = true ↔
          ∃ x, (∀ q ∈ lesser, value φ q x < 0) ∧ (∀ q ∈ eqs, value φ q x = 0) ∧
            ∀ q ∈ greater, 0 < value φ q x) := by
  obtain ⟨N, S, ret0, h1, hS, hin, hmem, -, hsem⟩ :=
    realFull_spec A hsign lesser eqs greater fun p hp => canon_of_normal (hn p hp)
  have hnone : ∀ z ∈ ret0, z.2.1 ++ z.1 ++ z.2.2 = [] := by
    intro z hz
    apply List.eq_nil_iff_forall_not_mem.2
    intro c hc
    have := ((mem_varFragOf A S c).1 ((hmem z hz c).1 hc)).2.2
    cases c <;> simp [hasVariable, hA] at this
  refine ⟨N, _, fun fuel hf => (h1 fuel hf).2, ?_, ?_⟩
  · show ret0.filter _ = []
    rw [List.filter_eq_nil_iff]
    intro z hz
    rw [hnone z hz]; simp
  · intro K _ _ _ _ φ hφ
    show decide (ret0.length > 0) = true ↔ _
    have := hsem φ ⟨by rw [hφ 0 (hA 0), map_zero]; simp [signZ],
      fun c hc => by rw [hφ c hc, signZ_eq]⟩
    simp only [eval_P] at this
    rw [← this, decide_eq_true_eq]
    constructor
    · intro h
      obtain ⟨z, hz⟩ := List.exists_mem_of_length_pos h
      have := hnone z hz
      rw [List.append_eq_nil_iff, List.append_eq_nil_iff] at this
      refine ⟨z, hz, ?_, ?_, ?_⟩
      · rw [this.1.2]; simp
      · rw [this.1.1]; simp
      · rw [this.2]; simp
    · rintro ⟨z, hz, _⟩
      exact List.length_pos_of_mem hz

/-- `x² - 2 = 0, x - 1 > 0` is satisfiable, `x² - 2 < 0, x - 2 > 0` is not. -/
example : (do
      let o₁ ← realFull intAlg 60 [] [[-2, 0, 1]] [[-1, 1]]
      let o₂ ← realFull intAlg 60 [[-2, 0, 1]] [] [[-2, 1]]
      .ok (o₁.satisfiable, o₂.satisfiable) : Except QErr (Bool × Bool)).toOption = some (true, false) := by
  decide +kernel

end Verif.Qe
