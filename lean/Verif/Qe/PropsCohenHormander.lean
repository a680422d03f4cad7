import Verif.Qe.ChFull
import Verif.Qe.ZPoly
import Verif.Qe.RealIndex
import Verif.Qe.PropsMuchnikReal

/-!
# C27, C28, C29: the Cohen-Hörmander procedure

`R`, the lists of coefficients, `value`, `Normal`, valuations, `signZ` and `ScalarSigns` are as in
`PropsMuchnik` and `PropsMuchnikReal`.
-/

set_option linter.unusedSectionVars false

open Polynomial Verif.Alg

namespace Verif.Qe

variable {R : Type} [CommRing R] [DecidableEq R]

/-- `A` treats scalars as such: 0 is a scalar, the sign of a scalar is -1, 0 or 1, and 0 only for 0. -/
structure GoodScalars (A : MAlg R) : Prop where
  zero : A.hasVar 0 = false
  sign : ∀ c, A.hasVar c = false → A.sign c = -1 ∨ A.sign c = 0 ∨ A.sign c = 1
  sign_zero : ∀ c, A.hasVar c = false → (A.sign c = 0 ↔ c = 0)

/-- The polynomials of highest degree have leading coefficients without parameters. -/
def ScalarLead (A : MAlg R) (ps : List (List R)) : Prop :=
  ∀ p ∈ ps, (∀ q ∈ ps, q.length ≤ p.length) → A.hasVar (p.getLastD 0) = false

/-- `p` is the first of the polynomials of highest degree. -/
def FirstHighest (ps : List (List R)) (p : List R) : Prop :=
  ∃ pre post, ps = pre ++ p :: post ∧ (∀ q ∈ pre, q.length < p.length) ∧ ∀ q ∈ post, q.length ≤ p.length

/-- The polynomials are 0 and one constant. -/
def ZeroAndConstant (ps : List (List R)) : Prop := ∃ a : R, ∀ q : List R, q ∈ ps ↔ q = [a] ∨ q = []

theorem GoodScalars.algOK {A : MAlg R} (h : GoodScalars A) : AlgOK A :=
  ⟨h.zero, (h.sign_zero 0 h.zero).2 rfl, fun k hk => h.sign k hk,
    fun k hk hv h0 => hk ((h.sign_zero k hv).1 h0)⟩

theorem ScalarLead.goal {A : MAlg R} {ps : List (List R)} (h : ScalarLead A ps) (hn : ∀ p ∈ ps, Normal p) :
    GoalOK A [] ps :=
  ⟨fun p hp => canon_of_normal (hn p hp), fun p hp hm => Or.inl (h p hp hm)⟩

theorem degSet_first {ps : List (List R)} {p : List R} (h : FirstHighest ps p) :
    ∃ rest, degSet ps = p :: rest ∧ ∀ q, q ∈ rest ↔ q ∈ ps ∧ q ≠ p := by
  obtain ⟨pre, post, rfl, h1, h2⟩ := h
  have hB : ∀ (l acc : List (List R)), (∀ q ∈ l, q.length < p.length) → (∀ q ∈ acc, q.length < p.length) →
      ∀ q ∈ l.foldl (fun acc p => if p ∈ acc then acc else degAdd p acc) acc, q.length < p.length := by
    intro l
    induction l with
    | nil => intro acc _ h q hq; exact h q hq
    | cons a l ih =>
      intro acc hl ha
      rw [List.foldl_cons]
      apply ih _ fun q hq => hl q (by simp [hq])
      intro q hq
      split at hq
      · exact ha q hq
      · rcases (mem_degAdd _ _ _).1 hq with rfl | hq
        · exact hl q (by simp)
        · exact ha q hq
  have hA : ∀ (l acc : List (List R)), (∀ q ∈ l, q.length ≤ p.length) → (∃ r, acc = p :: r) →
      ∃ r, l.foldl (fun acc p => if p ∈ acc then acc else degAdd p acc) acc = p :: r := by
    intro l
    induction l with
    | nil => intro acc _ h; exact h
    | cons a l ih =>
      rintro acc hl ⟨r, rfl⟩
      rw [List.foldl_cons]
      apply ih _ fun q hq => hl q (by simp [hq])
      split
      · exact ⟨r, rfl⟩
      · unfold degAdd
        rw [if_neg (by have := hl a (by simp); omega)]
        exact ⟨_, rfl⟩
  obtain ⟨rest, hr⟩ : ∃ r, degSet (pre ++ p :: post) = p :: r := by
    unfold degSet
    rw [List.foldl_append, List.foldl_cons]
    have hacc := hB pre [] h1 (by simp)
    generalize pre.foldl (fun acc p => if p ∈ acc then acc else degAdd p acc) [] = acc at hacc ⊢
    apply hA post _ h2
    rw [if_neg fun hp => lt_irrefl _ (hacc p hp)]
    cases acc with
    | nil => exact ⟨[], rfl⟩
    | cons a l =>
      unfold degAdd
      rw [if_pos (hacc a (by simp))]
      exact ⟨_, rfl⟩
  refine ⟨rest, hr, fun q => ?_⟩
  obtain ⟨hnd, _, hm⟩ := degSet_spec (pre ++ p :: post)
  rw [hr] at hnd hm
  rw [List.nodup_cons] at hnd
  rw [← hm]
  constructor
  · intro hq
    exact ⟨List.mem_cons_of_mem _ hq, by rintro rfl; exact hnd.1 hq⟩
  · rintro ⟨hq, hne⟩
    rcases List.mem_cons.1 hq with h | h
    · exact absurd h hne
    · exact h

theorem noLoss_of {ps : List (List R)} (h : ¬ ZeroAndConstant ps) : NoLoss ps :=
  fun a ha => h ⟨a, ha⟩

theorem ScalarSigns.rval {K : Type*} [Field K] [LinearOrder K] [IsStrictOrderedRing K] {A : MAlg R}
    (hA : GoodScalars A) {φ : R →+* K} (h : ScalarSigns A φ) : RValOK A φ :=
  ⟨(hA.sign_zero 0 hA.zero).2 rfl, fun c hc => by rw [h c hc, signZ_eq]⟩

theorem GoodScalars.intAlg : GoodScalars Verif.Qe.intAlg :=
  ⟨rfl, fun c _ => by
    simp only [Verif.Qe.intAlg]; rcases Int.sign_trichotomy c with h | h | h <;> simp [h],
    fun c _ => by simp [Verif.Qe.intAlg]⟩

theorem GoodScalars.zyAlg : GoodScalars ZY.alg := by
  refine ⟨by decide, fun c _ => ?_, fun c hc => ?_⟩
  · simp only [ZY.alg]
    rcases Int.sign_trichotomy (c.coeffs.headD 0) with h | h | h <;> rw [h] <;> decide
  · obtain ⟨l, hl⟩ := c
    simp only [ZY.alg, decide_eq_false_iff_not, not_lt] at hc ⊢
    rw [Int.sign_eq_zero_iff_zero]
    match l, hl, hc with
    | [], hl, _ => exact ⟨fun _ => rfl, fun _ => rfl⟩
    | [a], hl, _ =>
      constructor
      · intro h
        have h : a = 0 := h
        subst h
        exact absurd hl (by unfold Canon; decide)
      · intro h
        have := congrArg ZY.coeffs h
        exact absurd this (by simp [show (0 : ZY).coeffs = [] from rfl])
    | _ :: _ :: _, _, hc => simp at hc

theorem scalarSigns_zy (a : ℝ) : ScalarSigns ZY.alg (ZY.at' a) := by
  intro c hc
  obtain ⟨l, hl⟩ := c
  simp only [ZY.alg, decide_eq_false_iff_not, not_lt] at hc ⊢
  have hval : ZY.at' a ⟨l, hl⟩ = ((l.headD 0 : ℤ) : ℝ) := by
    show Polynomial.eval₂ _ _ (toPoly l) = _
    match l, hc with
    | [], _ => simp
    | [b], _ =>
      simp only [toPoly_cons, toPoly_nil, mul_zero, add_zero, List.headD_cons]
      rw [eval₂_C]; simp
  rw [hval]
  unfold signZ
  rcases lt_trichotomy (l.headD 0) 0 with h | h | h
  · rw [Int.sign_eq_neg_one_of_neg h, if_pos (by exact_mod_cast h)]
  · rw [h]; simp
  · rw [Int.sign_eq_one_of_pos h, if_neg (by push Not; exact_mod_cast h.le),
      if_neg (by exact_mod_cast h.ne')]

theorem except_of_toOption {ε α : Type} {e : Except ε α} {a : α} (h : e.toOption = some a) : e = .ok a := by
  cases e with
  | error _ => cases h
  | ok b => cases h; rfl

theorem TShape.columns {K : Type} [Field K] [LinearOrder K] [IsStrictOrderedRing K] [PolyIVT K] {A : MAlg R}
    {con : Ctx R} {D : Table R} {polys : List (List R)} {gs : List (ℚ × ℚ)} {φ : R →+* K}
    (e2 : TShape A con D polys gs) (hD : TSem φ D polys gs) :
    ∃ (cols : List ℚ) (xs : List K),
      cols.length = 2 * xs.length + 3 ∧ cols.Pairwise (· < ·) ∧ xs.Pairwise (· < ·) ∧
      (∀ q ∈ polys, ((dRow D q).map Prod.fst).Nodup ∧ ∀ i, i ∈ (dRow D q).map Prod.fst ↔ i ∈ cols) ∧
      (∀ x, x ∈ xs ↔ ∃ q ∈ polys, (∃ y, value φ q y ≠ 0) ∧ value φ q x = 0) ∧
      (∃ M, ∀ q ∈ polys, ∀ x < M, dRead D q (cols.getD 0 0) = .ok (signZ (value φ q x))) ∧
      (∀ i ≤ xs.length, ∀ x, (∀ y ∈ xs.take i, y < x) → (∀ y ∈ xs.drop i, x < y) →
        ∀ q ∈ polys, dRead D q (cols.getD (2 * i + 1) 0) = .ok (signZ (value φ q x))) ∧
      (∀ i < xs.length, ∀ q ∈ polys,
        dRead D q (cols.getD (2 * i + 2) 0) = .ok (signZ (value φ q (xs.getD i 0)))) ∧
      (∃ M, ∀ q ∈ polys, ∀ x > M,
        dRead D q (cols.getD (2 * xs.length + 2) 0) = .ok (signZ (value φ q x))) := by
  obtain ⟨xs, hxs⟩ := hD.seg
  obtain ⟨hlen, hsorted, _⟩ := hxs.sorted
  have hne : ∀ q, (∃ y, value φ q y ≠ 0) ↔ P φ q ≠ 0 := by
    intro q
    constructor
    · rintro ⟨y, hy⟩ h0
      rw [← eval_P, h0, eval_zero] at hy
      exact hy rfl
    · intro h0
      by_contra hcon
      push Not at hcon
      exact h0 (Polynomial.funext fun x => by rw [eval_P, hcon, eval_zero])
  have hclen : (segCols gs).length = 2 * xs.length + 2 := by rw [segCols_length, hlen]; ring
  have hread : ∀ q ∈ polys, ∀ i, i = 0 ∨ i ∈ segCols gs → dRead D q i = .ok (cv D q i) := fun q hq i hi =>
    dRead_ok ((e2.ck q hq i).2 hi)
  have hmem : ∀ i < (segCols gs).length, (segCols gs).getD i 0 ∈ segCols gs := by
    intro i hi
    rw [List.getD_eq_getElem?_getD, List.getElem?_eq_getElem hi]
    exact List.getElem_mem hi
  have hlastcol : (segCols gs).getD (2 * xs.length + 1) 0 = segLast 0 gs := by
    have : ∀ (gs : List (ℚ × ℚ)) (n : ℕ) (l : ℚ), gs.length = n + 1 →
        (segCols gs).getD (2 * n + 1) 0 = segLast l gs := by
      intro gs
      induction gs with
      | nil => intro n l h; simp at h
      | cons x gs ih =>
        obtain ⟨g, e⟩ := x
        intro n l h
        cases n with
        | zero =>
          have : gs = [] := by simpa using h
          subst this; rfl
        | succ n =>
          have := ih n e (by simpa using h)
          rw [show 2 * (n + 1) + 1 = 2 * n + 1 + 1 + 1 by ring]
          exact this
    exact this gs xs.length 0 hlen
  refine ⟨0 :: segCols gs, xs, by simp [hclen], segCols_sorted e2.chain, hsorted, ?_, ?_, ?_,
    ?_, ?_, ?_⟩
  · intro q hq
    refine ⟨e2.nodup q, fun i => ?_⟩
    rw [List.mem_cons]
    exact e2.ck q hq i
  · intro x
    constructor
    · intro hx
      obtain ⟨e, he, hq⟩ := hxs.root_col x hx
      obtain ⟨q, hqk, hq0, hq1⟩ := e2.seg.inner e he
      refine ⟨q, hqk, (hne q).2 fun h => ?_, ?_⟩
      · rw [← hD.bot q hqk, Ne, sgBot_eq_zero] at hq1
        exact hq1 h
      · rw [← eval_P, ← sg_eq_zero_iff, hq q hqk, hq0]
    · rintro ⟨q, hq, h0, hx⟩
      have hqk := hq
      rcases hxs.root_or_gap x trivial with h | ⟨g, hg, h⟩
      · exact h
      · have := e2.seg.gap g hg q hqk (by
          rw [← hD.bot q hqk, Ne, sgBot_eq_zero]; exact (hne q).1 h0)
        rw [← h q hqk, eval_P, hx, sg_zero] at this
        exact absurd rfl this
  · obtain ⟨M, hM⟩ := exists_bot φ polys
    refine ⟨M, fun q hq x hx => ?_⟩
    have hqk := hq
    rw [signZ_eq, ← eval_P, hM q hqk x hx, hD.bot q hqk]
    exact hread q hq 0 (Or.inl rfl)
  · intro i hi x ha hb q hq
    have hqk := hq
    have := hxs.gapAt i hi x trivial ha hb q hqk
    rw [signZ_eq, ← eval_P, this]
    exact hread q hq _ (Or.inr (hmem _ (by omega)))
  · intro i hi q hq
    have hqk := hq
    have := hxs.rootAt i hi q hqk
    rw [signZ_eq, ← eval_P, this]
    exact hread q hq _ (Or.inr (hmem _ (by omega)))
  · obtain ⟨M, hM⟩ := exists_top φ polys
    refine ⟨M, fun q hq x hx => ?_⟩
    have hqk := hq
    rw [signZ_eq, ← eval_P, hM q hqk x hx, hxs.top 0 q hqk, ← hlastcol]
    exact hread q hq _ (Or.inr (hmem _ (by omega)))

/-! ### C29 -/

/-- **C29**: the table computation ends without an exception. At parameters that meet the conditions
stored with a table (there are none when the polynomials have no parameters), the columns `cols` of the table
are in increasing order: the sign vector of the polynomials at `-∞`, on the interval before the first root
`xs[0]`, at `xs[0]`, on the interval up to `xs[1]`, ..., on the interval after the last root, and at `+∞`. The
`xs` are exactly the roots of the nonzero polynomials. When the polynomials are nonzero there is a table for
all parameters. -/
theorem C29_tables [IsDomain R] [CharZero R] (A : MAlg R) (hA : GoodScalars A) (polys : List (List R))
    (hn : ∀ p ∈ polys, Normal p) (hlead : ScalarLead A polys) :
    ∃ (N : ℕ) (out : List (Table R × Ctx R)), (∀ fuel ≥ N, realTable A fuel polys [] = .ok out) ∧
      (∀ t ∈ out, ∀ e ∈ t.2, A.hasVar e.1 = true) ∧
      ∀ {K : Type} [Field K] [LinearOrder K] [IsStrictOrderedRing K] [PolyIVT K] (φ : R →+* K),
        ScalarSigns A φ →
        (polys ≠ [] → [] ∉ polys → ∃ t ∈ out, ∀ e ∈ t.2, signZ (φ e.1) = e.2) ∧
        ∀ t ∈ out, (∀ e ∈ t.2, signZ (φ e.1) = e.2) →
        ∃ (cols : List ℚ) (xs : List K),
          cols.length = 2 * xs.length + 3 ∧ cols.Pairwise (· < ·) ∧ xs.Pairwise (· < ·) ∧
          (∀ q ∈ polys, ((dRow t.1 q).map Prod.fst).Nodup ∧ ∀ i, i ∈ (dRow t.1 q).map Prod.fst ↔ i ∈ cols) ∧
          (∀ x, x ∈ xs ↔ ∃ q ∈ polys, (∃ y, value φ q y ≠ 0) ∧ value φ q x = 0) ∧
          (∃ M, ∀ q ∈ polys, ∀ x < M, dRead t.1 q (cols.getD 0 0) = .ok (signZ (value φ q x))) ∧
          (∀ i ≤ xs.length, ∀ x, (∀ y ∈ xs.take i, y < x) → (∀ y ∈ xs.drop i, x < y) →
            ∀ q ∈ polys, dRead t.1 q (cols.getD (2 * i + 1) 0) = .ok (signZ (value φ q x))) ∧
          (∀ i < xs.length, ∀ q ∈ polys,
            dRead t.1 q (cols.getD (2 * i + 2) 0) = .ok (signZ (value φ q (xs.getD i 0)))) ∧
          (∃ M, ∀ q ∈ polys, ∀ x > M,
            dRead t.1 q (cols.getD (2 * xs.length + 2) 0) = .ok (signZ (value φ q x))) := by
  obtain ⟨N, out, h1, h2, _⟩ := realTable_spec (K := ℝ) hA.algOK (ctxOK_nil A) (hlead.goal hn)
  refine ⟨N, out, h1, ?_, ?_⟩
  · intro t ht e he
    obtain ⟨_, _, _, hc, _⟩ := h2 t ht
    exact hc.var e.1 e.2 ((dGet_eq_of_nodup hc.nodup _ _).1 he)
  intro K _ _ _ _ φ hφ
  obtain ⟨N', out', h1', h2', h3'⟩ := realTable_spec (K := K) hA.algOK (ctxOK_nil A) (hlead.goal hn)
  have : out' = out := by
    have e1 := h1 (max N N') (le_max_left _ _)
    rw [h1' (max N N') (le_max_right _ _)] at e1
    cases e1; rfl
  subst this
  constructor
  · intro hne h0
    obtain ⟨t, ht, hr⟩ := h3' hne (fun a ha => h0 ((ha []).2 (Or.inr rfl))) φ ⟨hφ.rval hA, by simp [dGet]⟩
    refine ⟨t, ht, fun e he => ?_⟩
    obtain ⟨_, _, _, hc, _⟩ := h2' t ht
    rw [signZ_eq]
    exact (hr.ctx e.1 e.2 ((dGet_eq_of_nodup hc.nodup _ _).1 he)).symm
  intro t ht hmeet
  obtain ⟨gs, e2, _, hc, hsem⟩ := h2' t ht
  have hD := hsem φ ⟨hφ.rval hA, fun k s hk => by
    rw [← signZ_eq]
    exact (hmeet (k, s) ((dGet_eq_of_nodup hc.nodup _ _).2 hk)).symm⟩
  exact e2.columns hD

/-- The hypotheses of C29 hold for `x² - 2` and `x - 1`, and there is one table, with nine columns (there
are three roots; that of the derivative `2x` is removed). -/
example : GoodScalars intAlg ∧ (∀ p ∈ [[(-2 : ℤ), 0, 1], [-1, 1]], Normal p) ∧
    ScalarLead intAlg [[(-2 : ℤ), 0, 1], [-1, 1]] ∧
    ((realTable intAlg 20 [[(-2 : ℤ), 0, 1], [-1, 1]] []).toOption.map fun out =>
      out.map fun t => ((dRow t.1 [-2, 0, 1]).length, t.2.length)) = some [(9, 0)] := by
  refine ⟨.intAlg, ?_, fun _ _ _ => rfl, by decide +kernel⟩
  intro p hp h
  fin_cases hp <;> simp

/-! ### C27 -/

/-- **C27** is violated: `0 = 0 ∧ 1 > 0` is satisfiable, and the returned value is the empty list. -/
theorem C27_violated :
    (chFull intAlg 20 [] [[]] [[1]]).toOption = some [] ∧
    ∀ φ : ℤ →+* ℝ, ∃ x, (∀ q ∈ [([] : List ℤ)], value φ q x = 0) ∧ ∀ q ∈ [[(1 : ℤ)]], 0 < value φ q x := by
  exact ⟨by decide +kernel, fun φ => ⟨0, by simp [value], by simp [value]⟩⟩

/-- What holds instead of **C27**: the answer is right for all inputs other than those that consist of the
polynomial 0 and one constant; a nonempty list is right for those too. -/
theorem C27_partial [IsDomain R] [CharZero R] (A : MAlg R) (hA : GoodScalars A)
    (hpar : ∀ c, A.hasVar c = false) (lesser eqs greater : List (List R))
    (hne : lesser ++ eqs ++ greater ≠ []) (hn : ∀ p ∈ lesser ++ eqs ++ greater, Normal p) :
    ∃ (N : ℕ) (ret : List (List R × List R × List R)),
      (∀ fuel ≥ N, chFull A fuel lesser eqs greater = .ok ret) ∧
      ∀ {K : Type} [Field K] [LinearOrder K] [IsStrictOrderedRing K] [PolyIVT K] (φ : R →+* K),
        ScalarSigns A φ →
        (ret ≠ [] → ∃ x, (∀ q ∈ lesser, value φ q x < 0) ∧ (∀ q ∈ eqs, value φ q x = 0) ∧
            ∀ q ∈ greater, 0 < value φ q x) ∧
        (¬ ZeroAndConstant (lesser ++ eqs ++ greater) →
          (∃ x, (∀ q ∈ lesser, value φ q x < 0) ∧ (∀ q ∈ eqs, value φ q x = 0) ∧
            ∀ q ∈ greater, 0 < value φ q x) → ret ≠ []) := by
  have hlead : ScalarLead A (lesser ++ eqs ++ greater) := fun _ _ _ => hpar _
  obtain ⟨N, ret, h1, h2, h3⟩ := chFull_spec hA.algOK lesser eqs greater hne (hlead.goal hn)
  refine ⟨N, ret, h1, ?_⟩
  intro K _ _ _ _ φ hφ
  have := h3 φ (hφ.rval hA)
  simp only [eval_P] at this
  constructor
  · intro hret
    obtain ⟨z, hz⟩ := List.exists_mem_of_ne_nil _ hret
    have hno : ∀ k ∈ z.1 ++ z.2.1 ++ z.2.2, False := fun k hk => by
      have := h2 z hz k hk
      rw [hpar] at this
      exact absurd this (by decide)
    exact this.1 ⟨z, hz, fun k hk => (hno k (by simp [hk])).elim, fun k hk => (hno k (by simp [hk])).elim,
      fun k hk => (hno k (by simp [hk])).elim⟩
  · intro hz hx
    obtain ⟨z, hz, _⟩ := this.2 (noLoss_of hz) hx
    exact List.ne_nil_of_mem hz

/-- `x² - 2 = 0, x - 1 > 0` is satisfiable, `x² - 2 < 0, x - 2 > 0` is not. -/
example : (do
      let o₁ ← chFull intAlg 60 [] [[-2, 0, 1]] [[-1, 1]]
      let o₂ ← chFull intAlg 60 [[-2, 0, 1]] [] [[-2, 1]]
      .ok (o₁.length, o₂.length) : Except QErr (ℕ × ℕ)).toOption = some (1, 0) := by
  decide +kernel

/-! ### C28 -/

/-- **C28** is violated: for `y*x + 1 = 0 ∧ x - 1 > 0` one of the returned contexts is `y = 0 ∧ y + 1 > 0`,
which holds at `y = 0`, where the constraints are unsatisfiable. -/
theorem C28_violated_sound :
    ∃ ret, chFull ZY.alg 20 [] [[1, ZY.y]] [[-1, 1]] = .ok ret ∧
      (∃ z ∈ ret, (∀ k ∈ z.1, ZY.at' 0 k < 0) ∧ (∀ k ∈ z.2.1, ZY.at' 0 k = 0) ∧
        ∀ k ∈ z.2.2, 0 < ZY.at' 0 k) ∧
      ¬ ∃ x, (∀ q ∈ [[1, ZY.y]], value (ZY.at' 0) q x = 0) ∧
        ∀ q ∈ [[(-1 : ZY), 1]], 0 < value (ZY.at' 0) q x := by
  have h : (chFull ZY.alg 20 [] [[1, ZY.y]] [[-1, 1]]).toOption =
      some [([ZY.y], [], [ZY.y + 1]), ([ZY.y + 1], [ZY.y], []), ([], [ZY.y], [ZY.y + 1]),
        ([ZY.y + 1], [], [ZY.y])] := by decide +kernel
  refine ⟨_, except_of_toOption h, ⟨([], [ZY.y], [ZY.y + 1]), by simp, by simp, ?_, ?_⟩, ?_⟩
  · simp [ZY.at'_y]
  · simp [ZY.at'_y]
  · rintro ⟨x, hx, _⟩
    have := hx [1, ZY.y] (by simp)
    simp [value, ZY.at'_y] at this

/-- **C28** is violated: for `y*x - 1 < 0` no returned context holds at `y = 0`, where the constraint holds
for all `x`. -/
theorem C28_violated_complete :
    ∃ ret, chFull ZY.alg 20 [[-1, ZY.y]] [] [] = .ok ret ∧
      (¬ ∃ z ∈ ret, (∀ k ∈ z.1, ZY.at' 0 k < 0) ∧ (∀ k ∈ z.2.1, ZY.at' 0 k = 0) ∧
        ∀ k ∈ z.2.2, 0 < ZY.at' 0 k) ∧
      ∀ x, ∀ q ∈ [[-1, ZY.y]], value (ZY.at' 0) q x < 0 := by
  have h : (chFull ZY.alg 20 [[-1, ZY.y]] [] []).toOption =
      some [([ZY.y], [], []), ([], [], [ZY.y])] := by decide +kernel
  refine ⟨_, except_of_toOption h, ?_, ?_⟩
  · simp [ZY.at'_y]
  · simp [value, ZY.at'_y]

/-- **C28** is violated: for `y*x² = 0` the exception "no key" is raised. -/
theorem C28_violated_exception :
    chFull ZY.alg 20 [] [[0, 0, ZY.y]] [] = .error .noKey := by
  have h : (match chFull ZY.alg 20 [] [[0, 0, ZY.y]] [] with
    | .error .noKey => true
    | _ => false) = true := by decide +kernel
  split at h
  · next h' => exact h'
  · exact absurd h (by decide)

/-- What holds instead of **C28**: when the polynomials of highest degree have leading coefficients without
parameters (and the input does not consist of 0 and one constant) the returned disjunction is equivalent to
the existence of a point, at all valuations of the parameters. Every returned context is sound in this case
even without the second condition. -/
theorem C28_scalar_partial [IsDomain R] [CharZero R] (A : MAlg R) (hA : GoodScalars A)
    (lesser eqs greater : List (List R)) (hne : lesser ++ eqs ++ greater ≠ [])
    (hn : ∀ p ∈ lesser ++ eqs ++ greater, Normal p) (hlead : ScalarLead A (lesser ++ eqs ++ greater)) :
    ∃ (N : ℕ) (ret : List (List R × List R × List R)),
      (∀ fuel ≥ N, chFull A fuel lesser eqs greater = .ok ret) ∧
      ∀ {K : Type} [Field K] [LinearOrder K] [IsStrictOrderedRing K] [PolyIVT K] (φ : R →+* K),
        ScalarSigns A φ →
        ((∃ z ∈ ret, (∀ k ∈ z.1, φ k < 0) ∧ (∀ k ∈ z.2.1, φ k = 0) ∧ ∀ k ∈ z.2.2, 0 < φ k) →
          ∃ x, (∀ q ∈ lesser, value φ q x < 0) ∧ (∀ q ∈ eqs, value φ q x = 0) ∧
            ∀ q ∈ greater, 0 < value φ q x) ∧
        (¬ ZeroAndConstant (lesser ++ eqs ++ greater) →
          (∃ x, (∀ q ∈ lesser, value φ q x < 0) ∧ (∀ q ∈ eqs, value φ q x = 0) ∧
            ∀ q ∈ greater, 0 < value φ q x) →
          ∃ z ∈ ret, (∀ k ∈ z.1, φ k < 0) ∧ (∀ k ∈ z.2.1, φ k = 0) ∧ ∀ k ∈ z.2.2, 0 < φ k) := by
  obtain ⟨N, ret, h1, _, h3⟩ := chFull_spec hA.algOK lesser eqs greater hne (hlead.goal hn)
  refine ⟨N, ret, h1, ?_⟩
  intro K _ _ _ _ φ hφ
  have := h3 φ (hφ.rval hA)
  simp only [eval_P] at this
  exact ⟨this.1, fun hz => this.2 (noLoss_of hz)⟩

/-- The hypotheses of C28_scalar_partial hold for `x² + y*x + 1 = 0`, `y*x - 1 > 0`, and all real values of the
parameter `y` are allowed. -/
example : GoodScalars ZY.alg ∧ (∀ p ∈ [] ++ [[1, ZY.y, 1]] ++ [[-1, ZY.y]], Normal p) ∧
    ScalarLead ZY.alg ([] ++ [[1, ZY.y, 1]] ++ [[-1, ZY.y]]) ∧
    ¬ ZeroAndConstant ([] ++ [[1, ZY.y, 1]] ++ [[-1, ZY.y]]) ∧ ∀ a : ℝ, ScalarSigns ZY.alg (ZY.at' a) := by
  refine ⟨.zyAlg, ?_, ?_, ?_, scalarSigns_zy⟩
  · intro p hp h
    simp only [List.cons_append, List.nil_append, List.mem_cons, List.not_mem_nil, or_false] at hp
    rcases hp with rfl | rfl <;> revert h <;> decide
  · intro p hp hm
    simp only [List.cons_append, List.nil_append, List.mem_cons, List.not_mem_nil, or_false] at hp
    rcases hp with rfl | rfl
    · decide
    · have := hm [1, ZY.y, 1] (by simp)
      simp at this
  · rintro ⟨a, ha⟩
    have := (ha []).2 (Or.inr rfl)
    simp at this

/-- **C28** is violated for constants: for `-1 < 0`, `y = 0` no context is returned, although the constraints
hold at `y = 0`. It depends on the order: for `y = 0`, `1 > 0` the context `y = 0` is returned. -/
theorem C28_violated_constants :
    chFull ZY.alg 20 [] [[ZY.y]] [[1]] = .ok [([], [ZY.y], [])] ∧
    chFull ZY.alg 20 [[-1]] [[ZY.y]] [] = .ok [] ∧
      ∀ x, (∀ q ∈ [[(-1 : ZY)]], value (ZY.at' 0) q x < 0) ∧ ∀ q ∈ [[ZY.y]], value (ZY.at' 0) q x = 0 := by
  have h1 : (chFull ZY.alg 20 [] [[ZY.y]] [[1]]).toOption = some [([], [ZY.y], [])] := by decide +kernel
  have h2 : (chFull ZY.alg 20 [[-1]] [[ZY.y]] []).toOption = some [] := by decide +kernel
  refine ⟨except_of_toOption h1, except_of_toOption h2, ?_⟩
  simp [value, ZY.at'_y]

/-- What holds instead of **C28**, with fewer conditions on the input: only the first of the polynomials of
highest degree needs a leading coefficient without parameters, or it may be a constant, with or without
parameters. The computation ends without an exception and every returned context is sound. A valuation with
a solution meets a returned context if the polynomials are not all constant, or there is just one, or one of
the others does not vanish. -/
theorem C28_partial [IsDomain R] [CharZero R] (A : MAlg R) (hA : GoodScalars A)
    (lesser eqs greater : List (List R)) (p : List R) (hp : FirstHighest (lesser ++ eqs ++ greater) p)
    (hlead : p.length ≤ 1 ∨ A.hasVar (p.getLastD 0) = false)
    (hn : ∀ q ∈ lesser ++ eqs ++ greater, Normal q) :
    ∃ (N : ℕ) (ret : List (List R × List R × List R)),
      (∀ fuel ≥ N, chFull A fuel lesser eqs greater = .ok ret) ∧
      ∀ {K : Type} [Field K] [LinearOrder K] [IsStrictOrderedRing K] [PolyIVT K] (φ : R →+* K),
        ScalarSigns A φ →
        ((∃ z ∈ ret, (∀ k ∈ z.1, φ k < 0) ∧ (∀ k ∈ z.2.1, φ k = 0) ∧ ∀ k ∈ z.2.2, 0 < φ k) →
          ∃ x, (∀ q ∈ lesser, value φ q x < 0) ∧ (∀ q ∈ eqs, value φ q x = 0) ∧
            ∀ q ∈ greater, 0 < value φ q x) ∧
        ((1 < p.length ∨ (∀ q ∈ lesser ++ eqs ++ greater, q = p) ∨
            ∃ q ∈ lesser ++ eqs ++ greater, q ≠ p ∧ ∃ x, value φ q x ≠ 0) →
          (∃ x, (∀ q ∈ lesser, value φ q x < 0) ∧ (∀ q ∈ eqs, value φ q x = 0) ∧
            ∀ q ∈ greater, 0 < value φ q x) →
          ∃ z ∈ ret, (∀ k ∈ z.1, φ k < 0) ∧ (∀ k ∈ z.2.1, φ k = 0) ∧ ∀ k ∈ z.2.2, 0 < φ k) := by
  obtain ⟨rest, hds, hrest⟩ := degSet_first hp
  have hne : lesser ++ eqs ++ greater ≠ [] := by
    obtain ⟨pre, post, h, _⟩ := hp
    rw [h]; simp
  obtain ⟨N, ret, h1, _, h3⟩ := chFull_first hA.algOK lesser eqs greater hne
    (fun q hq => canon_of_normal (hn q hq)) hds (fun hd => hlead.resolve_left (by unfold deg at hd; omega))
  refine ⟨N, ret, h1, ?_⟩
  intro K _ _ _ _ φ hφ
  have := h3 φ (hφ.rval hA)
  simp only [eval_P] at this
  refine ⟨this.1, fun hz => this.2 ?_⟩
  rcases hz with h | h | ⟨q, hq, hqp, x, hx⟩
  · exact Or.inl (by unfold deg; omega)
  · refine Or.inr (Or.inl (List.eq_nil_iff_forall_not_mem.2 fun q hq => ?_))
    obtain ⟨h', h''⟩ := (hrest q).1 hq
    exact h'' (h q h')
  · refine Or.inr (Or.inr ⟨q, (hrest q).2 ⟨hq, hqp⟩, fun h0 => hx ?_⟩)
    rw [← eval_P, h0, eval_zero]

/-- The hypotheses of C28_partial hold for `x² + 1 < 0`, `y*x² - 1 = 0`, and for the constant `y = 0`; in both
cases every valuation with a solution meets a returned context. -/
example : FirstHighest ([[1, 0, 1]] ++ [[-1, 0, ZY.y]] ++ [] : List (List ZY)) [1, 0, 1] ∧
    ZY.alg.hasVar (([1, 0, 1] : List ZY).getLastD 0) = false ∧
    FirstHighest ([] ++ [[ZY.y]] ++ [] : List (List ZY)) [ZY.y] ∧ ([ZY.y] : List ZY).length ≤ 1 ∧
    (∀ q ∈ ([[1, 0, 1]] ++ [[-1, 0, ZY.y]] ++ [] : List (List ZY)), Normal q) ∧
    (∀ q ∈ ([] ++ [[ZY.y]] ++ [] : List (List ZY)), q = [ZY.y]) := by
  refine ⟨⟨[], [[-1, 0, ZY.y]], by simp⟩, by decide, ⟨[], [], by simp⟩, by simp, ?_, by simp⟩
  intro p hp h
  simp only [List.cons_append, List.nil_append, List.append_nil, List.mem_cons, List.not_mem_nil, or_false] at hp
  rcases hp with rfl | rfl <;> revert h <;> decide

end Verif.Qe
