import Verif.Qe.ComplexMain
import Mathlib.Analysis.Complex.Polynomial.Basic
import Mathlib.Algebra.MvPolynomial.Basic

/-!
# C21, C22, C25, C26: the Muchnik procedure over the complex numbers

`R` is the ring of the coefficients (polynomials in the parameters), a polynomial in the variable to be
eliminated is its list of coefficients without a zero at the end, and a valuation of the parameters is a
ring homomorphism `φ` from `R` to a field `K`.
-/

set_option linter.unusedSectionVars false

open Polynomial

namespace Verif.Qe

variable {R : Type} [CommRing R] [DecidableEq R]

/-- The value of a polynomial with coefficients `l` at the parameters `φ` and the point `x`. -/
def value {K : Type*} [Semiring K] (φ : R →+* K) : List R → K → K
  | [], _ => 0
  | c :: l, x => φ c + x * value φ l x

/-- The list has no zero at its end. -/
def Normal (l : List R) : Prop := ∀ h : l ≠ [], l.getLast h ≠ 0

/-- Scalars are what `has_variable` says they are: nonzero scalars are nonzero at all parameters. -/
def ScalarsNonzero {K : Type*} [Semiring K] (A : MAlg R) (φ : R →+* K) : Prop :=
  ∀ c : R, c ≠ 0 → A.hasVar c = false → φ c ≠ 0

theorem canon_of_normal {l : List R} (h : Normal l) : Canon l := by
  unfold Canon
  induction l with
  | nil => rfl
  | cons c l ih =>
    cases l with
    | nil =>
      have := h (by simp)
      simp only [List.getLast_singleton] at this
      exact canon_singleton c this
    | cons a l =>
      have := ih fun h' => by
        have := h (by simp)
        rwa [List.getLast_cons h'] at this
      unfold strip
      rw [this]

theorem eval_P {K : Type*} [Field K] (φ : R →+* K) (l : List R) (x : K) :
    (P φ l).eval x = value φ l x := by
  unfold P
  induction l with
  | nil => simp [value]
  | cons c l ih =>
    rw [toPoly_cons, Polynomial.map_add, Polynomial.map_mul, eval_add, eval_mul, ih]
    simp [value]

theorem value_const {K : Type*} [Field K] (φ : R →+* K) {l : List R} (h : l.length ≤ 1) (x : K) :
    value φ l x = φ (l.headD 0) := by
  cases l with
  | nil => simp [value]
  | cons c l =>
    have : l = [] := by simpa using h
    subst this
    simp [value]

/-- The polynomial with the given coefficients, in the sense of Mathlib. -/
noncomputable def poly (l : List R) : R[X] := ∑ i ∈ Finset.range l.length, C (l.getD i 0) * X ^ i

theorem poly_eq (l : List R) : poly l = toPoly l := by
  ext n
  rw [poly, finsetSum_coeff, coeff_toPoly]
  simp only [coeff_C_mul, coeff_X_pow, mul_ite, mul_one, mul_zero, Finset.sum_ite_eq, Finset.mem_range]
  split
  · rfl
  · rename_i h
    rw [List.getD_eq_getElem?_getD, List.getElem?_eq_none (by omega)]; rfl

/-! ### C21 -/

/-- **C21**: the closure computation terminates (from some recursion depth on the result is always the
same list `S`, without repetition), it contains 0 and the input and is closed under derivative, dropping
the leading term and pseudo-remainder by members of positive degree. -/
theorem C21_sequence_closed [IsDomain R] (A : MAlg R) (ps : List (List R)) (hps : ∀ p ∈ ps, Normal p) :
    ∃ (N : ℕ) (S : List (List R)), (∀ fuel ≥ N, muchnikSeq A fuel [[]] ps = .ok S) ∧ S.Nodup ∧
      [] ∈ S ∧ (∀ p ∈ ps, p ∈ S) ∧
      (∀ p ∈ S, ∃ q ∈ S, poly q = Polynomial.derivative (poly p)) ∧
      (∀ p ∈ S, ∃ q ∈ S, poly q = (poly p).eraseLead) ∧
      ∀ p ∈ S, ∀ q ∈ S, 0 < (poly q).natDegree → (poly q).natDegree ≤ (poly p).natDegree →
        ∃ r ∈ S, ∃ Q : R[X], (poly r).natDegree < (poly q).natDegree ∧
          C ((poly q).leadingCoeff ^ ((poly p).natDegree - (poly q).natDegree + 1)) * poly p =
            Q * poly q + poly r := by
  obtain ⟨N, S, h1, hS, h2⟩ := muchnikSeq_total A ps fun p hp => canon_of_normal (hps p hp)
  have hnone : ∀ {q : List R}, q ∈ S ∨ q ∈ ([] : List (List R)) → q ∈ S := by
    rintro q (h | h)
    · exact h
    · simp at h
  simp only [poly_eq]
  refine ⟨N, S, h1, hS.nodup, hS.zero, h2, ?_, ?_, ?_⟩
  · intro p hp
    exact ⟨derivative p, hnone (hS.der p hp), toPoly_derivative p⟩
  · intro p hp
    refine ⟨pTail p, hnone (hS.tail p hp), ?_⟩
    by_cases hp0 : p = []
    · subst hp0; simp [pTail, strip]
    · have := toPoly_pTail p hp0
      rw [← leadingCoeff_toPoly (hS.canon p hp), ← natDegree_toPoly (hS.canon p hp)] at this
      have h3 := eraseLead_add_C_mul_X_pow (toPoly p)
      conv at this => lhs; rw [← h3]
      exact (add_right_cancel this).symm
  · intro p hp q hq hpos hle
    have hpc := hS.canon p hp
    have hqc := hS.canon q hq
    rw [natDegree_toPoly hqc] at hpos hle ⊢
    rw [natDegree_toPoly hpc] at hle ⊢
    rw [leadingCoeff_toPoly hqc]
    by_cases hpq : p = q
    · subst hpq
      refine ⟨[], hS.zero, C (lc p), ?_, ?_⟩
      · simpa using hpos
      · simp
    · obtain ⟨r, hr, hrS⟩ := hS.rem p hp q hq hpq hpos hle
      obtain ⟨s, e1, e2, e3, Q, e4⟩ := pseudoRem_ge (ne_nil_of_deg hpos) hqc hpc
        (length_le_of_deg hpos hle)
      rw [hr] at e1; cases e1
      refine ⟨r, hnone hrS, Q, ?_, e4⟩
      rw [natDegree_toPoly e2]
      unfold deg at hpos ⊢
      omega

/-- An algebra over ℤ without parameters. -/
def intAlg : MAlg ℤ := ⟨fun _ => false, Int.sign, fun p => (lc p : ℤ)⟩

example : (∀ p ∈ [[(-2 : ℤ), 0, 1], [1, 3, 0, 2]], Normal p) ∧
    ∃ S, muchnikSeq intAlg 40 [[]] [[(-2 : ℤ), 0, 1]] = .ok S ∧ S.length = 6 := by
  refine ⟨?_, _, rfl, rfl⟩
  intro p hp h
  fin_cases hp <;> simp

/-! ### C25 -/

/-- **C25**: at parameters realising the conditions of the root diagram, the extended diagram shows
exactly the zero patterns: column 0 is the generic point, the columns `1, ..., n-1` are different points
`r i`, all the roots of the nonzero members are among them, and each of them is such a root. -/
theorem C25_complex_diagram [IsDomain R] (A : MAlg R) (ps : List (List R)) (hps : ∀ p ∈ ps, Normal p) :
    ∃ (N : ℕ) (S : List (List R)), (∀ fuel ≥ N, muchnikSeq A fuel [[]] ps = .ok S) ∧
      ∀ {K : Type} [Field K] [CharZero K] [IsAlgClosed K] [DecidableEq K] (φ : R →+* K)
        (d : Diagram R ℕ),
        (∀ q, (∃ row, (q, row) ∈ d) ↔ q ∈ S ∧ q.length ≤ 1) →
        (∀ q ∈ S, q.length ≤ 1 → dRow d q = [(0, if φ (q.headD 0) = 0 then 0 else 1)]) →
        ∃ (D : Diagram R ℕ) (n : ℕ) (r : ℕ → K),
          complexExtend A d (S.filter fun p => !decide (p.length ≤ 1)) = .ok D ∧ 1 ≤ n ∧
          (∀ i j, 1 ≤ i → i < n → 1 ≤ j → j < n → r i = r j → i = j) ∧
          (∀ q ∈ S, ((dRow D q).map Prod.fst).Nodup ∧ ∀ i, i ∈ (dRow D q).map Prod.fst ↔ i < n) ∧
          (∀ q ∈ S, ∃ v, dRead D q 0 = .ok v ∧ (v = 0 ∨ v = 1) ∧ (v = 0 ↔ ∀ x, value φ q x = 0)) ∧
          (∀ q ∈ S, ∀ i, 1 ≤ i → i < n → dRead D q i = .ok (if value φ q (r i) = 0 then 0 else 1)) ∧
          (∀ q ∈ S, (∃ y, value φ q y ≠ 0) → ∀ x, value φ q x = 0 → ∃ i, 1 ≤ i ∧ i < n ∧ r i = x) ∧
          (∀ i, 1 ≤ i → i < n → ∃ q ∈ S, (∃ y, value φ q y ≠ 0) ∧ value φ q (r i) = 0) := by
  classical
  obtain ⟨N, S, h1, hS, h2⟩ := muchnikSeq_total A ps fun p hp => canon_of_normal (hps p hp)
  refine ⟨N, S, h1, ?_⟩
  intro K _ _ _ _ φ d hk hrow
  have hkeys : ∀ q, q ∈ keys d ↔ (q ∈ S ∧ isConst q = true) ∨ q ∈ ([] : List (List R)) := by
    intro q
    rw [keys, List.mem_map]
    constructor
    · rintro ⟨⟨q', row⟩, h, rfl⟩
      have := (hk q').1 ⟨row, h⟩
      exact Or.inl ⟨this.1, by simpa [isConst] using this.2⟩
    · rintro (⟨h, h'⟩ | h)
      · obtain ⟨row, h⟩ := (hk q).2 ⟨h, by simpa [isConst] using h'⟩
        exact ⟨(q, row), h, rfl⟩
      · simp at h
  have hrow' : ∀ q ∈ keys d, dRow d q = [(0, if φ (q.headD 0) = 0 then 0 else 1)] := by
    intro q hq
    rcases (hkeys q).1 hq with ⟨h, h'⟩ | h
    · exact hrow q h (by simpa [isConst] using h')
    · simp at h
  have hcv : ∀ q ∈ keys d, cv d q 0 = if φ (q.headD 0) = 0 then 0 else 1 := by
    intro q hq
    rw [cv_eq_dRow, hrow' q hq]; simp [dGet]
  have hPc : ∀ q ∈ keys d, P φ q = C (φ (q.headD 0)) := by
    intro q hq
    rcases (hkeys q).1 hq with ⟨h, h'⟩ | h
    · exact P_const φ ((isConst_iff q).1 h')
    · simp at h
  have hshape : CShape d 1 := by
    refine ⟨le_rfl, ?_, ?_, (hkeys []).2 (Or.inl ⟨hS.zero, rfl⟩), by intro i; omega, ?_⟩
    · intro q hq i
      rw [ck, hrow' q hq]; simp
    · intro q
      by_cases hq : q ∈ keys d
      · rw [ck, hrow' q hq]; simp
      · have : dGet d q = none := dGet_none d q hq
        rw [ck, dRow, this]; simp
    · intro q _ _ h0 i hi
      have : i = 0 := by omega
      subst this; exact h0
  have hsem : CSem φ d 1 (fun _ => (0 : K)) := by
    refine ⟨by intro i j; omega, ?_, ?_, by intro q _ i; omega, ?_⟩
    · intro q hq i hi
      have : i = 0 := by omega
      subst this
      rw [hcv q hq]
      by_cases h : φ (q.headD 0) = 0 <;> simp only [h, if_true, if_false, true_or, or_true]
    · intro q hq
      rw [hcv q hq, hPc q hq, C_eq_zero]
      by_cases h : φ (q.headD 0) = 0
      · simp only [h, if_true]
      · simp only [h, if_false]; decide
    · intro q hq h0 x hx
      rw [hPc q hq, eval_C] at hx
      rw [hPc q hq, hx] at h0
      simp at h0
  obtain ⟨D, n, e1, e2, e3, _, e5⟩ := complexExtend_spec A hS (S.filter fun p => !isConst p) [] (by simp)
    d 1 hshape hkeys
  obtain ⟨r, hr⟩ := e5 φ _ hsem
  have hne : ∀ q, (∃ y, value φ q y ≠ 0) ↔ P φ q ≠ 0 := by
    intro q
    constructor
    · rintro ⟨y, hy⟩ h0
      rw [← eval_P, h0, eval_zero] at hy
      exact hy rfl
    · intro h0
      by_contra hcon
      push Not at hcon
      exact h0 (Polynomial.funext fun x => by rw [eval_P, hcon, eval_zero])
  have hread : ∀ q ∈ S, ∀ i < n, dRead D q i = .ok (cv D q i) := fun q hq i hi =>
    dRead_ok ((e2.ck q ((e3 q).2 hq) i).2 hi)
  refine ⟨D, n, r, e1, e2.n_pos, hr.inj, ?_, ?_, ?_, ?_, ?_⟩
  · intro q hq
    exact ⟨e2.nodup q, fun i => e2.ck q ((e3 q).2 hq) i⟩
  · intro q hq
    have hqk := (e3 q).2 hq
    refine ⟨_, hread q hq 0 e2.n_pos, hr.val01 q hqk 0 e2.n_pos, ?_⟩
    rw [hr.col0 q hqk]
    constructor
    · intro h x
      rw [← eval_P, h, eval_zero]
    · intro h
      by_contra hcon
      obtain ⟨y, hy⟩ := (hne q).2 hcon
      exact hy (h y)
  · intro q hq i hi1 hi
    have hqk := (e3 q).2 hq
    have := hr.col q hqk i hi1 hi
    rw [eval_P] at this
    rw [hread q hq i hi]
    congr 1
    by_cases h : value φ q (r i) = 0
    · rw [if_pos h]; exact this.2 h
    · rw [if_neg h]
      rcases hr.val01 q hqk i hi with h' | h'
      · exact absurd (this.1 h') h
      · exact h'
  · intro q hq h0 x hx
    exact hr.roots q ((e3 q).2 hq) ((hne q).1 h0) x (by rw [eval_P, hx])
  · intro i hi1 hi
    obtain ⟨q, hq, h0, h00⟩ := e2.witness i hi1 hi
    refine ⟨q, (e3 q).1 hq, (hne q).2 fun h => h00 ((hr.col0 q hq).2 h), ?_⟩
    rw [← eval_P]
    exact (hr.col q hq i hi1 hi).1 h0

/-- The hypotheses of C25 hold for the family generated by `x² - 2` at the (only) valuation of ℤ: its
root diagram has the rows `0`, `2`, `-2`, `4`, `-8`, each with one column. -/
example : ∃ S : List (List ℤ), muchnikSeq intAlg 40 [[]] [[-2, 0, 1]] = .ok S ∧
    ∃ D, complexExtend intAlg ((S.filter fun q => decide (q.length ≤ 1)).map fun q =>
      (q, [(0, if (q.headD 0 : ℤ) = 0 then 0 else 1)]))
      (S.filter fun p => !decide (p.length ≤ 1)) = .ok D ∧
      (dRow D [-2, 0, 1]).map Prod.snd = [1, 1, 0, 0] := by
  refine ⟨_, rfl, _, rfl, rfl⟩

/-! ### C22 -/

/-- **C22**: the returned disjunction is an equivalence: when some coefficient of the input has a
parameter, then for all valuations of the parameters in an algebraically closed field of characteristic
zero, one of the returned conjunctions holds exactly when there is a point at which all the equalities and
inequalities hold. All the conditions are free of the eliminated variable. -/
theorem C22_complex_full [IsDomain R] (A : MAlg R) (h0 : A.hasVar 0 = false)
    (hmul : ∀ (c : R) (n : ℕ), n ≠ 0 → A.hasVar c = true → A.hasVar (c * n) = true)
    (eqs neqs : List (List R)) (hn : ∀ p ∈ eqs ++ neqs, Normal p)
    (hpar : ∃ p ∈ eqs ++ neqs, ∃ c ∈ p, A.hasVar c = true) :
    ∃ (N : ℕ) (out : QOut (List (List R) × List (List R))),
      (∀ fuel ≥ N, complexFull A fuel eqs neqs = .ok out) ∧
      (∀ zn ∈ out.ret, ∀ c ∈ zn.1 ++ zn.2, c.length ≤ 1) ∧
      ∀ {K : Type} [Field K] [CharZero K] [IsAlgClosed K] (φ : R →+* K), ScalarsNonzero A φ →
        ((∃ zn ∈ out.ret, (∀ z ∈ zn.1, value φ z 0 = 0) ∧ ∀ z ∈ zn.2, value φ z 0 ≠ 0) ↔
          ∃ x, (∀ q ∈ eqs, value φ q x = 0) ∧ ∀ q ∈ neqs, value φ q x ≠ 0) := by
  obtain ⟨N, S, ret0, h1, hS, hin, hmem, -, hsem⟩ :=
    complexFull_spec A eqs neqs fun p hp => canon_of_normal (hn p hp)
  obtain ⟨p, hp, hpc⟩ := hpar
  have hne := varFrag_ne_nil A h0 hmul hS p.length p le_rfl (hin p hp) hpc
  have hconst : ∀ zn ∈ ret0, ∀ c ∈ zn.1 ++ zn.2, c.length ≤ 1 := by
    intro zn hzn c hc
    have := ((mem_varFragOf A S c).1 ((hmem zn hzn c).1 hc)).2.1
    simpa [isConst] using this
  have hall : ret0.filter (fun zn => (zn.1 ++ zn.2).length ≠ 0) = ret0 := by
    rw [List.filter_eq_self]
    intro zn hzn
    obtain ⟨c, hc⟩ := List.exists_mem_of_ne_nil _ hne
    have := (hmem zn hzn c).2 hc
    rw [decide_eq_true_eq]
    exact fun h => List.ne_nil_of_mem this (List.length_eq_zero_iff.1 h)
  refine ⟨N, _, fun fuel hf => (h1 fuel hf).2, ?_, ?_⟩
  · show ∀ zn ∈ ret0.filter _, _
    rw [hall]; exact hconst
  · intro K _ _ _ φ hφ
    show (∃ zn ∈ ret0.filter _, _) ↔ _
    rw [hall]
    have := hsem φ hφ
    simp only [eval_P] at this
    rw [← this]
    constructor
    · rintro ⟨zn, hzn, ha, hb⟩
      refine ⟨zn, hzn, fun z hz => ?_, fun z hz => ?_⟩
      · rw [← value_const φ (hconst zn hzn z (by simp [hz])) 0]; exact ha z hz
      · rw [← value_const φ (hconst zn hzn z (by simp [hz])) 0]; exact hb z hz
    · rintro ⟨zn, hzn, ha, hb⟩
      refine ⟨zn, hzn, fun z hz => ?_, fun z hz => ?_⟩
      · rw [value_const φ (hconst zn hzn z (by simp [hz])) 0]; exact ha z hz
      · rw [value_const φ (hconst zn hzn z (by simp [hz])) 0]; exact hb z hz

/-- An algebra with one parameter: the coefficients are polynomials over ℤ. -/
noncomputable def parAlg : MAlg ℤ[X] :=
  ⟨fun c => decide (0 < c.natDegree), fun c => Int.sign (c.coeff 0), fun p => ((lc p).leadingCoeff : ℤ)⟩

/-- The hypotheses of C22 hold for the input `y*x - 1 = 0` (where `x` is to be eliminated), and the
valuations `y ↦ a` for all complex numbers `a` are allowed. -/
example : parAlg.hasVar 0 = false ∧
    (∀ (c : ℤ[X]) (n : ℕ), n ≠ 0 → parAlg.hasVar c = true → parAlg.hasVar (c * n) = true) ∧
    (∀ p ∈ [[(-1 : ℤ[X]), X]], Normal p) ∧
    (∃ p ∈ [[(-1 : ℤ[X]), X]], ∃ c ∈ p, parAlg.hasVar c = true) ∧
    ∀ a : ℂ, ScalarsNonzero parAlg (Polynomial.eval₂RingHom (Int.castRingHom ℂ) a) := by
  refine ⟨by simp [parAlg], ?_, ?_, ⟨_, List.mem_singleton_self _, X, by simp, by simp [parAlg]⟩, ?_⟩
  · intro c n hn hc
    simp only [parAlg, decide_eq_true_eq] at hc ⊢
    have : (n : ℤ[X]) = C (n : ℤ) := by simp
    rw [this, natDegree_mul_C (by exact_mod_cast hn)]
    exact hc
  · intro p hp h
    rw [List.mem_singleton] at hp
    subst hp
    simp
  · intro a c hc hv
    simp only [parAlg, decide_eq_false_iff_not, not_lt, Nat.le_zero] at hv
    rw [natDegree_eq_zero] at hv
    obtain ⟨k, rfl⟩ := hv
    rw [coe_eval₂RingHom, eval₂_C]
    intro h
    rw [eq_intCast, Int.cast_eq_zero] at h
    subst h
    simp at hc

/-! ### C26 -/

/-- **C26** is violated by `complex_full`: `0 = 0` is satisfiable, `1 = 0` is not, and the returned value
is the empty list for both. -/
theorem C26_violated_complex :
    (∃ o₁ o₂, complexFull intAlg 5 [[]] [] = .ok o₁ ∧ complexFull intAlg 5 [[1]] [] = .ok o₂ ∧
      o₁.ret = [] ∧ o₂.ret = []) ∧
    (∀ φ : ℤ →+* ℂ, (∃ x, ∀ q ∈ [([] : List ℤ)], value φ q x = 0) ∧
      ¬ ∃ x, ∀ q ∈ [[(1 : ℤ)]], value φ q x = 0) := by
  refine ⟨⟨_, _, rfl, rfl, rfl, rfl⟩, fun φ => ⟨⟨0, by simp [value]⟩, ?_⟩⟩
  rintro ⟨x, hx⟩
  have := hx [1] (by simp)
  simp [value] at this

/-- What holds instead of **C26** for `complex_full`: the line printed at the end is right (the returned
value is missing: it is always empty). -/
theorem C26_complex_partial [IsDomain R] (A : MAlg R) (hA : ∀ c, A.hasVar c = false)
    (eqs neqs : List (List R)) (hn : ∀ p ∈ eqs ++ neqs, Normal p) :
    ∃ (N : ℕ) (out : QOut (List (List R) × List (List R))),
      (∀ fuel ≥ N, complexFull A fuel eqs neqs = .ok out) ∧ out.ret = [] ∧
      ∀ {K : Type} [Field K] [CharZero K] [IsAlgClosed K] (φ : R →+* K), Function.Injective φ →
        (out.satisfiable = true ↔
          ∃ x, (∀ q ∈ eqs, value φ q x = 0) ∧ ∀ q ∈ neqs, value φ q x ≠ 0) := by
  obtain ⟨N, S, ret0, h1, hS, hin, hmem, -, hsem⟩ :=
    complexFull_spec A eqs neqs fun p hp => canon_of_normal (hn p hp)
  have hnone : ∀ zn ∈ ret0, zn.1 ++ zn.2 = [] := by
    intro zn hzn
    apply List.eq_nil_iff_forall_not_mem.2
    intro c hc
    have := ((mem_varFragOf A S c).1 ((hmem zn hzn c).1 hc)).2.2
    cases c <;> simp [hasVariable, hA] at this
  refine ⟨N, _, fun fuel hf => (h1 fuel hf).2, ?_, ?_⟩
  · show ret0.filter _ = []
    rw [List.filter_eq_nil_iff]
    intro zn hzn
    rw [hnone zn hzn]; simp
  · intro K _ _ _ φ hφ
    show decide (ret0.length > 0) = true ↔ _
    have := hsem φ fun c hc _ h => hc (hφ (by rw [h, map_zero]))
    simp only [eval_P] at this
    rw [← this, decide_eq_true_eq]
    constructor
    · intro h
      obtain ⟨zn, hzn⟩ := List.exists_mem_of_length_pos h
      have := hnone zn hzn
      rw [List.append_eq_nil_iff] at this
      refine ⟨zn, hzn, ?_, ?_⟩
      · rw [this.1]; simp
      · rw [this.2]; simp
    · rintro ⟨zn, hzn, _⟩
      exact List.length_pos_of_mem hzn

example : ∃ o₁ o₂, complexFull intAlg 60 [[-2, 0, 1]] [[-1, 1]] = .ok o₁ ∧
    complexFull intAlg 60 [[-2, 0, 1]] [[-2, 0, 1]] = .ok o₂ ∧
    o₁.satisfiable = true ∧ o₂.satisfiable = false := by
  refine ⟨_, _, rfl, rfl, rfl, rfl⟩

end Verif.Qe
