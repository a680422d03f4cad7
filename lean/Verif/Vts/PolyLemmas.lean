import Verif.Vts.Spec
import Verif.Alg.Basic
import Mathlib.Algebra.Polynomial.Derivative
import Mathlib.Algebra.BigOperators.Intervals

/-! Helper lemmas: coefficient lists against Mathlib polynomials. -/

set_option linter.unusedSectionVars false

open Polynomial

namespace Verif.Vts

variable {R : Type} [CommRing R] [LinearOrder R] {K : Type} [Field K] [LinearOrder K]
variable (φ : R →+* K)

@[simp] theorem denote_nil : denote φ ([] : List R) = 0 := rfl

theorem coeff_denote (l : List R) (i : ℕ) : (denote φ l).coeff i = φ (l.getD i 0) := by
  induction l generalizing i with
  | nil => simp
  | cons c l ih =>
    cases i with
    | zero => simp [denote]
    | succ i =>
      rw [denote, coeff_add, coeff_X_mul, ih]
      simp

theorem denote_eq_iff {l : List R} {p : K[X]} :
    denote φ l = p ↔ ∀ i, φ (l.getD i 0) = p.coeff i := by
  rw [Polynomial.ext_iff]; simp only [coeff_denote]

theorem getD_eq_zero_of_le {l : List R} {i : ℕ} (h : l.length ≤ i) : l.getD i 0 = 0 := by
  simp [List.getD, List.getElem?_eq_none h]

theorem foldl_skip {α M : Type*} [AddCommMonoid M] (c : α → Prop) [DecidablePred c] (f : α → M)
    (l : List α) (s : M) :
    l.foldl (fun s a => if c a then s else s + f a) s
      = s + (l.map fun a => if c a then 0 else f a).sum := by
  induction l generalizing s with
  | nil => simp
  | cons a l ih =>
    simp only [List.foldl_cons, List.map_cons, List.sum_cons]
    rw [ih]
    split <;> simp [add_assoc]

theorem sum_map_range {M : Type*} [AddCommMonoid M] (f : ℕ → M) (n : ℕ) :
    ((List.range n).map f).sum = ∑ i ∈ Finset.range n, f i := by
  induction n with
  | zero => simp
  | succ n ih => rw [List.range_succ, Finset.sum_range_succ]; simp [ih]

theorem length_multiply (p q : List R) : (multiply p q).length = p.length + q.length - 1 := by
  simp [multiply]

theorem multiply_getD (p q : List R) (k : ℕ) :
    (multiply p q).getD k 0 = ∑ i ∈ Finset.range (k + 1), p.getD i 0 * q.getD (k - i) 0 := by
  by_cases hk : k < p.length + q.length - 1
  · have h1 : (multiply p q).getD k 0 = (List.range p.length).foldl (fun s i =>
      if i + q.length ≤ k then s
      else if i > k then s
      else (List.range q.length).foldl (fun s j =>
        if i + j ≠ k then s else s + p.getD i 0 * q.getD j 0) s) 0 := by
      simp [multiply, List.getD, hk]
    rw [h1]
    have h2 : ∀ (s : R) (i : ℕ), (if i + q.length ≤ k then s
      else if i > k then s
      else (List.range q.length).foldl (fun s j =>
        if i + j ≠ k then s else s + p.getD i 0 * q.getD j 0) s)
        = if (k < i ∨ i + q.length ≤ k) then s else s + p.getD i 0 * q.getD (k - i) 0 := by
      intro s i
      by_cases h1 : i + q.length ≤ k
      · simp [h1]
      by_cases h2 : i > k
      · rw [if_neg h1, if_pos h2, if_pos (Or.inl h2)]
      rw [if_neg h1, if_neg h2, if_neg (by omega),
        foldl_skip (fun j => i + j ≠ k) (fun j => p.getD i 0 * q.getD j 0), sum_map_range]
      congr 1
      rw [Finset.sum_eq_single (k - i)]
      · rw [if_neg]; omega
      · intro j _ hj
        rw [if_pos]; omega
      · intro h; simp at h; omega
    simp only [h2]
    rw [foldl_skip (fun i => k < i ∨ i + q.length ≤ k) (fun i => p.getD i 0 * q.getD (k - i) 0),
      sum_map_range, zero_add]
    -- compare both sums over a common range
    have e1 : ∑ i ∈ Finset.range p.length,
        (if k < i ∨ i + q.length ≤ k then (0 : R) else p.getD i 0 * q.getD (k - i) 0)
        = ∑ i ∈ Finset.range (p.length + (k + 1)),
        (if k < i ∨ i + q.length ≤ k then (0 : R) else p.getD i 0 * q.getD (k - i) 0) := by
      apply Finset.sum_subset
      · intro i; simp; omega
      · intro i _ hi
        simp at hi
        rw [getD_eq_zero_of_le hi]; simp
    have e2 : ∑ i ∈ Finset.range (k + 1), p.getD i 0 * q.getD (k - i) 0
        = ∑ i ∈ Finset.range (p.length + (k + 1)),
        (if k < i ∨ i + q.length ≤ k then (0 : R) else p.getD i 0 * q.getD (k - i) 0) := by
      rw [← Finset.sum_subset (s₁ := Finset.range (k + 1)) (s₂ := Finset.range (p.length + (k + 1)))]
      · apply Finset.sum_congr rfl
        intro i hi
        simp at hi
        split
        · rename_i h
          rw [getD_eq_zero_of_le (l := q) (by omega)]; simp
        · rfl
      · intro i; simp; omega
      · intro i _ hi
        simp at hi
        rw [if_pos (Or.inl (by omega))]
    rw [e1, e2]
  · rw [getD_eq_zero_of_le (by rw [length_multiply]; omega)]
    symm
    apply Finset.sum_eq_zero
    intro i hi
    simp at hi
    by_cases h : p.length ≤ i
    · rw [getD_eq_zero_of_le h]; simp
    · rw [getD_eq_zero_of_le (l := q) (by omega)]; simp

theorem denote_multiply (p q : List R) :
    denote φ (multiply p q) = denote φ p * denote φ q := by
  rw [denote_eq_iff]
  intro k
  rw [multiply_getD, coeff_mul, Finset.Nat.sum_antidiagonal_eq_sum_range_succ_mk, map_sum]
  apply Finset.sum_congr rfl
  intro i _
  rw [map_mul, coeff_denote, coeff_denote]

theorem length_derivative (p : List R) : (derivative p).length = p.length - 1 := by
  simp [derivative]

theorem derivative_getD (p : List R) (k : ℕ) :
    (derivative p).getD k 0 = p.getD (k + 1) 0 * ((k + 1 : ℕ) : R) := by
  by_cases hk : k + 1 < p.length
  · have h1 : k < (derivative p).length := by rw [length_derivative]; omega
    simp only [List.getD, List.getElem?_eq_getElem hk, List.getElem?_eq_getElem h1, Option.getD_some]
    simp only [derivative, List.getElem_map, List.getElem_drop, List.getElem_zip,
      List.getElem_range]
    simp [add_comm 1 k]
  · rw [getD_eq_zero_of_le (by rw [length_derivative]; omega), getD_eq_zero_of_le (l := p) (by omega)]
    simp

theorem denote_derivative (p : List R) :
    denote φ (derivative p) = Polynomial.derivative (denote φ p) := by
  rw [denote_eq_iff]
  intro k
  rw [derivative_getD, coeff_derivative, coeff_denote, map_mul]; simp

theorem evaluatePoly_eq (p : List R) (x : K) : evaluatePoly φ p x = (denote φ p).eval x := by
  have gen : ∀ (p : List R) (k : ℕ) (s : K),
      (p.zip (List.range' k p.length)).foldl (fun s cp => s + φ cp.1 * x ^ cp.2) s
        = s + x ^ k * (denote φ p).eval x := by
    intro p
    induction p with
    | nil => simp
    | cons c p ih =>
      intro k s
      simp only [List.length_cons, List.range'_succ, List.zip_cons_cons, List.foldl_cons]
      rw [ih, denote]; simp; ring
  rw [evaluatePoly, List.range_eq_range', gen]; simp

theorem normalized_ne_nil {p : List R} (h : Normalized p) : p ≠ [] := by
  rintro rfl; obtain ⟨c, h, _⟩ := h; simp at h

theorem normalized_iff {p : List R} : Normalized p ↔ p ≠ [] ∧ p.getD (p.length - 1) 0 ≠ 0 := by
  constructor
  · intro h
    refine ⟨normalized_ne_nil h, ?_⟩
    obtain ⟨c, h1, h2⟩ := h
    rw [List.getLast?_eq_getElem?] at h1
    simp [List.getD, h1, h2]
  · rintro ⟨h1, h2⟩
    rw [List.getD, ← List.getLast?_eq_getElem?] at h2
    refine ⟨p.getLast h1, List.getLast?_eq_some_getLast h1, ?_⟩
    simpa [List.getLast?_eq_some_getLast h1] using h2

theorem getLast?_eq_getD {p : List R} (h : p ≠ []) : p.getLast? = some (p.getD (p.length - 1) 0) := by
  rw [List.getLast?_eq_some_getLast h, List.getLast_eq_getElem]
  have : p.length - 1 < p.length := by have := List.length_pos_iff.2 h; omega
  simp [List.getD, List.getElem?_eq_getElem this]

variable {φ}
variable (hφ : Function.Injective φ)
include hφ

theorem natDegree_denote {p : List R} (h : Normalized p) :
    (denote φ p).natDegree = p.length - 1 := by
  rw [normalized_iff] at h
  apply natDegree_eq_of_le_of_coeff_ne_zero
  · rw [natDegree_le_iff_coeff_eq_zero]
    intro N hN
    rw [coeff_denote, getD_eq_zero_of_le (by omega), map_zero]
  · rw [coeff_denote]
    exact fun h0 => h.2 (hφ (by rw [h0, map_zero]))

theorem leadingCoeff_denote {p : List R} (h : Normalized p) :
    (denote φ p).leadingCoeff = φ (p.getD (p.length - 1) 0) := by
  rw [leadingCoeff, natDegree_denote hφ h, coeff_denote]

theorem denote_ne_zero {p : List R} (h : Normalized p) : denote φ p ≠ 0 := by
  intro h0
  have := leadingCoeff_denote hφ h
  rw [h0] at this
  simp at this
  have h2 := (normalized_iff.1 h).2
  exact h2 (hφ (by rw [map_zero]; simpa [List.getD] using this.symm))

theorem normalized_multiply {p q : List R} (hp : Normalized p) (hq : Normalized q) :
    Normalized (multiply p q) := by
  have h1 := List.length_pos_iff.2 (normalized_ne_nil hp)
  have h2 := List.length_pos_iff.2 (normalized_ne_nil hq)
  rw [normalized_iff, length_multiply]
  refine ⟨?_, ?_⟩
  · intro h
    have := length_multiply p q
    rw [h] at this; simp at this; omega
  · have hd : (denote φ (multiply p q)).coeff (p.length + q.length - 1 - 1) ≠ 0 := by
      rw [denote_multiply]
      have : p.length + q.length - 1 - 1 = (denote φ p * denote φ q).natDegree := by
        rw [natDegree_mul (denote_ne_zero hφ hp) (denote_ne_zero hφ hq), natDegree_denote hφ hp,
          natDegree_denote hφ hq]; omega
      rw [this]
      simp [denote_ne_zero hφ hp, denote_ne_zero hφ hq]
    rw [coeff_denote] at hd
    intro h0; rw [h0] at hd; simp at hd

theorem normalized_derivative [IsStrictOrderedRing K] {p : List R} (hp : Normalized p) :
    derivative p = [] ∨ Normalized (derivative p) := by
  by_cases h : derivative p = []
  · exact Or.inl h
  · refine Or.inr (normalized_iff.2 ⟨h, ?_⟩)
    have hl := length_derivative p
    have := List.length_pos_iff.2 h
    rw [derivative_getD]
    have e : (derivative p).length - 1 + 1 = p.length - 1 := by omega
    rw [e]
    have h2 := (normalized_iff.1 hp).2
    intro h0
    have := congrArg φ h0
    rw [map_mul, map_natCast, map_zero, mul_eq_zero] at this
    rcases this with h3 | h3
    · exact h2 (hφ (by rw [h3, map_zero]))
    · have h4 : p.length - 1 = 0 := by exact_mod_cast h3
      omega

end Verif.Vts
