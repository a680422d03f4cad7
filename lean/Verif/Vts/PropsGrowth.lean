import Verif.Vts.Props
import Verif.Vts.GrowthLemmas
import Mathlib.Analysis.SpecificLimits.Normed
import Mathlib.Data.Nat.Factorial.Basic

/-!
# C88: how large the numbers in a remainder sequence become

`tarski_query(p, q)` computes the signed remainder sequence of `p` and `p' * q` with
`signed_pseudo_remainder`, which multiplies by the leading coefficient of the divisor at every step and never
divides by a common factor (`vts/uni_vts.py:203-253`, `vts/uni_vts.py:266-288`).  A user relies on
intermediate numbers of a size polynomial in the size of the input, as subresultants have.  This does not hold:
on polynomials with many real roots the numbers of digits grow at least like the Fibonacci numbers
(`C88_digits`, `C88_violated`).  What holds is a single exponential bound (`C88_partial`).
-/

set_option linter.unusedSectionVars false

open Polynomial Verif.Alg

namespace Verif.Vts

local notation "ιℝ" => Int.castRingHom ℝ

theorem castReal_mono : StrictMono (ιℝ : ℤ →+* ℝ) := fun a b h => by simpa using h

theorem multiply_two_dvd (l : List ℤ) : ∀ c ∈ multiply l [2], (2 : ℤ) ∣ c := by
  intro c hc
  obtain ⟨i, hi, rfl⟩ := List.getElem_of_mem hc
  have h : (multiply l [2])[i] = (multiply l [2]).getD i 0 := by simp [List.getD, hi]
  rw [h, multiply_getD]
  refine Finset.dvd_sum fun j _ => Dvd.dvd.mul_left ?_ _
  rcases Nat.eq_zero_or_pos (i - j) with h | h
  · rw [h]; exact dvd_rfl
  · have e : ([2] : List ℤ).getD (i - j) 0 = 0 := by
      rw [List.getD, List.getElem?_eq_none (by simp; omega)]; rfl
    rw [e]; exact dvd_zero _

/-- **C88**: if `p` has `n` distinct real roots, then the call `tarski_query(p, [2])` answers `n`, and the
remainder sequence computed on the way contains a number with at least as many binary digits as the `n`-th
Fibonacci number, whatever the coefficients of `p`. -/
theorem C88_digits (p : List ℤ) (hp : Normalized p) (hn : 0 < (denote ιℝ p).roots.toFinset.card) :
    tarskiQuery p [2] = .ok ((denote ιℝ p).roots.toFinset.card : ℤ) ∧
    ∃ S, signedRemainderSequence p (multiply (derivative p) [2]) = .ok S ∧
      ∃ f ∈ S, ∃ c ∈ f, 2 ^ Nat.fib (denote ιℝ p).roots.toFinset.card ≤ |c| := by
  have hq2 : Normalized ([2] : List ℤ) := normalized_int [] 2 (by decide)
  have hd2 : denote ιℝ ([2] : List ℤ) = C 2 := by simp [denote]
  have hq : tarskiQuery p [2] = .ok ((denote ιℝ p).roots.toFinset.card : ℤ) := by
    rw [C03_tarski_query castReal_mono p [2] hp (Or.inl hq2)]
    rw [hd2]
    simp
  refine ⟨hq, ?_⟩
  obtain ⟨S, hS, hl⟩ := cauchyIndex_lt (show cauchyIndex p (multiply (derivative p) [2]) = _ from hq)
    (by exact_mod_cast hn)
  refine ⟨S, hS, ?_⟩
  set n := (denote ιℝ p).roots.toFinset.card with hnd
  have hlen : n < S.length := by exact_mod_cast hl
  have hdn : derivative p ≠ [] := by
    intro h
    have h1 := length_derivative p
    rw [h] at h1
    have h2 : (denote ιℝ p).natDegree = 0 := by
      rw [natDegree_denote castReal_mono.injective hp]; simp at h1; omega
    have h3 : (denote ιℝ p).roots.toFinset.card ≤ (denote ιℝ p).natDegree :=
      (Multiset.toFinset_card_le _).trans (card_roots' _)
    omega
  have hdN := (normalized_derivative castReal_mono.injective hp).resolve_left hdn
  have hmN := normalized_multiply castReal_mono.injective hdN hq2
  obtain ⟨hN, hdiv⟩ := srs_dvd _ p _ S 0 rfl hS hp hmN
    (by rw [length_multiply, length_derivative]; simp)
    (fun c _ => by simp) (fun c hc => by simpa using multiply_two_dvd _ c hc) n S[n] (by simp [hlen])
  obtain ⟨c, hc, hc0⟩ := hN
  refine ⟨S[n], List.getElem_mem _, c, List.mem_of_getLast? hc, ?_⟩
  have := Int.le_of_dvd (abs_pos.2 hc0) ((dvd_abs _ _).2 (hdiv c (List.mem_of_getLast? hc)))
  simpa using this

/-- The coefficients of `(x - 1)(x - 2)⋯(x - n)`. -/
def wilkinson : ℕ → List ℤ
  | 0 => [1]
  | n + 1 => multiply (wilkinson n) [-((n : ℤ) + 1), 1]

theorem wilkinson_length (n : ℕ) : (wilkinson n).length = n + 1 := by
  induction n with
  | zero => rfl
  | succ n ih => rw [wilkinson, length_multiply, ih]; rfl

theorem wilkinson_normalized (n : ℕ) : Normalized (wilkinson n) := by
  induction n with
  | zero => exact normalized_int [] 1 (by decide)
  | succ n ih =>
    exact normalized_multiply castReal_mono.injective ih (normalized_int [-((n : ℤ) + 1)] 1 (by decide))

theorem denote_linear (n : ℕ) : denote ιℝ ([-((n : ℤ) + 1), 1] : List ℤ) = X - C ((n : ℝ) + 1) := by
  rw [← Polynomial.coeff_inj]
  ext i
  rw [coeff_denote]
  match i with
  | 0 => simp
  | 1 => simp [coeff_X, coeff_one]
  | i + 2 => simp [coeff_X, coeff_one]

theorem wilkinson_denote (n : ℕ) : denote ιℝ (wilkinson n) = ∏ i ∈ Finset.range n, (X - C ((i : ℝ) + 1)) := by
  induction n with
  | zero => simp [wilkinson, denote]
  | succ n ih => rw [wilkinson, denote_multiply, ih, denote_linear, Finset.prod_range_succ]

theorem wilkinson_roots (n : ℕ) : (denote ιℝ (wilkinson n)).roots.toFinset.card = n := by
  have h : (denote ιℝ (wilkinson n)).roots.toFinset = (Finset.range n).image fun i : ℕ => (i : ℝ) + 1 := by
    ext x
    rw [Multiset.mem_toFinset, mem_roots (denote_ne_zero castReal_mono.injective (wilkinson_normalized n)), wilkinson_denote,
      IsRoot.def, eval_prod, Finset.prod_eq_zero_iff]
    simp only [Finset.mem_image, eval_sub, eval_X, eval_C, sub_eq_zero]
    exact exists_congr fun i => and_congr_right fun _ => eq_comm
  rw [h, Finset.card_image_of_injective, Finset.card_range]
  intro a b hab
  simpa using hab

theorem wilkinson_coeff (n i : ℕ) : |(wilkinson n).getD i 0| ≤ ((n + 1).factorial : ℤ) := by
  induction n generalizing i with
  | zero =>
    match i with
    | 0 => simp [wilkinson]
    | i + 1 => simp [wilkinson]
  | succ n ih =>
    have hpos : (0 : ℤ) ≤ ((n + 1).factorial : ℤ) := by positivity
    have key : (wilkinson (n + 1)).getD i 0 =
        (if i = 0 then 0 else (wilkinson n).getD (i - 1) 0) - (wilkinson n).getD i 0 * ((n : ℤ) + 1) := by
      apply castReal_mono.injective
      rw [← coeff_denote, wilkinson, denote_multiply, denote_linear, map_sub, map_mul, ← coeff_denote]
      match i with
      | 0 => simp [coeff_zero_eq_eval_zero]; ring
      | i + 1 =>
        rw [coeff_mul_X_sub_C, coeff_denote, coeff_denote]
        simp
    rw [key, Nat.factorial_succ (n + 1)]
    refine (abs_sub _ _).trans ?_
    have h1 : |if i = 0 then (0 : ℤ) else (wilkinson n).getD (i - 1) 0| ≤ ((n + 1).factorial : ℤ) := by
      split
      · simp
      · exact ih _
    rw [abs_mul, abs_of_nonneg (by positivity : (0 : ℤ) ≤ (n : ℤ) + 1)]
    have h2 := mul_le_mul_of_nonneg_right (ih i) (by positivity : (0 : ℤ) ≤ (n : ℤ) + 1)
    push_cast
    nlinarith

theorem wilkinson_bits (n : ℕ) : ∀ c ∈ wilkinson n, |c| ≤ (2 : ℤ) ^ ((n + 2) ^ 2) := by
  intro c hc
  obtain ⟨i, hi, rfl⟩ := List.getElem_of_mem hc
  have h : (wilkinson n)[i] = (wilkinson n).getD i 0 := by simp [List.getD, hi]
  rw [h]
  refine (wilkinson_coeff n i).trans ?_
  have : (n + 1).factorial ≤ 2 ^ ((n + 2) ^ 2) := by
    refine (Nat.factorial_le_pow _).trans ?_
    calc (n + 1) ^ (n + 1) ≤ (2 ^ (n + 1)) ^ (n + 1) := Nat.pow_le_pow_left (Nat.lt_two_pow_self).le _
      _ = 2 ^ ((n + 1) * (n + 1)) := by rw [pow_mul]
      _ ≤ 2 ^ ((n + 2) ^ 2) := Nat.pow_le_pow_right (by norm_num) (by nlinarith)
  exact_mod_cast this

theorem fib_ge (m : ℕ) : 2 ^ m ≤ Nat.fib (2 * m + 1) := by
  induction m with
  | zero => simp
  | succ m ih =>
    have h1 : Nat.fib (2 * (m + 1) + 1) = Nat.fib (2 * m + 1) + Nat.fib (2 * m + 2) := by
      rw [show 2 * (m + 1) + 1 = (2 * m + 1) + 2 by ring, Nat.fib_add_two]
    have h2 : Nat.fib (2 * m + 1) ≤ Nat.fib (2 * m + 2) := Nat.fib_le_fib_succ
    rw [h1, pow_succ]
    omega

theorem exp_beats (d : ℕ) : ∃ m : ℕ, ((2 * m + 3) ^ 2) ^ d < 2 ^ m := by
  have h := tendsto_pow_const_div_const_pow_of_one_lt (2 * d) (show (1 : ℝ) < 2 by norm_num)
  have hev := (h.eventually (gt_mem_nhds (show (0 : ℝ) < 1 / 5 ^ (2 * d) by positivity))).and
    (Filter.eventually_ge_atTop 1)
  obtain ⟨m, hm, hm1⟩ := hev.exists
  refine ⟨m, ?_⟩
  rw [div_lt_div_iff₀ (by positivity) (by positivity), one_mul] at hm
  rw [← pow_mul]
  have h1 : (2 * m + 3) ^ (2 * d) ≤ m ^ (2 * d) * 5 ^ (2 * d) := by
    rw [← mul_pow]; exact Nat.pow_le_pow_left (by omega) _
  have h2 : m ^ (2 * d) * 5 ^ (2 * d) < 2 ^ m := by exact_mod_cast hm
  exact h1.trans_lt h2

/-- **C88 is violated**: no polynomial `L ^ d` bounds the numbers of binary digits in the remainder sequence
that `tarski_query(p, q)` computes, in terms of a bound `L` for the lengths of `p` and `q` and for the numbers of
digits of their coefficients. -/
theorem C88_violated : ¬ ∃ d : ℕ, ∀ (L : ℕ) (p q : List ℤ) (S : List (List ℤ)), 2 ≤ L →
    Normalized p → Normalized q → p.length ≤ L → q.length ≤ L →
    (∀ c ∈ p, |c| ≤ 2 ^ L) → (∀ c ∈ q, |c| ≤ 2 ^ L) →
    signedRemainderSequence p (multiply (derivative p) q) = .ok S →
    ∀ f ∈ S, ∀ c ∈ f, |c| ≤ 2 ^ (L ^ d) := by
  rintro ⟨d, h⟩
  obtain ⟨m, hm⟩ := exp_beats d
  set n := 2 * m + 1 with hn
  obtain ⟨-, S, hS, f, hf, c, hc, hle⟩ := C88_digits (wilkinson n) (wilkinson_normalized n)
    (by rw [wilkinson_roots]; omega)
  rw [wilkinson_roots] at hle
  have hL : 2 ≤ (n + 2) ^ 2 := by nlinarith
  have := h ((n + 2) ^ 2) (wilkinson n) [2] S hL (wilkinson_normalized n) (normalized_int [] 2 (by decide))
    (by rw [wilkinson_length]; nlinarith) (by simp; omega) (wilkinson_bits n)
    (fun c hc => by
      rw [List.mem_singleton.1 hc]
      calc |(2 : ℤ)| = 2 ^ 1 := by norm_num
        _ ≤ 2 ^ ((n + 2) ^ 2) := pow_le_pow_right₀ (by norm_num) (by omega)) hS f hf c hc
  have h2 := (pow_le_pow_iff_right₀ (show (1 : ℤ) < 2 by norm_num)).1 (hle.trans this)
  have h3 := fib_ge m
  have e : (n + 2) ^ 2 = (2 * m + 3) ^ 2 := by rw [hn]
  rw [e] at h2
  exact absurd (h3.trans h2) (not_le.2 hm)

/-- **C88**, partial: what is missing is a polynomial bound, which does not hold.  The remainder sequence of `p`
and `q` has at most three elements more than the shorter one has coefficients, none longer than the longer
one, and coefficients of at most `2 * 3 ^ l * (m + 1)` binary digits if those of `p` and `q` have at most `m` and
`l` is the larger length. -/
theorem C88_partial (p q : List ℤ) (S : List (List ℤ)) (m : ℕ)
    (h : signedRemainderSequence p q = .ok S) (hp : ∀ c ∈ p, |c| ≤ 2 ^ m) (hq : ∀ c ∈ q, |c| ≤ 2 ^ m) :
    S.length ≤ min p.length q.length + 3 ∧ ∀ f ∈ S, f.length ≤ max p.length q.length ∧
      ∀ c ∈ f, |c| ≤ 2 ^ (2 * 3 ^ max p.length q.length * (m + 1)) := srs_le_all p q S m h hp hq

example : wilkinson 2 = [2, -3, 1] ∧ Normalized ([2, -3, 1] : List ℤ) ∧
    0 < (denote ιℝ ([2, -3, 1] : List ℤ)).roots.toFinset.card :=
  ⟨by decide +kernel, normalized_int [2, -3] 1 (by decide), by
    rw [show ([2, -3, 1] : List ℤ) = wilkinson 2 by decide +kernel, wilkinson_roots]; decide⟩

example : signedRemainderSequence [0, -1, 0, 1] ([-1, 0, 3] : List ℤ) =
      .ok [[0, -1, 0, 1], [-1, 0, 3], [0, 2], [2]] ∧ (∀ c ∈ ([0, -1, 0, 1] : List ℤ), |c| ≤ 2 ^ 2) ∧
    (∀ c ∈ ([-1, 0, 3] : List ℤ), |c| ≤ 2 ^ 2) :=
  ⟨by decide +kernel, by decide +kernel, by decide +kernel⟩

end Verif.Vts
