import Verif.Vts.Props
import Verif.Vts.FrameModel

/-!
# C89: the recursion limit of the interpreter
-/

set_option linter.unusedSectionVars false

open Polynomial Verif.Alg

namespace Verif.Vts

variable {R : Type} [CommRing R] [LinearOrder R]

local notation "ιℝ" => Int.castRingHom ℝ

/-! ### With enough frames -/

theorem sprL_eq (g : List R) : ∀ (d : ℕ) (f : List R), f.length < d → sprL d f g = liftF (signedPseudoRemainder f g) := by
  intro d
  induction d with
  | zero => intro f h; omega
  | succ d ih =>
    intro f h
    rw [signedPseudoRemainder, sprL]
    cases hf : f.getLast? with
    | none => rfl
    | some lcf =>
      have hne : f ≠ [] := by rintro rfl; simp at hf
      have hpos := List.length_pos_iff.2 hne
      cases hg : g.getLast? with
      | none => rfl
      | some lcg =>
        simp only
        by_cases h0 : lcf = 0
        · rw [if_pos h0, if_pos h0]
          exact ih _ (by rw [List.length_dropLast]; omega)
        · rw [if_neg h0, if_neg h0]
          by_cases hl : f.length < g.length
          · rw [if_pos hl, if_pos hl]; rfl
          · rw [if_neg hl, if_neg hl]
            exact ih _ (by simp; omega)

theorem srsL_eq : ∀ (d : ℕ) (p q : List R), p.length + 2 ≤ d → q.length + 3 ≤ d →
    srsL d p q = liftF (signedRemainderSequence p q) := by
  intro d
  induction d with
  | zero => intro p q h; omega
  | succ d ih =>
    intro p q hp hq
    rw [signedRemainderSequence, srsL, sprL_eq q d p (by omega)]
    cases h : signedPseudoRemainder p q with
    | error e => rfl
    | ok rem =>
      simp only [liftF]
      by_cases h0 : rem = []
      · rw [if_pos h0, dif_pos h0]
      · rw [if_neg h0, dif_neg h0]
        have := (signedPseudoRemainder_length p q rem h).resolve_left h0
        rw [ih q (rem.map fun c => -c) (by omega) (by rw [List.length_map]; omega)]
        cases signedRemainderSequence q (rem.map fun c => -c) <;> rfl

theorem cauchyIndexL_eq (d : ℕ) (p q : List R) (h : q ≠ [] → srsL d p q = liftF (signedRemainderSequence p q)) :
    cauchyIndexL (d + 1) p q = liftF (cauchyIndex p q) := by
  rw [cauchyIndexL]
  unfold cauchyIndex
  by_cases h0 : q = []
  · rw [if_pos h0, if_pos h0]; rfl
  · rw [if_neg h0, if_neg h0, h h0]
    cases signedRemainderSequence p q with
    | error e => rfl
    | ok S =>
      cases hA : (S.mapM fun p => (do
        let c ← lastE p
        pure (c * (-1) ^ ((p.length - 1) % 2)) : Except Err R)) with
      | error e => simp only [liftF, bind, Except.bind] at hA ⊢; rw [hA]
      | ok a =>
        cases hB : S.mapM lastE with
        | error e => simp only [liftF, bind, Except.bind] at hA hB ⊢; rw [hA, hB]
        | ok b => simp only [liftF, bind, Except.bind] at hA hB ⊢; rw [hA, hB]; rfl

theorem srsL_nil (d : ℕ) (q : List R) : srsL (d + 2) [] q = liftF (signedRemainderSequence [] q) := by
  rw [signedRemainderSequence, srsL, sprL, signedPseudoRemainder_nil_left]
  rfl

/-! ### With any number of frames -/

theorem sprL_or (g : List R) : ∀ (d : ℕ) (f : List R),
    sprL d f g = .error .recursion ∨ sprL d f g = liftF (signedPseudoRemainder f g) := by
  intro d
  induction d with
  | zero => intro f; exact Or.inl rfl
  | succ d ih =>
    intro f
    rw [signedPseudoRemainder, sprL]
    cases hf : f.getLast? with
    | none => exact Or.inr rfl
    | some lcf =>
      cases hg : g.getLast? with
      | none => exact Or.inr rfl
      | some lcg =>
        simp only
        by_cases h0 : lcf = 0
        · rw [if_pos h0, if_pos h0]
          exact ih _
        · rw [if_neg h0, if_neg h0]
          by_cases hl : f.length < g.length
          · rw [if_pos hl, if_pos hl]; exact Or.inr rfl
          · rw [if_neg hl, if_neg hl]
            exact ih _

theorem srsL_or : ∀ (d : ℕ) (p q : List R),
    srsL d p q = .error .recursion ∨ srsL d p q = liftF (signedRemainderSequence p q) := by
  intro d
  induction d with
  | zero => intro p q; exact Or.inl rfl
  | succ d ih =>
    intro p q
    rw [signedRemainderSequence, srsL]
    rcases sprL_or q d p with h | h
    · rw [h]; exact Or.inl rfl
    · rw [h]
      cases h : signedPseudoRemainder p q with
      | error e => exact Or.inr rfl
      | ok rem =>
        simp only [liftF]
        by_cases h0 : rem = []
        · rw [if_pos h0, dif_pos h0]; exact Or.inr rfl
        · rw [if_neg h0, dif_neg h0]
          rcases ih q (rem.map fun c => -c) with h | h
          · rw [h]; exact Or.inl rfl
          · rw [h]
            right
            cases signedRemainderSequence q (rem.map fun c => -c) <;> rfl

/-- **C89**: a limit on the interpreter's frames never changes an answer or an exception of `tarski_query`; it
can only replace it by the `RuntimeError` of the interpreter. -/
theorem C89_limit (D : ℕ) (p q : List R) :
    tarskiQueryL D p q = .error .recursion ∨ tarskiQueryL D p q = liftF (tarskiQuery p q) := by
  match D with
  | 0 => exact Or.inl rfl
  | 1 => exact Or.inl rfl
  | d + 2 =>
    rw [tarskiQueryL, derivativeL]
    by_cases h : d = 0 ∧ 2 ≤ p.length
    · rw [if_pos h]; exact Or.inl rfl
    · rw [if_neg h]
      simp only [bind, Except.bind]
      unfold tarskiQuery
      rcases srsL_or d p (multiply (derivative p) q) with hs | hs
      · by_cases h0 : multiply (derivative p) q = []
        · exact Or.inr (cauchyIndexL_eq d p _ fun h => absurd h0 h)
        · left
          rw [cauchyIndexL, if_neg h0, hs]
          rfl
      · exact Or.inr (cauchyIndexL_eq d p _ fun _ => hs)

/-- **C89**, partial: what is missing are polynomials of high degree.  With three frames more than the lengths
of `p` and `q` together, `tarski_query` returns what it returns without a limit. -/
theorem C89_partial (D : ℕ) (p q : List R) (h : p.length + max 1 q.length + 3 ≤ D) :
    tarskiQueryL D p q = liftF (tarskiQuery p q) := by
  obtain ⟨d, rfl⟩ : ∃ d, D = d + 2 := ⟨D - 2, by omega⟩
  rw [tarskiQueryL, derivativeL]
  rw [if_neg (by omega)]
  simp only [bind, Except.bind]
  unfold tarskiQuery
  apply cauchyIndexL_eq
  intro _
  rcases Nat.eq_zero_or_pos p.length with h0 | h0
  · rw [List.length_eq_zero_iff.1 h0]
    obtain ⟨d', rfl⟩ : ∃ d', d = d' + 2 := ⟨d - 2, by omega⟩
    exact srsL_nil d' _
  · apply srsL_eq
    · omega
    · rw [length_multiply, length_derivative]; omega

/-! ### Too few frames -/

theorem sprL_zeros (g : List R) (hg : g ≠ []) : ∀ (k d : ℕ),
    sprL d (List.replicate k (0 : R)) g = if k < d then .ok [] else .error .recursion := by
  intro k
  induction k with
  | zero =>
    intro d
    cases d with
    | zero => rfl
    | succ d => rw [sprL]; simp
  | succ k ih =>
    intro d
    cases d with
    | zero => rfl
    | succ d =>
      rw [sprL, show (List.replicate (k + 1) (0 : R)).getLast? = some 0 by simp [List.getLast?_replicate],
        List.getLast?_eq_some_getLast hg]
      simp only [if_true]
      rw [List.dropLast_replicate, Nat.add_sub_cancel, ih]
      by_cases h : k < d
      · rw [if_pos h, if_pos (by omega)]
      · rw [if_neg h, if_neg (by omega)]

/-- The coefficients of `x ^ n`. -/
def monomial' (n : ℕ) : List ℤ := List.replicate n 0 ++ [1]

theorem derivative_mono (n : ℕ) : multiply (derivative (monomial' (n + 1))) [1] = List.replicate n 0 ++ [((n + 1 : ℕ) : ℤ)] := by
  have hlen : (multiply (derivative (monomial' (n + 1))) [1]).length = n + 1 := by
    rw [length_multiply, length_derivative]; simp [monomial']
  apply List.ext_getElem
  · rw [hlen]; simp
  · intro i h1 h2
    have e1 : (multiply (derivative (monomial' (n + 1))) [1])[i] =
        (multiply (derivative (monomial' (n + 1))) [1]).getD i 0 := by simp [List.getD, h1]
    have e2 : (multiply (derivative (monomial' (n + 1))) [1]).getD i 0 = (derivative (monomial' (n + 1))).getD i 0 := by
      have inj : Function.Injective (ιℝ : ℤ →+* ℝ) := Int.cast_injective
      apply inj
      rw [← coeff_denote, ← coeff_denote, denote_multiply]
      simp [denote]
    rw [e1, e2, derivative_getD]
    rw [hlen] at h1
    by_cases hi : i = n
    · subst hi
      simp [monomial', List.getD]
    · have : i < n := by omega
      have e3 : (monomial' (n + 1)).getD (i + 1) 0 = 0 := by
        simp [monomial', List.getD, List.getElem?_append, this]
      rw [e3, zero_mul, List.getElem_append_left (by simpa using this)]
      simp

theorem step_mono (n d : ℕ) : sprL (d + 1) (monomial' (n + 1)) (List.replicate n 0 ++ [((n + 1 : ℕ) : ℤ)]) =
    sprL d (List.replicate (n + 1) 0) (List.replicate n 0 ++ [((n + 1 : ℕ) : ℤ)]) := by
  rw [sprL]
  have h1 : (monomial' (n + 1)).getLast? = some 1 := by simp [monomial']
  have h2 : (List.replicate n 0 ++ [((n + 1 : ℕ) : ℤ)]).getLast? = some ((n + 1 : ℕ) : ℤ) := by simp
  rw [h1, h2]
  simp only
  rw [if_neg (by decide), if_neg (by simp [monomial'])]
  congr 1
  have hneg : ¬ (((n + 1 : ℕ) : ℤ) < 0) := by omega
  rw [if_neg hneg, if_neg hneg]
  apply List.ext_getElem
  · simp [monomial']
  · intro i h1 h2
    have hi : i < n + 1 := by simpa using h2
    rw [List.getElem_dropLast, List.getElem_zipWith]
    have e1 : (monomial' (n + 1))[i]'(by simp [monomial']; omega) = 0 := by
      simp only [monomial']
      rw [List.getElem_append_left (by simpa using hi)]
      simp
    have e2 : (List.replicate ((monomial' (n + 1)).length - (List.replicate n 0 ++ [((n + 1 : ℕ) : ℤ)]).length) 0 ++
        (List.replicate n 0 ++ [((n + 1 : ℕ) : ℤ)]))[i]'(by simp [monomial']; omega) = 0 := by
      simp only [← List.append_assoc]
      rw [List.getElem_append_left (by simp [monomial']; omega)]
      rw [List.getElem_append]
      split <;> simp
    rw [e1, e2]
    simp

theorem mono_query (n : ℕ) : tarskiQuery (monomial' (n + 1)) [1] = .ok 1 := by
  have hn : Normalized (monomial' (n + 1)) := normalized_int _ 1 (by decide)
  have hd : denote ιℝ (monomial' (n + 1)) = X ^ (n + 1) := by
    ext i
    rw [coeff_denote, coeff_X_pow]
    by_cases hi : i = n + 1
    · subst hi; simp [monomial', List.getD]
    · rw [if_neg hi]
      have : (monomial' (n + 1)).getD i 0 = 0 := by
        unfold monomial'
        rw [List.getD, List.getElem?_append]
        split
        · next h => simp at h; simp [h]
        · next h =>
          have : i - (List.replicate (n + 1) (0 : ℤ)).length ≠ 0 := by simp at h ⊢; omega
          obtain ⟨k, hk⟩ := Nat.exists_eq_succ_of_ne_zero this
          rw [hk]; simp
      rw [this]; simp
  rw [C03_tarski_query (K := ℝ) (φ := ιℝ) (fun a b h => by simpa using h) _ [1] hn
    (Or.inl (normalized_int [] 1 (by decide))), hd]
  have h1 : denote ιℝ ([1] : List ℤ) = 1 := by simp [denote]
  have hr : (X ^ (n + 1) : ℝ[X]).roots.toFinset = {0} := by
    rw [roots_X_pow]
    simp [Multiset.toFinset_nsmul]
  rw [h1, hr]
  simp

/-- **C89 is violated**: for `x ^ n`, which has one root, the query needs exactly `n + 5` frames: with fewer it
ends with the `RuntimeError` of the interpreter. -/
theorem C89_violated (D n : ℕ) (hn : 1 ≤ n) :
    tarskiQueryL D (List.replicate n (0 : ℤ) ++ [1]) [1] = if n + 5 ≤ D then .ok 1 else .error .recursion := by
  obtain ⟨n, rfl⟩ : ∃ k, n = k + 1 := ⟨n - 1, by omega⟩
  by_cases h : n + 1 + 5 ≤ D
  · rw [if_pos h, C89_partial D _ [1] (by simp; omega)]
    rw [show List.replicate (n + 1) (0 : ℤ) ++ [1] = monomial' (n + 1) from rfl, mono_query]
    rfl
  · rw [if_neg h]
    change tarskiQueryL D (monomial' (n + 1)) [1] = _
    match D with
    | 0 => rfl
    | 1 => rfl
    | 2 => simp [tarskiQueryL, derivativeL, monomial', bind, Except.bind]
    | 3 =>
      rw [tarskiQueryL, derivativeL, if_neg (by omega)]
      simp only [bind, Except.bind]
      rw [derivative_mono, cauchyIndexL, if_neg (by simp)]
      rfl
    | 4 =>
      rw [tarskiQueryL, derivativeL, if_neg (by omega)]
      simp only [bind, Except.bind]
      rw [derivative_mono, cauchyIndexL, if_neg (by simp), srsL, step_mono]
      rfl
    | d + 5 =>
      rw [tarskiQueryL, derivativeL, if_neg (by omega)]
      simp only [bind, Except.bind]
      rw [derivative_mono, cauchyIndexL, if_neg (by simp), srsL, step_mono, sprL_zeros _ (by simp),
        if_neg (by omega)]
      rfl

/-- With Python's default limit of 1000 frames, `tarski_query` cannot be used for degrees from 996 on, although
without a limit the answer is 1. -/
theorem C89_default (n : ℕ) (hn : 996 ≤ n) :
    tarskiQueryL 1000 (List.replicate n (0 : ℤ) ++ [1]) [1] = .error .recursion ∧
    tarskiQuery (List.replicate n (0 : ℤ) ++ [1]) [1] = .ok 1 := by
  refine ⟨by rw [C89_violated 1000 n (by omega), if_neg (by omega)], ?_⟩
  obtain ⟨n, rfl⟩ : ∃ k, n = k + 1 := ⟨n - 1, by omega⟩
  exact mono_query n

example : ([-2, 0, 1] : List ℤ).length + max 1 ([-1, 1] : List ℤ).length + 3 ≤ 8 ∧
    tarskiQueryL 8 ([-2, 0, 1] : List ℤ) [-1, 1] = .ok 0 ∧
    tarskiQueryL 5 ([-2, 0, 1] : List ℤ) [-1, 1] = .error .recursion :=
  ⟨by decide, by decide +kernel, by decide +kernel⟩

end Verif.Vts
