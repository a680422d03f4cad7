import Verif.Qe.ChRaise
import Verif.Qe.ChRaiseGen
import Verif.Qe.PropsChEnds

/-!
# C28: `real_full` of `cohenhorm.py` raises an exception on every quadratic polynomial with parameters in the leading
coefficient

`R`, the lists of coefficients, `poly`, `value` and `Normal` are as in `PropsMuchnik`.
-/

set_option linter.unusedSectionVars false

namespace Verif.Qe

variable {R : Type} [CommRing R] [DecidableEq R]

theorem chFull_raises [IsDomain R] [CharZero R] (A : MAlg R) (hA : GoodScalars A) (p : List R) (hp : Normal p)
    (k : ℕ) (hr : ∀ fuel r, realTable A (fuel + k) [p] [] ≠ .ok r) (lesser eqs greater : List (List R))
    (h : lesser ++ eqs ++ greater = [p]) : ∃ N, ∀ fuel ≥ N, chFull A fuel lesser eqs greater = .error .noKey := by
  obtain ⟨N, r, h1, ⟨ret, rfl⟩ | ⟨rfl, -⟩⟩ := C28_exceptions_partial A hA lesser eqs greater (by
    rw [h]; intro q hq; rw [List.mem_singleton.1 hq]; exact hp)
  · exfalso
    have h2 := h1 (N + k) (by omega)
    unfold chFull at h2
    rw [h] at h2
    cases h3 : realTable A (N + k) [p] [] with
    | error e => rw [h3] at h2; cases h2
    | ok ts => exact hr N ts h3
  · exact ⟨N, h1⟩

/-- **C28** is violated for every quadratic polynomial `a*x² + b*x + c` whose leading coefficient has parameters (so that
it is not invertible): eliminating `x` from `a*x² + b*x + c < 0`, `= 0` or `> 0` always ends with the exception "no key". -/
theorem C28_quadratic_violated [IsDomain R] [CharZero R] (A : MAlg R) (hA : GoodScalars A) (a b c : R)
    (ha : A.hasVar a = true) (ha2 : A.hasVar (2 * a) = true) (hunit : ∀ u, a * u ≠ 1) (lesser eqs greater : List (List R))
    (h : lesser ++ eqs ++ greater = [[c, b, a]]) :
    ∃ N, ∀ fuel ≥ N, chFull A fuel lesser eqs greater = .error .noKey := by
  have ha0 : a ≠ 0 := by rintro rfl; rw [hA.zero] at ha; cases ha
  have hN : Normal [c, b, a] := by intro h; simpa using ha0
  by_cases hd : 4 * a * c - b ^ 2 = 1
  · have := trinomial_raises hA.zero 0 (a := a) (b := b) (c := c) (A := A) (ha := ha) (hna := by simpa using ha2)
      (hb := by
        rintro rfl
        exact hunit (4 * c) (by linear_combination hd))
      (hba := by
        rintro rfl
        exact hunit (4 * c - b) (by linear_combination hd))
      (hbn := by
        rintro rfl
        exact hunit (4 * c - 4 * a) (by push_cast at hd; linear_combination hd))
    exact chFull_raises A hA _ hN 2 (fun fuel r => this fuel r) _ _ _ h
  · exact chFull_raises A hA _ hN 5 (fun fuel r => quadratic_raises hA.zero (fun k h1 h2 h3 => h2 ((hA.sign_zero k h1).1 h3)) fuel
      ha ha2 hd r) _ _ _ h

/-- **C28** is violated for polynomials `a*x^(n+2) + b*x + c` of any degree whose leading coefficient has parameters, if
`b` is none of `0`, `a` and `(n+2)*a`. -/
theorem C28_trinomial_violated [IsDomain R] [CharZero R] (A : MAlg R) (hA : GoodScalars A) (n : ℕ) (a b c : R)
    (ha : A.hasVar a = true) (hna : A.hasVar (((n + 2 : ℕ) : R) * a) = true) (hb : b ≠ 0) (hba : b ≠ a)
    (hbn : b ≠ ((n + 2 : ℕ) : R) * a) (lesser eqs greater : List (List R))
    (h : lesser ++ eqs ++ greater = [c :: b :: (List.replicate n 0 ++ [a])]) :
    ∃ N, ∀ fuel ≥ N, chFull A fuel lesser eqs greater = .error .noKey := by
  have ha0 : a ≠ 0 := by rintro rfl; rw [hA.zero] at ha; cases ha
  refine chFull_raises A hA _ ?_ 2 (fun fuel r => trinomial_raises hA.zero n fuel ha hna hb hba hbn r) _ _ _ h
  intro h
  simpa [trinomial] using ha0

/-- `y*x² + x + 1 = 0` meets the assumptions of C28_quadratic_violated. -/
example : ∃ N, ∀ fuel ≥ N, chFull ZY.alg fuel [] [[1, 1, ZY.y]] [] = .error .noKey :=
  C28_quadratic_violated ZY.alg .zyAlg ZY.y 1 1 (by decide) (by decide) (by
    intro u hu
    have := congrArg (ZY.at' (0 : ℚ)) hu
    simp [ZY.at'_y] at this) [] _ [] rfl

/-- `y*x⁵ - x + 2 < 0` meets the assumptions of C28_trinomial_violated. -/
example : ∃ N, ∀ fuel ≥ N, chFull ZY.alg fuel [[2, -1, 0, 0, 0, ZY.y]] [] [] = .error .noKey :=
  C28_trinomial_violated ZY.alg .zyAlg 3 ZY.y (-1) 2 (by decide) (by decide +kernel) (by decide) (by decide) (by decide +kernel) _ [] [] rfl

/-- **C28** is violated for polynomials `c + b*x + l₀*x² + l₁*x³ + ...` of any degree from 2 on whose coefficients from the
quadratic one on are 0 or have parameters, the leading one having parameters, if no coefficient of the derivative is equal
to the leading coefficient and `b` is different from 0 and from the other coefficients of the derivative: eliminating `x` from
one relation with such a polynomial always ends with the exception "no key". -/
theorem C28_parameters_violated [IsDomain R] [CharZero R] (A : MAlg R) (hA : GoodScalars A) (b c : R) (l : List R)
    (hl : l ≠ []) (ha : A.hasVar (l.getLast hl) = true)
    (hvar : ∀ i (h : i < l.length), l[i] = 0 ∨ A.hasVar (((i + 2 : ℕ) : R) * l[i]) = true)
    (hb : b ≠ 0) (hba : b ≠ l.getLast hl) (hbl : ∀ i (h : i < l.length), b ≠ ((i + 2 : ℕ) : R) * l[i])
    (hal : ∀ i (h : i < l.length), l.getLast hl ≠ ((i + 2 : ℕ) : R) * l[i])
    (lesser eqs greater : List (List R)) (h : lesser ++ eqs ++ greater = [c :: b :: l]) :
    ∃ N, ∀ fuel ≥ N, chFull A fuel lesser eqs greater = .error .noKey := by
  have hlc : lc l = l.getLast hl := by
    unfold lc
    rw [List.getLastD_eq_getLast?, List.getLast?_eq_some_getLast hl]
    rfl
  have ha0 : l.getLast hl ≠ 0 := by intro h; rw [h, hA.zero] at ha; cases ha
  refine chFull_raises A hA _ ?_ 2 (fun fuel r => generic_raises hA.algOK fuel hl (by rw [hlc]; exact ha) hb
    (by rw [hlc]; exact hba.symm) hvar hbl (by rw [hlc]; exact hal) r) _ _ _ h
  intro h
  rw [List.getLast_cons (by simp), List.getLast_cons hl]
  exact ha0

/-- `y*x⁴ + y²*x³ + 3*x + 2 > 0` meets the assumptions of C28_parameters_violated. -/
example : ∃ N, ∀ fuel ≥ N, chFull ZY.alg fuel [] [] [[2, 3, 0, ZY.y * ZY.y, ZY.y]] = .error .noKey :=
  C28_parameters_violated ZY.alg .zyAlg 3 2 [0, ZY.y * ZY.y, ZY.y] (by simp) (by decide +kernel) (by decide +kernel) (by decide)
    (by decide +kernel) (by decide +kernel) (by decide +kernel) [] [] _ rfl

end Verif.Qe
