import Verif.Qe.PropsCohenHormander
import Verif.Qe.PropsMuchnikReal
import Verif.Qe.ZPoly

/-!
# C100: the results documented in `highschool_qe/README.md`

Coefficients are polynomials in `y`, see `ZPoly`; constant polynomials in `x` are lists of one coefficient in the results
of `muchnik.py` and coefficients in those of `cohenhorm.py`.
-/

set_option linter.unusedSectionVars false

open Verif.Alg

namespace Verif.Qe

variable {R : Type} [CommRing R] [DecidableEq R]

/-- `SympyWrapper` (`sympywrapper.py:15-60`) for the variables `x > y`, with `LS` (`sympywrapper.py:30-33`) the
coefficient of the lexicographically highest term. -/
def readmeAlg : MAlg ZY :=
  { ZY.alg with LS := fun p => ((lc p).coeffs.getLastD 0 : ℤ) }

/-- the calls in the documentation: `real_full([x-y], [x-1], [])` -/
def readmeMuchnik : Except QErr (QOut (List (List ZY) × List (List ZY) × List (List ZY))) :=
  realFull readmeAlg 100 [[-ZY.y, 1]] [[-1, 1]] []

/-- the documented result of `real_full` of `muchnik.py` (`README.md:50-60`), in this order -/
theorem readme_real : readmeMuchnik.toOption.map (·.ret) = some
    [([[-ZY.y], [-ZY.y + 1]], [], [[ZY.y - 1]]),
     ([[-ZY.y]], [[-ZY.y + 1]], [[ZY.y - 1]]),
     ([[-ZY.y]], [], [[-ZY.y + 1], [ZY.y - 1]]),
     ([[-ZY.y + 1]], [[-ZY.y]], [[ZY.y - 1]]),
     ([], [[-ZY.y], [-ZY.y + 1]], [[ZY.y - 1]]),
     ([], [[-ZY.y]], [[-ZY.y + 1], [ZY.y - 1]]),
     ([[-ZY.y + 1]], [], [[-ZY.y], [ZY.y - 1]]),
     ([], [[-ZY.y + 1]], [[-ZY.y], [ZY.y - 1]]),
     ([], [], [[-ZY.y], [-ZY.y + 1], [ZY.y - 1]])] := by decide +kernel

/-- the documented result of `complex_full([x-y, x-1], [])` (`README.md:32-39`), in this order -/
theorem readme_complex : (complexFull readmeAlg 100 [[-ZY.y, 1], [-1, 1]] []).toOption.map (·.ret) = some
    [([[-ZY.y], [-ZY.y + 1], [ZY.y - 1]], []),
     ([[-ZY.y], [ZY.y - 1]], [[-ZY.y + 1]]),
     ([[-ZY.y + 1], [ZY.y - 1]], [[-ZY.y]]),
     ([[ZY.y - 1]], [[-ZY.y], [-ZY.y + 1]])] := by decide +kernel

/-- **C100** is violated: the documentation of `cohenhorm.py` says of `real_full([x-y], [x-1], [])` "Returns: Same as
muchnik", which are nine conjunctions; the returned list is the one conjunction `1 - y < 0`. -/
theorem C100_violated :
    chFull readmeAlg 100 [[-ZY.y, 1]] [[-1, 1]] [] = .ok [([-ZY.y + 1], [], [])] ∧
    ∃ out, realFull readmeAlg 100 [[-ZY.y, 1]] [[-1, 1]] [] = .ok out ∧ out.ret.length = 9 := by
  have h : (chFull readmeAlg 100 [[-ZY.y, 1]] [[-1, 1]] []).toOption = some [([-ZY.y + 1], [], [])] := by decide +kernel
  refine ⟨except_of_toOption h, ?_⟩
  have h2 := readme_real
  unfold readmeMuchnik at h2
  cases hr : realFull readmeAlg 100 [[-ZY.y, 1]] [[-1, 1]] [] with
  | error e => rw [hr] at h2; cases h2
  | ok out =>
    rw [hr] at h2
    have h3 : out.ret = _ := Option.some.inj h2
    exact ⟨out, rfl, by rw [h3]; rfl⟩

/-- What holds instead of **C100**: at every value of the parameters some conjunction of the one result holds if and only
if one of the other does, when a parameter occurs, the polynomials of highest degree have leading coefficients without
parameters and the input is not the polynomial 0 and a constant. (Missing: other leading coefficients, for which the
result of `cohenhorm.py` is wrong, C28; and the equality of the lists.) -/
theorem C100_partial [IsDomain R] [CharZero R] (A : MAlg R) (hA : GoodScalars A)
    (hmul : ∀ (c : R) (n : ℕ), n ≠ 0 → A.hasVar c = true → A.hasVar (c * n) = true)
    (hsign : ∀ c, A.sign c = -1 ∨ A.sign c = 0 ∨ A.sign c = 1) (h0 : A.hasVar 0 = false)
    (lesser eqs greater : List (List R)) (hn : ∀ p ∈ lesser ++ eqs ++ greater, Normal p)
    (hpar : ∃ p ∈ lesser ++ eqs ++ greater, ∃ c ∈ p, A.hasVar c = true)
    (hlead : ScalarLead A (lesser ++ eqs ++ greater)) (hz : ¬ ZeroAndConstant (lesser ++ eqs ++ greater)) :
    ∃ (N : ℕ) (m : QOut (List (List R) × List (List R) × List (List R))) (ch : List (List R × List R × List R)),
      (∀ fuel ≥ N, realFull A fuel lesser eqs greater = .ok m ∧ chFull A fuel lesser eqs greater = .ok ch) ∧
      ∀ {K : Type} [Field K] [LinearOrder K] [IsStrictOrderedRing K] [PolyIVT K] (φ : R →+* K), ScalarSigns A φ →
        ((∃ z ∈ m.ret, (∀ c ∈ z.1, value φ c 0 < 0) ∧ (∀ c ∈ z.2.1, value φ c 0 = 0) ∧ ∀ c ∈ z.2.2, 0 < value φ c 0) ↔
          ∃ z ∈ ch, (∀ k ∈ z.1, φ k < 0) ∧ (∀ k ∈ z.2.1, φ k = 0) ∧ ∀ k ∈ z.2.2, 0 < φ k) := by
  have hne : lesser ++ eqs ++ greater ≠ [] := by
    obtain ⟨p, hp, -⟩ := hpar
    exact List.ne_nil_of_mem hp
  obtain ⟨N, m, h1, -, h2⟩ := C23_real_full A h0 hmul hsign lesser eqs greater hn hpar
  obtain ⟨N', ch, h3, h4⟩ := C28_scalar_partial A hA lesser eqs greater hne hn hlead
  refine ⟨max N N', m, ch, fun fuel hf =>
    ⟨h1 fuel ((le_max_left _ _).trans hf), h3 fuel ((le_max_right _ _).trans hf)⟩, ?_⟩
  intro K _ _ _ _ φ hφ
  rw [h2 φ hφ]
  exact ⟨(h4 φ hφ).2 hz, (h4 φ hφ).1⟩

theorem zy_hasVar (c : ZY) : ZY.alg.hasVar c = true ↔ 0 < c.poly.natDegree := by
  simp only [ZY.alg, decide_eq_true_eq]
  rw [ZY.poly, natDegree_toPoly c.canon, deg]
  omega

-- C100_partial: the documented call
example : GoodScalars readmeAlg ∧
    (∀ (c : ZY) (n : ℕ), n ≠ 0 → readmeAlg.hasVar c = true → readmeAlg.hasVar (c * n) = true) ∧
    (∀ c, readmeAlg.sign c = -1 ∨ readmeAlg.sign c = 0 ∨ readmeAlg.sign c = 1) ∧
    (∀ p ∈ [[-ZY.y, 1]] ++ [[-1, 1]] ++ [], Normal p) ∧
    (∃ p ∈ [[-ZY.y, 1]] ++ [[-1, 1]] ++ [], ∃ c ∈ p, readmeAlg.hasVar c = true) ∧
    ScalarLead readmeAlg ([[-ZY.y, 1]] ++ [[-1, 1]] ++ []) ∧ ¬ ZeroAndConstant ([[-ZY.y, 1]] ++ [[-1, 1]] ++ []) ∧
    ∀ a : ℝ, ScalarSigns readmeAlg (ZY.at' a) := by
  refine ⟨⟨GoodScalars.zyAlg.zero, GoodScalars.zyAlg.sign, GoodScalars.zyAlg.sign_zero⟩, ?_, ?_, ?_,
    ⟨[-ZY.y, 1], by simp, -ZY.y, by simp, by decide⟩, ?_, ?_, fun a => scalarSigns_zy a⟩
  · intro c n hn hc
    have hc' := (zy_hasVar c).1 hc
    refine (zy_hasVar _).2 ?_
    have : (n : Polynomial ℤ) = Polynomial.C (n : ℤ) := by simp
    rw [ZY.poly_mul, ZY.poly_natCast, this, Polynomial.natDegree_mul_C (by exact_mod_cast hn)]
    exact hc'
  · intro c
    show Int.sign _ = _ ∨ Int.sign _ = _ ∨ Int.sign _ = _
    rcases Int.sign_trichotomy (c.coeffs.headD 0) with h | h | h <;> rw [h] <;> decide
  · intro p hp h
    simp only [List.append_nil, List.singleton_append, List.mem_cons, List.not_mem_nil, or_false] at hp
    rcases hp with rfl | rfl <;> revert h <;> decide
  · intro p hp _
    simp only [List.append_nil, List.singleton_append, List.mem_cons, List.not_mem_nil, or_false] at hp
    rcases hp with rfl | rfl <;> decide
  · rintro ⟨a, ha⟩
    have := (ha []).2 (Or.inr rfl)
    simp at this

end Verif.Qe
