import Verif.Qe.PolyLemmas
import Mathlib.Algebra.Ring.InjSurj
import Mathlib.Algebra.Polynomial.Eval.Defs
import Mathlib.Data.Real.Basic

/-!
# A computable copy of ℤ[y]

Coefficients with one parameter `y`, used to run the model on concrete inputs.
-/

set_option linter.unusedSectionVars false

open Polynomial

namespace Verif.Qe

/-- Integer polynomials in the parameter `y`, as lists of coefficients without trailing zeros. -/
structure ZY where
  coeffs : List ℤ
  canon : Canon coeffs

instance : DecidableEq ZY := fun a b =>
  decidable_of_iff (a.coeffs = b.coeffs) ⟨fun h => by cases a; cases b; cases h; rfl, fun h => by rw [h]⟩

namespace ZY

/-- normalisation -/
def mk' (l : List ℤ) : ZY := ⟨strip l, strip_canon l⟩

/-- the polynomial -/
noncomputable def poly (a : ZY) : ℤ[X] := toPoly a.coeffs

theorem poly_inj : Function.Injective poly := by
  intro a b h
  have := canon_inj a.canon b.canon h
  cases a; cases b; cases this; rfl

theorem poly_mk' (l : List ℤ) : (mk' l).poly = toPoly l := toPoly_strip l

/-- sum of coefficient lists -/
def ladd (a b : List ℤ) : List ℤ := lsub a (b.map fun c => -c)

theorem toPoly_ladd (a b : List ℤ) : toPoly (ladd a b) = toPoly a + toPoly b := by
  unfold ladd
  rw [toPoly_lsub, toPoly_neg]; ring

/-- product of coefficient lists -/
def lmul : List ℤ → List ℤ → List ℤ
  | [], _ => []
  | a :: l, b => ladd (b.map (a * ·)) (0 :: lmul l b)

theorem toPoly_lmul (a b : List ℤ) : toPoly (lmul a b) = toPoly a * toPoly b := by
  induction a with
  | nil => simp [lmul]
  | cons a l ih =>
    rw [lmul, toPoly_ladd, toPoly_map_mul, toPoly_cons, ih, toPoly_cons]
    simp only [map_zero, zero_add]
    ring

instance : Zero ZY := ⟨mk' []⟩
instance : One ZY := ⟨mk' [1]⟩
instance : Add ZY := ⟨fun a b => mk' (ladd a.coeffs b.coeffs)⟩
instance : Mul ZY := ⟨fun a b => mk' (lmul a.coeffs b.coeffs)⟩
instance : Neg ZY := ⟨fun a => mk' (a.coeffs.map fun c => -c)⟩
instance : Sub ZY := ⟨fun a b => mk' (lsub a.coeffs b.coeffs)⟩
instance : NatCast ZY := ⟨fun n => mk' [(n : ℤ)]⟩
instance : IntCast ZY := ⟨fun n => mk' [n]⟩
instance : SMul ℕ ZY := ⟨fun n a => mk' (a.coeffs.map ((n : ℤ) * ·))⟩
instance : SMul ℤ ZY := ⟨fun n a => mk' (a.coeffs.map (n * ·))⟩
instance : Pow ZY ℕ := ⟨fun a n => (fun b => b * a)^[n] 1⟩

theorem poly_zero : poly 0 = 0 := by
  show (mk' []).poly = 0
  rw [poly_mk']; rfl

theorem poly_one : poly 1 = 1 := by
  show (mk' [1]).poly = 1
  rw [poly_mk']; simp

theorem poly_mul (a b : ZY) : poly (a * b) = poly a * poly b := by
  show (mk' _).poly = _
  rw [poly_mk', toPoly_lmul]; rfl

theorem poly_add (a b : ZY) : poly (a + b) = poly a + poly b := by
  show (mk' _).poly = _
  rw [poly_mk', toPoly_ladd]; rfl

theorem poly_neg (a : ZY) : poly (-a) = -poly a := by
  show (mk' _).poly = _
  rw [poly_mk', toPoly_neg]; rfl

theorem poly_sub (a b : ZY) : poly (a - b) = poly a - poly b := by
  show (mk' _).poly = _
  rw [poly_mk', toPoly_lsub]; rfl

theorem poly_nsmul (n : ℕ) (a : ZY) : poly (n • a) = n • poly a := by
  show (mk' _).poly = _
  rw [poly_mk', toPoly_map_mul, nsmul_eq_mul]
  simp [poly]

theorem poly_zsmul (n : ℤ) (a : ZY) : poly (n • a) = n • poly a := by
  show (mk' _).poly = _
  rw [poly_mk', toPoly_map_mul, zsmul_eq_mul]
  simp [poly]

theorem poly_pow (a : ZY) (n : ℕ) : poly (a ^ n) = poly a ^ n := by
  show ((fun b => b * a)^[n] 1).poly = _
  induction n with
  | zero => rw [pow_zero]; exact poly_one
  | succ n ih => rw [Function.iterate_succ', Function.comp_apply, poly_mul, ih, pow_succ]

theorem poly_natCast (n : ℕ) : poly (n : ZY) = n := by
  show (mk' _).poly = _
  rw [poly_mk']; simp

theorem poly_intCast (n : ℤ) : poly (n : ZY) = n := by
  show (mk' _).poly = _
  rw [poly_mk']; simp

instance : CommRing ZY where
  add_assoc a b c := poly_inj (by simp only [poly_add]; ring)
  zero_add a := poly_inj (by simp only [poly_add, poly_zero]; ring)
  add_zero a := poly_inj (by simp only [poly_add, poly_zero]; ring)
  add_comm a b := poly_inj (by simp only [poly_add]; ring)
  mul_assoc a b c := poly_inj (by simp only [poly_mul]; ring)
  one_mul a := poly_inj (by simp only [poly_mul, poly_one]; ring)
  mul_one a := poly_inj (by simp only [poly_mul, poly_one]; ring)
  mul_comm a b := poly_inj (by simp only [poly_mul]; ring)
  zero_mul a := poly_inj (by simp only [poly_mul, poly_zero]; ring)
  mul_zero a := poly_inj (by simp only [poly_mul, poly_zero]; ring)
  left_distrib a b c := poly_inj (by simp only [poly_mul, poly_add]; ring)
  right_distrib a b c := poly_inj (by simp only [poly_mul, poly_add]; ring)
  neg_add_cancel a := poly_inj (by simp only [poly_neg, poly_add, poly_zero]; ring)
  sub_eq_add_neg a b := poly_inj (by simp only [poly_neg, poly_add, poly_sub]; ring)
  nsmul n a := n • a
  nsmul_zero a := poly_inj (by rw [poly_nsmul, poly_zero]; simp)
  nsmul_succ n a := poly_inj (by rw [poly_nsmul, poly_add, poly_nsmul, succ_nsmul])
  zsmul n a := n • a
  zsmul_zero' a := poly_inj (by rw [poly_zsmul, poly_zero]; simp)
  zsmul_succ' n a := poly_inj (by
    rw [poly_zsmul, poly_add, poly_zsmul]; simp only [zsmul_eq_mul]; push_cast; ring)
  zsmul_neg' n a := poly_inj (by
    rw [poly_zsmul, poly_neg, poly_zsmul]; simp only [zsmul_eq_mul]; push_cast [Int.negSucc_eq]; ring)
  npow n a := a ^ n
  npow_zero a := poly_inj (by rw [poly_pow, poly_one, pow_zero])
  npow_succ n a := poly_inj (by rw [poly_pow, poly_mul, poly_pow, pow_succ])
  natCast n := (n : ZY)
  natCast_zero := poly_inj (by rw [poly_natCast, poly_zero]; simp)
  natCast_succ n := poly_inj (by rw [poly_natCast, poly_add, poly_natCast, poly_one]; simp)
  intCast n := (n : ZY)
  intCast_ofNat n := poly_inj (by rw [poly_intCast, poly_natCast]; simp)
  intCast_negSucc n := poly_inj (by
    rw [poly_intCast, poly_neg, poly_natCast, Int.negSucc_eq]; push_cast; ring)

/-- The parameter. -/
def y : ZY := mk' [0, 1]

/-- `poly` as a ring homomorphism -/
noncomputable def polyHom : ZY →+* ℤ[X] where
  toFun := poly
  map_zero' := poly_zero
  map_one' := poly_one
  map_mul' := poly_mul
  map_add' := poly_add

instance : IsDomain ZY := poly_inj.isDomain polyHom

instance : CharZero ZY := by
  refine ⟨fun m n h => ?_⟩
  have : polyHom (m : ZY) = polyHom (n : ZY) := by rw [h]
  rw [map_natCast, map_natCast] at this
  exact_mod_cast this

/-- The valuation `y ↦ a`. -/
noncomputable def at' (a : ℝ) : ZY →+* ℝ := (Polynomial.eval₂RingHom (Int.castRingHom ℝ) a).comp polyHom

theorem at'_y (a : ℝ) : at' a y = a := by
  show Polynomial.eval₂ _ _ (mk' [0, 1]).poly = a
  rw [poly_mk']; simp

/-- What the procedures ask of the coefficients. -/
def alg : MAlg ZY where
  hasVar a := decide (a.coeffs.length > 1)
  sign a := (a.coeffs.headD 0).sign
  LS _ := 0

end ZY

end Verif.Qe
