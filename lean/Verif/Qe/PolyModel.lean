import Mathlib.Algebra.Ring.Basic
import Mathlib.Algebra.Field.Rat
import Mathlib.Data.List.Basic

/-!
# Model of the algebra used by `highschool_qe/muchnik.py` (`highschool_qe/sympywrapper.py`)

A polynomial in the variable to be eliminated is its list of coefficients (index = power) without
trailing zeros: sympy's expanded form. The coefficients are elements of a commutative ring `R`
(polynomials in the other variables). The functions of sympy that are used are written out.
-/

namespace Verif.Qe

/-- Exceptions of the quantifier elimination code as values. -/
inductive QErr
  /-- `ZeroDivisionError` of `sympy.pdiv` -/
  | zeroDivision
  /-- `PolynomialDivisionFailed` of `sympy.pdiv` -/
  | divisionFailed
  /-- missing dictionary key -/
  | keyError
  /-- `zeros[0]` of an empty set -/
  | indexError
  /-- `raise DiagramExc(...)`, `highschool_qe/muchnik.py:601-602` -/
  | diagramExc
  /-- the model's recursion bound was too small (not an exception of the code) -/
  | outOfFuel
  /-- `raise Exception("no key ...")`, `highschool_qe/cohenhorm.py:604` -/
  | noKey
  /-- `raise Exception(...)` of an impossible case in `highschool_qe/cohenhorm.py` -/
  | impossible
  deriving DecidableEq, Repr

variable {R : Type} [CommRing R] [DecidableEq R]

/-- Remove trailing zeros: sympy's canonical form after `expand()`. -/
def strip : List R → List R
  | [] => []
  | c :: l =>
    match strip l with
    | [] => if c = 0 then [] else [c]
    | a :: l' => c :: a :: l'

/-- `SympyWrapper.degree` (`sympywrapper.py:35-36`); the degree of the zero polynomial (`-oo` in
sympy) is only ever compared with 0 from above, the model has 0. -/
def deg (p : List R) : ℕ := p.length - 1

/-- `SympyWrapper.LC` (`sympywrapper.py:27-28`). -/
def lc (p : List R) : R := p.getLastD 0

/-- helper of `derivative`: coefficients multiplied by `n, n+1, ...` -/
def derAux : ℕ → List R → List R
  | _, [] => []
  | n, c :: l => (n : R) * c :: derAux (n + 1) l

/-- `SympyWrapper.derivative` (`sympywrapper.py:53-54`). -/
def derivative (p : List R) : List R := strip (derAux 1 p.tail)

/-- `SympyWrapper.p_tail` (`sympywrapper.py:41-42`): drop the leading term. -/
def pTail (p : List R) : List R := strip p.dropLast

/-- difference of coefficient lists -/
def lsub : List R → List R → List R
  | l, [] => l
  | [], m => m.map fun c => -c
  | a :: l, b :: m => (a - b) :: lsub l m

/-- sympy's `dup_pdiv` loop: `n` is the counter `N`, `r` the running remainder. The loop ends when the
degree is small; sympy raises if a step does not lower the degree. -/
def pdivLoop (g : List R) : ℕ → List R → Except QErr (List R)
  | 0, _ => .error .divisionFailed
  | n + 1, r =>
    let j := r.length - g.length
    let r' := strip (lsub (r.map (lc g * ·)) (List.replicate j 0 ++ g.map (lc r * ·)))
    if r'.length < g.length then .ok (r'.map (lc g ^ n * ·))
    else if r'.length < r.length then pdivLoop g n r'
    else .error .divisionFailed

/-- Remainder of `SympyWrapper.pseudo_div` (`sympywrapper.py:50-51`, `sympy.pdiv`); the code never uses
the quotient. -/
def pseudoRem (f g : List R) : Except QErr (List R) :=
  if g = [] then .error .zeroDivision
  else if f.length < g.length then .ok f
  else pdivLoop g (f.length - g.length + 1) f

/-- `fac` (`muchnik.py:848`) -/
def fac : ℕ → ℕ
  | 0 => 1
  | n + 1 => (n + 1) * fac n

/-- `LC(p) * fac(degree(p))` as a polynomial (`muchnik.py:302, 526`). -/
def lcRow (p : List R) : List R := strip [lc p * (fac (deg p) : R)]

/-- The remaining operations of the algebra object, as parameters: -/
structure MAlg (R : Type) where
  /-- `has_variable` on coefficients (`sympywrapper.py:47-48`) -/
  hasVar : R → Bool
  /-- `sign` of a scalar (`sympywrapper.py:59-60`) -/
  sign : R → ℤ
  /-- `LS`: the leading scalar (`sympywrapper.py:30-33`) -/
  LS : List R → ℚ

/-- `has_variable` of a polynomial of degree at most 0. -/
def hasVariable (A : MAlg R) : List R → Bool
  | [] => false
  | c :: _ => A.hasVar c

/-- `_poly_deg_key_helper` (`muchnik.py:796-804`): degrees of the successive terms (0 at the end) and
leading scalars; `n` bounds the number of terms. -/
def polyKeyAux (A : MAlg R) : ℕ → List R → List ℚ × List ℚ
  | 0, p => ([0], [A.LS p])
  | n + 1, p =>
    if deg p = 0 then ([0], [A.LS p])
    else
      let r := polyKeyAux A n (pTail p)
      ((deg p : ℚ) :: r.1, A.LS p :: r.2)

/-- `_poly_deg_key` (`muchnik.py:792-794`). -/
def polyKey (A : MAlg R) (p : List R) : List ℚ :=
  let r := polyKeyAux A p.length p
  r.1 ++ r.2

/-- Python's `<` on lists of numbers. -/
def listLt : List ℚ → List ℚ → Bool
  | _, [] => false
  | [], _ :: _ => true
  | a :: l, b :: m => if a < b then true else if b < a then false else listLt l m

/-- `blist.sortedset.add` with `_poly_deg_key` (the element is known to be new); equal keys keep the
order of insertion. -/
def sortedAdd (A : MAlg R) (p : List R) : List (List R) → List (List R)
  | [] => [p]
  | q :: l => if listLt (polyKey A p) (polyKey A q) then p :: q :: l else q :: sortedAdd A p l

end Verif.Qe
