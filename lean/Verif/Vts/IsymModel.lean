import Verif.Vts.TsModel
import Mathlib.Data.Rat.Defs

/-!
# Model of `vts/isym.py`

A sympy expression is represented by what the code observes of it: whether it has free symbols,
and after `expand()` the list of its terms in the order of `as_ordered_terms()` (decreasing power)
as pairs `leadterm(x)` = (coefficient, power).
-/

namespace Verif.Vts

/-- A coefficient as Python sees it: a Python `int`, a `sympy.Rational` (this includes
`sympy.Integer`), any other number (`sympy.Float`, `sqrt(2)`, ...). -/
inductive PyCoef
  | int (z : ℤ)
  | rat (q : ℚ)
  | other
deriving DecidableEq

/-- Arguments of `convert`. -/
inductive SPoly
  /-- Python `int` (a Python 2 `long` would raise an attribute error; not modelled) -/
  | int (z : ℤ)
  /-- sympy number: no free symbols -/
  | number (c : PyCoef)
  /-- expression in one symbol; terms of the expanded expression -/
  | expr (terms : List (PyCoef × ℕ))
  /-- expression with several symbols -/
  | multi

/-- the rationals of the list -/
def rationals (l : List PyCoef) : List ℚ :=
  l.filterMap fun c => match c with
    | .rat q => some q
    | _ => none

/-- `lcm` in `vts/isym.py:59` (`sympy.lcm` of positive integers). -/
def denLcm (l : List PyCoef) : ℕ := (rationals l).foldl (fun x y => Nat.lcm x y.den) 1

/-- `int(x * lcm)` of one coefficient (`vts/isym.py:61-64`) -/
def scaleCoef (n : ℕ) : PyCoef → ℤ
  | .int z => z * n
  | .rat q => (q * n).num
  | .other => 0

/-- `vts/isym.py:53-82` `convert_rationals_to_ints`. When all coefficients are ints and rationals the
products with `lcm` are integers. (Zero Python ints become sympy integers by the multiplication and
are converted back.) -/
def convertRationalsToInts (l : List PyCoef) : Except Err (List ℤ) :=
  if l.any (fun c => c = .other) then .error .notRational
  else .ok (l.map (scaleCoef (denLcm l)))

/-- dictionary lookup in `pow_lookup` (`vts/isym.py:38`; of equal keys the last counts) -/
def powLookup (terms : List (PyCoef × ℕ)) (i : ℕ) : PyCoef :=
  ((terms.reverse.find? (fun t => t.2 = i)).map Prod.fst).getD (.int 0)

/-- `vts/isym.py:4-51` `convert`. -/
def convert : SPoly → Except Err (List ℤ)
  | .int z => if z = 0 then .ok [] else .ok [z]
  | .number c => convertRationalsToInts [c]
  | .multi => .error .moreThanOneSymbol
  | .expr terms =>
    match terms with
    | [] => .error .indexError
    | t :: _ => convertRationalsToInts ((List.range (t.2 + 1)).map (powLookup terms))

/-- `vts/isym.py:84-89` `convert_back`: the sum of the terms, in sympy's canonical form (zero terms
vanish, a sum without symbols is a number, `sum([])` is the Python int 0). -/
def convertBack (l : List ℤ) : SPoly :=
  match l with
  | [] => .int 0
  | _ =>
    let terms := ((List.range l.length).reverse.map fun p => (l.getD p 0, p)).filter
      fun t => t.1 ≠ 0
    match terms with
    | [] => .number (.rat 0)
    | [(c, 0)] => .number (.rat c)
    | _ => .expr (terms.map fun t => (.rat t.1, t.2))

variable {K : Type} [Field K] [LinearOrder K]

/-- `vts/isym.py:121-129` `vts`. -/
def isymVts (E : Env ℤ K) (le lt eq ne : List SPoly) : Except Err Bool := do
  let le ← le.mapM convert
  let lt ← lt.mapM convert
  let eq ← eq.mapM convert
  let ne ← ne.mapM convert
  internalVts E le lt eq ne

/-- `vts/isym.py:96-119` `ts`. -/
def isymTs (E : Env ℤ K) (le lt eq ne : List SPoly) : Except Err Bool := do
  let le ← le.mapM convert
  let lt ← lt.mapM convert
  let eq ← eq.mapM convert
  let ne ← ne.mapM convert
  internalTs E le lt eq ne

end Verif.Vts
