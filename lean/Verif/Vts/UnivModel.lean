import Verif.Vts.ParserModel

/-!
# Model of `make_univariate` and `examples_preformat_uni` (`vts/examples_parser.py`)

sympy simplifies expressions while they are built. What the code observes of this is given by an environment for the terms
that are not polynomials with rational coefficients (decimals are floating point numbers; quotients), and computed for
those that are.
-/

namespace Verif.Vts

/-- What sympy does with the terms of a file. -/
structure SympyEnv where
  /-- the number a term is simplified to when it is built, if it is -/
  num : Tm → Option ℚ
  /-- `cls(new_lhs, 0)` for a relation whose left hand side minus right hand side is not a polynomial with rational
  coefficients once all variables are replaced by `x` -/
  other : Rel Tm → PyRel SPoly

/-- Evaluation of a relation between numbers. -/
def RelKind.test : RelKind → ℚ → ℚ → Bool
  | .le, a, b => decide (a ≤ b)
  | .lt, a, b => decide (a < b)
  | .eq, a, b => decide (a = b)
  | .ne, a, b => decide (a ≠ b)
  | .ge, a, b => decide (b ≤ a)
  | .gt, a, b => decide (b < a)

/-- `True` or `False` -/
def PyRel.ofBool {T : Type} (b : Bool) : PyRel T := if b then .tt else .ff

/-- The object made by a parse action `proc_le` etc. (`grf_parser.py:21-32`): sympy evaluates relations between numbers. -/
def SympyEnv.mk' (S : SympyEnv) (r : Rel Tm) : PyRel Tm :=
  match S.num r.lhs, S.num r.rhs with
  | some a, some b => .ofBool (r.kind.test a b)
  | _, _ => .rel r

/-- Sum of polynomials in `x` (coefficients, constant first); sympy's arithmetic and `expand()`
(`examples_parser.py:83-86`). -/
def addC : List ℚ → List ℚ → List ℚ
  | [], q => q
  | p, [] => p
  | a :: p, b :: q => (a + b) :: addC p q

/-- Product of polynomials in `x`; sympy's arithmetic and `expand()` (`examples_parser.py:83-86`). -/
def mulC : List ℚ → List ℚ → List ℚ
  | [], _ => []
  | a :: p, q => addC (q.map (a * ·)) (0 :: mulC p q)

/-- The terms of an expanded expression, by decreasing power. -/
def nonzeroTerms (l : List ℚ) : List (ℚ × ℕ) :=
  ((List.range l.length).reverse.map fun p => (l.getD p 0, p)).filter fun t => t.1 ≠ 0

/-- An expanded expression as sympy's object. -/
def toExpr (l : List ℚ) : SPoly :=
  match nonzeroTerms l with
  | [] => .number (.rat 0)
  | [(c, 0)] => .number (.rat c)
  | ts => .expr (ts.map fun t => (.rat t.1, t.2))

/-- A term with every variable replaced by `x` (`examples_parser.py:84-86`), if it is a polynomial with rational
coefficients. -/
def Tm.uni : Tm → Option (List ℚ)
  | .int z => some [(z : ℚ)]
  | .dec _ => none
  | .var _ => some [0, 1]
  | .add a b => do
    let p ← a.uni
    let q ← b.uni
    some (addC p q)
  | .sub a b => do
    let p ← a.uni
    let q ← b.uni
    some (addC p (q.map (-1 * ·)))
  | .mul a b => do
    let p ← a.uni
    let q ← b.uni
    some (mulC p q)
  | .neg a => do
    let p ← a.uni
    some (p.map (-1 * ·))
  | .div a b => do
    let p ← a.uni
    let q ← b.uni
    match nonzeroTerms q with
    | [(c, 0)] => some (p.map (c⁻¹ * ·))
    | _ => none

/-- Loop body of `make_univariate` (`examples_parser.py:82-88`): `True` and `False` have no attribute `lhs`. The new
relation is evaluated by sympy when its left hand side is a number. -/
def SympyEnv.uniRel (S : SympyEnv) : PyRel Tm → Except Err (PyRel SPoly)
  | .rel r =>
    match (Tm.sub r.lhs r.rhs).uni with
    | none => .ok (S.other r)
    | some l =>
      match toExpr l with
      | .number (.rat c) => .ok (.ofBool (r.kind.test c 0))
      | e => .ok (.rel ⟨r.kind, e, .number (.rat 0)⟩)
  | _ => .error .typeError

/-- `make_univariate` (`examples_parser.py:72-89`) -/
def SympyEnv.makeUnivariate (S : SympyEnv) (l : List (PyRel Tm)) : Except Err (List (PyRel SPoly)) := l.mapM S.uniRel

/-- The body of the innermost loop of `examples_preformat_uni` (`examples_parser.py:59-65`). -/
def SympyEnv.example1 (S : SympyEnv) (q : Sequent) : Except Err (List (PyRel SPoly) × List (PyRel SPoly)) := do
  let a ← S.makeUnivariate (q.ante.map S.mk')
  let s ← S.makeUnivariate (q.succ.map S.mk')
  return (a, s)

/-- `examples_preformat_uni` (`examples_parser.py:44-69`) on the files of a directory. -/
def SympyEnv.preformatUni (S : SympyEnv) (files : List (List Char × List Sequent)) :
    Except Err (List (List Char × List (List (PyRel SPoly) × List (PyRel SPoly)))) :=
  files.mapM fun f => do
    let l ← f.2.mapM S.example1
    return (f.1, l)

end Verif.Vts
