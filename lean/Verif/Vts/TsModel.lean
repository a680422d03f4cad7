import Verif.Vts.Model

/-!
# Model of `internal_ts` (`vts/uni_vts.py:53-96`) and `evaluate` (`vts/uni_vts.py:760-783`)

The names `internal_ts` and `evaluate` are defined twice in the file; the last definitions count.
-/

namespace Verif.Vts

variable {R : Type} [CommRing R] [LinearOrder R] {K : Type} [Field K] [LinearOrder K]

/-- The points `root`, `root + eps` and `-1/eps` at which the code evaluates. -/
inductive TsPoint (K : Type)
  | exact (x : K)
  | plusEps (x : K)
  | minusInfinity

/-- A Python object compared with the integer `0`: a number, or the builtin function `sum`. -/
inductive PyObj (K : Type)
  | number (v : K)
  | builtin

/-- `EvalStr` objects `__le_str`, `__lt_str`, `__eq_str`, `__ne_str`, `vts/uni_vts.py:738-741`. -/
inductive Strategy
  | le | lt | eq | ne

/-- `strategy.condition(p)`. Python 2 orders every number before every object of a type that defines
no comparison, and such an object is never equal to a number; so for the builtin `sum` the tests
`<= 0`, `< 0`, `== 0` are `False` and `!= 0` is `True`. -/
def Strategy.condition : Strategy → PyObj K → Bool
  | .le, .number v => decide (v ≤ 0)
  | .lt, .number v => decide (v < 0)
  | .eq, .number v => decide (v = 0)
  | .ne, .number v => decide (v ≠ 0)
  | .le, .builtin => false
  | .lt, .builtin => false
  | .eq, .builtin => false
  | .ne, .builtin => true

/-- `vts/uni_vts.py:760-783` `evaluate`: the value of `evaluate_poly` (line 779) is thrown away and
the condition is applied to the builtin function `sum` (line 782). `false` stands for the
`ConditionExc`. -/
def tsEvaluate (_point : TsPoint K) (le lt eq ne : List (Poly R)) : Bool :=
  (le.map (fun p => (p, Strategy.le)) ++ lt.map (fun p => (p, Strategy.lt)) ++
    eq.map (fun p => (p, Strategy.eq)) ++ ne.map (fun p => (p, Strategy.ne))).all
    fun ps => ps.2.condition (PyObj.builtin : PyObj K)

/-- One of the two loops of `internal_ts`. -/
def tsLoop (E : Env R K) (mk : K → TsPoint K) (le lt eq ne : List (Poly R)) :
    List (Poly R) → Except Err Bool :=
  firstTrue fun poly => do
    let roots ← E.mkRoots poly
    pure (roots.any fun root => tsEvaluate (mk root) le lt eq ne)

/-- `vts/uni_vts.py:53-96` `internal_ts`. -/
def internalTs (E : Env R K) (le lt eq ne : List (Poly R)) : Except Err Bool := do
  let b1 ← tsLoop E .exact le lt eq ne (eq ++ le)
  if b1 then pure true
  else do
    let b2 ← tsLoop E .plusEps le lt eq ne (lt ++ ne)
    if b2 then pure true
    else pure (tsEvaluate (.minusInfinity : TsPoint K) le lt eq ne)

end Verif.Vts
