/-!
# Exceptions of the `vts` package as values
-/

namespace Verif.Vts

/-- The ways a call into `vts/uni_vts.py`, `vts/matrix_of_signs.py` can fail. -/
inductive Err
  /-- `raise Exception("Division by zero polynomial")`, `vts/uni_vts.py:208` -/
  | divZeroPoly
  /-- `raise Exception("%d is < 1" %n)`, `vts/matrix_of_signs.py:69,110` -/
  | lessThanOne
  /-- `raise Exception("more than 5 polies")`, `vts/matrix_of_signs.py:75,116` -/
  | moreThan5
  /-- `raise Exception("multiple possible signs in matrix")`, `vts/uni_vts.py:421` -/
  | multipleSigns
  /-- `raise Exception("table had a count that was neither 0 or 1")`, `vts/uni_vts.py:424` -/
  | badCount
  /-- `raise Exception("no entry in the table was with count 1")`, `vts/uni_vts.py:428` -/
  | noEntry
  /-- unbounded Python recursion (`RuntimeError: maximum recursion depth exceeded`) -/
  | recursion
  /-- `list index out of range` -/
  | indexError
  /-- missing dictionary key -/
  | keyError
  /-- `raise "poly already there"` (a `TypeError` in Python 2), `vts/uni_vts.py:641` -/
  | polyAlreadyThere
  /-- sympy `ShapeError` -/
  | shape
  /-- failure inside an external library (`z3rcf.MkRoots` on the zero polynomial,
  `Matrix.inv` of a singular matrix) -/
  | library
  /-- unpickling of a damaged cache file, `vts/matrix_of_signs.py:21` -/
  | unpickle
  /-- `raise Exception("more than one symbol")`, `vts/isym.py:29` -/
  | moreThanOneSymbol
  /-- `raise Exception("not rational")`, `vts/isym.py:78` -/
  | notRational
  /-- `raise Exception('antecedent or succedent became zero')`, `vts/checker.py:113` -/
  | emptySide
  /-- `raise Exception("relation: %s, wasn't added" %relation)`, `vts/checker.py:87` -/
  | notAdded
  /-- `OSError` or `IOError` -/
  | osError
  /-- `TypeError` or `AttributeError` -/
  | typeError
  deriving DecidableEq, Repr

end Verif.Vts
