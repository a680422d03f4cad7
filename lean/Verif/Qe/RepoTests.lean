import Verif.Qe.ChModel
import Mathlib.Algebra.Order.Ring.Rat

/-!
# The unit tests of `highschool_qe/cohenhormtest.py`, run on the model

These are tests of the model, not proofs of properties. The results documented in `highschool_qe/README.md` are in
`PropsReadme`.
-/

namespace Verif.Qe.RepoTests

open Verif.Qe

/-- numbers: nothing has a variable -/
def numAlg : MAlg ℤ where
  hasVar _ := false
  sign := Int.sign
  LS _ := 0

/-- `cohenhormtest.py:20-23` `_fill_diagram_with_value`, with one value different -/
def fill (value : ℤ) (count root : ℕ) : List (ℚ × ℤ) :=
  (List.range count).map fun d => ((d : ℚ) / ((count : ℚ) - 1), if d = root then 0 else value)

/-- the polynomials of the tests: `x` and `2 x` -/
def p1 : List ℤ := [0, 1]

/-- see `p1` -/
def p2 : List ℤ := [0, 2]

/-- the table of the tests -/
def allTable : Table ℤ := [(p1, fill 1 7 2), (p2, fill (-1) 7 4)]

/-- `cohenhormtest.py:25-34` `check_tables`: equal keys, and equal values in order of the columns -/
def checkTables (expected actual : Table ℤ) : Bool :=
  expected.map Prod.fst == actual.map Prod.fst &&
    expected.all fun e => decide ((sortedCols e.2).map (fun c => dGet e.2 c) =
      (sortedCols (dRow actual e.1)).map fun c => dGet (dRow actual e.1) c)

/-- `cohenhormtest.py:36-54` `test_copy_table_keep_all` -/
example : ((copyTable numAlg allTable [p1, p2] []).toOption.map fun t =>
    checkTables [(p1, fill 1 7 2), (p2, fill (-1) 7 4)] t) = some true := by decide +kernel

/-- `cohenhormtest.py:56-72` `test_copy_table_keep_one` -/
example : ((copyTable numAlg allTable [p1] []).toOption.map fun t => checkTables [(p1, fill 1 5 2)] t) = some true := by
  decide +kernel

-- the comparison distinguishes
example : ((copyTable numAlg allTable [p1] []).toOption.map fun t => checkTables [(p1, fill 1 5 3)] t) = some false := by
  decide +kernel

end Verif.Qe.RepoTests
