import Verif.Qe.MuchnikModel

/-!
# Model of the printing of answers by `highschool_qe/muchnik.py`

A polynomial is printed by a function `str` (sympy's `str`). Texts are lists of characters.
-/

namespace Verif.Qe

variable {P : Type}

/-- the conditions of one conjunction (`muchnik.py:818-821`); the keys of `lookup` are small integers, which a Python
dictionary of this size lists in increasing order -/
def conjLits (str : P → List Char) : List (List Char) → List (List P) → List (List Char)
  | s :: lookup, ps :: rest => ps.map (fun p => str p ++ s) ++ conjLits str lookup rest
  | _, _ => []

/-- `reduce` with a separator; `none` is the `TypeError` of `reduce` on an empty list -/
def reduceWith (sep : List Char) : List (List Char) → Option (List Char)
  | [] => none
  | c :: cs => some (cs.foldl (fun l r => l ++ sep ++ r) c)

/-- one conjunction (`muchnik.py:818-823`) -/
def conjText (str : P → List Char) (lookup : List (List Char)) (conjData : List (List P)) : Option (List Char) := do
  let s ← reduceWith " & \n  ".toList (conjLits str lookup conjData)
  some ("(\n  ".toList ++ s ++ "\n)".toList)

/-- `Muchniker.pprint_clause` (`muchnik.py:806-825`): the printed text, `none` if a `TypeError` is raised. -/
def clauseText (str : P → List Char) (lookup : List (List Char)) (data : List (List (List P))) : Option (List Char) :=
  if data.length = 0 then some "No assigments\n".toList
  else do
    let disj ← data.mapM (conjText str lookup)
    let s ← reduceWith " | \n".toList disj
    some ("ans:\n".toList ++ s ++ "\n".toList)

/-- the answer printed by `real_full` (`muchnik.py:783`) -/
def realText (str : P → List Char) (ret : List (List P × List P × List P)) : Option (List Char) :=
  clauseText str [" < 0".toList, " == 0".toList, " > 0".toList] (ret.map fun c => [c.1, c.2.1, c.2.2])

/-- the answer printed by `complex_full` (`muchnik.py:496`) -/
def complexText (str : P → List Char) (ret : List (List P × List P)) : Option (List Char) :=
  clauseText str [" == 0".toList, " != 0".toList] (ret.map fun c => [c.1, c.2])

end Verif.Qe
