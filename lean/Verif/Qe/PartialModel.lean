import Verif.Qe.MuchnikModel

/-!
# Model of the partial procedures of `highschool_qe/muchnik.py`

`complex_partial` and `real_partial` build one diagram from an assignment of values to the coefficients, which is
made by one of several functions: all 0, all 1, all positive, all negative, or values typed in by the user.
The lines typed in are a list, reading past its end raises `EOFError`. The simplifications of
`MuchnikModel.lean` apply.
-/

namespace Verif.Qe

variable {R : Type} [CommRing R] [DecidableEq R]

/-- Exceptions of the partial procedures. -/
inductive PErr
  /-- exceptions of the extension of the diagram -/
  | qe (e : QErr)
  /-- the assigner is called with too few arguments -/
  | typeError
  /-- `raw_input()` at the end of the input -/
  | eofError
  deriving DecidableEq, Repr

/-- `muchnik.py:81-87` `_get_interactive_value`: lines that are not allowed are skipped. The result is the value and
the remaining lines. -/
def interactiveValue (allowed : List (String × ℤ)) : List String → Except PErr (ℤ × List String)
  | [] => .error .eofError
  | v :: rest =>
    match allowed.lookup v with
    | some z => .ok (z, rest)
    | none => interactiveValue allowed rest

/-- `muchnik.py:55-65` `c_assignment_all_one`. -/
def cAssignmentAllOne (constFrag : List (List R)) : Diagram R ℕ :=
  constFrag.foldl (fun D c => if c = [] then dWrite D c 0 0 else dWrite D c 0 1) []

/-- The loop of `c_assignment_interactive` (`muchnik.py:93-100`). -/
def cInteractiveLoop (A : MAlg R) : List (List R) → List String → Diagram R ℕ → Except PErr (Diagram R ℕ)
  | [], _, D => .ok D
  | c :: cs, lines, D =>
    if c = [] then cInteractiveLoop A cs lines (dWrite D c 0 0)
    else if hasVariable A c then
      match interactiveValue [("0", 0), ("1", 1)] lines with
      | .error e => .error e
      | .ok (v, rest) => cInteractiveLoop A cs rest (dWrite D c 0 v)
    else cInteractiveLoop A cs lines (dWrite D c 0 1)

/-- `muchnik.py:89-101` `c_assignment_interactive`. -/
def cAssignmentInteractive (A : MAlg R) (lines : List String) (constFrag : List (List R)) :
    Except PErr (Diagram R ℕ) :=
  cInteractiveLoop A constFrag lines []

/-- `muchnik.py:134-146` `r_assignment_all_pos` (`s = 1`), `muchnik.py:162-174` `r_assignment_all_neq` (`s = -1`) and
`muchnik.py:148-160` `r_assignment_all_zero` (`s = 0`). -/
def rAssignmentAll (A : MAlg R) (s : ℤ) (constFrag : List (List R)) : Diagram R ℚ :=
  constFrag.foldl (fun D c => write3 D c (if hasVariable A c then s else A.sign (c.headD 0))) []

/-- The loop of `r_assignment_interactive` (`muchnik.py:180-187`). -/
def rInteractiveLoop (A : MAlg R) : List (List R) → List String → Diagram R ℚ → Except PErr (Diagram R ℚ)
  | [], _, D => .ok D
  | c :: cs, lines, D =>
    if hasVariable A c then
      match interactiveValue [("-1", -1), ("0", 0), ("1", 1)] lines with
      | .error e => .error e
      | .ok (v, rest) => rInteractiveLoop A cs rest (write3 D c v)
    else rInteractiveLoop A cs lines (write3 D c (A.sign (c.headD 0)))

/-- `muchnik.py:176-188` `r_assignment_interactive`. -/
def rAssignmentInteractive (A : MAlg R) (lines : List String) (constFrag : List (List R)) :
    Except PErr (Diagram R ℚ) :=
  rInteractiveLoop A constFrag lines []

/-- The argument `assigner`: a function, or left out. The default value is the function `c_assignment_interactive`
itself, taken from the class body, not a method of the object: called with one argument it raises. -/
def assignWith {κ : Type} (assigner : Option (List (List R) → Except PErr (Diagram R κ))) (constFrag : List (List R)) :
    Except PErr (Diagram R κ) :=
  match assigner with
  | none => .error .typeError
  | some f => f constFrag

/-- exceptions of the extension -/
def liftQ {α : Type} : Except QErr α → Except PErr α
  | .ok a => .ok a
  | .error e => .error (.qe e)

/-- `muchnik.py:362-390` `complex_partial`; the value is the diagram that is printed. -/
def complexPartial (A : MAlg R) (fuel : ℕ) (ps : List (List R))
    (assigner : Option (List (List R) → Except PErr (Diagram R ℕ))) : Except PErr (Diagram R ℕ) := do
  let seq ← liftQ (muchnikSeq A fuel [[]] ps)
  let constFrag := seq.filter fun p => isConst p
  let nonconstFrag := seq.filter fun p => !isConst p
  let root ← assignWith assigner constFrag
  liftQ (complexExtend A root nonconstFrag)

/-- `muchnik.py:629-659` `real_partial`: the diagram that is printed is the one of the constants, before the
extension; the extended one (second component) is neither printed nor returned. -/
def realPartial (A : MAlg R) (fuel : ℕ) (ps : List (List R))
    (assigner : Option (List (List R) → Except PErr (Diagram R ℚ))) :
    Except PErr (Diagram R ℚ × Diagram R ℚ) := do
  let seq ← liftQ (muchnikSeq A fuel [[]] ps)
  let constFrag := seq.filter fun p => isConst p
  let nonconstFrag := seq.filter fun p => !isConst p
  let root ← assignWith assigner constFrag
  let D ← liftQ (realExtend A root nonconstFrag)
  .ok (root, D)

end Verif.Qe
