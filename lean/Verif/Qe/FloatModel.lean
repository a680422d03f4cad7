import Verif.Qe.PartialModel
import Mathlib.Data.Int.Log
import Mathlib.Algebra.Order.Floor.Ring
import Mathlib.Data.Rat.Floor
import Mathlib.Algebra.Order.Field.Rat

/-!
# Model of `highschool_qe/muchnik.py` with floating point columns

The columns of a real sign diagram are Python floats (`muchnik.py:144-146`, `muchnik.py:531`,
`muchnik.py:615-616`). Here the midpoint of two columns is a parameter, and the midpoint of IEEE 754
double precision numbers, rounding to nearest with ties to even, is defined. Everything else is as in
`MuchnikModel.lean`, where the midpoint is exact.
-/

namespace Verif.Qe

/-- The nearest integer, ties to even. -/
def roundEven (x : ℚ) : ℤ :=
  if x - ⌊x⌋ < 1 / 2 then ⌊x⌋
  else if 1 / 2 < x - ⌊x⌋ then ⌊x⌋ + 1
  else if ⌊x⌋ % 2 = 0 then ⌊x⌋ else ⌊x⌋ + 1

/-- Exponent of the distance of neighbouring doubles near `x`: 53 significant bits, and no digits beyond
`2^-1074`. -/
def ulpExp (x : ℚ) : ℤ := max (Int.log 2 |x| - 52) (-1074)

/-- A rational number rounded to a double. Overflow is not modelled: columns are between 0 and 1. -/
def roundDouble (x : ℚ) : ℚ := (roundEven (x / 2 ^ ulpExp x) : ℚ) * 2 ^ ulpExp x

/-- `(col + left_col) / 2` in doubles (`muchnik.py:615-616`): the sum is rounded, and so is the quotient. -/
def doubleMid (a b : ℚ) : ℚ := roundDouble (roundDouble (a + b) / 2)

variable {R : Type} [CommRing R] [DecidableEq R]

/-- The second loop of `real_extend` for one column (`muchnik.py:580-626`), with the midpoint as a
parameter. -/
def realGapColM (mid : ℚ → ℚ → ℚ) (p : List R) (rest : List (List R)) (D : Diagram R ℚ)
    (c : ℚ × ℚ × ℚ) : Except QErr (Diagram R ℚ) := do
  let leftCol := c.1
  let col := c.2.1
  let rightCol := c.2.2
  let zeros ← colZeros D 0 col rest
  if zeros.length ≠ 0 then .ok D
  else do
    let l ← dRead D p leftCol
    let r ← dRead D p rightCol
    if l = 0 ∧ r = 0 then .error .diagramExc
    else if l = r ∨ l * r = 0 then .ok (dWrite D p col (sgnInt (l + r)))
    else do
      let leftNew := mid col leftCol
      let rightNew := mid col rightCol
      let D := dWrite D p leftNew l
      let D := dWrite D p col 0
      let D := dWrite D p rightNew r
      rest.foldlM (fun D q => do
        let v ← dRead D q col
        let D := dWrite D q leftNew v
        let v ← dRead D q col
        .ok (dWrite D q rightNew v)) D

/-- `muchnik.py:506-627` `real_extend`, with the midpoint as a parameter. -/
def realExtendM (mid : ℚ → ℚ → ℚ) (A : MAlg R) :
    Diagram R ℚ → List (List R) → Except QErr (Diagram R ℚ)
  | D, [] => .ok D
  | D, p :: todo => do
    let rest := D.map Prod.fst
    let lcv ← dRead D (lcRow p) 0
    if lcv = 0 then do
      let D ← copyTail D p
      realExtendM mid A D todo
    else do
      let lcInf ← dRead D (lcRow p) 1
      let D := dWrite D p 0 (lcv * (-1) ^ deg p)
      let D := dWrite D p 1 lcInf
      let cols := ((dRow D []).map Prod.fst).insertionSort (· ≤ ·)
      let inner := triples cols
      let D ← (inner.map fun c => c.2.1).foldlM (realRootCol A p rest) D
      let D ← inner.foldlM (realGapColM mid p rest) D
      realExtendM mid A D todo

/-- The loop over the diagrams (`muchnik.py:709-726`): invalid diagrams are skipped. -/
def realExtendAllM (mid : ℚ → ℚ → ℚ) (A : MAlg R) (frag : List (List R)) :
    List (Diagram R ℚ) → Except QErr (List (Diagram R ℚ))
  | [] => .ok []
  | d :: ds =>
    match realExtendM mid A d frag with
    | .ok D => do
      let rest ← realExtendAllM mid A frag ds
      .ok (D :: rest)
    | .error .diagramExc => realExtendAllM mid A frag ds
    | .error e => .error e

/-- `muchnik.py:661-790` `real_full`, with the midpoint as a parameter. -/
def realFullM (mid : ℚ → ℚ → ℚ) (A : MAlg R) (fuel : ℕ) (lesser equalities greater : List (List R)) :
    Except QErr (QOut (List (List R) × List (List R) × List (List R))) := do
  let seq ← muchnikSeq A fuel [[]] (lesser ++ equalities ++ greater)
  let constFrag := seq.filter fun p => isConst p
  let nonconstFrag := seq.filter fun p => !isConst p
  let varFrag := constFrag.filter fun p => hasVariable A p
  let scaFrag := constFrag.filter fun p => !hasVariable A p
  let diagrams := rFullAssignment [rAssignmentAllZero A scaFrag] varFrag
  let ext ← realExtendAllM mid A nonconstFrag diagrams
  let good ← ext.filterM fun D => do
    let cols ← filterCols D 0 equalities ((dRow D []).map Prod.fst)
    let cols ← filterCols D (-1) lesser cols
    let cols ← filterCols D 1 greater cols
    .ok (decide (cols.length > 0))
  let ret ← good.mapM fun D => do
    let vals ← varFrag.mapM fun c => do
      let v ← dRead D c 0
      .ok (c, v)
    .ok ((vals.filter fun cv => cv.2 = -1).map Prod.fst,
      (vals.filter fun cv => cv.2 = 0).map Prod.fst,
      (vals.filter fun cv => cv.2 ≠ 0 ∧ cv.2 ≠ -1).map Prod.fst)
  .ok ⟨ret.filter fun c => (c.2.1 ++ c.1 ++ c.2.2).length ≠ 0, decide (good.length > 0)⟩

/-- `muchnik.py:629-659` `real_partial`, with the midpoint as a parameter. -/
def realPartialM (mid : ℚ → ℚ → ℚ) (A : MAlg R) (fuel : ℕ) (ps : List (List R))
    (assigner : Option (List (List R) → Except PErr (Diagram R ℚ))) :
    Except PErr (Diagram R ℚ × Diagram R ℚ) := do
  let seq ← liftQ (muchnikSeq A fuel [[]] ps)
  let constFrag := seq.filter fun p => isConst p
  let nonconstFrag := seq.filter fun p => !isConst p
  let root ← assignWith assigner constFrag
  let D ← liftQ (realExtendM mid A root nonconstFrag)
  .ok (root, D)

/-- The real elimination procedure as it runs: columns are doubles. -/
def realFullDouble (A : MAlg R) (fuel : ℕ) (lesser equalities greater : List (List R)) :
    Except QErr (QOut (List (List R) × List (List R) × List (List R))) :=
  realFullM doubleMid A fuel lesser equalities greater

end Verif.Qe
