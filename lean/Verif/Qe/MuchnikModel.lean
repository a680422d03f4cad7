import Verif.Qe.PolyModel
import Verif.Qe.CacheModel
import Mathlib.Data.List.Sort
import Mathlib.Algebra.Order.Ring.Rat

/-!
# Model of `highschool_qe/muchnik.py`

Simplifications: printing is left out except for the final "Satisfiable" line; the second component of
the diagram entries (always the row's polynomial) is left out; columns of real diagrams are Python
floats of the form k/2^n, modelled as exact rationals (`FloatModel.lean` has the version with floats);
iteration over a Python `set` follows the order in which the rows were created; Python's recursion limit is ignored.
-/

namespace Verif.Qe

variable {R : Type} [CommRing R] [DecidableEq R]

/-- `muchnik.py:212-279` `muchnik_sequence`, with a bound on the recursion depth. -/
def muchnikSeq (A : MAlg R) : ℕ → List (List R) → List (List R) → Except QErr (List (List R))
  | _, done, [] => .ok done
  | 0, _, _ :: _ => .error .outOfFuel
  | fuel + 1, done, head :: rest =>
    if head ∈ done then muchnikSeq A fuel done rest
    else do
      let der := derivative head
      let tail := pTail head
      let rest := if tail ≠ [] then rest ++ [tail] else rest
      let rest := if der ≠ [] then rest ++ [der] else rest
      let le := done.filter fun p => deg p ≤ deg head ∧ 0 < deg p
      let ge := done.filter fun p => deg head ≤ deg p ∧ 0 < deg p
      let remLe ← le.mapM fun p => pseudoRem head p
      let remGe ← ge.mapM fun p => pseudoRem p head
      let rems := (remLe ++ remGe).filter fun p => p ≠ []
      muchnikSeq A fuel (sortedAdd A head done) (rest ++ rems)

/-- A diagram: a `defaultdict(dict)` from polynomials to rows, a row being a dictionary from columns to
signs. -/
abbrev Diagram (R κ : Type) := List (List R × List (κ × ℤ))

section Diagram
variable {κ : Type} [DecidableEq κ]

/-- `diagram[q][col][0]` (a missing row gives an empty dictionary, then a `KeyError`) -/
def dRead (D : Diagram R κ) (q : List R) (col : κ) : Except QErr ℤ :=
  match dGet D q with
  | none => .error .keyError
  | some row =>
    match dGet row col with
    | none => .error .keyError
    | some v => .ok v

/-- `diagram[q]` (creating an empty row if it is missing) -/
def dRow (D : Diagram R κ) (q : List R) : List (κ × ℤ) := (dGet D q).getD []

/-- effect of `diagram[q]` on a `defaultdict` -/
def dTouch (D : Diagram R κ) (q : List R) : Diagram R κ :=
  match dGet D q with
  | none => dSet D q []
  | some _ => D

/-- `diagram[q][col] = (v, q)` -/
def dWrite (D : Diagram R κ) (q : List R) (col : κ) (v : ℤ) : Diagram R κ :=
  dSet D q (dSet (dRow D q) col v)

/-- Copy the row of the tail (`muchnik.py:304-306`, `528-530`). -/
def copyTail (D : Diagram R κ) (p : List R) : Except QErr (Diagram R κ) :=
  let tail := pTail p
  let D := dTouch D tail
  ((dRow D tail).map Prod.fst).foldlM (fun D col => do
    let v ← dRead D tail col
    .ok (dWrite D p col v)) D

/-- The polynomials of `rest` that are zero in the column and not zero in column 0
(`muchnik.py:322-327`, `548-555`); `&` evaluates both sides. -/
def colZeros (D : Diagram R κ) (zeroCol col : κ) (rest : List (List R)) :
    Except QErr (List (List R)) :=
  rest.filterM fun q => do
    let v ← dRead D q col
    let w ← dRead D q zeroCol
    .ok (decide (v = 0) && decide (w ≠ 0))

end Diagram

/-- first element of the `sortedset` of the given polynomials -/
def minPoly (A : MAlg R) (l : List (List R)) : Option (List R) :=
  (l.foldl (fun acc q => sortedAdd A q acc) []).head?

/-! ### Complex diagrams -/

/-- Multiplicity count (`muchnik.py:334-343`): `n` remaining iterations, `r` the running
derivative. -/
def multLoop (D : Diagram R ℕ) (col : ℕ) : ℕ → List R → ℕ → Except QErr ℕ
  | 0, _, done => .ok done
  | n + 1, r, done => do
    let r := derivative r
    let v ← dRead D r col
    if v ≠ 0 then .ok done else multLoop D col n r (done + 1)

/-- One old column (`muchnik.py:318-346`); the state is the diagram and `roots_done`. -/
def complexCol (A : MAlg R) (p : List R) (rest : List (List R)) (s : Diagram R ℕ × ℕ) (col : ℕ) :
    Except QErr (Diagram R ℕ × ℕ) := do
  let zeros ← colZeros s.1 0 col rest
  match minPoly A zeros with
  | none => .error .indexError
  | some q => do
    let rem ← pseudoRem p q
    let value ← dRead s.1 rem col
    if value = 0 then do
      let rootsDone ← multLoop s.1 col (deg p) p (s.2 + 1)
      .ok (dWrite s.1 p col value, rootsDone)
    else .ok (dWrite s.1 p col value, s.2)

/-- One new column (`muchnik.py:350-359`). -/
def complexNew (p : List R) (rest : List (List R)) (column : ℕ) (D : Diagram R ℕ) :
    Except QErr (Diagram R ℕ) := do
  let D ← rest.foldlM (fun D q => do
    let v ← dRead D q 0
    if v = 0 then .ok (dWrite D q column 0) else .ok (dWrite D q column 1)) D
  .ok (dWrite D p column 0)

/-- `muchnik.py:281-360` `complex_extend`. -/
def complexExtend (A : MAlg R) : Diagram R ℕ → List (List R) → Except QErr (Diagram R ℕ)
  | D, [] => .ok D
  | D, p :: todo => do
    let D := dWrite D p 0 1
    let lcv ← dRead D (lcRow p) 0
    if lcv = 0 then do
      let D ← copyTail D p
      complexExtend A D todo
    else do
      let colSize := (dRow D []).length
      let rest := (D.map Prod.fst).filter fun q => q ≠ p
      let s ← (List.range' 1 (colSize - 1)).foldlM (complexCol A p rest) (D, 0)
      let D ← (List.range (deg p - s.2)).foldlM (fun D i => complexNew p rest (colSize + i) D) s.1
      complexExtend A D todo

/-- `muchnik.py:67-79` `c_assignment_all_zero`. -/
def cAssignmentAllZero (A : MAlg R) (constFrag : List (List R)) : Diagram R ℕ :=
  constFrag.foldl (fun D c =>
    if c = [] then dWrite D c 0 0
    else if hasVariable A c then dWrite D c 0 0
    else dWrite D c 0 1) []

/-- `muchnik.py:110-132` `_c_full_assignment`. -/
def cFullAssignment : List (Diagram R ℕ) → List (List R) → List (Diagram R ℕ)
  | diagrams, [] => diagrams
  | diagrams, c :: rest =>
    cFullAssignment (diagrams.flatMap fun d => [dWrite d c 0 0, dWrite d c 0 1]) rest

/-- One round of filtering of candidate columns (`muchnik.py:459-466` and the similar loops). -/
def filterCols {κ : Type} [DecidableEq κ] (D : Diagram R κ) (v : ℤ) :
    List (List R) → List κ → Except QErr (List κ)
  | [], cols => .ok cols
  | q :: qs, cols => do
    let cols ← cols.filterM fun col => do
      let w ← dRead D q col
      .ok (decide (w = v))
    if cols.length = 0 then .ok cols else filterCols D v qs cols

/-- The result: the returned list and whether the last line printed is "Satisfiable". -/
structure QOut (α : Type) where
  ret : List α
  satisfiable : Bool

/-- `div(p, e_var)[0] == 0`: degree at most 0 (`muchnik.py:412-420`). -/
def isConst (p : List R) : Bool := p.length ≤ 1

/-- `muchnik.py:392-504` `complex_full`; `fuel` bounds the recursion of `muchnik_sequence`. -/
def complexFull (A : MAlg R) (fuel : ℕ) (equalities inequalities : List (List R)) :
    Except QErr (QOut (List (List R) × List (List R))) := do
  let seq ← muchnikSeq A fuel [[]] (equalities ++ inequalities)
  let constFrag := seq.filter fun p => isConst p
  let nonconstFrag := seq.filter fun p => !isConst p
  let varFrag := constFrag.filter fun p => hasVariable A p
  let scaFrag := constFrag.filter fun p => !hasVariable A p
  let diagrams := cFullAssignment [cAssignmentAllZero A scaFrag] varFrag
  let ext ← diagrams.mapM fun d => complexExtend A d nonconstFrag
  let good ← ext.filterM fun D => do
    let cols ← filterCols D 0 equalities ((dRow D []).map Prod.fst)
    let cols ← filterCols D 1 inequalities cols
    .ok (decide (cols.length > 0))
  let ret ← good.mapM fun D => do
    let vals ← varFrag.mapM fun c => do
      let v ← dRead D c 0
      .ok (c, v)
    .ok ((vals.filter fun cv => cv.2 = 0).map Prod.fst, (vals.filter fun cv => cv.2 ≠ 0).map Prod.fst)
  .ok ⟨ret.filter fun zn => (zn.1 ++ zn.2).length ≠ 0, decide (good.length > 0)⟩

/-! ### Real diagrams -/

/-- First loop body (`muchnik.py:546-576`): the sign of `p` in a column that is a root. -/
def realRootCol (A : MAlg R) (p : List R) (rest : List (List R)) (D : Diagram R ℚ) (col : ℚ) :
    Except QErr (Diagram R ℚ) := do
  let zeros ← colZeros D 0 col rest
  match minPoly A zeros with
  | none => .ok D
  | some q => do
    let rem ← pseudoRem p q
    let lcv ← dRead D (lcRow q) col
    let value ← dRead D rem col
    let value := if lcv < 0 ∧ (deg p - deg q + 1) % 2 = 1 then -value else value
    .ok (dWrite D p col value)

/-- sign of an integer (`self._algebra.sign` of a sum of signs) -/
def sgnInt (z : ℤ) : ℤ := if 0 < z then 1 else if z < 0 then -1 else 0

/-- Second loop body (`muchnik.py:580-626`): a column between two roots. -/
def realGapCol (p : List R) (rest : List (List R)) (D : Diagram R ℚ) (c : ℚ × ℚ × ℚ) :
    Except QErr (Diagram R ℚ) := do
  let leftCol := c.1
  let col := c.2.1
  let rightCol := c.2.2
  let zeros ← colZeros D 0 col rest
  if zeros.length ≠ 0 then .ok D
  else do
    let l ← dRead D p leftCol
    let r ← dRead D p rightCol
    if l = 0 ∧ r = 0 then .error .diagramExc
    else if l = r ∨ l * r = 0 then .ok (dWrite D p col (sgnInt (l + r)))
    else do
      let leftNew := (col + leftCol) / 2
      let rightNew := (col + rightCol) / 2
      let D := dWrite D p leftNew l
      let D := dWrite D p col 0
      let D := dWrite D p rightNew r
      rest.foldlM (fun D q => do
        let v ← dRead D q col
        let D := dWrite D q leftNew v
        let v ← dRead D q col
        .ok (dWrite D q rightNew v)) D

/-- consecutive triples: the columns with their neighbours, `zipped_cols[1:-1]` -/
def triples : List ℚ → List (ℚ × ℚ × ℚ)
  | a :: b :: c :: l => (a, b, c) :: triples (b :: c :: l)
  | _ => []

/-- `muchnik.py:506-627` `real_extend`. -/
def realExtend (A : MAlg R) : Diagram R ℚ → List (List R) → Except QErr (Diagram R ℚ)
  | D, [] => .ok D
  | D, p :: todo => do
    let rest := D.map Prod.fst
    let lcv ← dRead D (lcRow p) 0
    if lcv = 0 then do
      let D ← copyTail D p
      realExtend A D todo
    else do
      let lcInf ← dRead D (lcRow p) 1
      let D := dWrite D p 0 (lcv * (-1) ^ deg p)
      let D := dWrite D p 1 lcInf
      let cols := ((dRow D []).map Prod.fst).insertionSort (· ≤ ·)
      let inner := triples cols
      let D ← (inner.map fun c => c.2.1).foldlM (realRootCol A p rest) D
      let D ← inner.foldlM (realGapCol p rest) D
      realExtend A D todo

/-- `muchnik.py:148-160` `r_assignment_all_zero`. -/
def rAssignmentAllZero (A : MAlg R) (constFrag : List (List R)) : Diagram R ℚ :=
  constFrag.foldl (fun D c =>
    let s := if hasVariable A c then 0 else A.sign (c.headD 0)
    dWrite (dWrite (dWrite D c 0 s) c (1/2) s) c 1 s) []

/-- all three points of a row -/
def write3 (D : Diagram R ℚ) (c : List R) (s : ℤ) : Diagram R ℚ :=
  dWrite (dWrite (dWrite D c 0 s) c (1/2) s) c 1 s

/-- `muchnik.py:190-210` `_r_full_assignment`. -/
def rFullAssignment : List (Diagram R ℚ) → List (List R) → List (Diagram R ℚ)
  | diagrams, [] => diagrams
  | diagrams, c :: rest =>
    rFullAssignment (diagrams.flatMap fun d => [write3 d c (-1), write3 d c 0, write3 d c 1]) rest

/-- The loop over the diagrams (`muchnik.py:709-726`): invalid diagrams are skipped. -/
def realExtendAll (A : MAlg R) (frag : List (List R)) :
    List (Diagram R ℚ) → Except QErr (List (Diagram R ℚ))
  | [] => .ok []
  | d :: ds =>
    match realExtend A d frag with
    | .ok D => do
      let rest ← realExtendAll A frag ds
      .ok (D :: rest)
    | .error .diagramExc => realExtendAll A frag ds
    | .error e => .error e

/-- `muchnik.py:661-790` `real_full`; `fuel` bounds the recursion of `muchnik_sequence`. -/
def realFull (A : MAlg R) (fuel : ℕ) (lesser equalities greater : List (List R)) :
    Except QErr (QOut (List (List R) × List (List R) × List (List R))) := do
  let seq ← muchnikSeq A fuel [[]] (lesser ++ equalities ++ greater)
  let constFrag := seq.filter fun p => isConst p
  let nonconstFrag := seq.filter fun p => !isConst p
  let varFrag := constFrag.filter fun p => hasVariable A p
  let scaFrag := constFrag.filter fun p => !hasVariable A p
  let diagrams := rFullAssignment [rAssignmentAllZero A scaFrag] varFrag
  let ext ← realExtendAll A nonconstFrag diagrams
  let good ← ext.filterM fun D => do
    let cols ← filterCols D 0 equalities ((dRow D []).map Prod.fst)
    let cols ← filterCols D (-1) lesser cols
    let cols ← filterCols D 1 greater cols
    .ok (decide (cols.length > 0))
  let ret ← good.mapM fun D => do
    let vals ← varFrag.mapM fun c => do
      let v ← dRead D c 0
      .ok (c, v)
    .ok ((vals.filter fun cv => cv.2 = -1).map Prod.fst,
      (vals.filter fun cv => cv.2 = 0).map Prod.fst,
      (vals.filter fun cv => cv.2 ≠ 0 ∧ cv.2 ≠ -1).map Prod.fst)
  .ok ⟨ret.filter fun c => (c.2.1 ++ c.1 ++ c.2.2).length ≠ 0, decide (good.length > 0)⟩

end Verif.Qe
