import Verif.Qe.MuchnikModel

/-!
# Model of `highschool_qe/cohenhorm.py`

Dictionaries are association lists (iteration in order of creation), contexts are dictionaries from
coefficients to signs, sign tables are diagrams with rational columns (`Fraction`). `blist.sortedset`
with a key keeps different elements with equal keys; they are taken to stay in order of insertion.
Printing is left out. `BOTTOM` is `none`.
-/

namespace Verif.Qe

variable {R : Type} [CommRing R] [DecidableEq R]

/-- a context: signs of coefficients -/
abbrev Ctx (R : Type) := List (R × ℤ)

/-- a sign table -/
abbrev Table (R : Type) := Diagram R ℚ

/-- `mapping` of `expand_context` -/
abbrev Mapping (R : Type) := List (List R × List R)

/-- `cohenhorm.py:330-336` `sign_context_lookup`. -/
def signCtx (A : MAlg R) (c : Ctx R) (k : R) : Except QErr ℤ :=
  if A.hasVar k = false then .ok (A.sign k)
  else
    match dGet c k with
    | none => .error .noKey
    | some s => .ok s

/-- `cohenhorm.py:597-604` `table_lookup`. -/
def tableLookup (A : MAlg R) (T : Table R) (p : List R) (col : ℚ) (c : Ctx R) : Except QErr ℤ :=
  if 0 < deg p then dRead T p col
  else if hasVariable A p = false then .ok (A.sign (p.headD 0))
  else
    match dGet c (p.headD 0) with
    | none => .error .noKey
    | some s => .ok s

/-- `sortedset.add` for columns -/
def colAdd (q : ℚ) (l : List ℚ) : List ℚ := if q ∈ l then l else l.orderedInsert (· ≤ ·) q

/-- `table[p]` for a row that exists: sorted columns -/
def sortedCols (row : List (ℚ × ℤ)) : List ℚ := (row.map Prod.fst).insertionSort (· ≤ ·)

/-- `cohenhorm.py:572-580`: the roots of one polynomial and the points after them. -/
def copyRoots (T : Table R) (tr : List (ℚ × ℚ × ℚ)) (copyCols : List ℚ) (p : List R) :
    Except QErr (List ℚ) :=
  match dGet T p with
  | none => .ok copyCols
  | some _ => do
    let v ← dRead T p 0
    if v = 0 then .ok copyCols
    else tr.foldlM (fun cc c => do
      let v ← dRead T p c.2.1
      if v = 0 then .ok (colAdd c.2.2 (colAdd c.2.1 cc)) else .ok cc) copyCols

/-- `cohenhorm.py:547-595` `copy_table`. -/
def copyTable (A : MAlg R) (T : Table R) (neededPolys : List (List R)) (c : Ctx R) :
    Except QErr (Table R) :=
  if neededPolys = [] then .ok []
  else
    match T with
    | [] => .error .indexError
    | (_, row) :: _ => do
      let copyCols ← neededPolys.foldlM (copyRoots T (triples (sortedCols row))) [0, 1]
      let first := copyCols.getD 0 0
      let pointBeforeFirst := (copyCols.getD 1 0 + first) / 2
      neededPolys.foldlM (fun ret p => do
        let cells ← copyCols.mapM fun col => do
          let v ← tableLookup A T p col c
          .ok (col, v)
        let v ← tableLookup A T p first c
        .ok (dSet ret p (dSet cells pointBeforeFirst v))) []

/-- `cohenhorm.py:216-249`: values of `max_poly` at the roots of `p`. -/
def chRoots (A : MAlg R) (T : Table R) (c : Ctx R) (maxPoly : List R) (inner : List ℚ) (E : Table R)
    (p : List R) : Except QErr (Table R) := do
  let v ← dRead E p 0
  if v = 0 then .ok E
  else inner.foldlM (fun E col => do
    let v ← dRead E p col
    if v ≠ 0 then .ok E
    else do
      let rem ← pseudoRem maxPoly p
      let value ← tableLookup A T rem col c
      if A.hasVar (lc p) = true ∧ dGet c (lc p) = none then .error .noKey
      else do
        let s ← signCtx A c (lc p)
        let value := if s < 0 ∧ (deg maxPoly - deg p + 1) % 2 = 1 then -value else value
        .ok (dWrite E maxPoly col value)) E

/-- `cohenhorm.py:256-291`: one column whose value is unknown, with its neighbours (the first column,
also visited by the loop, is always known). -/
def chGap (maxPoly : List R) (pols : List (List R)) (E : Table R) (t : ℚ × ℚ × ℚ) :
    Except QErr (Option (Table R)) :=
  let prevCol := t.1
  let curCol := t.2.1
  let nextCol := t.2.2
  if curCol ∈ (dRow E maxPoly).map Prod.fst then .ok (some E)
  else do
    let prevVal ← dRead E maxPoly prevCol
    let nextVal ← dRead E maxPoly nextCol
    if prevVal = 0 ∧ nextVal = 0 then .ok none
    else if prevVal + nextVal = 0 then do
      let leftNew := (prevCol + curCol) / 2
      let rightNew := (curCol + nextCol) / 2
      let E := dWrite E maxPoly leftNew prevVal
      let E := dWrite E maxPoly rightNew nextVal
      let E := dWrite E maxPoly curCol 0
      let E ← pols.foldlM (fun E p => do
        let v ← dRead E p curCol
        .ok (dWrite (dWrite E p leftNew v) p rightNew v)) E
      .ok (some E)
    else .ok (some (dWrite E maxPoly curCol (sgnInt (prevVal + nextVal))))

/-- the loop of `chGap`; `none` (BOTTOM) ends it -/
def chGaps (maxPoly : List R) (pols : List (List R)) :
    List (ℚ × ℚ × ℚ) → Table R → Except QErr (Option (Table R))
  | [], E => .ok (some E)
  | t :: ts, E => do
    let E ← chGap maxPoly pols E t
    match E with
    | none => .ok none
    | some E => chGaps maxPoly pols ts E

/-- `cohenhorm.py:172-293` `extend_single_table`. -/
def extendSingle (A : MAlg R) (T : Table R) (c : Ctx R) (maxPoly : List R) (pols : List (List R)) :
    Except QErr (Option (Table R)) := do
  let lcSign ← signCtx A c (lc maxPoly)
  let E ← copyTable A T pols c
  let E := dWrite (dWrite (dSet E maxPoly []) maxPoly 0 ((-1) ^ deg maxPoly * lcSign)) maxPoly 1 lcSign
  match pols with
  | [] => .error .indexError
  | p0 :: _ =>
    match dGet E p0 with
    | none => .error .keyError
    | some row =>
      let tr := triples (sortedCols row)
      let inner := tr.map fun t => t.2.1
      if deg maxPoly = 0 then
        .ok (some (inner.foldl (fun E col => dWrite E maxPoly col lcSign) E))
      else do
        let E ← pols.foldlM (chRoots A T c maxPoly inner) E
        chGaps maxPoly pols tr E

/-- `cohenhorm.py:313-321`: the row of one mapped polynomial. -/
def mapBackRow (T : Table R) (mapping : Mapping R) (ret : Table R) (pol : List R) :
    Except QErr (Table R) :=
  match dGet mapping pol with
  | none => .error .impossible
  | some t =>
    match dGet T t with
    | none => .error .keyError
    | some row => .ok (dSet ret pol row)

/-- `cohenhorm.py:295-327` `table_map_back`. -/
def tableMapBack (T : Table R) (pols : List (List R)) (mapping : Mapping R) :
    Except QErr (Table R) := do
  let ret ← pols.foldlM (mapBackRow T mapping) ([] : Table R)
  .ok (((T.map Prod.fst).filter fun k => decide (k ∉ pols)).foldl (fun ret k => dSet ret k (dRow T k)) ret)

/-- a constant row -/
def row3 (s : ℤ) : List (ℚ × ℤ) := [(0, s), (1/2, s), (1, s)]

/-- `cohenhorm.py:339-397` `get_initial_table` (the code after line 397 is unreachable). -/
def initialTable (A : MAlg R) (poly : List R) (c : Ctx R) : Except QErr (List (Table R × Ctx R)) :=
  if 0 < deg poly then .error .impossible
  else if A.hasVar (lc poly) = false then .ok [([(poly, row3 (A.sign (lc poly)))], c)]
  else
    match dGet c (lc poly) with
    | some s => .ok [([(poly, row3 s)], c)]
    | none => .ok ([-1, 0, 1].map fun s => ([(poly, row3 s)], dSet c (lc poly) s))

/-- an element of the result of `expand_context` -/
abbrev Expanded (R : Type) := Ctx R × List (List R) × Mapping R

/-- `cohenhorm.py:488-505`, the case of a leading coefficient without parameters: the check, and the
entry for an empty rest. -/
def expandScalar (c : Ctx R) (p : List R) (m : Mapping R) : Except QErr (List (Expanded R) × Mapping R) :=
  if p ≠ [] ∧ lc p = 0 then .error .impossible
  else .ok ([(c, [p], dSet m p p)], dSet m p p)

/-- `cohenhorm.py:510-543`: the signs of the leading coefficient of `head` (which has parameters) for one
element `(c, ps, m)` of `expanded_rest`. The second result is the dictionary `mpng` afterwards, because the
recursive call writes into it when the leading coefficient of the tail has no parameters. The first
argument bounds the number of terms. -/
def expandVar (A : MAlg R) : ℕ → Ctx R → List (List R) → List R → Mapping R →
    Except QErr (List (Expanded R) × Mapping R)
  | 0, _, _, _, _ => .error .outOfFuel
  | n + 1, c, ps, head, m =>
    let signs := match dGet c (lc head) with
      | some s => [s]
      | none => [-1, 0, 1]
    signs.foldlM (fun st sign =>
      let c' := dSet c (lc head) sign
      if sign ≠ 0 then .ok (st.1 ++ [(c', ps ++ [head], dSet st.2 head head)], st.2)
      else do
        let tail := pTail head
        let r ← if A.hasVar (lc tail) = false then expandScalar c' tail st.2
          else expandVar A n c' [] tail st.2
        let es ← r.1.mapM fun e =>
          match dGet e.2.2 tail with
          | none => .error .keyError
          | some t => .ok (e.1, ps ++ e.2.1, dSet e.2.2 head t)
        .ok (st.1 ++ es, r.2)) ([], m)

/-- `cohenhorm.py:465-544` `expand_context`, called with an empty mapping. -/
def expandContext (A : MAlg R) (c : Ctx R) : List (List R) → Except QErr (List (Expanded R))
  | [] => .ok [(c, [], [])]
  | head :: rest => do
    let er ← expandContext A c rest
    if A.hasVar (lc head) = false then
      if head ≠ [] ∧ lc head = 0 then .error .impossible
      else .ok (er.map fun e => (e.1, head :: e.2.1, dSet e.2.2 head head))
    else do
      let rs ← er.mapM fun e => do
        let r ← expandVar A (head.length + 1) e.1 e.2.1 head e.2.2
        .ok r.1
      .ok rs.flatten

/-- `sortedset.add` with the key `-degree` (the degree of 0 being `-oo`) -/
def degAdd (p : List R) : List (List R) → List (List R)
  | [] => [p]
  | q :: l => if q.length < p.length then p :: q :: l else q :: degAdd p l

/-- `sortedset(polys, key = lambda p: - degree(p))` -/
def degSet (polys : List (List R)) : List (List R) :=
  polys.foldl (fun acc p => if p ∈ acc then acc else degAdd p acc) []

/-- `cohenhorm.py:89-93` -/
def neededOf (maxPoly : List R) (rest : List (List R)) : List (List R) :=
  if derivative maxPoly ≠ [] then
    if derivative maxPoly ∈ rest then rest else degAdd (derivative maxPoly) rest
  else rest

/-- `cohenhorm.py:127-144`: a constant whose sign is not known yet. -/
def splitUnknown (A : MAlg R) (maxPoly : List R) (tables : List (Table R × Ctx R)) :
    List (Table R × Ctx R) :=
  if maxPoly.length = 1 ∧ A.hasVar (lc maxPoly) = true then
    tables.flatMap fun t =>
      match dGet t.2 (lc maxPoly) with
      | some _ => [t]
      | none => [-1, 0, 1].map fun s => (t.1, dSet t.2 (lc maxPoly) s)
  else tables

/-- `cohenhorm.py:148-167`: extension of one table. -/
def chTable (A : MAlg R) (polys : List (List R)) (maxPoly : List R) (needed : List (List R))
    (pols : List (List R)) (mpg : Mapping R) (t : Table R × Ctx R) :
    Except QErr (List (Table R × Ctx R)) :=
  if maxPoly ∈ t.1.map Prod.fst then .error .impossible
  else do
    let ext ← extendSingle A t.1 t.2 maxPoly pols
    match ext with
    | none => .ok []
    | some E => do
      let mb ← tableMapBack E needed mpg
      let T ← copyTable A mb polys t.2
      .ok [(T, t.2)]

/-- `cohenhorm.py:108-167`: one element of the expanded contexts; `rec` is the recursive call. -/
def chContext (A : MAlg R) (rec : List (List R) → Ctx R → Except QErr (List (Table R × Ctx R)))
    (polys : List (List R)) (maxPoly : List R) (needed : List (List R)) (e : Expanded R) :
    Except QErr (List (Table R × Ctx R)) := do
  let rems ← (e.2.1.filter fun g => decide (0 < deg g)).mapM fun g => pseudoRem maxPoly g
  let newGoal := (e.2.1 ++ rems).filter fun p => decide (p ≠ [])
  let tables ← rec newGoal e.1
  let rs ← (splitUnknown A maxPoly tables).mapM (chTable A polys maxPoly needed e.2.1 e.2.2)
  .ok rs.flatten

/-- `cohenhorm.py:65-170` `_real_table`; the first argument bounds the recursion depth. For no polynomials
the code returns `{}` instead of a list, which is only iterated over. -/
def realTable (A : MAlg R) : ℕ → List (List R) → Ctx R → Except QErr (List (Table R × Ctx R))
  | _, [], _ => .ok []
  | 0, _ :: _, _ => .error .outOfFuel
  | fuel + 1, p :: ps, c =>
    match degSet (p :: ps) with
    | [] => .error .indexError
    | maxPoly :: rest =>
      if neededOf maxPoly rest = [] then initialTable A maxPoly c
      else do
        let exp ← expandContext A c (neededOf maxPoly rest)
        let rs ← exp.mapM (chContext A (realTable A fuel) (p :: ps) maxPoly (neededOf maxPoly rest))
        .ok rs.flatten

/-- `cohenhorm.py:36-47`: does some column satisfy the conditions? -/
def chGood (lesser eqs greater : List (List R)) (T : Table R) : Except QErr Bool :=
  match T with
  | [] => .error .indexError
  | (_, row) :: _ => do
    let cols ← filterCols T (-1) lesser (row.map Prod.fst)
    let cols ← filterCols T 0 eqs cols
    let cols ← filterCols T 1 greater cols
    .ok (decide (cols.length > 0))

/-- `cohenhorm.py:13-63` `real_full`. -/
def chFull (A : MAlg R) (fuel : ℕ) (lesser eqs greater : List (List R)) :
    Except QErr (List (List R × List R × List R)) := do
  let tables ← realTable A fuel (lesser ++ eqs ++ greater) []
  let good ← tables.filterM fun t => chGood lesser eqs greater t.1
  .ok (good.map fun t =>
    ((t.2.filter fun e => e.2 = -1).map Prod.fst, (t.2.filter fun e => e.2 = 0).map Prod.fst,
      (t.2.filter fun e => e.2 = 1).map Prod.fst))

end Verif.Qe
