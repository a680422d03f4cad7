import Verif.Qe.ChModel

/-!
# Model of `highschool_qe/cohenhorm - Copy.py`

An earlier version of the Cohen-Hörmander procedure that is kept next to `cohenhorm.py`. The functions whose
code is the same as in `cohenhorm.py` are those of `ChModel.lean`: `expand_context` (`cohenhorm - Copy.py:369-446`),
`copy_table` (`449-506`), `table_lookup` (`508-515`). The columns of the tables are floating point numbers in
this file; the model takes them to be rationals (halves of halves are exact until the precision is used up).
Printing is left out, the code after the `return` in line 166 is unreachable.
-/

namespace Verif.Qe

variable {R : Type} [CommRing R] [DecidableEq R]

/-- The exceptions of the file: the recursion bound of `_real_table` (`cohenhorm - Copy.py:26-27`), which is an
argument of the code, and the others. -/
inductive OldErr
  /-- `raise Exception("iter")` -/
  | iter
  /-- any other exception -/
  | other (e : QErr)
  deriving DecidableEq, Repr

/-- exceptions of the called functions are passed on -/
def oldLift {α : Type} : Except QErr α → Except OldErr α
  | .ok a => .ok a
  | .error e => .error (.other e)

/-- `cohenhorm - Copy.py:274-280` `sign_context_lookup`. The test in line 278 compares a method with `False`, so
that a missing coefficient is a `KeyError` in line 280. -/
def oldSignCtx (A : MAlg R) (c : Ctx R) (k : R) : Except QErr ℤ :=
  if A.hasVar k = false then .ok (A.sign k)
  else
    match dGet c k with
    | none => .error .keyError
    | some s => .ok s

/-- `cohenhorm - Copy.py:264-272` `table_map_back`: only the rows of `pols`. -/
def oldMapBack (T : Table R) (pols : List (List R)) (mapping : Mapping R) : Except QErr (Table R) :=
  pols.foldlM (mapBackRow T mapping) []

/-- `cohenhorm - Copy.py:98-122`: values of `max_poly` at the roots of `p`. The remainder is looked up in the
table that is being built. -/
def oldRoots (A : MAlg R) (c : Ctx R) (maxPoly : List R) (inner : List ℚ) (E : Table R) (p : List R) :
    Except QErr (Table R) := do
  let v ← dRead E p 0
  if v = 0 then .ok E
  else inner.foldlM (fun E col => do
    let v ← dRead E p col
    if v ≠ 0 then .ok E
    else do
      let rem ← pseudoRem maxPoly p
      let value ← tableLookup A E rem col c
      if A.hasVar (lc p) = true ∧ dGet c (lc p) = none then .error .impossible
      else do
        let s ← oldSignCtx A c (lc p)
        let value := if s < 0 ∧ (deg maxPoly - deg p + 1) % 2 = 1 then -value else value
        .ok (dWrite E maxPoly col value)) E

/-- `cohenhorm - Copy.py:78-158`: extension of one table. The cells of the new row for `-∞` and `+∞` are written in
the other order here (they are different keys of a dictionary). The loop of lines 127-153 is the one of
`cohenhorm.py` (`chGaps`), except that two neighbours with value 0 are an exception. -/
def oldExtend (A : MAlg R) (T : Table R) (c : Ctx R) (maxPoly : List R) (pols : List (List R))
    (mpg : Mapping R) : Except QErr (Table R) := do
  let lcSign ← oldSignCtx A c (lc maxPoly)
  if maxPoly ∈ T.map Prod.fst then .error .impossible
  else do
    let tmp ← copyTable A T pols c
    let E ← oldMapBack tmp pols mpg
    let E := dWrite (dWrite (dSet E maxPoly []) maxPoly 0 ((-1) ^ deg maxPoly * lcSign)) maxPoly 1 lcSign
    match pols with
    | [] => .error .indexError
    | p0 :: _ =>
      match dGet E p0 with
      | none => .error .keyError
      | some row => do
        let tr := triples (sortedCols row)
        let E ← pols.foldlM (oldRoots A c maxPoly (tr.map fun t => t.2.1)) E
        match ← chGaps maxPoly pols tr E with
        | none => .error .impossible
        | some E => .ok E

/-- `cohenhorm - Copy.py:283-313` `get_initial_table` (the code after line 313 is unreachable). -/
def oldInitial (A : MAlg R) (poly : List R) (c : Ctx R) : Except QErr (List (Table R × Ctx R)) :=
  if 0 < deg poly then .error .impossible
  else if A.hasVar (lc poly) = false then .ok [([(poly, row3 (A.sign (lc poly)))], c)]
  else
    match dGet c (lc poly) with
    | none => .error .impossible
    | some s => .ok [([(poly, row3 s)], c)]

/-- `cohenhorm - Copy.py:50-158`: one element of the expanded contexts; `rec` is the recursive call. Unlike in
`cohenhorm.py` there are remainders by constants. -/
def oldContext (A : MAlg R) (rec : List (List R) → Ctx R → Except OldErr (List (Table R × Ctx R)))
    (maxPoly : List R) (e : Expanded R) : Except OldErr (List (Table R × Ctx R)) := do
  let rems ← oldLift ((e.2.1.filter fun g => decide (g ≠ [])).mapM fun g => pseudoRem maxPoly g)
  let newGoal := (e.2.1 ++ rems).filter fun p => decide (p ≠ [])
  let tables ← rec newGoal e.1
  tables.mapM fun t => do
    let E ← oldLift (oldExtend A t.1 t.2 maxPoly e.2.1 e.2.2)
    .ok (E, t.2)

/-- `_real_table` with `iter = n - 1` -/
def oldTableN (A : MAlg R) : ℕ → List (List R) → Ctx R → Except OldErr (List (Table R × Ctx R))
  | 0, _, _ => .error .iter
  | n + 1, polys, c =>
    if polys = [] then .ok []
    else
      match degSet polys with
      | [] => .error (.other .indexError)
      | maxPoly :: rest =>
        if neededOf maxPoly rest = [] then oldLift (oldInitial A maxPoly c)
        else do
          let exp ← oldLift (expandContext A c (neededOf maxPoly rest))
          let rs ← exp.mapM (oldContext A (oldTableN A n) maxPoly)
          .ok rs.flatten

/-- `cohenhorm - Copy.py:25-166` `_real_table`: an exception when `iter` is negative, recursion with `iter - 1`. -/
def oldTable (A : MAlg R) (polys : List (List R)) (c : Ctx R) (iter : ℤ) :
    Except OldErr (List (Table R × Ctx R)) :=
  oldTableN A (iter + 1).toNat polys c

/-- `cohenhorm - Copy.py:11-16` `real_full`; the printing of the tables is left out. -/
def oldFull (A : MAlg R) (equalities : List (List R)) : Except OldErr Unit := do
  let _ ← oldTable A equalities [] (-1)
  .ok ()

/-- `cohenhorm - Copy.py:18-20` `foo`: the result is thrown away. -/
def oldFoo (A : MAlg R) (polys : List (List R)) (c : Ctx R) (iter : ℤ) : Except OldErr Unit := do
  let _ ← oldTable A polys c iter
  .ok ()

end Verif.Qe
