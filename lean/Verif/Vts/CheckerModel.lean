import Verif.Vts.IsymModel
import Mathlib.Data.List.Dedup

/-!
# Model of `vts/checker.py` and of `make_univariate` (`vts/examples_parser.py`)
-/

namespace Verif.Vts

/-- The six sympy relation classes. -/
inductive RelKind
  | le | lt | eq | ne | ge | gt
deriving DecidableEq, Repr

/-- An unevaluated sympy relation. -/
structure Rel (T : Type) where
  kind : RelKind
  lhs : T
  rhs : T
deriving DecidableEq

/-- A member of an antecedent or succedent: sympy evaluates relations between numbers to
`True`/`False`. -/
inductive PyRel (T : Type)
  | tt
  | ff
  | rel (r : Rel T)
deriving DecidableEq

variable {T : Type}

/-- `rewrite_classes` (`vts/checker.py:147`) -/
def rewriteClass : RelKind → Option RelKind
  | .ge => some .le
  | .gt => some .lt
  | _ => none

/-- `vts/checker.py:137-158` `rewrite_to_less`, one relation (booleans are not in the table and are
kept). -/
def rewriteToLess1 [Neg T] : PyRel T → PyRel T
  | .rel r =>
    match rewriteClass r.kind with
    | some k => .rel ⟨k, -r.lhs, -r.rhs⟩
    | none => .rel r
  | b => b

/-- `negation_classes` (`vts/checker.py:170-174`) -/
def negationClass : RelKind → RelKind
  | .ge => .lt
  | .gt => .le
  | .eq => .ne
  | .ne => .eq
  | .le => .gt
  | .lt => .ge

/-- `vts/checker.py:160-176` `negate_relations`, one relation; booleans have no class in the table
(`KeyError`). -/
def negateRelation1 : PyRel T → Except Err (PyRel T)
  | .rel r => .ok (.rel ⟨negationClass r.kind, r.lhs, r.rhs⟩)
  | _ => .error .keyError

/-- `vts/checker.py:90-135` `vts_preformat`. Python's `set` iterates in an unspecified order; the model
keeps the list order (the theorems do not depend on it). -/
def vtsPreformat [DecidableEq T] [Neg T] (ante succ : List (PyRel T)) :
    Except Err (List (List (PyRel T))) := do
  let filteredAnte := (ante.filter fun p => p ≠ .tt).dedup
  let filteredSucc := (succ.filter fun p => p ≠ .tt).dedup
  if filteredAnte.length = 0 ∨ filteredSucc.length = 0 then .error .emptySide
  else do
    let rewrittenAnte := filteredAnte.map rewriteToLess1
    let negatedSucc ← filteredSucc.mapM negateRelation1
    let rewrittenSucc := negatedSucc.map rewriteToLess1
    .ok (rewrittenSucc.map fun s => rewrittenAnte ++ [s])

/-- the four lists of `r_map` -/
structure RMap (T : Type) where
  le : List T
  lt : List T
  eq : List T
  ne : List T

/-- loop body of `make_relation_map` (`vts/checker.py:78-87`) -/
def addRelation (m : RMap T) : PyRel T → Except Err (RMap T)
  | .rel ⟨.le, l, _⟩ => .ok { m with le := m.le ++ [l] }
  | .rel ⟨.lt, l, _⟩ => .ok { m with lt := m.lt ++ [l] }
  | .rel ⟨.eq, l, _⟩ => .ok { m with eq := m.eq ++ [l] }
  | .rel ⟨.ne, l, _⟩ => .ok { m with ne := m.ne ++ [l] }
  | _ => .error .notAdded

/-- `vts/checker.py:67-88` `make_relation_map`. -/
def makeRelationMap (formula : List (PyRel T)) : Except Err (RMap T) :=
  formula.foldlM addRelation ⟨[], [], [], []⟩

/-- The inner loop of `check_examples` (`vts/checker.py:34-56`): the verdict of one example.
`solver` is `isym.vts` or `isym.ts`. All clauses are tried, also after the verdict is known. -/
def checkExample [DecidableEq T] [Neg T]
    (solver : List T → List T → List T → List T → Except Err Bool)
    (ante succ : List (PyRel T)) : Except Err Bool := do
  let bigOr ← vtsPreformat ante succ
  bigOr.foldlM (fun v formula => do
    let m ← makeRelationMap formula
    let d ← solver m.le m.lt m.eq m.ne
    .ok (if d then false else v)) true

/-- Keys of the dictionary `results`: the code uses the name `file`, which is not a variable of the
function but Python's builtin type (`vts/checker.py:60`). -/
inductive ResultKey
  | builtinFile
  | name (s : String)
deriving DecidableEq

/-- `f[:-8]` (`vts/checker.py:65`): slicing works on strings, not on the builtin type. -/
def dropSuffix : ResultKey → Except Err String
  | .builtinFile => .error .typeError
  | .name s => .ok ((s.dropEnd 8).toString)

/-- Dictionary assignment `results[k] = v`. -/
def dictSet {α β : Type} [DecidableEq α] (d : List (α × β)) (k : α) (v : β) : List (α × β) :=
  if d.any (fun e => e.1 = k) then d.map fun e => if e.1 = k then (k, v) else e
  else d ++ [(k, v)]

/-- `vts/checker.py:8-65` `check_examples`: the files are given with their names and examples; only
the first three are looked at (the set `skip = {(3, 0)}` never applies). The returned value is
what the last loop prints. -/
def checkExamples [DecidableEq T] [Neg T]
    (solver : List T → List T → List T → List T → Except Err Bool)
    (files : List (String × List (List (PyRel T) × List (PyRel T)))) :
    Except Err (List (String × Bool)) := do
  let results ← (files.take 3).foldlM (fun res f =>
    f.2.foldlM (fun res ex => do
      let v ← checkExample solver ex.1 ex.2
      .ok (if v then res else dictSet res .builtinFile v)) res) ([] : List (ResultKey × Bool))
  results.mapM fun kv => do
    let s ← dropSuffix kv.1
    .ok (s, kv.2)

/-- Negation of an expanded sympy expression. -/
def PyCoef.neg : PyCoef → PyCoef
  | .int z => .int (-z)
  | .rat q => .rat (-q)
  | .other => .other

/-- `-p` for a sympy expression: every term is negated. -/
instance : Neg SPoly where
  neg p := match p with
    | .int z => .int (-z)
    | .number c => .number c.neg
    | .expr ts => .expr (ts.map fun t => (t.1.neg, t.2))
    | .multi => .multi

deriving instance DecidableEq for SPoly

end Verif.Vts
