import Verif.Grf.Poly
import Mathlib.Data.List.Dedup
import Mathlib.Data.List.Sort
import Mathlib.Data.List.MinMax
import Mathlib.Data.List.Sublists

/-!
# Model of `GRF/grf.sage`: atoms, goals and the goal-directed decision loop
-/

namespace Verif.Grf

/-- The exceptions that can be raised. -/
inductive GErr
  /-- `raise Exception("Invalid op in RCF_Atom.")` -/
  | invalidOp
  /-- `IndexError` -/
  | indexError
  /-- `AttributeError` -/
  | attributeError
  /-- `KeyError` -/
  | keyError
  /-- `TypeError`, also for a failing coercion -/
  | typeError
  /-- `AssertionError` -/
  | assertion
  /-- `raise Exception("Counterexample!: ...")` -/
  | counterexample
  /-- the exception raised by the MILP solver for infeasible problems -/
  | infeasible
  /-- not an exception: the model's bound on the number of steps was reached -/
  | outOfFuel
  deriving DecidableEq, Repr

/-- The relation symbols. -/
inductive Op
  | gt | lt | le | ge | eq | ne
  deriving DecidableEq, Repr

/-- The strings accepted by `RCF_Atom` (`grf.sage:56-57`). -/
def Op.ofString (s : String) : Option Op :=
  if s = ">" then some .gt
  else if s = "<" then some .lt
  else if s = "<=" then some .le
  else if s = ">=" then some .ge
  else if s = "=" then some .eq
  else if s = "!=" then some .ne
  else none

/-- `RCF_Atom` (`grf.sage:54-60`): the relation `poly op 0`. The attribute `vars` is set when the atom is
created and not changed afterwards. -/
structure Atom where
  poly : MPoly
  op : Op
  vars : List ℕ
  deriving DecidableEq, Repr

/-- `RCF_Atom.__init__` (`grf.sage:55-60`). -/
def mkAtom (lhs : MPoly) (op : String) (rhs : MPoly) : Except GErr Atom :=
  match Op.ofString op with
  | none => .error .invalidOp
  | some o => .ok ⟨lhs.sub rhs, o, (lhs.sub rhs).vars⟩

/-- `RCF_Atom.negate` (`grf.sage:79-93`); the last branch (an unknown relation) is excluded by the type. -/
def Op.negate : Op → Op
  | .gt => .le
  | .lt => .ge
  | .le => .gt
  | .ge => .lt
  | .eq => .ne
  | .ne => .eq

/-- `RCF_Atom.negate` (`grf.sage:79-93`). -/
def Atom.negate (a : Atom) : Atom := { a with op := a.op.negate }

section
variable {K : Type} [Field K] [LinearOrder K]

/-- Assignments of values to variables (Python dictionaries). The values are elements of a field `K`: the
code uses Sage rationals and, for perturbed points, floating point numbers. -/
abbrev Dict (K : Type) := List (ℕ × K)

/-- `v in dict` -/
def inDict (d : Dict K) (v : ℕ) : Bool := (d.lookup v).isSome

/-- the point of an assignment -/
def ptOf (d : Dict K) (i : ℕ) : K := (d.lookup i).getD 0

/-- The comparisons with 0 of `grf.sage:128-141`. -/
def Op.test (op : Op) (x : K) : Bool :=
  match op with
  | .gt => decide (x > 0)
  | .ge => decide (x ≥ 0)
  | .lt => decide (x < 0)
  | .le => decide (x ≤ 0)
  | .eq => decide (x = 0)
  | .ne => decide (x ≠ 0)

/-- What the model does not compute itself: calls of Sage functions. -/
structure Sage (K : Type) where
  /-- `p.reduce(B)` -/
  reduce : MPoly → List MPoly → MPoly
  /-- `ideal(ps).groebner_basis()` -/
  gbasis : List MPoly → List MPoly
  /-- how Sage compares the polynomial `p.substitute(d)` with 0 (-1, 0 or 1) when it is not a constant:
  polynomials are compared by their terms -/
  cmp : MPoly → Dict K → K

/-- `RCF_Atom.eval_on_dict` (`grf.sage:102-141`): `none` when a variable of `vars` is missing. With an empty
dictionary `dict.keys()[0]` raises. If `poly` has a variable that is missing (this is not excluded since
`vars` is not updated when `poly` changes) the comparison is one of polynomials. -/
def Atom.evalOnDict (S : Sage K) (a : Atom) (d : Dict K) : Except GErr (Option Bool) :=
  if a.vars.all (inDict d) then
    match d with
    | [] => .error .indexError
    | _ :: _ =>
      if a.poly.vars.all (inDict d) then .ok (some (a.op.test (a.poly.eval (ptOf d))))
      else .ok (some (a.op.test (S.cmp a.poly d)))
  else .ok none

/-- `RCF_Goal` (`grf.sage:148-153`): main goal, hypotheses, Gröbner basis. -/
structure Goal where
  main : Atom
  hyps : List Atom
  gb : List MPoly
  deriving DecidableEq, Repr

/-- The loop of `RCF_Goal.eval_on_dict` (`grf.sage:184-187`). -/
def evalHyps (S : Sage K) (d : Dict K) : List Atom → Except GErr Bool
  | [] => .ok false
  | gh :: ghs => do
    let r ← gh.evalOnDict S d
    if r = some false then .ok true else evalHyps S d ghs

/-- `RCF_Goal.eval_on_dict` (`grf.sage:180-187`). -/
def Goal.evalOnDict (S : Sage K) (g : Goal) (d : Dict K) : Except GErr Bool := do
  let r ← g.main.evalOnDict S d
  if r = some true then .ok true else evalHyps S d g.hyps

/-- `RCF_Atom.quotient_ring_inject` (`grf.sage:69-78`); `B[0]` raises when `B` is empty. -/
def Atom.inject (S : Sage K) (B : List MPoly) (a : Atom) : Except GErr Atom :=
  match B with
  | [] => .error .indexError
  | _ :: _ => .ok { a with poly := S.reduce a.poly B }

/-- the basis for the new equation and the simplification of the current hypotheses
(`grf.sage:199-206`) -/
def Goal.simplify (S : Sage K) (g : Goal) (gh : Atom) : Except GErr (List Atom × List MPoly) :=
  if gh.op = .eq then do
    let hs ← g.hyps.mapM (Atom.inject S (S.gbasis [gh.poly]))
    .ok (hs, S.gbasis (g.gb ++ [gh.poly]))
  else .ok (g.hyps, g.gb)

/-- the simplification of the new hypothesis (`grf.sage:207-209`) -/
def Goal.simplifyNew (S : Sage K) (g : Goal) (gh : Atom) : Except GErr Atom :=
  if g.gb ≠ [] then gh.inject S g.gb else .ok gh

/-- `RCF_Goal.add_goal_hyp` with `use_gbs=True` (`grf.sage:194-212`). -/
def Goal.addHyp (S : Sage K) (g : Goal) (gh : Atom) : Except GErr Goal := do
  let r ← g.simplify S gh
  let gh' ← g.simplifyNew S gh
  .ok { g with hyps := r.1 ++ [gh'], gb := r.2 }

/-- `RCF_Goal.add_goal_hyp` with `use_gbs=False` (`grf.sage:195-196`). -/
def Goal.addHypPlain (g : Goal) (gh : Atom) : Goal := { g with hyps := g.hyps ++ [gh] }

/-! ### `RCF_GD_Decide` -/

/-- The state of `RCF_GD_Decide` that the loop changes (`grf.sage:753-760`). The projection sets of the
attribute `q` are part of the oracle `Core.samples`. `ids` are the identities of the objects in `hyps`, which
`perform_grf` (`smt2.py:172-186`) compares: the positions in the list of hypotheses given at the start. -/
structure State where
  hyps : List Atom
  goal : Goal
  ids : List ℕ
  deriving DecidableEq, Repr

/-- What the loop asks of the rest of the program. `n` is the number of the round. -/
structure Core (K : Type) extends Sage K where
  /-- `self.q.sample_pt_dicts(...)` (`grf.sage:956-963`) -/
  samples : ℕ → State → Except GErr (List (Dict K))
  /-- the additional points of `self.sample_points(dict)` (`grf.sage:845`, `local_search.py:154-205`) -/
  more : ℕ → State → Dict K → Except GErr (List (Dict K))
  /-- the solution of the 0-1 optimisation problem given by the number of hypotheses, the bad sets and the
  weights (`grf.sage:916-945`), `none` if the solver raises -/
  solve : ℕ → List (List ℕ) → List ℕ → Option (List ℕ)

/-- `RCF_GD_Decide.promote_right` (`grf.sage:828-832`). -/
def State.promote (S : Sage K) (st : State) (i : ℕ) : Except GErr State :=
  match st.hyps[i]? with
  | none => .error .indexError
  | some h => do
    let g ← st.goal.addHyp S h
    .ok ⟨st.hyps.take i ++ st.hyps.drop (i + 1), g, st.ids.take i ++ st.ids.drop (i + 1)⟩

/-- The indices of the hypotheses that are true (`grf.sage:859-869`). -/
def trueHyps (S : Sage K) (d : Dict K) : ℕ → List Atom → Except GErr (List ℕ)
  | _, [] => .ok []
  | i, a :: as => do
    let r ← a.evalOnDict S d
    let rest ← trueHyps S d (i + 1) as
    .ok (if r = some true then i :: rest else rest)

/-- The treatment of `bad` in the loop (`grf.sage:876-882`). The list produced from the `set` has no
specified order; the model keeps the order. -/
def addBad (bads : List (List ℕ)) (bad : List ℕ) : List (List ℕ) :=
  if bad ∉ bads ∧ bad ≠ [] then
    (bads.dedup.filter fun s => ¬ (s.all fun i => decide (i ∈ bad))) ++ [bad]
  else bads

/-- The loop over the sample points (`grf.sage:850-883`). -/
def badLoop (S : Sage K) (st : State) : List (Dict K) → List (List ℕ) → Except GErr (List (List ℕ))
  | [], bads => .ok bads
  | d :: ds, bads => do
    let g ← st.goal.evalOnDict S d
    if g then badLoop S st ds bads
    else do
      let bad ← trueHyps S d 0 st.hyps
      if bad.length = st.hyps.length then .error .counterexample
      else badLoop S st ds (addBad bads bad)

/-- `RCF_GD_Decide.bad_subsets_on_dict` (`grf.sage:834-885`). Without hypotheses the local search raises
(`local_search.py:90-92`, `random.choice` of an empty list). -/
def badSubsets (C : Core K) (n : ℕ) (st : State) (d : Dict K) : Except GErr (Option (List (List ℕ))) := do
  let g ← st.goal.evalOnDict C.toSage d
  if g then .ok none
  else if st.hyps = [] then .error .indexError
  else do
    let ds ← C.more n st d
    let bads ← badLoop C.toSage st (d :: ds) []
    .ok (some bads)

/-- the weight of one hypothesis (`grf.sage:891-902`) -/
def hypWeight (goalVars : List ℕ) (h : Atom) : ℕ :=
  if (h.poly.vars.filter fun v => v ∈ goalVars).length = 0 then 10000
  else max (10 * (h.poly.totalDegree - 1) + 100 * (h.poly.vars.length - 1)) 1

/-- `RCF_GD_Decide.weight_hyps` (`grf.sage:887-903`). -/
def weightHyps (st : State) : List ℕ :=
  st.hyps.map (hypWeight ((st.goal.hyps ++ [st.goal.main]).flatMap fun h => h.poly.vars))

/-- `RCF_GD_Decide.good_hyps` (`grf.sage:910-945`). -/
def goodHyps (C : Core K) (st : State) (bads : List (List ℕ)) : Except GErr (List ℕ) :=
  match C.solve st.hyps.length bads (weightHyps st) with
  | none => .error .infeasible
  | some s => .ok s

/-- The loop over the sample points of the decision core (`grf.sage:964-970`). -/
def allBads (C : Core K) (n : ℕ) (st : State) :
    List (Dict K) → Except GErr (Bool × List (List ℕ))
  | [] => .ok (true, [])
  | d :: ds => do
    let b ← badSubsets C n st d
    let r ← allBads C n st ds
    match b with
    | none => .ok r
    | some bs => .ok (false, bs ++ r.2)

/-- the candidates by total degree (`grf.sage:1024-1027`) -/
def sortCand (st : State) (cand : List ℕ) : List ℕ :=
  cand.mergeSort fun i j =>
    decide ((st.hyps.getD i ⟨[], .eq, []⟩).poly.totalDegree ≤ (st.hyps.getD j ⟨[], .eq, []⟩).poly.totalDegree)

/-- One round of the automatic mode of `RCF_GD_Decide.check` (`grf.sage:947-1035`): the bad sets, and the
state with one more hypothesis promoted unless the goal is true at all sample points. (The element access
`self.hyps[h]` of the sort key is the same access as that of `promote_right` for the first candidate; for
other candidates out of range the real program would raise too.) -/
def round (C : Core K) (n : ℕ) (st : State) : Except GErr (List (List ℕ) × Option State) := do
  let ds ← C.samples n st
  let r ← allBads C n st ds
  if r.1 then .ok ([], none)
  else do
    let cand ← goodHyps C st r.2
    match sortCand st cand with
    | [] => .error .indexError
    | i :: _ => do
      let st' ← st.promote C.toSage i
      .ok (r.2, some st')

/-- `RCF_GD_Decide.check(interactive=False)` (`grf.sage:947-1035`) from round `n` on: the returned value (that
of the first round: the result of the recursive call is not used) and the final state. -/
def check (C : Core K) : ℕ → ℕ → State → Except GErr (List (List ℕ) × State)
  | 0, _, _ => .error .outOfFuel
  | fuel + 1, n, st => do
    let r ← round C n st
    match r.2 with
    | none => .ok (r.1, st)
    | some st' => do
      let out ← check C fuel (n + 1) st'
      .ok (r.1, out.2)

/-! ### A reference solver -/

/-- does the set contain, for every bad set, an element outside of it -/
def hits (bads : List (List ℕ)) (s : List ℕ) : Bool := bads.all fun b => s.any fun i => decide (i ∉ b)

/-- total weight -/
def weightOf (w : List ℕ) (s : List ℕ) : ℕ := (s.map fun i => w.getD i 0).sum

/-- A solver by enumeration (not part of the program, which calls GLPK), for the examples. -/
def bruteSolve (n : ℕ) (bads : List (List ℕ)) (w : List ℕ) : Option (List ℕ) :=
  ((List.range n).sublists.filter (hits bads)).argmin (weightOf w)

end

end Verif.Grf
