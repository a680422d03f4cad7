import Verif.Grf.Model

/-!
# Model of `GRF/grf.sage`: the life of a `RCF_GD_Decide` object

The object is created, hypotheses and goals are asserted and checked in any order, and exceptions may be caught by the
caller.
-/

namespace Verif.Grf

/-- The attributes of a `RCF_GD_Decide` object (`grf.sage:753-760`): the hypotheses with numbers that stand for the
identity of the objects, and the goal, which is `None` at the start. `rounds` is the number of CADs so far (the attribute
`q` keeps the installed polynomials; this is left to the oracle, which gets the number), `next` the first number that is
not in use. -/
structure Decider where
  hyps : List Atom
  ids : List ℕ
  goal : Option Goal
  rounds : ℕ
  next : ℕ
  deriving DecidableEq, Repr

/-- `RCF_GD_Decide.__init__` (`grf.sage:753-760`). -/
def Decider.new : Decider := ⟨[], [], none, 0, 0⟩

/-- `RCF_GD_Decide.assert_hyps` (`grf.sage:778-783`). The attributes `witness` and `status` are not used. -/
def Decider.assertHyps (d : Decider) (as : List Atom) : Decider :=
  { d with hyps := d.hyps ++ as, ids := d.ids ++ (List.range as.length).map (fun i => d.next + i),
           next := d.next + as.length }

/-- `RCF_GD_Decide.assert_goal` (`grf.sage:785-788`). -/
def Decider.assertGoal (d : Decider) (g : Atom) : Decider := { d with goal := some ⟨g, [], []⟩ }

section
variable {K : Type} [Field K] [LinearOrder K]

/-- The hypotheses and the goal when `promote_right` (`grf.sage:828-832`) is left: the hypothesis is removed from the list
before `add_goal_hyp` is called. (An exception in `add_goal_hyp` comes from the first call of `quotient_ring_inject` with
an empty basis, when nothing has been changed.) -/
def promoteLeft (S : Sage K) (st : State) (i : ℕ) : State :=
  match st.promote S i with
  | .ok st' => st'
  | .error _ =>
    if i < st.hyps.length then
      { st with hyps := st.hyps.take i ++ st.hyps.drop (i + 1), ids := st.ids.take i ++ st.ids.drop (i + 1) }
    else st

/-- The hypotheses and the goal when one round of `check` (`grf.sage:947-1035`) is left, with or without an exception. -/
def roundLeft (C : Core K) (n : ℕ) (st : State) : State :=
  match C.samples n st with
  | .error _ => st
  | .ok ds =>
    match allBads C n st ds with
    | .error _ => st
    | .ok r =>
      if r.1 then st
      else
        match goodHyps C st r.2 with
        | .error _ => st
        | .ok cand =>
          match sortCand st cand with
          | [] => st
          | i :: _ => promoteLeft C.toSage st i

/-- `RCF_GD_Decide.check(interactive=False)` (`grf.sage:947-1035`) with the number of rounds and the state in which it is
left, whether it returns or raises. -/
def checkLeft (C : Core K) : ℕ → ℕ → State → Except GErr (List (List ℕ)) × ℕ × State
  | 0, n, st => (.error .outOfFuel, n, st)
  | fuel + 1, n, st =>
    match round C n st with
    | .error e => (.error e, n + 1, roundLeft C n st)
    | .ok (b, none) => (.ok b, n + 1, st)
    | .ok (b, some st') =>
      match checkLeft C fuel (n + 1) st' with
      | (.ok _, r) => (.ok b, r)
      | (.error e, r) => (.error e, r)

/-- `d.check()` (`grf.sage:947-1035`). Without a goal the access to `self.goal.main_goal` raises. -/
def Decider.check (C : Core K) (d : Decider) : Except GErr (List (List ℕ)) × Decider :=
  match d.goal with
  | none => (.error .attributeError, d)
  | some g =>
    let r := checkLeft C (d.hyps.length + 1) d.rounds ⟨d.hyps, g, d.ids⟩
    (r.1, { d with hyps := r.2.2.hyps, ids := r.2.2.ids, goal := some r.2.2.goal, rounds := r.2.1 })

/-- What a caller can do with the object (`grf.sage:778-788`, `grf.sage:947-1035`). -/
inductive DOp
  | hyps (as : List Atom)
  | goal (g : Atom)
  | check

/-- One operation (`grf.sage:778-788`, `grf.sage:947-1035`): the answer, if it is a check, and the object afterwards. -/
def Decider.step (C : Core K) (d : Decider) : DOp → Option (Except GErr (List (List ℕ))) × Decider
  | .hyps as => (none, d.assertHyps as)
  | .goal g => (none, d.assertGoal g)
  | .check => (some (d.check C).1, (d.check C).2)

/-- A sequence of operations (`grf.sage:778-788`, `grf.sage:947-1035`), exceptions being caught. -/
def Decider.run (C : Core K) : Decider → List DOp → Decider
  | d, [] => d
  | d, op :: ops => Decider.run C (d.step C op).2 ops

end

end Verif.Grf
