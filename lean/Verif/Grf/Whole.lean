import Verif.Grf.Search

/-!
# The loop together with local search and its class variable

`VarOrder.order` (`local_search.py:43-49`) is a variable of the class. It belongs to the process, not to a problem: nothing
in the program sets it back. Here the loop of `RCF_GD_Decide.check` is modelled with the call of `local_search_sampling`
in its place (`grf.sage:791-793`, `grf.sage:845`), and the value of the variable is passed on from call to call, from round
to round, and from sequent to sequent, whether they end with an exception or not.
-/

namespace Verif.Grf

variable {K : Type} [Field K] [LinearOrder K]

/-- The value of `VarOrder.order` (`local_search.py:44`): `None`, or a list of variables. The variables are those of a
polynomial ring; as in the rest of the model they are numbers, so that variables with the same name in the rings of two
problems are the same keys. -/
abbrev VOrder := Option (List ℕ)

/-- The random numbers and results of the numerical solver in the call of local search for a sample point of a round. -/
abbrev Calls (K : Type) := ℕ → State → Dict K → Search K

/-- Sequencing: an exception ends the computation, the variable keeps its value. -/
def wThen {α β : Type} (m : Except GErr α × VOrder) (f : α → VOrder → Except GErr β × VOrder) : Except GErr β × VOrder :=
  match m with
  | (.error e, o) => (.error e, o)
  | (.ok a, o) => f a o

/-- `RCF_GD_Decide.sample_points` (`grf.sage:791-793`), that is `local_search_sampling` (`local_search.py:154-205`). The
variable is set before anything can raise (`local_search.py:46-53`, `local_search.py:172`). -/
def wSearch (S : Sage K) (O : Search K) (hyps : List Atom) (main : Atom) (d : Dict K) (order : VOrder) :
    Except GErr (List (Dict K)) × VOrder :=
  ((localSearch S O order hyps main d).map Prod.fst, some (varOrder order d))

/-- `RCF_GD_Decide.bad_subsets_on_dict` (`grf.sage:834-885`) with local search. `C.more` is not used. Without hypotheses
the local search raises in any case (`local_search.py:90-92`); the model does not distinguish the exceptions. -/
def wBadSubsets (C : Core K) (f : Calls K) (n : ℕ) (st : State) (d : Dict K) (order : VOrder) :
    Except GErr (Option (List (List ℕ))) × VOrder :=
  match st.goal.evalOnDict C.toSage d with
  | .error e => (.error e, order)
  | .ok true => (.ok none, order)
  | .ok false =>
    if st.hyps = [] then (.error .indexError, some (varOrder order d))
    else wThen (wSearch C.toSage (f n st d) st.hyps st.goal.main d order) fun ds o =>
      ((badLoop C.toSage st (d :: ds) []).map some, o)

/-- The loop over the sample points of the decision core (`grf.sage:964-970`). -/
def wAllBads (C : Core K) (f : Calls K) (n : ℕ) (st : State) :
    List (Dict K) → VOrder → Except GErr (Bool × List (List ℕ)) × VOrder
  | [], order => (.ok (true, []), order)
  | d :: ds, order =>
    wThen (wBadSubsets C f n st d order) fun b o₁ =>
      wThen (wAllBads C f n st ds o₁) fun r o₂ =>
        match b with
        | none => (.ok r, o₂)
        | some bs => (.ok (false, bs ++ r.2), o₂)

/-- One round of the automatic mode of `RCF_GD_Decide.check` (`grf.sage:947-1035`), see `round`. -/
def wRound (C : Core K) (f : Calls K) (n : ℕ) (st : State) (order : VOrder) :
    Except GErr (List (List ℕ) × Option State) × VOrder :=
  wThen (C.samples n st, order) fun ds o₁ =>
    wThen (wAllBads C f n st ds o₁) fun r o₂ =>
      if r.1 then (.ok ([], none), o₂)
      else
        ((do
          let cand ← goodHyps C st r.2
          match sortCand st cand with
          | [] => .error .indexError
          | i :: _ => do
            let st' ← st.promote C.toSage i
            .ok (r.2, some st')), o₂)

/-- `RCF_GD_Decide.check(interactive=False)` (`grf.sage:947-1035`), see `check`. -/
def wCheck (C : Core K) (f : Calls K) : ℕ → ℕ → State → VOrder → Except GErr (List (List ℕ) × State) × VOrder
  | 0, _, _, order => (.error .outOfFuel, order)
  | fuel + 1, n, st, order =>
    wThen (wRound C f n st order) fun r o₁ =>
      match r.2 with
      | none => (.ok (r.1, st), o₁)
      | some st' => wThen (wCheck C f fuel (n + 1) st' o₁) fun out o₂ => (.ok (r.1, out.2), o₂)

/-- A sequent to be checked, with what the model does not compute. -/
structure Task (K : Type) where
  core : Core K
  calls : Calls K
  fuel : ℕ
  hyps : List Atom
  main : Atom

/-- Checking one sequent with a new `RCF_GD_Decide` object (`smt2.py:124-165`). -/
def Task.run (j : Task K) (order : VOrder) : Except GErr (List (List ℕ) × State) × VOrder :=
  wCheck j.core j.calls j.fuel 0 ⟨j.hyps, ⟨j.main, [], []⟩, List.range j.hyps.length⟩ order

/-- Checking sequents one after the other in one process: the value of the variable at the end. -/
def orderAfter : List (Task K) → VOrder → VOrder
  | [], order => order
  | j :: js, order => orderAfter js (j.run order).2

/-- The outcome for a sequent that is checked after others in a process that has just been started. -/
def outcomeAfter (before : List (Task K)) (j : Task K) : Except GErr (List (List ℕ) × State) :=
  (j.run (orderAfter before none)).1

end Verif.Grf
