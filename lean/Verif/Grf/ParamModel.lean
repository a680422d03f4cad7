import Verif.Grf.Whole
import Verif.Grf.Smt2

/-!
# The loop with the parameters `k` and `epsilon`

`RCF_GD_Decide.check` and `bad_subsets_on_dict` have parameters `k` and `epsilon`, and print at each sample point where the
goal is false that `k` additional sample points in an `epsilon` neighborhood are computed (`grf.sage:841-843`). Here the
loop of `Whole.lean` is modelled with these parameters in their places, and with the lines that are printed, each together
with the points that are then computed.
-/

namespace Verif.Grf

variable {K : Type} [Field K] [LinearOrder K]

/-- The line `Computing k additional sample points in a (uniform) epsilon neighborhood` (`grf.sage:842-843`) for a sample
point, and what the call of `sample_points` that follows (`grf.sage:845`) returns or raises. -/
structure Announce (K : Type) where
  k : ℕ
  eps : K
  at_ : Dict K
  got : Except GErr (List (Dict K))

/-- What is changed by a run: the variable of the class (`local_search.py:44`) and what has been printed. -/
abbrev PState (K : Type) := VOrder × List (Announce K)

/-- Sequencing: an exception ends the computation. -/
def pThen {α β : Type} (m : Except GErr α × PState K) (f : α → PState K → Except GErr β × PState K) :
    Except GErr β × PState K :=
  match m with
  | (.error e, s) => (.error e, s)
  | (.ok a, s) => f a s

/-- `RCF_GD_Decide.sample_points` (`grf.sage:791-793`): it has no parameter for the number of points or the
neighborhood. Without hypotheses the local search raises in any case (`local_search.py:90-92`), see `wBadSubsets`. -/
def pSamplePoints (S : Sage K) (O : Search K) (st : State) (d : Dict K) (order : VOrder) :
    Except GErr (List (Dict K)) × VOrder :=
  if st.hyps = [] then (.error .indexError, some (varOrder order d))
  else wSearch S O st.hyps st.goal.main d order

/-- `RCF_GD_Decide.bad_subsets_on_dict(dict, k, epsilon)` (`grf.sage:834-885`). -/
def pBadSubsets (C : Core K) (f : Calls K) (k : ℕ) (eps : K) (n : ℕ) (st : State) (d : Dict K) (s : PState K) :
    Except GErr (Option (List (List ℕ))) × PState K :=
  match st.goal.evalOnDict C.toSage d with
  | .error e => (.error e, s)
  | .ok true => (.ok none, s)
  | .ok false =>
    let r := pSamplePoints C.toSage (f n st d) st d s.1
    pThen (r.1, (r.2, s.2 ++ [⟨k, eps, d, r.1⟩])) fun ds s' =>
      ((badLoop C.toSage st (d :: ds) []).map some, s')

/-- The loop over the sample points of the decision core (`grf.sage:964-970`). -/
def pAllBads (C : Core K) (f : Calls K) (k : ℕ) (eps : K) (n : ℕ) (st : State) :
    List (Dict K) → PState K → Except GErr (Bool × List (List ℕ)) × PState K
  | [], s => (.ok (true, []), s)
  | d :: ds, s =>
    pThen (pBadSubsets C f k eps n st d s) fun b s₁ =>
      pThen (pAllBads C f k eps n st ds s₁) fun r s₂ =>
        match b with
        | none => (.ok r, s₂)
        | some bs => (.ok (false, bs ++ r.2), s₂)

/-- One round of the automatic mode of `RCF_GD_Decide.check` (`grf.sage:947-1035`), see `round`. -/
def pRound (C : Core K) (f : Calls K) (k : ℕ) (eps : K) (n : ℕ) (st : State) (s : PState K) :
    Except GErr (List (List ℕ) × Option State) × PState K :=
  pThen (C.samples n st, s) fun ds s₁ =>
    pThen (pAllBads C f k eps n st ds s₁) fun r s₂ =>
      if r.1 then (.ok ([], none), s₂)
      else
        ((do
          let cand ← goodHyps C st r.2
          match sortCand st cand with
          | [] => .error .indexError
          | i :: _ => do
            let st' ← st.promote C.toSage i
            .ok (r.2, some st')), s₂)

/-- `RCF_GD_Decide.check(interactive=False, k=k, epsilon=epsilon)` (`grf.sage:947-1035`), see `check`; the recursive call
passes both parameters on (`grf.sage:1033`). -/
def pCheck (C : Core K) (f : Calls K) (k : ℕ) (eps : K) :
    ℕ → ℕ → State → PState K → Except GErr (List (List ℕ) × State) × PState K
  | 0, _, _, s => (.error .outOfFuel, s)
  | fuel + 1, n, st, s =>
    pThen (pRound C f k eps n st s) fun r s₁ =>
      match r.2 with
      | none => (.ok (r.1, st), s₁)
      | some st' => pThen (pCheck C f k eps fuel (n + 1) st' s₁) fun out s₂ => (.ok (r.1, out.2), s₂)

/-- The parameters of `check` if none are given (`grf.sage:947`). -/
def checkDefaults : ℕ × K := (100, 2)

/-- The parameters of `grf_on_file` and of a context if none are given (`smt2.py:40`, `smt2.py:193`, `smt2.py:451`). -/
def fileDefaults : ℕ × K := (25, 1 / 10)

/-- `SMTContext.perform_grf` (`smt2.py:107-189`), with `interactive=False`, for a context with the given parameters, which
are those given to `grf_on_file` (`smt2.py:451-464`). -/
def pPerformGrf (C : Core K) (f : Calls K) (k : ℕ) (eps : K) (ante succ : List Atom) (s : PState K) :
    Except GErr (List ℕ × List ℕ) × PState K :=
  pThen (seqState ante succ, s) fun st s₁ =>
    pThen (pCheck C f k eps (st.hyps.length + 1) 0 st s₁) fun r s₂ =>
      (.ok (hideAnte st.hyps.length r.2.ids, hideSucc ante.length succ.length r.2.ids), s₂)

end Verif.Grf
