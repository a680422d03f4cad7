import Verif.Grf.Smt2

/-!
# Model of `GRF/grf.sage` with objects

The atoms are objects that the program changes in place (`quotient_ring_inject`, `negate`), and the lists of hypotheses
hold references to them. Here the objects are in a heap; the model of `Verif/Grf/Model.lean` works with values.
-/

namespace Verif.Grf

/-- The state of `RCF_GD_Decide` and `RCF_Goal` (`grf.sage:148-153`, `grf.sage:752-760`) with references: positions in
the heap. -/
structure HState where
  heap : List Atom
  hyps : List ℕ
  main : ℕ
  ghyps : List ℕ
  gb : List MPoly
  deriving DecidableEq, Repr

section
variable {K : Type} [Field K] [LinearOrder K]

/-- The object at a position; there is always one in the states that occur. -/
def getObj (heap : List Atom) (i : ℕ) : Atom := heap.getD i ⟨[], .eq, []⟩

/-- The values that the references stand for. -/
def HState.vals (st : HState) : State :=
  ⟨st.hyps.map (getObj st.heap), ⟨getObj st.heap st.main, st.ghyps.map (getObj st.heap), st.gb⟩, st.hyps⟩

/-- `h.quotient_ring_inject(B)` on an object (`grf.sage:69-78`). -/
def hInject (S : Sage K) (B : List MPoly) (heap : List Atom) (i : ℕ) : Except GErr (List Atom) := do
  let a ← (getObj heap i).inject S B
  .ok (heap.set i a)

/-- The loop over the hypotheses of the goal (`grf.sage:203-205`). -/
def hInjectAll (S : Sage K) (B : List MPoly) : List ℕ → List Atom → Except GErr (List Atom)
  | [], heap => .ok heap
  | i :: is, heap => do
    let heap' ← hInject S B heap i
    hInjectAll S B is heap'

/-- The part of `RCF_Goal.add_goal_hyp` for equations (`grf.sage:199-206`): the heap and the new basis. The polynomial of
the new hypothesis is read again after the loop. -/
def hSimplify (S : Sage K) (st : HState) (h : ℕ) : Except GErr (List Atom × List MPoly) :=
  if (getObj st.heap h).op = .eq then do
    let heap ← hInjectAll S (S.gbasis [(getObj st.heap h).poly]) st.ghyps st.heap
    .ok (heap, S.gbasis (st.gb ++ [(getObj heap h).poly]))
  else .ok (st.heap, st.gb)

/-- `RCF_Goal.add_goal_hyp` with `use_gbs=True` (`grf.sage:194-212`). -/
def hAddHyp (S : Sage K) (st : HState) (h : ℕ) : Except GErr HState := do
  let r ← hSimplify S st h
  let heap ← if st.gb ≠ [] then hInject S st.gb r.1 h else .ok r.1
  .ok { st with heap := heap, ghyps := st.ghyps ++ [h], gb := r.2 }

/-- `RCF_GD_Decide.promote_right` (`grf.sage:828-832`). -/
def hPromote (S : Sage K) (st : HState) (i : ℕ) : Except GErr HState :=
  match st.hyps[i]? with
  | none => .error .indexError
  | some h => hAddHyp S { st with hyps := st.hyps.take i ++ st.hyps.drop (i + 1) } h

/-- One round of `RCF_GD_Decide.check` (`grf.sage:947-1035`); nothing but the promotion changes objects. -/
def hRound (C : Core K) (n : ℕ) (st : HState) : Except GErr (List (List ℕ) × Option HState) := do
  let ds ← C.samples n st.vals
  let r ← allBads C n st.vals ds
  if r.1 then .ok ([], none)
  else do
    let cand ← goodHyps C st.vals r.2
    match sortCand st.vals cand with
    | [] => .error .indexError
    | i :: _ => do
      let st' ← hPromote C.toSage st i
      .ok (r.2, some st')

/-- `RCF_GD_Decide.check(interactive=False)` (`grf.sage:947-1035`) from round `n` on. -/
def hCheck (C : Core K) : ℕ → ℕ → HState → Except GErr (List (List ℕ) × HState)
  | 0, _, _ => .error .outOfFuel
  | fuel + 1, n, st => do
    let r ← hRound C n st
    match r.2 with
    | none => .ok (r.1, st)
    | some st' => do
      let out ← hCheck C fuel (n + 1) st'
      .ok (r.1, out.2)

/-- `RCF_Atom.negate` on objects (`grf.sage:79-93`, `smt2.py:139-141`). -/
def hNegateAll : List ℕ → List Atom → List Atom
  | [], heap => heap
  | i :: is, heap => hNegateAll is (heap.set i (getObj heap i).negate)

/-- `SMTContext.perform_grf` (`smt2.py:107-189`) with `interactive=False` on the objects `ante` and `succ` of the heap: the
numbers of the formulas to hide, computed with the identity of objects, and the heap afterwards. -/
def hPerformGrf (C : Core K) (heap : List Atom) (ante succ : List ℕ) :
    Except GErr ((List ℕ × List ℕ) × List Atom) :=
  match succ.reverse with
  | [] => .error .indexError
  | g :: rest => do
    let ante' := ante ++ rest
    let r ← hCheck C (ante'.length + 1) 0 ⟨hNegateAll rest heap, ante', g, [], []⟩
    .ok ((((List.range ante'.length).filter fun i => ante'.getD i 0 ∈ r.2.hyps),
      (List.range succ.length).filter fun j => succ.getD j 0 ∈ r.2.hyps), r.2.heap)

end

end Verif.Grf
