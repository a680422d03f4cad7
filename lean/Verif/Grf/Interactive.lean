import Verif.Grf.Model

/-!
# Model of the interactive mode of `RCF_GD_Decide.check` (`GRF/grf.sage`)

The lines typed in are a list; reading past its end raises `EOFError`. What is printed is not modelled. The `try` block
also covers `promote_right`; none of the exceptions modelled there is a `ValueError`, so that it is not caught.
-/

namespace Verif.Grf

/-- Exceptions of the interactive mode. -/
inductive IErr
  /-- exceptions of the loop -/
  | loop (e : GErr)
  /-- `raw_input` at the end of the input -/
  | eof
  deriving DecidableEq, Repr

/-- exceptions of the loop -/
def liftG {α : Type} : Except GErr α → Except IErr α
  | .ok a => .ok a
  | .error e => .error (.loop e)

section
variable {K : Type} [Field K] [LinearOrder K] [IsStrictOrderedRing K]

/-- What a line asks for (`grf.sage:984-1017`, after `i.lower()`). -/
inductive Cmd
  /-- `s`: print a suggestion -/
  | suggest
  /-- `go`: automatic mode -/
  | go
  /-- `b`, `p`: print bad sets, or the sequent -/
  | info
  /-- a number -/
  | promote (h : ℤ)
  /-- `ValueError` of `int(i)` -/
  | invalid
  deriving DecidableEq, Repr

/-- `grf.sage:984-1017`; `int` is Python's function of this name on strings, `none` if it raises `ValueError`. -/
def readCmd (int : List Char → Option ℤ) (line : List Char) : Cmd :=
  let i := line.map Char.toLower
  if i = ['s'] then .suggest
  else if i = ['g', 'o'] then .go
  else if i = ['b'] then .info
  else if i = ['p'] then .info
  else match int i with
    | some h => .promote h
    | none => .invalid

/-- the element access of the sort key (`grf.sage:990`) -/
def suggestion (C : Core K) (st : State) (bads : List (List ℕ)) : Except GErr Unit := do
  let cand ← goodHyps C st bads
  if cand.length > 1 ∧ ¬ cand.all (fun h => decide (h < st.hyps.length)) then .error .indexError else .ok ()

/-- The `while` loop (`grf.sage:981-1017`): the state with one more hypothesis promoted, the new value of
`interactive` and the lines that are left. -/
def prompt (C : Core K) (int : List Char → Option ℤ) (st : State) (bads : List (List ℕ)) :
    List (List Char) → Except IErr (State × Bool × List (List Char))
  | [] => .error .eof
  | line :: rest =>
    match readCmd int line with
    | .suggest => do
      liftG (suggestion C st bads)
      prompt C int st bads rest
    | .go => do
      let cand ← liftG (goodHyps C st bads)
      match sortCand st cand with
      | [] => .error (.loop .indexError)
      | i :: _ => do
        let st' ← liftG (st.promote C.toSage i)
        .ok (st', false, rest)
    | .info => prompt C int st bads rest
    | .promote h =>
      if 0 ≤ h ∧ h < st.hyps.length then do
        let st' ← liftG (st.promote C.toSage h.toNat)
        .ok (st', true, rest)
      else prompt C int st bads rest
    | .invalid => prompt C int st bads rest

/-- `RCF_GD_Decide.check` (`grf.sage:947-1035`) with the argument `interactive`, from round `n` on: the returned value,
the final state and the lines that are left. -/
def iCheck (C : Core K) (int : List Char → Option ℤ) : ℕ → ℕ → Bool → State → List (List Char) →
    Except IErr (List (List ℕ) × State × List (List Char))
  | 0, _, _, _, _ => .error (.loop .outOfFuel)
  | fuel + 1, n, true, st, lines => do
    let ds ← liftG (C.samples n st)
    let r ← liftG (allBads C n st ds)
    if r.1 then .ok ([], st, lines)
    else do
      let p ← prompt C int st r.2 lines
      let out ← iCheck C int fuel (n + 1) p.2.1 p.1 p.2.2
      .ok (r.2, out.2)
  | fuel + 1, n, false, st, lines => do
    let r ← liftG (check C (fuel + 1) n st)
    .ok (r.1, r.2, lines)

end

end Verif.Grf
