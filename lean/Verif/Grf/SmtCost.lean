import Verif.Grf.SmtText

/-!
# Model of `GRF/smt2.py`: the number of parse actions

The parsers of `SmtText.lean` once more, with a counter beside the state: every parse action that runs adds one. An action
also counts if it raises, but then the counter is lost with the state. What the actions themselves do is not counted (in
particular not the decision loop that `perform_grf` runs). That the counter changes nothing is proved in
`PropsSmtCost.lean`.
-/

namespace Verif.Grf

open Verif.Vts (skipWs)

section
variable {σ α : Type}

/-- A parser that leaves the counter alone. -/
def uncounted (p : SP σ α) : SP (σ × ℕ) α := fun st i =>
  match p st.1 i with
  | .error e => .error e
  | .ok (s, x) => .ok ((s, st.2), x)

/-- A parse action begins. -/
def tick : SP (σ × ℕ) Unit := fun st i => .ok ((st.1, st.2 + 1), some ((), i))

end

section
variable {K : Type} [Field K] [LinearOrder K]

/-- `number` (`smt2.py:364`) -/
def wnum (E : SmtEnv K) : SP (Ctx × ℕ) MPoly := do
  let x ← stok numTok
  tick
  return .const (E.num x.1 x.2.1 x.2.2)

/-- `var_or_const` (`smt2.py:362`) -/
def wword : SP (Ctx × ℕ) MPoly := do
  let s ← stok wordTok
  tick
  uncounted (saction fun c => .ok (.var (c.getVar (String.ofList s)).1, (c.getVar (String.ofList s)).2))

/-- `fn_div`, `fn_add`, `fn_mult`, `fn_sub` (`smt2.py:369-376`) -/
def wfn2 (op : Char) (f : MPoly → MPoly → Option MPoly) (term : SP (Ctx × ℕ) MPoly) : SP (Ctx × ℕ) MPoly := do
  slit ['(']
  slit [op]
  let a ← term
  let b ← term
  slit [')']
  tick
  uncounted (saction fun c =>
    match f a b with
    | none => .error (.act (.loop .typeError))
    | some p => .ok (p, c))

/-- `fn_neg` (`smt2.py:377-378`) -/
def wfnNeg (term : SP (Ctx × ℕ) MPoly) : SP (Ctx × ℕ) MPoly := do
  slit ['(']
  slit ['-']
  let a ← term
  slit [')']
  tick
  return (MPoly.const 0).sub a

/-- `term`, `fn` (`smt2.py:380-381`) -/
def wterm (E : SmtEnv K) : ℕ → SP (Ctx × ℕ) MPoly
  | 0 => fun _ _ => .error .recursion
  | n + 1 =>
    (wnum E).alt (wword.alt ((wfn2 '/' E.quot (wterm E n)).alt
      ((wfn2 '+' (fun a b => some (a.add b)) (wterm E n)).alt
        ((wfn2 '*' (fun a b => some (a.mul b)) (wterm E n)).alt
          ((wfn2 '-' (fun a b => some (a.sub b)) (wterm E n)).alt (wfnNeg (wterm E n)))))))

/-- `rln_le` etc. (`smt2.py:385-396`) -/
def wrln (E : SmtEnv K) (sym : List Char) (op : String) (n : ℕ) : SP (Ctx × ℕ) Atom := do
  slit ['(']
  skw sym
  let a ← wterm E n
  let b ← wterm E n
  slit [')']
  tick
  uncounted (saction fun c =>
    match mkAtom a op b with
    | .error e => .error (.act (.loop e))
    | .ok x => .ok (x, c))

/-- `rln`, `fml` (`smt2.py:398-413`) -/
def wfml (E : SmtEnv K) (n : ℕ) : SP (Ctx × ℕ) Atom :=
  (wrln E ['<', '='] "<=" n).alt ((wrln E ['<'] "<" n).alt ((wrln E ['!', '='] "!=" n).alt ((wrln E ['='] "=" n).alt
    ((wrln E ['>', '='] ">=" n).alt (wrln E ['>'] ">" n)))))

/-- Parse actions that work on one context. -/
def wzoom {α : Type} (o : ℕ) (p : SP (Ctx × ℕ) α) : SP (SmtState × ℕ) α := fun st i =>
  match p ((st.1.heap o).ctx, st.2) i with
  | .error e => .error e
  | .ok (c, x) =>
    .ok (({ st.1 with heap := Function.update st.1.heap o { st.1.heap o with ctx := c.1 } }, c.2), x)

/-- `cmd_antecedent`, `cmd_succedent` (`smt2.py:418-421`) up to their parse actions -/
def wside (E : SmtEnv K) (cur : ℕ) (kwd : List Char) (n : ℕ) : SP (SmtState × ℕ) (List Atom) := do
  slit ['(']
  slit kwd
  let l ← smany (wzoom cur (wfml E n)) n
  slit [')']
  return l

/-- `cmd` (`smt2.py:423-424`) -/
def wcmd (E : SmtEnv K) (cur own : ℕ) (n : ℕ) : SP (SmtState × ℕ) Unit := do
  slit ['(']
  slit "sequent".toList
  let name ← squoted
  let a ← wside E cur "antecedent".toList n
  tick
  uncounted (saction fun st =>
    .ok ((), { st with heap := Function.update st.heap cur { st.heap cur with ante := a } }))
  let s ← wside E cur "succedent".toList n
  tick
  uncounted (saction fun st =>
    .ok ((), { st with heap := Function.update st.heap cur { st.heap cur with succ := s } }))
  slit [')']
  tick
  uncounted (saction (performObj E own name))

/-- `cmds` (`smt2.py:425`), as `scmds` -/
def wcmds (E : SmtEnv K) (cur own n : ℕ) :
    ℕ → SmtState × ℕ → List Char → Except SErr ((SmtState × ℕ) × List Char)
  | 0, _, _ => .error .recursion
  | k + 1, st, i =>
    match wcmd E cur own n st i with
    | .error e => if e = .act (.loop .indexError) then .ok (st, i) else .error e
    | .ok (st', none) => .ok (st', i)
    | .ok (st', some (_, r)) => wcmds E cur own n k st' r

/-- `self.cmds.parseString(s, parseAll=True)` (`smt2.py:432`): the state and the number of parse actions -/
def wparseCmds (E : SmtEnv K) (cur own : ℕ) (text : List Char) (st : SmtState) : Except SErr (SmtState × ℕ) :=
  match wcmds E cur own (text.length + 1) (text.length + 1) (st, 0) text with
  | .error e => .error e
  | .ok (st', r) => if skipWs r = [] then .ok st' else .error .syntax

/-- `ParseSMT.fmlsTokenList` (`smt2.py:427-428`): the formulas, the state and the number of parse actions -/
def wfmlsTokenList (E : SmtEnv K) (cur : ℕ) (text : List Char) (st : SmtState) :
    Except SErr (List Atom × SmtState × ℕ) :=
  match smany (wzoom cur (wfml E (text.length + 1))) (text.length + 1) (st, 0) text with
  | .error e => .error e
  | .ok (_, none) => .error .syntax
  | .ok (st', some (l, r)) => if skipWs r = [] then .ok (l, st') else .error .syntax

end

end Verif.Grf
