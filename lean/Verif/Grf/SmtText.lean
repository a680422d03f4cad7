import Verif.Grf.Smt2
import Verif.Grf.Interactive
import Verif.Vts.ParserModel
import Mathlib.Logic.Function.Basic

/-!
# Model of `GRF/smt2.py` from the characters of the file to the characters of the result

The grammar is written with `pyparsing`, as that of `vts/grf_parser.py`; the same remarks apply (`Vts/ParserModel.lean`):
elements skip white space before they match, except inside `Combine`; `|` takes the first alternative that matches; a
parse action runs as soon as its element has matched, also when the match is given up later. A position in the text is
represented by the rest of the text. Tabs are not expanded. The depth of the recursion is bounded by the length of the
text (in the program by the recursion limit, which is raised to `2 ** 20`).
-/

namespace Verif.Grf

open Verif.Vts (isWs skipWs isNum isAlpha digits1)

/-- Exceptions of `grf_on_file`. -/
inductive SErr
  /-- `ParseException` -/
  | syntax
  /-- exceptions of parse actions -/
  | act (e : IErr)
  /-- `TypeError`: `hiding_result` is `None` (`smt2.py:466-467`) -/
  | noResult
  /-- recursion limit -/
  | recursion
  deriving DecidableEq, Repr

/-- A parser with a state that parse actions change: it raises, or it fails, or it gives a value and the rest. -/
def SP (σ α : Type) : Type := σ → List Char → Except SErr (σ × Option (α × List Char))

instance (σ : Type) : Monad (SP σ) where
  pure a := fun st i => .ok (st, some (a, i))
  bind p f := fun st i =>
    match p st i with
    | .error e => .error e
    | .ok (st', none) => .ok (st', none)
    | .ok (st', some (a, r)) => f a st' r

section
variable {σ α : Type}

/-- `p | q` -/
def SP.alt (p q : SP σ α) : SP σ α := fun st i =>
  match p st i with
  | .error e => .error e
  | .ok (st', some x) => .ok (st', some x)
  | .ok (st', none) => q st' i

/-- An element without parse action. -/
def stok (f : List Char → Option (α × List Char)) : SP σ α := fun st i => .ok (st, f i)

/-- A parse action: it raises, or it returns a value and changes the state. -/
def saction (f : σ → Except SErr (α × σ)) : SP σ α := fun st i =>
  match f st with
  | .error e => .error e
  | .ok (a, st') => .ok (st', some (a, i))

/-- `Literal(s)` -/
def slit (s : List Char) : SP σ Unit := stok fun i =>
  if s.isPrefixOf (skipWs i) then some ((), (skipWs i).drop s.length) else none

/-- `Keyword(s)`: not followed by a letter, a digit, `_` or `$`. -/
def skw (s : List Char) : SP σ Unit := stok fun i =>
  if s.isPrefixOf (skipWs i) then
    match (skipWs i).drop s.length with
    | [] => some ((), [])
    | c :: r => if isAlpha c || isNum c || c == '_' || c == '$' then none else some ((), c :: r)
  else none

/-- `ZeroOrMore`, with a bound on the number of elements. -/
def smany (p : SP σ α) : ℕ → SP σ (List α)
  | 0 => fun _ _ => .error .recursion
  | n + 1 => fun st i =>
    match p st i with
    | .error e => .error e
    | .ok (st', none) => .ok (st', some ([], i))
    | .ok (st', some (a, r)) => (do let l ← smany p n; return a :: l : SP σ (List α)) st' r

/-- `str_sym` (`smt2.py:360`) -/
def squoted : SP σ (List Char) := stok fun i =>
  match skipWs i with
  | '"' :: r =>
    match r.dropWhile fun c => c != '"' with
    | [] => none
    | _ :: r' => some (r.takeWhile fun c => c != '"', r')
  | _ => none

end

/-- Characters of `Word(alphanums + "-._:")` (`smt2.py:362`). -/
def isWord (c : Char) : Bool := isAlpha c || isNum c || c == '-' || c == '.' || c == '_' || c == ':'

/-- the optional `~` after white space (`smt2.py:308`, `350`) -/
def optTilde (i : List Char) : Bool × List Char :=
  match skipWs i with
  | '~' :: r => (true, r)
  | r => (false, r)

/-- `real` without its parse action (`smt2.py:345-351`): the sign, the digits before and after the dot. There is no white
space inside `Combine`, nor before it. -/
def numTok (i : List Char) : Option ((Bool × List Char × List Char) × List Char) :=
  match digits1 (optTilde i).2 with
  | some (a, '.' :: r) =>
    match digits1 r with
    | some (b, r') => some (((optTilde i).1, a, b), r')
    | none => some (((optTilde i).1, a, []), r)
  | _ => none

/-- `var_or_const` without its parse action (`smt2.py:362`) -/
def wordTok (i : List Char) : Option (List Char × List Char) :=
  match skipWs i with
  | [] => none
  | c :: r => if isWord c then some (c :: r.takeWhile isWord, r.dropWhile isWord) else none

/-- What the program gets from Sage, and from its surroundings. -/
structure SmtEnv (K : Type) where
  /-- division and coercion into the polynomial ring (`proc_div`, `smt2.py:251-261`), `none` if that raises -/
  quot : MPoly → MPoly → Option MPoly
  /-- `doReal` (`smt2.py:337-343`): the constant made of the sign and the digits before and after the dot. (A whole number
  with leading zeros, where Sage may raise, is given some value here.) -/
  num : Bool → List Char → List Char → ℚ
  /-- the decision core in the run number `n`; it contains the random choices -/
  core : ℕ → Core K
  /-- Python's `int` on strings -/
  int : List Char → Option ℤ
  /-- What `perform_grf` leaves in `antecedent` and `succedent` of a context: the lists are extended and the atoms in them
  changed in place (`smt2.py:136-152`, `grf.sage`). It matters only if a context is used again without having read a
  sequent, see `SmtReader`. -/
  left : List Atom → List Atom → List Atom × List Atom

section
variable {K : Type} [Field K] [LinearOrder K]

/-- `number` (`smt2.py:364`, with `doReal`) -/
def numP (E : SmtEnv K) : SP Ctx MPoly := do
  let x ← stok numTok
  return .const (E.num x.1 x.2.1 x.2.2)

/-- `var_or_const` (`smt2.py:362`, with `proc_var_or_const`, `smt2.py:263-264`) -/
def wordP : SP Ctx MPoly := do
  let s ← stok wordTok
  saction fun c => .ok (.var (c.getVar (String.ofList s)).1, (c.getVar (String.ofList s)).2)

/-- `fn_div`, `fn_add`, `fn_mult`, `fn_sub` (`smt2.py:369-376`) -/
def sfn2 (op : Char) (f : MPoly → MPoly → Option MPoly) (term : SP Ctx MPoly) : SP Ctx MPoly := do
  slit ['(']
  slit [op]
  let a ← term
  let b ← term
  slit [')']
  saction fun c =>
    match f a b with
    | none => .error (.act (.loop .typeError))
    | some p => .ok (p, c)

/-- `fn_neg` (`smt2.py:377-378`) -/
def sfnNeg (term : SP Ctx MPoly) : SP Ctx MPoly := do
  slit ['(']
  slit ['-']
  let a ← term
  slit [')']
  return (MPoly.const 0).sub a

/-- `term`, `fn` (`smt2.py:380-381`), with `proc_div`, `proc_add`, `proc_mult`, `proc_sub`, `proc_unary_neg_fn`
(`smt2.py:239-261`). The second argument bounds the depth. -/
def sterm (E : SmtEnv K) : ℕ → SP Ctx MPoly
  | 0 => fun _ _ => .error .recursion
  | n + 1 =>
    (numP E).alt (wordP.alt ((sfn2 '/' E.quot (sterm E n)).alt
      ((sfn2 '+' (fun a b => some (a.add b)) (sterm E n)).alt
        ((sfn2 '*' (fun a b => some (a.mul b)) (sterm E n)).alt
          ((sfn2 '-' (fun a b => some (a.sub b)) (sterm E n)).alt (sfnNeg (sterm E n)))))))

/-- `rln_le` etc. (`smt2.py:385-396`) with their parse actions (`smt2.py:266-288`). The list `polys` of the context is only
printed; it is not modelled. -/
def srln (E : SmtEnv K) (sym : List Char) (op : String) (n : ℕ) : SP Ctx Atom := do
  slit ['(']
  skw sym
  let a ← sterm E n
  let b ← sterm E n
  slit [')']
  saction fun c =>
    match mkAtom a op b with
    | .error e => .error (.act (.loop e))
    | .ok x => .ok (x, c)

/-- `rln`, `fml` (`smt2.py:398-413`) -/
def sfml (E : SmtEnv K) (n : ℕ) : SP Ctx Atom :=
  (srln E ['<', '='] "<=" n).alt ((srln E ['<'] "<" n).alt ((srln E ['!', '='] "!=" n).alt ((srln E ['='] "=" n).alt
    ((srln E ['>', '='] ">=" n).alt (srln E ['>'] ">" n)))))

/-- A context (`SMTContext`, `smt2.py:39-57`). -/
structure Obj where
  ctx : Ctx
  ante : List Atom
  succ : List Atom
  /-- `sequent_str` -/
  name : List Char
  /-- `hiding_result` -/
  result : Option (List ℕ × List ℕ)
  interactive : Bool

/-- `SMTContext.__init__` (`smt2.py:40-57`); `k` and `epsilon` belong to the core. -/
def Obj.new (interactive : Bool) : Obj := ⟨Ctx.init, [], [], [], none, interactive⟩

/-- The contexts, the lines that will be typed in, and the number of runs so far. -/
structure SmtState where
  heap : ℕ → Obj
  lines : List (List Char)
  runs : ℕ

/-- Parse actions that work on one context. -/
def zoom {α : Type} (o : ℕ) (p : SP Ctx α) : SP SmtState α := fun st i =>
  match p (st.heap o).ctx i with
  | .error e => .error e
  | .ok (c, x) => .ok ({ st with heap := Function.update st.heap o { st.heap o with ctx := c } }, x)

/-- `SMTContext.perform_grf` (`smt2.py:107-189`) of the context number `o`; `name` is `t[1]`. -/
def performObj (E : SmtEnv K) (o : ℕ) (name : List Char) (st : SmtState) : Except SErr (Unit × SmtState) :=
  match seqState (st.heap o).ante (st.heap o).succ with
  | .error e => .error (.act (.loop e))
  | .ok s =>
    match iCheck (E.core st.runs) E.int (s.hyps.length + 1) 0 (st.heap o).interactive s st.lines with
    | .error e => .error (.act e)
    | .ok r =>
      .ok ((), {
        heap := Function.update st.heap o { st.heap o with
          ante := (E.left (st.heap o).ante (st.heap o).succ).1
          succ := (E.left (st.heap o).ante (st.heap o).succ).2
          name := name
          result := some (hideAnte s.hyps.length r.2.1.ids,
            hideSucc (st.heap o).ante.length (st.heap o).succ.length r.2.1.ids) }
        lines := r.2.2
        runs := st.runs + 1 })

/-- `cmd_antecedent`, `cmd_succedent` (`smt2.py:418-421`) up to their parse actions -/
def sside (E : SmtEnv K) (cur : ℕ) (kwd : List Char) (n : ℕ) : SP SmtState (List Atom) := do
  slit ['(']
  slit kwd
  let l ← smany (zoom cur (sfml E n)) n
  slit [')']
  return l

/-- `cmd` (`smt2.py:423-424`). The actions `proc_antecedent` and `proc_succedent` (`smt2.py:212-218`) and those for
formulas look up `self.context` (number `cur`) when they run; `perform_grf` is a method of the context that `self.context`
was when the grammar was made (number `own`). -/
def scmd (E : SmtEnv K) (cur own : ℕ) (n : ℕ) : SP SmtState Unit := do
  slit ['(']
  slit "sequent".toList
  let name ← squoted
  let a ← sside E cur "antecedent".toList n
  saction fun st => .ok ((), { st with heap := Function.update st.heap cur { st.heap cur with ante := a } })
  let s ← sside E cur "succedent".toList n
  saction fun st => .ok ((), { st with heap := Function.update st.heap cur { st.heap cur with succ := s } })
  slit [')']
  saction (performObj E own name)

/-- `cmds` (`smt2.py:425`): `ZeroOrMore` also stops when a parse action raises an `IndexError`. (What the actions have
changed before they raise is lost here; the call then ends with a `ParseException`.) The third argument bounds the number
of commands. -/
def scmds (E : SmtEnv K) (cur own n : ℕ) : ℕ → SmtState → List Char → Except SErr (SmtState × List Char)
  | 0, _, _ => .error .recursion
  | k + 1, st, i =>
    match scmd E cur own n st i with
    | .error e => if e = .act (.loop .indexError) then .ok (st, i) else .error e
    | .ok (st', none) => .ok (st', i)
    | .ok (st', some (_, r)) => scmds E cur own n k st' r

/-- `self.cmds.parseString(s, parseAll=True)` (`smt2.py:432`) -/
def parseCmds (E : SmtEnv K) (cur own : ℕ) (text : List Char) (st : SmtState) : Except SErr SmtState :=
  match scmds E cur own (text.length + 1) (text.length + 1) st text with
  | .error e => .error e
  | .ok (st', r) => if skipWs r = [] then .ok st' else .error .syntax

/-- `ParseSMT.fmlsTokenList` (`smt2.py:427-428`) -/
def fmlsTokenList (E : SmtEnv K) (cur : ℕ) (text : List Char) (st : SmtState) : Except SErr (List Atom × SmtState) :=
  match smany (zoom cur (sfml E (text.length + 1))) (text.length + 1) st text with
  | .error e => .error e
  | .ok (_, none) => .error .syntax
  | .ok (st', some (l, r)) => if skipWs r = [] then .ok (l, st') else .error .syntax

/-- A `ParseSMT` object: the number of its context, the number of the context whose `perform_grf` is the action of `cmd`,
and a number that is not in use. -/
structure SmtReader where
  cur : ℕ
  own : ℕ
  fresh : ℕ

/-- `ParseSMT(interactive=interactive)` (`smt2.py:193-198`), with the first context. -/
def SmtReader.new (interactive : Bool) (lines : List (List Char)) : SmtReader × SmtState :=
  (⟨0, 0, 1⟩, ⟨fun _ => Obj.new interactive, lines, 0⟩)

/-- `ParseSMT.clearContext` (`smt2.py:442-443`) -/
def SmtReader.clear (R : SmtReader) (st : SmtState) : SmtReader × SmtState :=
  (⟨R.fresh, R.own, R.fresh + 1⟩, { st with heap := Function.update st.heap R.fresh (Obj.new true) })

/-- `ParseSMT.processCommands` (`smt2.py:430-440`): the context that is returned, by number. If an exception is raised the
attribute `self.context` keeps the given context; that is not modelled. -/
def SmtReader.process (E : SmtEnv K) (R : SmtReader) (st : SmtState) (text : List Char) (context : Option ℕ) :
    Except SErr (ℕ × SmtState) :=
  match context with
  | none =>
    match parseCmds E R.cur R.own text st with
    | .error e => .error e
    | .ok st' => .ok (R.cur, st')
  | some o =>
    match parseCmds E o R.own text st with
    | .error e => .error e
    | .ok st' => .ok (o, st')

/-- `" ".join([pre + str(i) for i in l])` -/
def joinNums (pre : List Char) : List ℕ → List Char
  | [] => []
  | [i] => pre ++ Nat.toDigits 10 i
  | i :: l => pre ++ Nat.toDigits 10 i ++ ' ' :: joinNums pre l

/-- the result string (`smt2.py:471-474`) -/
def resultText (name : List Char) (a s : List ℕ) : List Char :=
  "(\"".toList ++ name ++ "\" (".toList ++ joinNums "hide_antecedent_".toList a ++ ") (".toList ++
    joinNums "hide_succedent_".toList s ++ "))".toList

/-- What `grf_on_file` does when it does not raise: the returned pair, and the contents of the output file if one is
written. -/
structure SmtOut where
  ret : ℕ × ℕ
  file : Option (List Char)
  deriving DecidableEq, Repr

/-- `grf_on_file` (`smt2.py:451-493`) on a file with the given text; `out` says whether a name for the output file is
given. Nothing is written before the last step. -/
def grfOnFile (E : SmtEnv K) (interactive : Bool) (out : Bool) (lines : List (List Char)) (text : List Char) :
    Except SErr SmtOut :=
  let R := SmtReader.new interactive lines
  match R.1.process E R.2 text none with
  | .error e => .error e
  | .ok (o, st) =>
    match (st.heap o).result with
    | none => .error .noResult
    | some (a, s) =>
      .ok ⟨(a.length, s.length), if out then some (resultText (st.heap o).name a s) else none⟩

end

end Verif.Grf
