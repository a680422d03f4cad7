import Verif.Vts.CheckerModel

/-!
# Model of `vts/grf_parser.py` and of `parse_files_from_dir` (`vts/examples_parser.py`)

The grammar is written with `pyparsing`. Elements skip white space before they match, except inside `Combine`; `|` takes
the first alternative that matches; a parse action runs as soon as its element has matched, also when the match is given
up later. A position in the text is represented by the rest of the text. The model does not expand tabs, and it leaves
white space that an optional element skips without matching to the next element. The depth of the recursion is bounded by
the length of the text (in the program by the recursion limit).
-/

namespace Verif.Vts

/-- The terms built by the parse actions. sympy simplifies the corresponding expressions; the model keeps them as they
are. Decimals have their exact value (in the program they are floating point numbers). -/
inductive Tm
  | int (z : ℤ)
  | dec (q : ℚ)
  | var (name : List Char)
  | add (a b : Tm)
  | mul (a b : Tm)
  | sub (a b : Tm)
  | div (a b : Tm)
  | neg (a : Tm)
deriving DecidableEq

/-- The globals of the module `grf_parser` that are looked up when files are read: `sympy` by the parse actions
(`grf_parser.py:4-32`) and `cmd` by `parse_files_from_dir` (`examples_parser.py:205`). -/
def moduleGlobals : List (List Char) := ["sympy".toList, "cmd".toList]

/-- The state changed by parse actions: those of the `moduleGlobals` that denote symbols (`sympy.var` injects the symbol
into the globals of its caller, the module `grf_parser`), and the number of calls of `doReal`, `doInt`, `doVariable`. -/
structure PSt where
  shadowed : List (List Char)
  acts : ℕ
deriving DecidableEq

/-- A parser: it raises, or it fails, or it gives a value and the rest of the text. -/
def Parser (α : Type) : Type := PSt → List Char → Except Err (PSt × Option (α × List Char))

instance : Monad Parser where
  pure a := fun st i => .ok (st, some (a, i))
  bind p f := fun st i =>
    match p st i with
    | .error e => .error e
    | .ok (st', none) => .ok (st', none)
    | .ok (st', some (a, r)) => f a st' r

/-- `p | q` -/
def Parser.alt {α : Type} (p q : Parser α) : Parser α := fun st i =>
  match p st i with
  | .error e => .error e
  | .ok (st', some x) => .ok (st', some x)
  | .ok (st', none) => q st' i

/-- A parser without parse actions. -/
def tok {α : Type} (f : List Char → Option (α × List Char)) : Parser α := fun st i => .ok (st, f i)

/-- default white space of `pyparsing` -/
def isWs (c : Char) : Bool := c == ' ' || c == '\n' || c == '\t' || c == '\r'

def skipWs (i : List Char) : List Char := i.dropWhile isWs

/-- `pyp.nums` -/
def isNum (c : Char) : Bool := decide ('0'.toNat ≤ c.toNat ∧ c.toNat ≤ '9'.toNat)

/-- `pyp.alphas` -/
def isAlpha (c : Char) : Bool :=
  decide ('a'.toNat ≤ c.toNat ∧ c.toNat ≤ 'z'.toNat) || decide ('A'.toNat ≤ c.toNat ∧ c.toNat ≤ 'Z'.toNat)

/-- The first character of a variable (`grf_parser.py:62`). -/
def isVar1 (c : Char) : Bool := isAlpha c || c == '_'

/-- The other characters of a variable (`grf_parser.py:62`). -/
def isVar (c : Char) : Bool := isAlpha c || isNum c || c == '_'

/-- `pyp.Literal(s)` -/
def lit (s : List Char) : Parser Unit := tok fun i =>
  if s.isPrefixOf (skipWs i) then some ((), (skipWs i).drop s.length) else none

/-- `pyp.Keyword(s)`: not followed by a character of an identifier (`$` is one). -/
def kw (s : List Char) : Parser Unit := tok fun i =>
  if s.isPrefixOf (skipWs i) then
    match (skipWs i).drop s.length with
    | [] => some ((), [])
    | c :: r => if isVar c || c == '$' then none else some ((), c :: r)
  else none

/-- `pyp.Word(pyp.nums)` without skipping white space -/
def digits1 (i : List Char) : Option (List Char × List Char) :=
  match i with
  | [] => none
  | c :: r => if isNum c then some (c :: r.takeWhile isNum, r.dropWhile isNum) else none

/-- The value of a string of digits. -/
def digitsVal (ds : List Char) : ℕ := ds.foldl (fun n c => 10 * n + (c.toNat - '0'.toNat)) 0

/-- an optional minus sign (`lit_unary_neg`, `grf_parser.py:39`) after white space -/
def optNeg (i : List Char) : Bool × List Char :=
  match skipWs i with
  | '-' :: r => (true, r)
  | r => (false, r)

/-- the sign -/
def signed {α : Type} [Neg α] (neg : Bool) (a : α) : α := if neg then -a else a

/-- `real` without its parse action (`grf_parser.py:44-46`): there is no white space inside `Combine`, nor before it. -/
def realTok (i : List Char) : Option (Tm × List Char) :=
  match digits1 (optNeg i).2 with
  | some (a, '.' :: r) =>
    match digits1 r with
    | some (b, r') => some (.dec (signed (optNeg i).1 (digitsVal a + digitsVal b / 10 ^ b.length)), r')
    | none => none
  | _ => none

/-- the optional dot of `int` -/
def optDot (i : List Char) : List Char :=
  match skipWs i with
  | '.' :: r => r
  | _ => i

/-- `int` without its parse action (`grf_parser.py:41-42`). -/
def intTok (i : List Char) : Option (Tm × List Char) :=
  match digits1 (skipWs (optNeg i).2) with
  | some (a, r) => some (.int (signed (optNeg i).1 (digitsVal a : ℤ)), optDot r)
  | none => none

/-- `variable` without its parse action (`grf_parser.py:62`). -/
def varTok (i : List Char) : Option (List Char × List Char) :=
  match skipWs i with
  | [] => none
  | c :: r => if isVar1 c then some (c :: r.takeWhile isVar, r.dropWhile isVar) else none

/-- A parse action that uses the global name `sympy`: `AttributeError` if it denotes a symbol. -/
def useSympy (leaf : Bool) : Parser Unit := fun st i =>
  if "sympy".toList ∈ st.shadowed then .error .typeError
  else .ok (⟨st.shadowed, if leaf then st.acts + 1 else st.acts⟩, some ((), i))

/-- `sympy.var(name)` (`grf_parser.py:17-18`) -/
def sympyVar (name : List Char) : Parser Unit := fun st i =>
  .ok (⟨if name ∈ moduleGlobals then name :: st.shadowed else st.shadowed, st.acts⟩, some ((), i))

/-- `real` (`grf_parser.py:44-46`) with `doReal` (`grf_parser.py:4-8`). -/
def realP : Parser Tm := do
  let t ← tok realTok
  useSympy true
  return t

/-- `int` (`grf_parser.py:41-42`) with `doInt` (`grf_parser.py:10-14`). -/
def intP : Parser Tm := do
  let t ← tok intTok
  useSympy true
  return t

/-- `variable` (`grf_parser.py:62-63`) with `doVariable` (`grf_parser.py:17-18`). -/
def varP : Parser Tm := do
  let s ← tok varTok
  useSympy true
  sympyVar s
  return .var s

/-- `fn_add`, `fn_mult`, `fn_sub`, `fn_div` (`grf_parser.py:74-81`) -/
def fn2 (op : Char) (mk : Tm → Tm → Tm) (term : Parser Tm) : Parser Tm := do
  lit ['(']
  lit [op]
  let a ← term
  let b ← term
  lit [')']
  return mk a b

/-- `fn_neg` (`grf_parser.py:82-83`) -/
def fnNeg (term : Parser Tm) : Parser Tm := do
  lit ['(']
  lit ['-']
  let a ← term
  lit [')']
  return .neg a

/-- `term` (`grf_parser.py:86-87`), `var_or_number` (`grf_parser.py:65`), `number` (`grf_parser.py:53`). The first
argument bounds the depth. -/
def term : ℕ → Parser Tm
  | 0 => fun _ _ => .error .recursion
  | n + 1 =>
    (realP.alt intP).alt varP |>.alt
      ((fn2 '+' .add (term n)).alt ((fn2 '*' .mul (term n)).alt ((fn2 '-' .sub (term n)).alt
        ((fn2 '/' .div (term n)).alt (fnNeg (term n))))))

/-- `rln_le` etc. (`grf_parser.py:96-107`) with their parse actions (`grf_parser.py:21-32`). -/
def rln (k : List Char) (kind : RelKind) (n : ℕ) : Parser (Rel Tm) := do
  lit ['(']
  kw k
  let a ← term n
  let b ← term n
  lit [')']
  useSympy false
  return ⟨kind, a, b⟩

/-- `rln`, `fml` (`grf_parser.py:109-114`). -/
def fml (n : ℕ) : Parser (Rel Tm) :=
  (rln ['<', '='] .le n).alt ((rln ['<'] .lt n).alt ((rln ['='] .eq n).alt ((rln ['!', '='] .ne n).alt
    ((rln ['>', '='] .ge n).alt (rln ['>'] .gt n)))))

/-- `pyp.ZeroOrMore`, with a bound on the number of elements. -/
def many {α : Type} (p : Parser α) : ℕ → Parser (List α)
  | 0 => fun _ _ => .error .recursion
  | n + 1 => fun st i =>
    match p st i with
    | .error e => .error e
    | .ok (st', none) => .ok (st', some ([], i))
    | .ok (st', some (a, r)) => (do let l ← many p n; return a :: l : Parser (List α)) st' r

/-- `pyp.QuotedString(quoteChar='"', multiline=True)` (`grf_parser.py:34`) -/
def quoted : Parser (List Char) := tok fun i =>
  match skipWs i with
  | '"' :: r =>
    match r.dropWhile fun c => c != '"' with
    | [] => none
    | _ :: r' => some (r.takeWhile fun c => c != '"', r')
  | _ => none

/-- A parsed sequent. -/
structure Sequent where
  name : List Char
  ante : List (Rel Tm)
  succ : List (Rel Tm)
deriving DecidableEq

/-- `cmd_antecedent`, `cmd_succedent` (`grf_parser.py:116-119`) -/
def side (s : List Char) (n : ℕ) : Parser (List (Rel Tm)) := do
  lit ['(']
  lit s
  let l ← many (fml n) n
  lit [')']
  return l

/-- `cmd` (`grf_parser.py:120`) -/
def cmd (n : ℕ) : Parser Sequent := do
  lit ['(']
  lit "sequent".toList
  let name ← quoted
  let a ← side "antecedent".toList n
  let s ← side "succedent".toList n
  lit [')']
  return ⟨name, a, s⟩

/-- `gparser.cmd.scanString(content)` (`examples_parser.py:205`): where `cmd` does not match the next position is tried.
The third argument bounds the number of steps. -/
def scan (n : ℕ) : ℕ → PSt → List Char → Except Err (PSt × List Sequent)
  | 0, _, _ => .error .recursion
  | k + 1, st, i =>
    match cmd n st (skipWs i) with
    | .error e => .error e
    | .ok (st', some (s, r)) =>
      match scan n k st' r with
      | .error e => .error e
      | .ok (st'', l) => .ok (st'', s :: l)
    | .ok (st', none) =>
      match skipWs i with
      | [] => .ok (st', [])
      | _ :: r => scan n k st' r

/-- The sequents of a file (`examples_parser.py:198-208`); a symbol has no attribute `scanString`. -/
def parseFile (st : PSt) (text : List Char) : Except Err (PSt × List Sequent) :=
  if "cmd".toList ∈ st.shadowed then .error .typeError
  else scan (text.length + 1) (text.length + 1) st text

/-- `parse_files_from_dir` (`examples_parser.py:180-211`) for the files in the order of `os.walk`, by name; the result is a
dictionary. -/
def parseFiles : PSt → List (List Char × List Char) → List (List Char × List Sequent) →
    Except Err (PSt × List (List Char × List Sequent))
  | st, [], ret => .ok (st, ret)
  | st, (name, text) :: files, ret =>
    match parseFile st text with
    | .error e => .error e
    | .ok (st', l) => parseFiles st' files (dictSet ret name l)

end Verif.Vts
