import Verif.Grf.Model

/-!
# Model of `GRF/smt2.py`: reading sequents and reporting the formulas to hide
-/

namespace Verif.Grf

/-- The part of `SMTContext` (`smt2.py:40-58`) that names variables: the number of generators of the
current polynomial ring (`len(self.x)`) and `var_map`, which maps names to generators. A generator is
represented by its number; the coercion `self.QEF.R(...)` into the ring with one more generator maps the generator
`x_i` to the generator `x_i` (the names of the generators are equal), so it does not change the number. -/
structure Ctx where
  gens : ℕ
  varMap : List (String × ℕ)
  deriving DecidableEq, Repr

/-- `SMTContext.__init__` (`smt2.py:41-43`). -/
def Ctx.init : Ctx := ⟨1, []⟩

/-- `SMTContext.get_ring_var` (`smt2.py:60-81`). -/
def Ctx.getVar (c : Ctx) (s : String) : ℕ × Ctx :=
  match c.varMap.lookup s with
  | some i => (i, c)
  | none =>
    if c.varMap.length < c.gens then
      (c.varMap.length, { c with varMap := (s, c.varMap.length) :: c.varMap })
    else (c.gens, ⟨c.gens + 1, (s, c.gens) :: c.varMap⟩)

/-- Several requests (`smt2.py:60-81`). -/
def Ctx.getVars (c : Ctx) : List String → List ℕ × Ctx
  | [] => ([], c)
  | s :: ss =>
    let r := c.getVar s
    let r' := r.2.getVars ss
    (r.1 :: r'.1, r'.2)

/-- The terms of the grammar (`smt2.py:352-381`). `num` is a numeral (which must contain a dot), with the value
that `doReal` (`smt2.py:337-343`) gives it; `word` is any other word of letters, digits and `-._:`. A parse tree is
the input here: the layout of the text is not modelled. -/
inductive Tm
  | num (q : ℚ)
  | word (s : String)
  | add (a b : Tm)
  | mul (a b : Tm)
  | sub (a b : Tm)
  | neg (a : Tm)
  | div (a b : Tm)
  deriving DecidableEq, Repr

/-- The formulas of the grammar (`smt2.py:383-413`). -/
structure Fm where
  op : Op
  lhs : Tm
  rhs : Tm
  deriving DecidableEq, Repr

/-- The parse actions for terms (`smt2.py:239-264`). `quot` is the division followed by the coercion back
into the polynomial ring, `none` if that raises (`smt2.py:251-261`). -/
def readTm (quot : MPoly → MPoly → Option MPoly) (c : Ctx) : Tm → Except GErr (MPoly × Ctx)
  | .num q => .ok (.const q, c)
  | .word s => .ok (.var (c.getVar s).1, (c.getVar s).2)
  | .add a b => do
    let r ← readTm quot c a
    let r' ← readTm quot r.2 b
    .ok (r.1.add r'.1, r'.2)
  | .mul a b => do
    let r ← readTm quot c a
    let r' ← readTm quot r.2 b
    .ok (r.1.mul r'.1, r'.2)
  | .sub a b => do
    let r ← readTm quot c a
    let r' ← readTm quot r.2 b
    .ok (r.1.sub r'.1, r'.2)
  | .neg a => do
    let r ← readTm quot c a
    .ok ((MPoly.const 0).sub r.1, r.2)
  | .div a b => do
    let r ← readTm quot c a
    let r' ← readTm quot r.2 b
    match quot r.1 r'.1 with
    | none => .error .typeError
    | some q => .ok (q, r'.2)

/-- the string of a relation symbol in the parse actions (`smt2.py:265-287`) -/
def Op.toString : Op → String
  | .gt => ">"
  | .lt => "<"
  | .le => "<="
  | .ge => ">="
  | .eq => "="
  | .ne => "!="

/-- The parse actions for formulas (`smt2.py:265-287`). -/
def readFm (quot : MPoly → MPoly → Option MPoly) (c : Ctx) (f : Fm) : Except GErr (Atom × Ctx) := do
  let l ← readTm quot c f.lhs
  let r ← readTm quot l.2 f.rhs
  let a ← mkAtom l.1 f.op.toString r.1
  .ok (a, r.2)

/-- A list of formulas (`smt2.py:414-421`). -/
def readFms (quot : MPoly → MPoly → Option MPoly) (c : Ctx) : List Fm → Except GErr (List Atom × Ctx)
  | [] => .ok ([], c)
  | f :: fs => do
    let r ← readFm quot c f
    let r' ← readFms quot r.2 fs
    .ok (r.1 :: r'.1, r'.2)

section
variable {K : Type} [Field K] [LinearOrder K]

/-- The problem that `perform_grf` gives to the decision loop (`smt2.py:136-152`): the last formula of the succedent is
the goal, the negations of the others are appended to the antecedent. -/
def seqState (ante succ : List Atom) : Except GErr State :=
  match succ.reverse with
  | [] => .error .indexError
  | g :: rest =>
    .ok ⟨ante ++ rest.map Atom.negate, ⟨g, [], []⟩, List.range (ante ++ rest.map Atom.negate).length⟩

/-- `hide_antecedent` (`smt2.py:167-174`): the loop is over `self.antecedent`, to which the negated formulas have been
appended; `n` is its length. -/
def hideAnte (n : ℕ) (ids : List ℕ) : List ℕ := (List.range n).filter fun i => i ∈ ids

/-- `hide_succedent` (`smt2.py:176-184`): the loop is over the succedent in the original order (length `m`); its
formula number `j < m - 1` is the object number `a + (m - 2 - j)` of the extended antecedent (`a` is the length of the
given antecedent), and the last one, the goal, is not a hypothesis. -/
def hideSucc (a m : ℕ) (ids : List ℕ) : List ℕ :=
  (List.range m).filter fun j => decide (j + 1 < m) && decide (a + (m - 2 - j) ∈ ids)

/-- `SMTContext.perform_grf` (`smt2.py:107-189`), with `interactive=False`: the numbers of the formulas of the antecedent
and of the succedent that can be hidden. The coercions of the hypotheses into the final ring (`update_ring`) do not
change the polynomials of the model. -/
def performGrf (C : Core K) (ante succ : List Atom) : Except GErr (List ℕ × List ℕ) := do
  let st ← seqState ante succ
  let r ← check C (st.hyps.length + 1) 0 st
  .ok (hideAnte st.hyps.length r.2.ids, hideSucc ante.length succ.length r.2.ids)

/-- The command `(sequent "..." (antecedent ...) (succedent ...))` (`smt2.py:418-425`) in a given context. -/
def runSequent (quot : MPoly → MPoly → Option MPoly) (C : Core K) (c : Ctx) (ante succ : List Fm) :
    Except GErr (List ℕ × List ℕ) := do
  let a ← readFms quot c ante
  let s ← readFms quot a.2 succ
  performGrf C a.1 s.1

end

end Verif.Grf
