import Verif.Grf.Search

/-!
# Model of the functions of `GRF/local_search.py` that `local_search_sampling` does not call

`softzero_sample`, `choose_atom_softzero`, `truth_sig`, `get_num_falsifying_func`, `get_symb_flipping_func`, `sign`, and
`RCF_CHK.k_sample_points_in_ball` of `GRF/grf.sage`, which was used before local search.
-/

namespace Verif.Grf

variable {K : Type} [Field K] [LinearOrder K]

/-- The exceptions of these functions. -/
inductive SoftErr
  /-- `ZeroDivisionError` -/
  | zeroDivision
  /-- `NameError` -/
  | nameError
  /-- an exception of the functions that are called -/
  | base (e : GErr)
  deriving DecidableEq, Repr

/-- The operations on floating point numbers that `softzero_sample` uses. Nothing is assumed about them here, so that
they may round. -/
structure FloatOps (N : Type) where
  zero : N
  add : N → N → N
  sub : N → N → N
  /-- `none`: `ZeroDivisionError` -/
  div : N → N → Option N
  /-- `math.exp(-abs(f))` -/
  expAbs : N → N
  /-- `a > b` -/
  gt : N → N → Bool

/-- `[p / Z for p in expF]` (`local_search.py:31`) -/
def divAll {N : Type} (O : FloatOps N) (z : N) : List N → Except SoftErr (List N)
  | [] => .ok []
  | p :: ps =>
    match O.div p z with
    | none => .error .zeroDivision
    | some q => do
      let qs ← divAll O z ps
      .ok (q :: qs)

/-- The loop `local_search.py:34-38`: `i` is the loop variable, `none` if the loop ends. -/
def softLoop {N : Type} (O : FloatOps N) : ℕ → N → List N → Option ℕ
  | _, _, [] => none
  | i, r, p :: ps => if O.gt r p then softLoop O (i + 1) (O.sub r p) ps else some i

/-- `softzero_sample` (`local_search.py:28-39`); `r` is the result of `random.random()`. -/
def softzeroSample {N : Type} (O : FloatOps N) (r : N) (F : List N) : Except SoftErr ℕ := do
  let expF := F.map O.expAbs
  let z := expF.foldl O.add O.zero
  let P ← divAll O z expF
  .ok ((softLoop O 0 r P).getD (F.length - 1))

/-- `get_all_hyp_atoms` (`grf.sage:797-798`) -/
def State.allHyps (s : State) : List Atom := s.hyps ++ s.goal.hyps

/-- `[a.poly.substitute(D) for a in Atoms]` (`local_search.py:86`), as numbers: a polynomial of which not all variables
have values stays a polynomial, and `math.exp` raises `TypeError` for it (`local_search.py:29`). -/
def atomValues (order : Option (List ℕ)) (x : List K) : List Atom → Except SoftErr (List K)
  | [] => .ok []
  | a :: as =>
    match evalPoly order a.poly x with
    | .error e => .error (.base e)
    | .ok v => do
      let vs ← atomValues order x as
      .ok (v :: vs)

/-- `choose_atom_softzero` (`local_search.py:83-88`); `r` is the result of `random.random()`. -/
def chooseSoftzero (O : FloatOps K) (r : K) (order : Option (List ℕ)) (s : State) (x : List K) : Except SoftErr Atom :=
  match vect2dict order x with
  | .error e => .error (.base e)
  | .ok _ => do
    let vs ← atomValues order x s.allHyps
    let i ← softzeroSample O r vs
    match s.allHyps[i]? with
    | none => .error (.base .indexError)
    | some a => .ok a

/-- `truth_sig` (`local_search.py:78-80`): `none` in the list stands for Python's `None`. -/
def truthSig (S : Sage K) (s : State) (d : Dict K) : Except GErr (List (Option Bool)) :=
  s.allHyps.mapM fun a => a.evalOnDict S d

/-- The global variable `ineq_eps` of the module `local_search`: there is no assignment to it. -/
def ineqEps : Option K := none

/-- `get_num_falsifying_func` (`local_search.py:111-123`): the returned function. `eps` is the value of the global
variable `ineq_eps`, `c` the result of `random.choice([-1,0,1])`, and `n = len(x)`. -/
def falsifyFunc (eps : Option K) (c : K) (order : Option (List ℕ)) (a : Atom) (n : ℕ) :
    Except SoftErr (List K → Except GErr (List K)) :=
  match eps with
  | none => .error .nameError
  | some e =>
    .ok (flipFunc order a n
      (if a.op = .lt ∨ a.op = .le then -e else if a.op = .gt ∨ a.op = .ge then e else e * c))

/-- `get_symb_flipping_func` (`local_search.py:142-149`): a polynomial. The margin is added to the polynomial of the atom
as a rational number. -/
def symbFlip (order : Option (List ℕ)) (a : Atom) (x : List ℚ) (margin : ℚ) (side : Bool) : Except GErr MPoly := do
  let v ← evalPoly order a.poly x
  let q := a.poly.add (MPoly.const (flipEps margin side v))
  .ok (q.mul q)

/-- `sign` (`local_search.py:19-22`); the result of `math.copysign(1, x)`. -/
def signF (x : K) : K := if x = 0 then 0 else if x < 0 then -1 else 1

/-- `k_sample_points_in_ball` (`grf.sage:817-826`); `u n v` is the number `random.uniform(-epsilon, epsilon)` for variable
`v` of point `n`. -/
def ballPoints (u : ℕ → ℕ → K) (d : Dict K) (k : ℕ) : List (Dict K) :=
  (List.range k).map fun n => d.map fun e => (e.1, e.2 + u n e.1)

end Verif.Grf
