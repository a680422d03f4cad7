import Verif.Grf.Model

/-!
# Model of `GRF/local_search.py`

The functions that are not called (`sign`, `softzero_sample`, `truth_sig`, `choose_atom_softzero`,
`get_num_falsifying_func`, `get_symb_flipping_func`) are in `Grf/Soft.lean`. The numbers are those of a field `K`, not floating point numbers.
-/

namespace Verif.Grf

variable {K : Type} [Field K] [LinearOrder K]

/-- `VarOrder.var_order` (`local_search.py:45-49`). The argument is the class variable `VarOrder.order`, the result its
new value, which is also returned by the function. -/
def varOrder (order : Option (List ℕ)) (d : Dict K) : List ℕ :=
  match order with
  | none => d.map Prod.fst
  | some [] => d.map Prod.fst
  | some (v :: vs) => v :: vs

/-- the values of the given variables -/
def lookupAll (d : Dict K) : List ℕ → Except GErr (List K)
  | [] => .ok []
  | v :: vs =>
    match d.lookup v with
    | none => .error .keyError
    | some x => do
      let r ← lookupAll d vs
      .ok (x :: r)

/-- `VarOrder.dict2vect` (`local_search.py:50-53`): the vector and the new value of `VarOrder.order`. -/
def dict2vect (order : Option (List ℕ)) (d : Dict K) : Except GErr (List K × List ℕ) := do
  let v ← lookupAll d (varOrder order d)
  .ok (v, varOrder order d)

/-- `VarOrder.vect2dict` (`local_search.py:54-63`). The keys of `VarOrder.order` are different from each other, as they
are the keys of a dictionary. -/
def vect2dict (order : Option (List ℕ)) (v : List K) : Except GErr (Dict K) :=
  match order with
  | none => .error .assertion
  | some o => if o = [] ∨ v.length ≠ o.length then .error .assertion else .ok (o.zip v)

/-- What the model does not compute itself. -/
structure Search (K : Type) where
  /-- `random.uniform(-e, e)` for the initial points: number of the point, variable -/
  noise₀ : ℕ → ℕ → K
  /-- `random.uniform(-e, e)` for the points found later: repetition, position in the chain, number of the point,
  coordinate -/
  noise : ℕ → ℕ → ℕ → ℕ → K
  /-- `random.choice` among `len` elements: repetition, position in the chain, `len` -/
  pick : ℕ → ℕ → ℕ → ℕ
  /-- `random.choice([-1,1])` -/
  side : ℕ → ℕ → Bool
  /-- `sp_opt.fsolve(f, x, xtol=1e-3)` -/
  fsolve : ℕ → ℕ → (List K → Except GErr (List K)) → List K → Except GErr (List K)

/-- `perturb_dict` (`local_search.py:71-75`). -/
def perturbDict (u : ℕ → K) (d : Dict K) : Dict K := d.map fun e => (e.1, e.2 + u e.1)

/-- `perturb` (`local_search.py:66-69`). -/
def perturb (u : ℕ → K) (x : List K) : List K := x.mapIdx fun i a => a + u i

/-- `filter(lambda x: x.eval_on_dict(D), Atoms)` (`local_search.py:97`) -/
def filterTrue (S : Sage K) (d : Dict K) : List Atom → Except GErr (List Atom)
  | [] => .ok []
  | a :: as => do
    let b ← a.evalOnDict S d
    let r ← filterTrue S d as
    .ok (if b = some true then a :: r else r)

/-- `choose_atom_true` (`local_search.py:94-103`), and `choose_atom_random` (`local_search.py:90-92`) if it returns
`None` (`local_search.py:177-179`). -/
def chooseAtom (S : Sage K) (O : Search K) (i k : ℕ) (order : Option (List ℕ)) (hyps : List Atom) (x : List K) :
    Except GErr Atom := do
  let d ← vect2dict order x
  let need ← filterTrue S d hyps
  let from' := if need = [] then hyps else need
  match from'[O.pick i k from'.length]? with
  | none => .error .indexError
  | some a => .ok a

/-- `eval_poly` (`local_search.py:105-107`), when the result is used as a number. -/
def evalPoly (order : Option (List ℕ)) (p : MPoly) (x : List K) : Except GErr K := do
  let d ← vect2dict order x
  if p.vars.all (inDict d) then .ok (p.eval (ptOf d)) else .error .typeError

/-- `flip_eps` in `get_num_flipping_func` (`local_search.py:129-137`). -/
def flipEps (margin : K) (side : Bool) (v : K) : K :=
  if v ≠ 0 then (if v < 0 then -margin else margin) else if side then margin else -margin

/-- `get_num_flipping_func` (`local_search.py:127-139`): the function given to the solver. -/
def flipFunc (order : Option (List ℕ)) (a : Atom) (n : ℕ) (eps : K) (x : List K) : Except GErr (List K) := do
  let v ← evalPoly order a.poly x
  .ok ((v + eps) :: List.replicate (n - 1) 0)

/-- The points that do not make the main goal true (`local_search.py:191-192`). -/
def filterGoal (S : Sage K) (main : Atom) : List (Dict K) → Except GErr (List (Dict K))
  | [] => .ok []
  | d :: ds => do
    let b ← main.evalOnDict S d
    let r ← filterGoal S main ds
    .ok (if b = some true then r else d :: r)

/-- `map(VarOrder.vect2dict, points)` (`local_search.py:188`) -/
def toDicts (order : Option (List ℕ)) : List (List K) → Except GErr (List (Dict K))
  | [] => .ok []
  | x :: xs => do
    let d ← vect2dict order x
    let ds ← toDicts order xs
    .ok (d :: ds)

/-- One step of the chain (`local_search.py:174-193`): the new vector and the points that are kept. -/
def chainStep (S : Sage K) (O : Search K) (i k : ℕ) (order : Option (List ℕ)) (hyps : List Atom) (main : Atom)
    (x : List K) : Except GErr (List K × List (Dict K)) := do
  let a ← chooseAtom S O i k order hyps x
  let v ← evalPoly order a.poly x
  let x' ← O.fsolve i k (flipFunc order a x.length (flipEps (1 / 1000000) (O.side i k) v)) x
  let ds ← toDicts order (x' :: (List.range 25).map fun n => perturb (O.noise i k n) x')
  let good ← filterGoal S main ds
  .ok (x', good)

/-- The chain (`local_search.py:173-193`): `n` more steps, the first of them with number `k`. -/
def chain (S : Sage K) (O : Search K) (i : ℕ) (order : Option (List ℕ)) (hyps : List Atom) (main : Atom) :
    ℕ → ℕ → List K → Except GErr (List (Dict K))
  | 0, _, _ => .ok []
  | n + 1, k, x => do
    let r ← chainStep S O i k order hyps main x
    let rest ← chain S O i order hyps main n (k + 1) r.1
    .ok (r.2 ++ rest)

/-- `local_search_sampling` (`local_search.py:154-205`): the points and the new value of `VarOrder.order`. The
`return` statement is in the body of the loop over the repetitions (`local_search.py:171-205`), so that only the one with
number 0 takes place. The signatures are commented out in the program. -/
def localSearch (S : Sage K) (O : Search K) (order : Option (List ℕ)) (hyps : List Atom) (main : Atom) (d : Dict K) :
    Except GErr (List (Dict K) × List ℕ) := do
  let points := d :: (List.range 25).map fun n => perturbDict (O.noise₀ n) d
  let x ← dict2vect order d
  let found ← chain S O 0 (some x.2) hyps main 2 0 x.1
  .ok (points ++ found, x.2)

end Verif.Grf
