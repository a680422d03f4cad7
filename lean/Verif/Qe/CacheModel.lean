import Mathlib.Data.List.Basic

/-!
# Model of `highschool_qe/cachedsympywrapper.py`

The wrapped operations (`highschool_qe/sympywrapper.py`) are a parameter. `Op` is the type of the bound
methods of the wrapped object, `A` the type of argument objects, `key` sends an argument to its class
under Python's `hash`/`==`, which is what a dictionary sees.
-/

namespace Verif.Qe

/-- Exceptions: those of the wrapped operation, and `raise Exception("not impl yet")`
(`cachedsympywrapper.py:71`). -/
inductive CErr (E : Type)
  | wrapped (e : E)
  | notImplYet
deriving DecidableEq

variable {Op A Q V E : Type} [DecidableEq Op] [DecidableEq Q]

/-- The two-level dictionary `self._cache`: operation, then tuple of arguments. (The recursive
helpers of the code take any number of keys; they are always called with these two.) -/
abbrev WCache (Op Q V : Type) := List (Op × List (List Q × V))

/-- Python dictionary lookup. -/
def dGet {α β : Type} [DecidableEq α] (d : List (α × β)) (k : α) : Option β :=
  (d.find? fun e => e.1 = k).map Prod.snd

/-- Python dictionary assignment. -/
def dSet {α β : Type} [DecidableEq α] : List (α × β) → α → β → List (α × β)
  | [], k, v => [(k, v)]
  | e :: d, k, v => if e.1 = k then (e.1, v) :: d else e :: dSet d k v

/-- `cachedsympywrapper.py:33-38` `_c_get` with keys `f, args`; `none` is Python's `None`. -/
def cGet (c : WCache Op Q V) (f : Op) (args : List Q) : Option V :=
  match dGet c f with
  | none => none
  | some inner => dGet inner args

/-- `cachedsympywrapper.py:40-49` `_c_put` with keys `f, args`. On a new operation the value is stored
twice (the branch does not return), with no effect. -/
def cPut (c : WCache Op Q V) (v : V) (f : Op) (args : List Q) : WCache Op Q V :=
  let c := match dGet c f with
    | none => dSet c f (dSet [] args v)
    | some _ => c
  match dGet c f with
  | none => c
  | some inner => dSet c f (dSet inner args v)

/-- `cachedsympywrapper.py:62-73` `_c_compute`: result and new cache. `isNone v` tells that the
value is Python's `None` (then the cached value is not used). -/
def cCompute (under : Op → List A → Except E V) (key : A → Q) (isNone : V → Bool)
    (c : WCache Op Q V) (f : Op) (args : List A) : Except (CErr E) V × WCache Op Q V :=
  let compute : Except (CErr E) V × WCache Op Q V :=
    if args.length = 1 ∨ args.length = 2 then
      match under f args with
      | .error e => (.error (.wrapped e), c)
      | .ok v => (.ok v, cPut c v f (args.map key))
    else (.error .notImplYet, c)
  match cGet c f (args.map key) with
  | some v => if isNone v then compute else (.ok v, c)
  | none => compute

/-- A history of calls on one wrapper object, from the empty cache of `__init__`
(`cachedsympywrapper.py:51-60`). -/
def cRun (under : Op → List A → Except E V) (key : A → Q) (isNone : V → Bool) :
    WCache Op Q V → List (Op × List A) → List (Except (CErr E) V)
  | _, [] => []
  | c, (f, args) :: calls =>
    let r := cCompute under key isNone c f args
    r.1 :: cRun under key isNone r.2 calls

end Verif.Qe
