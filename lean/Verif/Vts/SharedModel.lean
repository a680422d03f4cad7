import Verif.Vts.CacheModel

/-!
# Model of several processes that share the cache directory of `vts/matrix_of_signs.py`

A running function is a program whose next action on the directory is visible; between two actions
of one process any number of actions of other processes can happen.  Simplifications:

* `os.makedirs` (`vts/matrix_of_signs.py:11`) needs no action: whoever comes second gets `EEXIST`,
  which is ignored.
* Reading a file is one action. What is read from a file that others write at the same time is what
  could have been read at one moment: either all of the pickle or something on which `pickle.load`
  raises (a prefix, or a file with a hole).
* Writing is two actions: `open(..., 'wb')`, which empties the file, and the moment when the last
  byte has been written.
* Failures of the file system itself are not modelled.
-/

namespace Verif.Vts

/-- The dictionaries `new_matrix_of_signs_lookup`, `new_matrix_of_signs_inverse_lookup` of a process
(`vts/matrix_of_signs.py:49-50`). -/
structure Dicts where
  mem : ℕ → Option Mat
  imem : ℕ → Option Mat

/-- A running function: it has its result, or its next action is `cache_hit`
(`vts/matrix_of_signs.py:17-18`), `read_cache` (19-21), the opening of a file for writing (15) or the
end of `pickle.dump` (16). -/
inductive Prog
  | ret (r : Except Err Mat) (d : Dicts)
  | hit (k : FKey) (next : Bool → Prog)
  | load (k : FKey) (next : Except Err Mat → Prog)
  | opn (k : FKey) (next : Prog)
  | finish (k : FKey) (m : Mat) (next : Prog)

/-- `vts/matrix_of_signs.py:9-16` `write_to_cache`. -/
def pWrite (k : FKey) (m : Mat) (next : Prog) : Prog := .opn k (.finish k m next)

/-- `new_get_matrix(1)` (`vts/matrix_of_signs.py:54-93`), continued by `next`. -/
def pOne (d : Dicts) (next : Except Err Mat → Dicts → Prog) : Prog :=
  match d.mem 1 with
  | some m => next (.ok m) d
  | none =>
    .hit (.mat 1) fun b =>
      if b then
        .load (.mat 1) fun r =>
          match r with
          | .error e => next (.error e) d
          | .ok m => next (.ok m) { d with mem := Function.update d.mem 1 (some m) }
      else next (.error .lessThanOne) d

/-- `vts/matrix_of_signs.py:54-93` `new_get_matrix` for a nonnegative argument, continued by
`next`. -/
def pMatN : ℕ → Dicts → (Except Err Mat → Dicts → Prog) → Prog
  | 0, d, next => next (.error .lessThanOne) d
  | 1, d, next => pOne d next
  | n + 2, d, next =>
    match d.mem (n + 2) with
    | some m => next (.ok m) d
    | none =>
      if n + 2 > 5 then next (.error .moreThan5) d
      else
        .hit (.mat (n + 2)) fun b =>
          if b then
            .load (.mat (n + 2)) fun r =>
              match r with
              | .error e => next (.error e) d
              | .ok m => next (.ok m) { d with mem := Function.update d.mem (n + 2) (some m) }
          else
            pMatN (n + 1) d fun r d =>
              match r with
              | .error e => next (.error e) d
              | .ok previous =>
                pOne d fun r d =>
                  match r with
                  | .error e => next (.error e) d
                  | .ok first =>
                    pWrite (.mat (n + 2)) (kron previous first)
                      (next (.ok (kron previous first))
                        { d with mem := Function.update d.mem (n + 2) (some (kron previous first)) })

/-- `vts/matrix_of_signs.py:140-141` `get_matrix`. -/
def pMatrix (n : ℤ) (d : Dicts) : Prog :=
  if n < 1 then .ret (.error .lessThanOne) d else pMatN n.toNat d .ret

/-- `vts/matrix_of_signs.py:95-138,177-178` `get_matrix_inverse`. -/
def pInverse (inv : Mat → Except Err Mat) (n : ℤ) (d : Dicts) : Prog :=
  if n < 1 then .ret (.error .lessThanOne) d
  else
    match d.imem n.toNat with
    | some m => .ret (.ok m) d
    | none =>
      if n > 5 then .ret (.error .moreThan5) d
      else
        .hit (.inv n.toNat) fun b =>
          if b then
            .load (.inv n.toNat) fun r =>
              match r with
              | .error e => .ret (.error e) d
              | .ok m => .ret (.ok m) { d with imem := Function.update d.imem n.toNat (some m) }
          else
            pMatN n.toNat d fun r d =>
              match r with
              | .error e => .ret (.error e) d
              | .ok matrix =>
                match inv matrix with
                | .error e => .ret (.error e) d
                | .ok inverse =>
                  pWrite (.inv n.toNat) inverse
                    (.ret (.ok inverse)
                      { d with imem := Function.update d.imem n.toNat (some inverse) })

/-- The public functions. -/
def pCall (inv : Mat → Except Err Mat) (d : Dicts) : Call → Prog
  | .matrix n => pMatrix n d
  | .inverse n => pInverse inv n d

/-- Module import: `vts/matrix_of_signs.py:49-50` and `161-175` (`load_or_create_inverse`). The
dictionaries of a failed import do not matter. -/
def pImport (inv : Mat → Except Err Mat) : Prog :=
  match inv baseMatrix with
  | .error e => .ret (.error e) ⟨fun _ => none, fun _ => none⟩
  | .ok i1 =>
    let d : Dicts := ⟨fun n => if n = 1 then some baseMatrix else none,
      fun n => if n = 1 then some i1 else none⟩
    .hit .legacy fun b =>
      if b then .load .legacy fun r => .ret r d
      else
        pOne d fun r d =>
          match r with
          | .error e => .ret (.error e) d
          | .ok m =>
            match inv m with
            | .error e => .ret (.error e) d
            | .ok i => pWrite .legacy i (.ret (.ok i) d)

/-- State of a process: not running, importing the module, dead after a failed import, waiting for a
call, executing a call. -/
inductive PState
  | absent
  | importing (q : Prog)
  | failed
  | idle (d : Dicts)
  | calling (c : Call) (q : Prog)

/-- The directory; for each file the process that opened it last for writing and has not finished;
the processes. -/
structure SWorld where
  files : Disk
  owner : FKey → Option ℕ
  procs : ℕ → PState

/-- Events of a schedule: process `p` starts (imports the module), calls a function, performs its
next action, ends, is killed. `lucky` decides an outcome that the model leaves open, see `sFinish`. -/
inductive Ev
  | start (p : ℕ)
  | call (p : ℕ) (c : Call)
  | step (p : ℕ) (lucky : Bool)
  | exit (p : ℕ)
  | kill (p : ℕ)

/-- What is observed: the result of a call, the end of an import. -/
inductive SOut
  | result (p : ℕ) (c : Call) (r : Except Err Mat)
  | started (p : ℕ)
  | importFailed (p : ℕ) (e : Err)

/-- End of `pickle.dump` (`vts/matrix_of_signs.py:15-16`) in process `p`. If nobody opened the file
since, it is now complete. If somebody did, what `p` wrote before that is lost: when nothing was
(`lucky`) the file is now complete, otherwise it is no more complete than it was. Two processes that
write different contents spoil the file. -/
def sFinish (w : SWorld) (p : ℕ) (lucky : Bool) (k : FKey) (m : Mat) : SWorld :=
  if w.owner k = some p then
    { w with files := Function.update w.files k (some (.full m)),
             owner := Function.update w.owner k none }
  else
    match w.files k with
    | some (.full m') =>
      if m' = m then w else { w with files := Function.update w.files k (some .incomplete) }
    | _ => if lucky then { w with files := Function.update w.files k (some (.full m)) } else w

/-- `read_cache` (`vts/matrix_of_signs.py:19-21`). -/
def sLoad (w : SWorld) (k : FKey) : Except Err Mat :=
  match w.files k with
  | none => .error .osError
  | some f => readFile f

/-- The next action of process `p`, whose program is `q`; nothing if it has its result. -/
def sAct (w : SWorld) (p : ℕ) (lucky : Bool) : Prog → SWorld × Prog
  | .ret r d => (w, .ret r d)
  | .hit k next => (w, next (w.files k).isSome)
  | .load k next => (w, next (sLoad w k))
  | .opn k next =>
    ({ w with files := Function.update w.files k (some .incomplete),
              owner := Function.update w.owner k (some p) }, next)
  | .finish k m next => (sFinish w p lucky k m, next)

/-- Change the state of a process. -/
def SWorld.put (w : SWorld) (p : ℕ) (s : PState) : SWorld :=
  { w with procs := Function.update w.procs p s }

/-- One event. Events that do not apply (a call of a process that is not waiting for one, and so on)
change nothing. -/
def sstep (inv : Mat → Except Err Mat) (w : SWorld) : Ev → SWorld × Option SOut
  | .start p =>
    match w.procs p with
    | .absent => (w.put p (.importing (pImport inv)), none)
    | _ => (w, none)
  | .call p c =>
    match w.procs p with
    | .idle d => (w.put p (.calling c (pCall inv d c)), none)
    | _ => (w, none)
  | .step p lucky =>
    match w.procs p with
    | .importing (.ret (.ok _) d) => (w.put p (.idle d), some (.started p))
    | .importing (.ret (.error e) _) => (w.put p .failed, some (.importFailed p e))
    | .importing q => ((sAct w p lucky q).1.put p (.importing (sAct w p lucky q).2), none)
    | .calling c (.ret r d) => (w.put p (.idle d), some (.result p c r))
    | .calling c q => ((sAct w p lucky q).1.put p (.calling c (sAct w p lucky q).2), none)
    | _ => (w, none)
  | .exit p =>
    match w.procs p with
    | .idle _ => (w.put p .absent, none)
    | .failed => (w.put p .absent, none)
    | _ => (w, none)
  | .kill p => (w.put p .absent, none)

/-- Run a schedule, collecting the observations. -/
def srun (inv : Mat → Except Err Mat) (w : SWorld) : List Ev → SWorld × List SOut
  | [] => (w, [])
  | e :: es =>
    ((srun inv (sstep inv w e).1 es).1,
      (sstep inv w e).2.toList ++ (srun inv (sstep inv w e).1 es).2)

/-- No cache directory, no process. -/
def sEmpty : SWorld := ⟨fun _ => none, fun _ => none, fun _ => .absent⟩

end Verif.Vts
