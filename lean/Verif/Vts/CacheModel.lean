import Verif.Vts.MatrixModel
import Mathlib.Logic.Function.Basic

/-!
# Model of the caches of `vts/matrix_of_signs.py`

The memory caches are the module level dictionaries `new_matrix_of_signs_lookup` and
`new_matrix_of_signs_inverse_lookup`; the disk cache is the directory `cache`.  Simplifications:
a file is absent, complete or incomplete (a proper prefix of a pickle, including the empty file;
`pickle.load` raises on it because the final STOP opcode is missing); failures of the file system
itself (`OSError` on a full disk, missing permissions) are not modelled; one process at a time
(several at once: `Verif/Vts/SharedModel.lean`).
-/

namespace Verif.Vts

/-- File names: `matrix_of_signs_%d.pkl` (`vts/matrix_of_signs.py:77`),
`matrix_of_signs_inverse_%d.pkl` (119), `matrix_of_signs_inverse.pkl` (163). -/
inductive FKey
  | mat (n : ℕ)
  | inv (n : ℕ)
  | legacy
deriving DecidableEq

/-- Content of an existing file. The pickled dictionary `{1: inverse}` of the legacy file is
represented by its only value. -/
inductive File
  | incomplete
  | full (m : Mat)
deriving DecidableEq

/-- The cache directory. -/
abbrev Disk := FKey → Option File

/-- A running process: the directory, the two dictionaries and a log of all states of the directory
that could be seen by a process started after a kill during the current operation. -/
structure Proc where
  disk : Disk
  mem : ℕ → Option Mat
  imem : ℕ → Option Mat
  log : List Disk

/-- `vts/matrix_of_signs.py:9-16` `write_to_cache`: `open(..., 'wb')` truncates the file, then the
pickle is written; nothing makes this atomic. -/
def writeCache (s : Proc) (k : FKey) (m : Mat) : Proc :=
  let opened := Function.update s.disk k (some .incomplete)
  let done := Function.update s.disk k (some (.full m))
  { s with disk := done, log := s.log ++ [opened, done] }

/-- `vts/matrix_of_signs.py:19-21` `read_cache` of an existing file. -/
def readFile : File → Except Err Mat
  | .incomplete => .error .unpickle
  | .full m => .ok m

/-- `new_get_matrix(1)` (`vts/matrix_of_signs.py:54-93`); on a double miss it would call
`new_get_matrix(0)`, which raises. -/
def getOne (s : Proc) : Except Err Mat × Proc :=
  match s.mem 1 with
  | some m => (.ok m, s)
  | none =>
    match s.disk (.mat 1) with
    | some f =>
      match readFile f with
      | .error e => (.error e, s)
      | .ok m => (.ok m, { s with mem := Function.update s.mem 1 (some m) })
    | none => (.error .lessThanOne, s)

/-- `vts/matrix_of_signs.py:54-93` `new_get_matrix` for a nonnegative argument. -/
def newGetMatrixN (s : Proc) : ℕ → Except Err Mat × Proc
  | 0 => (.error .lessThanOne, s)
  | 1 => getOne s
  | n + 2 =>
    match s.mem (n + 2) with
    | some m => (.ok m, s)
    | none =>
      if n + 2 > 5 then (.error .moreThan5, s)
      else
        match s.disk (.mat (n + 2)) with
        | some f =>
          match readFile f with
          | .error e => (.error e, s)
          | .ok m => (.ok m, { s with mem := Function.update s.mem (n + 2) (some m) })
        | none =>
          match newGetMatrixN s (n + 1) with
          | (.error e, s) => (.error e, s)
          | (.ok previous, s) =>
            match getOne s with
            | (.error e, s) => (.error e, s)
            | (.ok first, s) =>
              let current := kron previous first
              let s := writeCache s (.mat (n + 2)) current
              (.ok current, { s with mem := Function.update s.mem (n + 2) (some current) })

/-- `vts/matrix_of_signs.py:140-141` `get_matrix` (the rest of that function is dead code). -/
def cGetMatrix (s : Proc) (n : ℤ) : Except Err Mat × Proc :=
  if n < 1 then (.error .lessThanOne, s) else newGetMatrixN s n.toNat

/-- `vts/matrix_of_signs.py:95-138,177-178` `get_matrix_inverse`. -/
def cGetInverse (inv : Mat → Except Err Mat) (s : Proc) (n : ℤ) : Except Err Mat × Proc :=
  if n < 1 then (.error .lessThanOne, s)
  else
    match s.imem n.toNat with
    | some m => (.ok m, s)
    | none =>
      if n > 5 then (.error .moreThan5, s)
      else
        match s.disk (.inv n.toNat) with
        | some f =>
          match readFile f with
          | .error e => (.error e, s)
          | .ok m => (.ok m, { s with imem := Function.update s.imem n.toNat (some m) })
        | none =>
          match newGetMatrixN s n.toNat with
          | (.error e, s) => (.error e, s)
          | (.ok matrix, s) =>
            match inv matrix with
            | .error e => (.error e, s)
            | .ok inverse =>
              let s := writeCache s (.inv n.toNat) inverse
              (.ok inverse, { s with imem := Function.update s.imem n.toNat (some inverse) })

/-- Module import: `vts/matrix_of_signs.py:49-50` and `161-175`
(`load_or_create_inverse`).  Returns the process, or the exception and the log. -/
def startProc (inv : Mat → Except Err Mat) (d : Disk) : Except (Err × List Disk) Proc :=
  match inv baseMatrix with
  | .error e => .error (e, [])
  | .ok i1 =>
    let s : Proc :=
      { disk := d, mem := fun n => if n = 1 then some baseMatrix else none,
        imem := fun n => if n = 1 then some i1 else none, log := [] }
    match d .legacy with
    | some f =>
      match readFile f with
      | .error e => .error (e, [])
      | .ok _ => .ok s
    | none =>
      match getOne s with
      | (.error e, s) => .error (e, s.log)
      | (.ok m, s) =>
        match inv m with
        | .error e => .error (e, s.log)
        | .ok i => .ok (writeCache s .legacy i)

/-- Calls of the public functions. -/
inductive Call
  | matrix (n : ℤ)
  | inverse (n : ℤ)

/-- Execute a call. -/
def doCall (inv : Mat → Except Err Mat) (s : Proc) : Call → Except Err Mat × Proc
  | .matrix n => cGetMatrix { s with log := [] } n
  | .inverse n => cGetInverse inv { s with log := [] } n

/-- Operations of a history: a call in the running process, the end of the process followed by the
start of another one, a kill during a call (`i` selects one of the directory states seen during the
call; beyond the end: nothing written yet), a kill during the import. -/
inductive COp
  | call (c : Call)
  | restart
  | crash (c : Call) (i : ℕ)
  | crashImport (i : ℕ)

/-- The directory, and the process if its import succeeded. -/
structure World where
  disk : Disk
  proc : Option Proc

/-- What is observed. -/
inductive COut
  | result (r : Except Err Mat)
  | importFailed (e : Err)
  | notRunning
  | started
  | killed

/-- One step of a history. -/
def cstep (inv : Mat → Except Err Mat) (w : World) : COp → World × COut
  | .call c =>
    match w.proc with
    | none => (w, .notRunning)
    | some s =>
      let (r, s) := doCall inv s c
      ({ disk := s.disk, proc := some s }, .result r)
  | .restart =>
    match startProc inv w.disk with
    | .error (e, l) => ({ disk := l.getLastD w.disk, proc := none }, .importFailed e)
    | .ok s => ({ disk := s.disk, proc := some s }, .started)
  | .crash c i =>
    match w.proc with
    | none => (w, .notRunning)
    | some s =>
      let (_, s') := doCall inv s c
      ({ disk := s'.log.getD i w.disk, proc := none }, .killed)
  | .crashImport i =>
    match startProc inv w.disk with
    | .error (_, l) => ({ disk := l.getD i w.disk, proc := none }, .killed)
    | .ok s => ({ disk := s.log.getD i w.disk, proc := none }, .killed)

/-- Run a history, collecting the observations. -/
def crun (inv : Mat → Except Err Mat) (w : World) : List COp → World × List COut
  | [] => (w, [])
  | op :: ops =>
    let (w, o) := cstep inv w op
    let (w, os) := crun inv w ops
    (w, o :: os)

/-- The caller modifies in place the matrix it got from `get_matrix(n)` (`vts/matrix_of_signs.py:53`
"TODO make matrix immutable", 72, 81, 91: the returned object is the one stored in the dictionary),
so that its value becomes `m`. -/
def mutateReturned (s : Proc) (n : ℕ) (m : Mat) : Proc :=
  { s with mem := Function.update s.mem n (some m) }

/-- The same for the matrix it got from `get_matrix_inverse(n)` (`vts/matrix_of_signs.py:115-116, 121-125, 135-138`). -/
def mutateInverse (s : Proc) (n : ℕ) (m : Mat) : Proc :=
  { s with imem := Function.update s.imem n (some m) }

/-- Operations of a history with callers that modify what they were given. -/
inductive MOp
  | op (o : COp)
  | modify (n : ℕ) (m : Mat)
  | modifyInverse (n : ℕ) (m : Mat)

/-- One step of such a history. Only matrices that were returned in the running process can be modified; all of these are
in the dictionaries. -/
def mstep (inv : Mat → Except Err Mat) (w : World) : MOp → World
  | .op o => (cstep inv w o).1
  | .modify n m =>
    match w.proc with
    | none => w
    | some s => if s.mem n = none then w else { w with proc := some (mutateReturned s n m) }
  | .modifyInverse n m =>
    match w.proc with
    | none => w
    | some s => if s.imem n = none then w else { w with proc := some (mutateInverse s n m) }

/-- Run such a history. -/
def mrun (inv : Mat → Except Err Mat) (w : World) (ops : List MOp) : World := ops.foldl (mstep inv) w

/-- Before the first process: no cache directory. -/
def emptyWorld : World := { disk := fun _ => none, proc := none }

end Verif.Vts
