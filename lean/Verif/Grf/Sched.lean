import Verif.Grf.Model

/-!
# Model of the test harness `GRF/test.py`

`GRF/test.py` is generated from `GRF/test.sage`; they differ only in the treatment of number literals. The lines cited
are those of `GRF/test.py`.
-/

namespace Verif.Grf

/-- `ProcessStruct` (`GRF/test.py:26`); the process itself is represented by its `id`. -/
structure Job (P : Type) where
  id : ℕ
  start : ℚ
  params : P
deriving DecidableEq

/-- What is recorded about a job that is removed: a row of `test.csv` (`GRF/test.py:90-94`, `GRF/test.py:103-107`). -/
inductive Outcome where
  /-- the running time and the number of hidden formulas -/
  | finished (elapsed : ℚ) (hides : ℤ)
  | timeout
deriving DecidableEq

/-- The variables of the main loop (`GRF/test.py:61-75`). The queue of parameters is kept in the order in which `pop`
takes them, that is, reversed. With each row the model keeps the number of the process, which the program prints on
`stderr`. -/
structure Sched (P : Type) where
  queue : List P
  running : List (Job P)
  next : ℕ
  rows : List (ℕ × P × Outcome)
deriving DecidableEq

/-- The behaviour of the processes and of the clock: whether process `id` is alive when it is looked at in round `t`;
the clock when the `i`-th running process is looked at in round `t`; the clock when process `id` is created in round
`t`; the value that process `id` stored in `return_dict`, if it did so before it ended. -/
structure Nature where
  alive : ℕ → ℕ → Bool
  now : ℕ → ℕ → ℚ
  startAt : ℕ → ℕ → ℚ
  result : ℕ → Option (List ℤ)

variable {P : Type}

/-- The `for` loop over the running processes (`GRF/test.py:80-111`); it is left after the first process is removed. A
process that ended without storing a value makes `return_dict[proc_struct.id]` raise `KeyError`. -/
def sweep (N : Nature) (timeout : ℚ) (t : ℕ) : ℕ → List (Job P) →
    Except GErr (List (Job P) × Option (ℕ × P × Outcome))
  | _, [] => .ok ([], none)
  | i, j :: js =>
    let elapsed := N.now t i - j.start
    if N.alive t j.id = false then
      match N.result j.id with
      | none => .error .keyError
      | some l => .ok (js, some (j.id, j.params, .finished elapsed l.sum))
    else if timeout < elapsed then .ok (js, some (j.id, j.params, .timeout))
    else
      match sweep N timeout t (i + 1) js with
      | .error e => .error e
      | .ok (js', r) => .ok (j :: js', r)

/-- The loop that starts processes (`GRF/test.py:116-134`). -/
def restock (N : Nature) (cores : ℕ) (t : ℕ) : List P → List (Job P) → ℕ → List P × List (Job P) × ℕ
  | [], running, next => ([], running, next)
  | p :: q, running, next =>
    if running.length < cores then restock N cores t q (running ++ [⟨next, N.startAt t next, p⟩]) (next + 1)
    else (p :: q, running, next)

/-- One round of the main loop (`GRF/test.py:76-136`). The two pairs of `assert`s hold trivially: the counters are the
lengths of the lists. -/
def turn (N : Nature) (cores : ℕ) (timeout : ℚ) (t : ℕ) (s : Sched P) : Except GErr (Sched P) :=
  match sweep N timeout t 0 s.running with
  | .error e => .error e
  | .ok (running, row) =>
    let r := restock N cores t s.queue running s.next
    .ok ⟨r.1, r.2.1, r.2.2, s.rows ++ row.toList⟩

/-- The condition of the main loop is false (`GRF/test.py:76`). -/
def Sched.done (s : Sched P) : Bool := s.queue.isEmpty && s.running.isEmpty

/-- At most `n` rounds of the main loop (`GRF/test.py:76-136`), the first of them with number `t`. -/
def turns (N : Nature) (cores : ℕ) (timeout : ℚ) : ℕ → ℕ → Sched P → Except GErr (Sched P)
  | 0, _, s => .ok s
  | n + 1, t, s =>
    if s.done then .ok s
    else
      match turn N cores timeout t s with
      | .error e => .error e
      | .ok s' => turns N cores timeout n (t + 1) s'

/-- The state before the main loop (`GRF/test.py:50-75`), with the parameters in the order in which `pop` takes
them. -/
def Sched.init (jobs : List P) : Sched P := ⟨jobs, [], 1, []⟩

end Verif.Grf
