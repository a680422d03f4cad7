import Verif.Grf.Sched

/-!
# What the test harness `GRF/test.py` reports and writes

The functions of `Sched.lean` together with the messages on `stderr`, and the text of `test.csv`.
-/

namespace Verif.Grf

/-- The messages on `stderr` during the main loop. -/
inductive Event where
  /-- `Starting {0} ({1} remaining; {2}% done)` (`GRF/test.py:131-134`). The percentage is a Python float, here a rational
  number. -/
  | starting (id remaining : ℕ) (percent : ℚ)
  /-- `Removed {0}; finished ({1}s)` (`GRF/test.py:87-88`) -/
  | finished (id : ℕ) (elapsed : ℚ)
  /-- `Removed {0}; timeout` (`GRF/test.py:102`) -/
  | timedOut (id : ℕ)
deriving DecidableEq

variable {P : Type}

/-- The messages of the `for` loop over the running processes (`GRF/test.py:80-111`). That a process has finished is
reported before its result is looked up. -/
def sweepEvents (N : Nature) (timeout : ℚ) (t : ℕ) : ℕ → List (Job P) → List Event
  | _, [] => []
  | i, j :: js =>
    let elapsed := N.now t i - j.start
    if N.alive t j.id = false then [.finished j.id elapsed]
    else if timeout < elapsed then [.timedOut j.id]
    else sweepEvents N timeout t (i + 1) js

/-- The messages of the loop that starts processes (`GRF/test.py:116-134`); `total` is `TotalPQ` (`GRF/test.py:60`). -/
def restockEvents (total cores : ℕ) : List P → ℕ → ℕ → List Event
  | [], _, _ => []
  | _ :: q, running, next =>
    if running < cores then
      .starting next q.length (100 - 100 * q.length / total) :: restockEvents total cores q (running + 1) (next + 1)
    else []

/-- One round of the main loop (`GRF/test.py:76-136`), with its messages. -/
def lturn (N : Nature) (total cores : ℕ) (timeout : ℚ) (t : ℕ) (s : Sched P) : Except GErr (Sched P) × List Event :=
  match sweep N timeout t 0 s.running with
  | .error e => (.error e, sweepEvents N timeout t 0 s.running)
  | .ok (running, row) =>
    let r := restock N cores t s.queue running s.next
    (.ok ⟨r.1, r.2.1, r.2.2, s.rows ++ row.toList⟩,
      sweepEvents N timeout t 0 s.running ++ restockEvents total cores s.queue running.length s.next)

/-- At most `n` rounds of the main loop (`GRF/test.py:76-136`), with their messages, see `turns`. -/
def lturns (N : Nature) (total cores : ℕ) (timeout : ℚ) : ℕ → ℕ → Sched P → Except GErr (Sched P) × List Event
  | 0, _, s => (.ok s, [])
  | n + 1, t, s =>
    if s.done then (.ok s, [])
    else
      match lturn N total cores timeout t s with
      | (.error e, l) => (.error e, l)
      | (.ok s', l) => ((lturns N total cores timeout n (t + 1) s').1, l ++ (lturns N total cores timeout n (t + 1) s').2)

/-- `ParamStruct` (`GRF/test.py:25`), with the texts of its numbers -/
structure TrialParams where
  smtFile : List Char
  fileId : List Char
  epsilon : List Char
  samples : List Char
deriving DecidableEq

/-- `",".join(fields)` -/
def commaJoin : List (List Char) → List Char
  | [] => []
  | [f] => f
  | f :: g :: fs => f ++ ',' :: commaJoin (g :: fs)

/-- The first line of `test.csv` (`GRF/test.py:45`). -/
def csvHeader : List Char := "# Samples, Epsilon, Time, Hides".toList

/-- A row of `test.csv` (`GRF/test.py:90-94`, `GRF/test.py:103-107`); `str` and `int` are Python's `str` on floats and
integers. -/
def csvRow (str : ℚ → List Char) (int : ℤ → List Char) (p : TrialParams) : Outcome → List Char
  | .finished elapsed hides => commaJoin [p.fileId, p.samples, p.epsilon, str elapsed, int hides]
  | .timeout => commaJoin [p.fileId, p.samples, p.epsilon, "NaN".toList, "NaN".toList]

/-- The text written to `test.csv` up to some moment (`GRF/test.py:44-45`, `90-94`, `103-107`). -/
def csvText (str : ℚ → List Char) (int : ℤ → List Char) (rows : List (ℕ × TrialParams × Outcome)) : List Char :=
  csvHeader ++ '\n' :: (rows.map fun r => csvRow str int r.2.1 r.2.2 ++ ['\n']).flatten

end Verif.Grf
