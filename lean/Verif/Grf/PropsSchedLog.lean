import Verif.Grf.SchedLog
import Verif.Grf.PropsSched
import Mathlib.Tactic.FieldSimp

/-!
# Reports and records of the test harness (C127, C128)
-/

set_option linter.unusedSectionVars false

namespace Verif.Grf

variable {P : Type}

/-- the message that a process starts, with its numbers -/
def Event.start? : Event → Option (ℕ × ℕ × ℚ)
  | .starting id r p => some (id, r, p)
  | _ => none

/-- the message that a process is removed: its number, and the time unless it is a timeout -/
def Event.removed? : Event → Option (ℕ × Option ℚ)
  | .starting _ _ _ => none
  | .finished id e => some (id, some e)
  | .timedOut id => some (id, none)

/-- what a row says about the process, without the number of hidden formulas -/
def rowSays (r : ℕ × P × Outcome) : ℕ × Option ℚ :=
  (r.1, match r.2.2 with
    | .finished e _ => some e
    | .timeout => none)

theorem lturns_erase (N : Nature) (total cores : ℕ) (timeout : ℚ) :
    ∀ (n t : ℕ) (s : Sched P), (lturns N total cores timeout n t s).1 = turns N cores timeout n t s
  | 0, _, _ => rfl
  | n + 1, t, s => by
    unfold lturns turns
    split
    · rfl
    · unfold lturn turn
      cases sweep N timeout t 0 s.running with
      | error e => rfl
      | ok x => exact lturns_erase N total cores timeout n (t + 1) _

theorem sweepEvents_ok (N : Nature) (timeout : ℚ) (t : ℕ) : ∀ (i : ℕ) (js : List (Job P)) (js' : List (Job P))
    (row : Option (ℕ × P × Outcome)), sweep N timeout t i js = .ok (js', row) →
    (sweepEvents N timeout t i js).filterMap Event.start? = [] ∧
    (sweepEvents N timeout t i js).filterMap Event.removed? = row.toList.map rowSays ∧
    js'.length + row.toList.length = js.length
  | i, [], js', row, h => by
    simp only [sweep, Except.ok.injEq, Prod.mk.injEq] at h
    obtain ⟨rfl, rfl⟩ := h
    simp [sweepEvents]
  | i, j :: js, js', row, h => by
    simp only [sweep] at h
    unfold sweepEvents
    by_cases ha : N.alive t j.id = false
    · simp only [if_pos ha] at h ⊢
      cases hr : N.result j.id with
      | none => rw [hr] at h; cases h
      | some l =>
        rw [hr] at h
        simp only [Except.ok.injEq, Prod.mk.injEq] at h
        obtain ⟨rfl, rfl⟩ := h
        simp [Event.start?, Event.removed?, rowSays]
    · simp only [if_neg ha] at h ⊢
      by_cases he : timeout < N.now t i - j.start
      · simp only [if_pos he, Except.ok.injEq, Prod.mk.injEq] at h ⊢
        obtain ⟨rfl, rfl⟩ := h
        simp [Event.start?, Event.removed?, rowSays]
      · simp only [if_neg he] at h ⊢
        cases hs : sweep N timeout t (i + 1) js with
        | error e => rw [hs] at h; cases h
        | ok x =>
          rw [hs] at h
          simp only [Except.ok.injEq, Prod.mk.injEq] at h
          obtain ⟨rfl, rfl⟩ := h
          obtain ⟨h1, h2, h3⟩ := sweepEvents_ok N timeout t (i + 1) js x.1 x.2 hs
          exact ⟨h1, h2, by simp only [List.length_cons]; omega⟩

theorem sweepEvents_error (N : Nature) (timeout : ℚ) (t : ℕ) : ∀ (i : ℕ) (js : List (Job P)) (e : GErr),
    sweep N timeout t i js = .error e →
    ∃ j ∈ js, ∃ el, sweepEvents N timeout t i js = [.finished j.id el] ∧ N.result j.id = none ∧ N.alive t j.id = false
  | i, [], e, h => by simp [sweep] at h
  | i, j :: js, e, h => by
    simp only [sweep] at h
    unfold sweepEvents
    by_cases ha : N.alive t j.id = false
    · simp only [if_pos ha] at h ⊢
      cases hr : N.result j.id with
      | none => exact ⟨j, by simp, _, rfl, hr, ha⟩
      | some l => rw [hr] at h; cases h
    · simp only [if_neg ha] at h ⊢
      by_cases he : timeout < N.now t i - j.start
      · rw [if_pos he] at h; cases h
      · simp only [if_neg he] at h ⊢
        cases hs : sweep N timeout t (i + 1) js with
        | error e =>
          obtain ⟨j', hj, h'⟩ := sweepEvents_error N timeout t (i + 1) js e hs
          exact ⟨j', List.mem_cons_of_mem _ hj, h'⟩
        | ok x => rw [hs] at h; cases h

/-- The messages `E`, when `a` processes have been started and `b` removed: every start is the next one, and the numbers
in it are as stated. -/
def Reports (total cores a b : ℕ) (E : List Event) : Prop :=
  ∀ (pre post : List Event) (id rem : ℕ) (p : ℚ), E = pre ++ .starting id rem p :: post →
    id = a + (pre.filterMap Event.start?).length + 1 ∧ rem + id = total ∧ p = 100 * id / total ∧
    b + (pre.filterMap Event.removed?).length + 1 ≤ id ∧ id ≤ b + (pre.filterMap Event.removed?).length + cores

theorem Reports.nil (total cores a b : ℕ) : Reports total cores a b [] := by
  intro pre post id rem p h
  cases pre <;> simp at h

theorem Reports.append {total cores a b : ℕ} {E F : List Event} (hE : Reports total cores a b E)
    (hF : Reports total cores (a + (E.filterMap Event.start?).length) (b + (E.filterMap Event.removed?).length) F) :
    Reports total cores a b (E ++ F) := by
  intro pre post id rem p h
  rcases List.append_eq_append_iff.1 h with ⟨c, rfl, h2⟩ | ⟨c, rfl, h2⟩
  · obtain ⟨h3, h4, h5, h6, h7⟩ := hF c post id rem p h2
    simp only [List.filterMap_append, List.length_append]
    exact ⟨by omega, h4, h5, by omega, by omega⟩
  · cases c with
    | nil =>
      simp only [List.nil_append] at h2
      obtain ⟨h3, h4, h5, h6, h7⟩ := hF [] post id rem p h2.symm
      simp only [List.append_nil, List.filterMap_nil, List.length_nil, Nat.add_zero] at *
      exact ⟨h3, h4, h5, h6, h7⟩
    | cons x c =>
      simp only [List.cons_append, List.cons.injEq] at h2
      obtain ⟨rfl, -⟩ := h2
      exact hE pre c id rem p rfl

theorem Reports.noStart {total cores a b : ℕ} {E : List Event} (h : E.filterMap Event.start? = []) :
    Reports total cores a b E := by
  intro pre post id rem p he
  subst he
  simp [Event.start?] at h

theorem restockEvents_removed (total cores : ℕ) : ∀ (q : List P) (r next : ℕ),
    (restockEvents total cores q r next).filterMap Event.removed? = []
  | [], _, _ => rfl
  | _ :: q, r, next => by
    unfold restockEvents
    split
    · rw [List.filterMap_cons_none rfl]
      exact restockEvents_removed total cores q (r + 1) (next + 1)
    · rfl

theorem percent_eq {total q id : ℕ} (h : q + id = total) (hid : 1 ≤ id) :
    (100 - 100 * (q : ℚ) / total) = 100 * id / total := by
  have ht : (total : ℚ) ≠ 0 := by exact_mod_cast (by omega : total ≠ 0)
  have h' : (q : ℚ) + id = total := by exact_mod_cast h
  field_simp
  linear_combination -h'

/-- the messages about starts: numbers `a + 1` to `b` -/
def startsTo (total a b : ℕ) : List (ℕ × ℕ × ℚ) :=
  (List.range' (a + 1) (b - a)).map fun id => (id, total - id, 100 * id / total)

theorem restock_next_le (N : Nature) (cores t : ℕ) : ∀ (q : List P) (running : List (Job P)) (next : ℕ),
    next ≤ (restock N cores t q running next).2.2
  | [], _, _ => le_rfl
  | p :: q, running, next => by
    unfold restock
    split
    · exact (Nat.le_succ next).trans (restock_next_le N cores t q _ (next + 1))
    · exact le_rfl

theorem restockEvents_ok (N : Nature) (total cores t b : ℕ) : ∀ (q : List P) (running : List (Job P)) (a : ℕ),
    q.length + a = total → running.length + b = a →
    Reports total cores a b (restockEvents total cores q running.length (a + 1)) ∧
    (restockEvents total cores q running.length (a + 1)).filterMap Event.start? =
      startsTo total a ((restock N cores t q running (a + 1)).2.2 - 1) ∧
    (restock N cores t q running (a + 1)).1.length + ((restock N cores t q running (a + 1)).2.2 - 1) = total ∧
    (restock N cores t q running (a + 1)).2.1.length + b = (restock N cores t q running (a + 1)).2.2 - 1
  | [], running, a, h1, h2 => by
    simp only [restockEvents, restock, Nat.add_sub_cancel]
    exact ⟨Reports.nil _ _ _ _, by simp [startsTo], h1, h2⟩
  | p :: q, running, a, h1, h2 => by
    unfold restockEvents restock
    by_cases hc : running.length < cores
    · simp only [if_pos hc]
      simp only [List.length_cons] at h1
      have ih := restockEvents_ok N total cores t b q (running ++ [⟨a + 1, N.startAt t (a + 1), p⟩]) (a + 1) (by omega)
        (by simp only [List.length_append, List.length_singleton]; omega)
      have hl : (running ++ [(⟨a + 1, N.startAt t (a + 1), p⟩ : Job P)]).length = running.length + 1 := by simp
      rw [hl] at ih
      obtain ⟨i1, i2, i3, i4⟩ := ih
      have hp : (100 - 100 * (q.length : ℚ) / total) = 100 * ((a + 1 : ℕ) : ℚ) / total := percent_eq (by omega) (by omega)
      refine ⟨?_, ?_, i3, i4⟩
      · rw [show ∀ (x : Event) l, x :: l = [x] ++ l from fun _ _ => rfl]
        refine Reports.append ?_ ?_
        · intro pre post id rem pc he
          cases pre with
          | nil =>
            simp only [List.nil_append, List.cons.injEq, Event.starting.injEq] at he
            obtain ⟨⟨rfl, rfl, rfl⟩, -⟩ := he
            clear i1 i2 i3 i4 hl
            simp only [List.filterMap_nil, List.length_nil, Nat.add_zero]
            exact ⟨trivial, by omega, hp, by omega, by omega⟩
          | cons x pre => simp at he
        · have e1 : ([Event.starting (a + 1) q.length (100 - 100 * (q.length : ℚ) / total)].filterMap Event.start?).length = 1 := by
            simp [Event.start?]
          have e2 : ([Event.starting (a + 1) q.length (100 - 100 * (q.length : ℚ) / total)].filterMap Event.removed?).length = 0 := by
            simp [Event.removed?]
          rw [e1, e2]
          exact i1
      · rw [List.filterMap_cons_some (f := Event.start?) (b := (a + 1, q.length, 100 - 100 * (q.length : ℚ) / total)) rfl, i2]
        have hle := restock_next_le N cores t q (running ++ [⟨a + 1, N.startAt t (a + 1), p⟩]) (a + 1 + 1)
        unfold startsTo
        obtain ⟨m, hm⟩ := Nat.exists_eq_add_of_le hle
        rw [hm, show a + 1 + 1 + m - 1 - (a + 1) = m by omega, show a + 1 + 1 + m - 1 - a = m + 1 by omega, List.range'_succ,
          List.map_cons, hp, show total - (a + 1) = q.length by omega]
    · simp only [if_neg hc, Nat.add_sub_cancel]
      exact ⟨Reports.nil _ _ _ _, by simp [startsTo], h1, h2⟩

theorem startsTo_append {total a b c : ℕ} (h1 : a ≤ b) (h2 : b ≤ c) :
    startsTo total a b ++ startsTo total b c = startsTo total a c := by
  obtain ⟨m, rfl⟩ := Nat.exists_eq_add_of_le h1
  obtain ⟨k, rfl⟩ := Nat.exists_eq_add_of_le h2
  unfold startsTo
  rw [show a + m - a = m by omega, show a + m + k - (a + m) = k by omega, show a + m + k - a = m + k by omega,
    ← List.map_append, show a + m + 1 = a + 1 + m by omega, List.range'_append_1]

/-- what is known about a state in which `total - queue.length` processes have been started -/
structure Counts (total : ℕ) (s : Sched P) : Prop where
  pos : 1 ≤ s.next
  queue : s.queue.length + (s.next - 1) = total
  running : s.running.length + s.rows.length = s.next - 1

theorem lturn_ok (N : Nature) (total cores : ℕ) (timeout : ℚ) (t : ℕ) (s s' : Sched P) (l : List Event)
    (hs : Counts total s) (h : lturn N total cores timeout t s = (.ok s', l)) :
    Counts total s' ∧ Reports total cores (s.next - 1) s.rows.length l ∧
    l.filterMap Event.start? = startsTo total (s.next - 1) (s'.next - 1) ∧ s.next ≤ s'.next ∧
    s'.rows.map rowSays = s.rows.map rowSays ++ l.filterMap Event.removed? := by
  unfold lturn at h
  cases hw : sweep N timeout t 0 s.running with
  | error e => rw [hw] at h; simp at h
  | ok x =>
    obtain ⟨running, row⟩ := x
    rw [hw] at h
    simp only [Prod.mk.injEq, Except.ok.injEq] at h
    obtain ⟨rfl, rfl⟩ := h
    obtain ⟨w1, w2, w3⟩ := sweepEvents_ok N timeout t 0 s.running running row hw
    obtain ⟨a, ha⟩ := Nat.exists_eq_add_of_le' hs.pos
    have hq := hs.queue
    have hr := hs.running
    rw [ha, Nat.add_sub_cancel] at hq hr
    have hrow : (row.toList.map rowSays).length = row.toList.length := by simp
    obtain ⟨r1, r2, r3, r4⟩ := restockEvents_ok N total cores t (s.rows.length + row.toList.length) s.queue running a hq
      (by omega)
    have hle := restock_next_le N cores t s.queue running (a + 1)
    rw [ha, Nat.add_sub_cancel]
    refine ⟨⟨by simpa using by omega, r3, ?_⟩, ?_, ?_, hle, ?_⟩
    · simp only [List.length_append]; omega
    · refine (Reports.noStart w1).append ?_
      rw [w1, w2, hrow]
      exact r1
    · rw [List.filterMap_append, w1, List.nil_append]
      exact r2
    · rw [List.filterMap_append, w2, restockEvents_removed, List.append_nil, List.map_append]

theorem lturns_ok (N : Nature) (total cores : ℕ) (timeout : ℚ) : ∀ (n t : ℕ) (s : Sched P), Counts total s →
    Reports total cores (s.next - 1) s.rows.length (lturns N total cores timeout n t s).2 ∧
    (∀ s', (lturns N total cores timeout n t s).1 = .ok s' →
      (lturns N total cores timeout n t s).2.filterMap Event.start? = startsTo total (s.next - 1) (s'.next - 1) ∧
      s.next ≤ s'.next ∧
      s'.rows.map rowSays = s.rows.map rowSays ++ (lturns N total cores timeout n t s).2.filterMap Event.removed?) ∧
    ∀ e, (lturns N total cores timeout n t s).1 = .error e →
      ∃ l id el, (lturns N total cores timeout n t s).2 = l ++ [.finished id el] ∧ N.result id = none
  | 0, t, s, hs => by
    refine ⟨Reports.nil _ _ _ _, fun s' h => ?_, fun e h => by cases h⟩
    simp only [lturns, Except.ok.injEq] at h
    subst h
    simp [lturns, startsTo]
  | n + 1, t, s, hs => by
    unfold lturns
    by_cases hd : s.done = true
    · simp only [if_pos hd]
      refine ⟨Reports.nil _ _ _ _, fun s' h => ?_, fun e h => by cases h⟩
      simp only [Except.ok.injEq] at h
      subst h
      simp [startsTo]
    · simp only [if_neg hd]
      cases hx : lturn N total cores timeout t s with
      | mk r l =>
        cases r with
        | error e =>
          unfold lturn at hx
          cases hw : sweep N timeout t 0 s.running with
          | ok x => rw [hw] at hx; simp at hx
          | error e' =>
            rw [hw] at hx
            simp only [Prod.mk.injEq, Except.error.injEq] at hx
            obtain ⟨rfl, rfl⟩ := hx
            obtain ⟨j, -, el, h1, h2, -⟩ := sweepEvents_error N timeout t 0 s.running e' hw
            refine ⟨Reports.noStart (by rw [h1]; rfl), fun s' h => by simp at h, fun e h => ⟨[], j.id, el, h1, h2⟩⟩
        | ok s₁ =>
          obtain ⟨c1, c2, c3, c4, c5⟩ := lturn_ok N total cores timeout t s s₁ l hs hx
          obtain ⟨i1, i2, i3⟩ := lturns_ok N total cores timeout n (t + 1) s₁ c1
          simp only
          have hlen : (l.filterMap Event.start?).length = s₁.next - 1 - (s.next - 1) := by rw [c3]; simp [startsTo]
          have hrows : s₁.rows.length = s.rows.length + (l.filterMap Event.removed?).length := by
            have := congrArg List.length c5
            simpa using this
          refine ⟨c2.append ?_, fun s' h => ?_, fun e h => ?_⟩
          · rw [hlen, ← hrows, show s.next - 1 + (s₁.next - 1 - (s.next - 1)) = s₁.next - 1 by omega]
            exact i1
          · obtain ⟨j1, j2, j3⟩ := i2 s' h
            refine ⟨?_, c4.trans j2, ?_⟩
            · rw [List.filterMap_append, c3, j1]
              exact startsTo_append (by omega) (by omega)
            · rw [List.filterMap_append, j3, c5, List.append_assoc]
          · obtain ⟨l', id, el, h1, h2⟩ := i3 e h
            exact ⟨l ++ l', id, el, by rw [h1, List.append_assoc], h2⟩

theorem counts_init (jobs : List P) : Counts jobs.length (Sched.init jobs) :=
  ⟨le_rfl, by simp [Sched.init], by simp [Sched.init]⟩

/-- **C127**: the messages do not change what is done. -/
theorem C127_same (N : Nature) (cores : ℕ) (timeout : ℚ) (jobs : List P) (n : ℕ) :
    (lturns N jobs.length cores timeout n 0 (Sched.init jobs)).1 = turns N cores timeout n 0 (Sched.init jobs) :=
  lturns_erase _ _ _ _ _ _ _

/-- **C127**, partial: as long as nothing is raised, exactly one message is printed for each process that is started, in
order, with the number of jobs that have not been started and the percentage of jobs that have; and exactly one for each
row that is written, in the order of the rows and with the same content. Missing: that the percentage is that of the jobs
that are done, see `C127_violated`. -/
theorem C127_partial (N : Nature) (cores : ℕ) (timeout : ℚ) (jobs : List P) (n : ℕ) (s : Sched P) (E : List Event)
    (h : lturns N jobs.length cores timeout n 0 (Sched.init jobs) = (.ok s, E)) :
    (E.filterMap fun e => match e with | .starting id r p => some (id, r, p) | _ => none) =
      (List.range' 1 (s.next - 1)).map (fun id => (id, jobs.length - id, 100 * (id : ℚ) / jobs.length)) ∧
    (E.filterMap fun e => match e with | .starting _ _ _ => none | .finished id t => some (id, some t) | .timedOut id => some (id, none)) =
      s.rows.map fun r => (r.1, match r.2.2 with | .finished t _ => some t | .timeout => none) := by
  obtain ⟨-, h2, -⟩ := lturns_ok N jobs.length cores timeout n 0 _ (counts_init jobs)
  obtain ⟨h3, -, h4⟩ := h2 s (by rw [h])
  rw [h] at h3 h4
  constructor
  · have : (fun e : Event => match e with | .starting id r p => some (id, r, p) | _ => none) = Event.start? := by
      funext e; cases e <;> rfl
    rw [this]
    exact h3
  · have : (fun e : Event => match e with
        | .starting _ _ _ => none | .finished id t => some (id, some t) | .timedOut id => some (id, none)) = Event.removed? := by
      funext e; cases e <;> rfl
    rw [this]
    have h5 : s.rows.map rowSays = E.filterMap Event.removed? := by simpa [Sched.init] using h4
    rw [← h5]
    rfl

/-- **C127** is violated by every message of every run: when `p`% of the jobs are reported as done, fewer of them have been
removed, finished or not; the difference is at most the number of processes that may run at the same time. -/
theorem C127_violated (N : Nature) (cores : ℕ) (timeout : ℚ) (jobs : List P) (n : ℕ) (pre post : List Event) (id rem : ℕ) (p : ℚ)
    (h : (lturns N jobs.length cores timeout n 0 (Sched.init jobs)).2 = pre ++ .starting id rem p :: post) :
    ((pre.countP fun e => match e with | .starting _ _ _ => false | _ => true : ℕ) : ℚ) < p / 100 * jobs.length ∧
      p / 100 * jobs.length ≤ (pre.countP fun e => match e with | .starting _ _ _ => false | _ => true : ℕ) + cores ∧
      p / 100 * jobs.length = id := by
  obtain ⟨h1, -⟩ := lturns_ok N jobs.length cores timeout n 0 _ (counts_init jobs)
  obtain ⟨h2, h3, rfl, h5, h6⟩ := h1 pre post id rem p h
  have hc : (pre.countP fun e => match e with | .starting _ _ _ => false | _ => true) = (pre.filterMap Event.removed?).length := by
    rw [List.countP_eq_length_filter]
    clear h h2 h5 h6
    induction pre with
    | nil => rfl
    | cons e l ih =>
      cases e with
      | starting i r q => rw [List.filterMap_cons_none (f := Event.removed?) rfl]; simpa using ih
      | finished i t => simp [Event.removed?, ih]
      | timedOut i => simp [Event.removed?, ih]
  rw [hc]
  have hr : (Sched.init jobs).rows.length = 0 := rfl
  rw [hr] at h5 h6
  have ht : (jobs.length : ℚ) ≠ 0 := by exact_mod_cast (by omega : jobs.length ≠ 0)
  have he : 100 * (id : ℚ) / jobs.length / 100 * jobs.length = id := by field_simp
  rw [he]
  exact ⟨by exact_mod_cast (by omega : (pre.filterMap Event.removed?).length < id),
    by exact_mod_cast (by omega : id ≤ (pre.filterMap Event.removed?).length + cores), rfl⟩

/-- **C127** is violated when a process ends without a result: it is reported as finished, and then the program stops. -/
theorem C127_failed_violated (N : Nature) (cores : ℕ) (timeout : ℚ) (jobs : List P) (n : ℕ) (e : GErr)
    (h : (lturns N jobs.length cores timeout n 0 (Sched.init jobs)).1 = .error e) :
    ∃ l id el, (lturns N jobs.length cores timeout n 0 (Sched.init jobs)).2 = l ++ [.finished id el] ∧ N.result id = none :=
  (lturns_ok N jobs.length cores timeout n 0 _ (counts_init jobs)).2.2 e h

/-- processes for the examples: number 2 does not end; the clock shows the number of the round -/
def logNature : Nature :=
  ⟨fun t id => decide (id = 2 ∨ t < 2), fun t _ => t, fun t _ => t, fun _ => some [3, 1]⟩

/-- Three jobs and two processes: all messages. When "100% done" is reported one of three jobs has been removed. -/
example : lturns logNature 3 2 5 20 0 (Sched.init ["a", "b", "c"]) =
    (.ok ⟨[], [], 4, [(1, "a", .finished 2 4), (3, "c", .finished 1 4), (2, "b", .timeout)]⟩,
      [.starting 1 2 (100 / 3), .starting 2 1 (200 / 3), .finished 1 2, .starting 3 0 100, .finished 3 1, .timedOut 2]) := by
  decide +kernel

/-- For `C127_failed_violated`: process 1 stores nothing. -/
example : lturns { logNature with result := fun id => if id = 1 then none else some [3, 1] } 3 2 5 20 0
      (Sched.init ["a", "b", "c"]) =
    (.error .keyError, [.starting 1 2 (100 / 3), .starting 2 1 (200 / 3), .finished 1 2]) := by
  decide +kernel

/-! ### `test.csv` -/

/-- Read a text as a list of pieces separated by `sep`. -/
def cutAt (sep : Char) : List Char → List (List Char)
  | [] => [[]]
  | c :: l =>
    if c = sep then [] :: cutAt sep l
    else
      match cutAt sep l with
      | [] => [[c]]
      | f :: fs => (c :: f) :: fs

theorem cutAt_none {sep : Char} : ∀ {f : List Char}, sep ∉ f → cutAt sep f = [f]
  | [], _ => rfl
  | c :: f, h => by
    rw [List.mem_cons, not_or] at h
    rw [cutAt, if_neg (Ne.symm h.1), cutAt_none h.2]

theorem cutAt_cons {sep : Char} : ∀ {f : List Char} (l : List Char), sep ∉ f → cutAt sep (f ++ sep :: l) = f :: cutAt sep l
  | [], l, _ => by rw [List.nil_append, cutAt, if_pos rfl]
  | c :: f, l, h => by
    rw [List.mem_cons, not_or] at h
    rw [List.cons_append, cutAt, if_neg (Ne.symm h.1), cutAt_cons l h.2]

/-- no comma and no end of line -/
def Plain (f : List Char) : Prop := ',' ∉ f ∧ '\n' ∉ f

/-- the five values of a record -/
def fiveFields (str : ℚ → List Char) (int : ℤ → List Char) (r : ℕ × TrialParams × Outcome) : List (List Char) :=
  [r.2.1.fileId, r.2.1.samples, r.2.1.epsilon] ++
    match r.2.2 with
    | .finished t k => [str t, int k]
    | .timeout => [['N', 'a', 'N'], ['N', 'a', 'N']]

theorem row_eq (str : ℚ → List Char) (int : ℤ → List Char) (r : ℕ × TrialParams × Outcome) :
    csvRow str int r.2.1 r.2.2 = commaJoin (fiveFields str int r) := by
  obtain ⟨i, p, o⟩ := r
  cases o <;> rfl

theorem fiveFields_plain {str : ℚ → List Char} {int : ℤ → List Char} (hs : ∀ x, Plain (str x)) (hi : ∀ x, Plain (int x))
    {r : ℕ × TrialParams × Outcome} (hr : Plain r.2.1.fileId ∧ Plain r.2.1.samples ∧ Plain r.2.1.epsilon) :
    ∀ f ∈ fiveFields str int r, Plain f := by
  intro f hf
  obtain ⟨i, p, o⟩ := r
  have hn : Plain ['N', 'a', 'N'] := by unfold Plain; decide
  cases o <;> simp only [fiveFields, List.cons_append, List.nil_append, List.mem_cons, List.not_mem_nil, or_false] at hf <;>
    rcases hf with rfl | rfl | rfl | rfl | rfl
  · exact hr.1
  · exact hr.2.1
  · exact hr.2.2
  · exact hs _
  · exact hi _
  · exact hr.1
  · exact hr.2.1
  · exact hr.2.2
  · exact hn
  · exact hn

theorem cut_commaJoin : ∀ (f : List Char) (fs : List (List Char)), (∀ g ∈ f :: fs, Plain g) →
    cutAt ',' (commaJoin (f :: fs)) = f :: fs ∧ '\n' ∉ commaJoin (f :: fs)
  | f, [], h => ⟨cutAt_none (h f (by simp)).1, (h f (by simp)).2⟩
  | f, g :: fs, h => by
    obtain ⟨h1, h2⟩ := cut_commaJoin g fs fun x hx => h x (List.mem_cons_of_mem _ hx)
    rw [commaJoin]
    refine ⟨by rw [cutAt_cons _ (h f (by simp)).1, h1], ?_⟩
    simp only [List.mem_append, List.mem_cons, not_or]
    exact ⟨(h f (by simp)).2, by decide, h2⟩

theorem cut_row {str : ℚ → List Char} {int : ℤ → List Char} (hs : ∀ x, Plain (str x)) (hi : ∀ x, Plain (int x))
    {r : ℕ × TrialParams × Outcome} (hr : Plain r.2.1.fileId ∧ Plain r.2.1.samples ∧ Plain r.2.1.epsilon) :
    cutAt ',' (csvRow str int r.2.1 r.2.2) = fiveFields str int r ∧ '\n' ∉ csvRow str int r.2.1 r.2.2 := by
  rw [row_eq]
  exact cut_commaJoin _ _ (fiveFields_plain hs hi hr)

theorem cut_rows {str : ℚ → List Char} {int : ℤ → List Char} (hs : ∀ x, Plain (str x)) (hi : ∀ x, Plain (int x)) :
    ∀ rows : List (ℕ × TrialParams × Outcome),
      (∀ r ∈ rows, Plain r.2.1.fileId ∧ Plain r.2.1.samples ∧ Plain r.2.1.epsilon) →
      (cutAt '\n' (rows.map fun r => csvRow str int r.2.1 r.2.2 ++ ['\n']).flatten).map (cutAt ',') =
        rows.map (fiveFields str int) ++ [[[]]]
  | [], _ => rfl
  | r :: rows, h => by
    obtain ⟨h1, h2⟩ := cut_row hs hi (h r (by simp))
    have ih := cut_rows hs hi rows fun x hx => h x (List.mem_cons_of_mem _ hx)
    rw [List.map_cons, List.flatten_cons, List.append_assoc, List.singleton_append, cutAt_cons _ h2, List.map_cons, h1, ih]
    rfl

/-- **C128**, partial: `test.csv` can be read by position. After every number of rounds it consists of the first line and
of one line for each job that has been removed, in this order; and the five fields of such a line are the number of the
file, the samples, the epsilon, the time and the number of hidden formulas, the last two being `NaN` for a timeout. (The
texts of numbers contain neither commas nor ends of lines.) Missing: that the first line names these fields, see
`C128_violated`. -/
theorem C128_partial (str : ℚ → List Char) (int : ℤ → List Char) (hs : ∀ x, ',' ∉ str x ∧ '\n' ∉ str x)
    (hi : ∀ x, ',' ∉ int x ∧ '\n' ∉ int x) (N : Nature) (cores : ℕ) (timeout : ℚ) (jobs : List TrialParams)
    (hj : ∀ p ∈ jobs, ∀ c ∈ p.fileId ++ p.samples ++ p.epsilon, c ≠ ',' ∧ c ≠ '\n') (n : ℕ) (s : Sched TrialParams)
    (h : turns N cores timeout n 0 (Sched.init jobs) = .ok s) :
    ∃ head, '\n' ∉ head ∧ (cutAt '\n' (csvText str int s.rows)).map (cutAt ',') =
      [cutAt ',' head] ++ (s.rows.map fun r => [r.2.1.fileId, r.2.1.samples, r.2.1.epsilon] ++
        match r.2.2 with
        | .finished t k => [str t, int k]
        | .timeout => [['N', 'a', 'N'], ['N', 'a', 'N']]) ++ [[[]]] := by
  have hrows : ∀ r ∈ s.rows, Plain r.2.1.fileId ∧ Plain r.2.1.samples ∧ Plain r.2.1.epsilon := by
    intro r hr
    have hm := ((C47_bookkeeping N cores timeout jobs).1 n s h).2.2.2.2.1 r hr
    have hp := hj _ (List.mem_of_getElem? hm)
    refine ⟨⟨fun hc => (hp _ (by simp [hc])).1 rfl, fun hc => (hp _ (by simp [hc])).2 rfl⟩,
      ⟨fun hc => (hp _ (by simp [hc])).1 rfl, fun hc => (hp _ (by simp [hc])).2 rfl⟩,
      fun hc => (hp _ (by simp [hc])).1 rfl, fun hc => (hp _ (by simp [hc])).2 rfl⟩
  have hh : '\n' ∉ csvHeader := by decide +kernel
  refine ⟨csvHeader, hh, ?_⟩
  unfold csvText
  rw [cutAt_cons _ hh, List.map_cons, cut_rows hs hi s.rows hrows]
  rfl

/-- **C128** is violated by every row of every run: the first line names four columns, `Samples`, `Epsilon`, `Time` and
`Hides`, and the row has five fields. Under these names are the number of the file, the samples, the epsilon and the
time. -/
theorem C128_violated (str : ℚ → List Char) (int : ℤ → List Char) (hs : ∀ x, ',' ∉ str x ∧ '\n' ∉ str x)
    (hi : ∀ x, ',' ∉ int x ∧ '\n' ∉ int x) (N : Nature) (cores : ℕ) (timeout : ℚ) (jobs : List TrialParams)
    (hj : ∀ p ∈ jobs, ∀ c ∈ p.fileId ++ p.samples ++ p.epsilon, c ≠ ',' ∧ c ≠ '\n') (n : ℕ) (s : Sched TrialParams)
    (h : turns N cores timeout n 0 (Sched.init jobs) = .ok s) :
    ∃ lines, (cutAt '\n' (csvText str int s.rows)).map (cutAt ',') =
        ["# Samples".toList, " Epsilon".toList, " Time".toList, " Hides".toList] :: lines ∧
      lines.length = s.rows.length + 1 ∧
      ∀ (i : ℕ) (r : ℕ × TrialParams × Outcome), s.rows[i]? = some r → ∃ time hides,
        lines[i]? = some [r.2.1.fileId, r.2.1.samples, r.2.1.epsilon, time, hides] ∧
        (∀ t k, r.2.2 = .finished t k → time = str t ∧ hides = int k) := by
  obtain ⟨head, hh, he⟩ := C128_partial str int hs hi N cores timeout jobs hj n s h
  have hh' : '\n' ∉ csvHeader := by decide +kernel
  have h0 : cutAt ',' head = cutAt ',' csvHeader := by
    have := congrArg List.head? he
    unfold csvText at this
    rw [cutAt_cons _ hh'] at this
    simpa using this.symm
  refine ⟨_, by rw [he, h0, List.append_assoc, List.singleton_append]; rfl, by simp, fun i r hr => ?_⟩
  have hi' : i < s.rows.length := (List.getElem?_eq_some_iff.1 hr).1
  rw [List.getElem?_append_left (by simpa using hi'), List.getElem?_map, hr]
  obtain ⟨id, p, o⟩ := r
  cases o with
  | finished t k => exact ⟨str t, int k, rfl, fun t' k' h => by cases h; exact ⟨rfl, rfl⟩⟩
  | timeout => exact ⟨_, _, rfl, fun t' k' h => by cases h⟩

/-- a job of the recorded experiment -/
def csvJob : TrialParams := ⟨"a.smt".toList, "22".toList, "0.0424594403785097".toList, "353".toList⟩

/-- the texts of the numbers of the example -/
def csvStr (x : ℚ) : List Char := if x = 2 then "29.2971870899".toList else ['0']

def csvInt (x : ℤ) : List Char := if x = 4 then ['7'] else ['0']

/-- The hypotheses of `C128_partial` and `C128_violated` are met by a run with one job and the first row of the recorded
file `GRF/test.csv`. -/
example : (∀ x, ',' ∉ csvStr x ∧ '\n' ∉ csvStr x) ∧ (∀ x, ',' ∉ csvInt x ∧ '\n' ∉ csvInt x) ∧
    (∀ p ∈ [csvJob], ∀ c ∈ p.fileId ++ p.samples ++ p.epsilon, c ≠ ',' ∧ c ≠ '\n') ∧
    (turns logNature 2 5 20 0 (Sched.init [csvJob])).toOption.map (fun s => csvText csvStr csvInt s.rows) =
      some "# Samples, Epsilon, Time, Hides\n22,353,0.0424594403785097,29.2971870899,7\n".toList := by
  refine ⟨fun x => ?_, fun x => ?_, by decide +kernel, by decide +kernel⟩
  · unfold csvStr; split <;> decide +kernel
  · unfold csvInt; split <;> decide +kernel

end Verif.Grf
