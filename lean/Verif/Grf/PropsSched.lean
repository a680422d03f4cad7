import Verif.Grf.Sched
import Mathlib.Algebra.Order.Archimedean.Basic

/-!
# C47, C61: the test harness
-/

namespace Verif.Grf

variable {P : Type}

/-- Bookkeeping of the harness. -/
structure Books (cores : ℕ) (jobs : List P) (s : Sched P) : Prop where
  /-- at most `cores` processes -/
  cap : s.running.length ≤ cores
  /-- the jobs still in the queue are those not started -/
  queue : s.queue = jobs.drop (s.next - 1)
  /-- the numbers given so far are those of the running and the recorded processes, each once -/
  ids : (s.running.map Job.id ++ s.rows.map Prod.fst).Perm (List.range' 1 (s.next - 1))
  /-- the processes run the jobs in order -/
  run : ∀ j ∈ s.running, jobs[j.id - 1]? = some j.params
  /-- the rows are those of the jobs -/
  row : ∀ r ∈ s.rows, jobs[r.1 - 1]? = some r.2.1
  next : 1 ≤ s.next
  le : s.next - 1 ≤ jobs.length

/-- A row that says the truth. -/
def Truthful (N : Nature) (timeout : ℚ) (r : ℕ × P × Outcome) : Prop :=
  match r.2.2 with
  | .finished e h => ∃ t t' i l, N.alive t r.1 = false ∧ N.result r.1 = some l ∧ h = l.sum ∧
      e = N.now t i - N.startAt t' r.1
  | .timeout => ∃ t t' i, N.alive t r.1 = true ∧ timeout < N.now t i - N.startAt t' r.1

theorem sweep_spec (N : Nature) (timeout : ℚ) (t : ℕ) : ∀ (i : ℕ) (js js' : List (Job P)) r,
    sweep N timeout t i js = .ok (js', r) →
    (r = none ∧ js' = js) ∨ ∃ pre j post o, js = pre ++ j :: post ∧ js' = pre ++ post ∧
      r = some (j.id, j.params, o) ∧ ∃ i', match o with
        | .finished e h => ∃ l, N.alive t j.id = false ∧ N.result j.id = some l ∧ h = l.sum ∧ e = N.now t i' - j.start
        | .timeout => N.alive t j.id = true ∧ timeout < N.now t i' - j.start
  | i, [], js', r, h => by
    cases h
    exact Or.inl ⟨rfl, rfl⟩
  | i, j :: js, js', r, h => by
    unfold sweep at h
    simp only at h
    split at h
    · next ha =>
      split at h
      · cases h
      · next l hl =>
        cases h
        exact Or.inr ⟨[], j, js, _, rfl, rfl, rfl, i, l, ha, hl, rfl, rfl⟩
    · next ha =>
      have ha : N.alive t j.id = true := by simpa using ha
      split at h
      · next ht =>
        cases h
        exact Or.inr ⟨[], j, js, _, rfl, rfl, rfl, i, ha, ht⟩
      · split at h
        · cases h
        · next js'' r' hs =>
          cases h
          rcases sweep_spec N timeout t (i + 1) js js'' r hs with ⟨rfl, rfl⟩ | ⟨pre, j', post, o, rfl, rfl, rfl, h⟩
          · exact Or.inl ⟨rfl, rfl⟩
          · exact Or.inr ⟨j :: pre, j', post, o, rfl, rfl, rfl, h⟩

theorem sweep_noerr (N : Nature) (timeout : ℚ) (t : ℕ) (hN : ∀ id, N.result id ≠ none) : ∀ (i : ℕ) (js : List (Job P)),
    ∃ x, sweep N timeout t i js = .ok x
  | i, [] => ⟨_, rfl⟩
  | i, j :: js => by
    unfold sweep
    simp only
    split
    · split
      · next h => exact absurd h (hN _)
      · exact ⟨_, rfl⟩
    · split
      · exact ⟨_, rfl⟩
      · obtain ⟨x, hx⟩ := sweep_noerr N timeout t hN (i + 1) js
        rw [hx]
        exact ⟨_, rfl⟩

theorem restock_measure (N : Nature) (cores t : ℕ) : ∀ (q : List P) (js : List (Job P)) (k : ℕ),
    (restock N cores t q js k).1.length + (restock N cores t q js k).2.1.length = q.length + js.length ∧
    js <+: (restock N cores t q js k).2.1 ∧
    ((restock N cores t q js k).1 ≠ [] → cores ≤ (restock N cores t q js k).2.1.length)
  | [], js, k => ⟨rfl, List.prefix_rfl, by simp [restock]⟩
  | p :: q, js, k => by
    unfold restock
    split
    · obtain ⟨h1, h2, h3⟩ := restock_measure N cores t q (js ++ [⟨k, N.startAt t k, p⟩]) (k + 1)
      refine ⟨by rw [h1]; simp; omega, (List.prefix_append _ _).trans h2, h3⟩
    · next h => exact ⟨rfl, List.prefix_rfl, fun _ => by simpa using h⟩

theorem Books.restock {cores : ℕ} {jobs : List P} (N : Nature) (t : ℕ) (rows : List (ℕ × P × Outcome)) :
    ∀ (q : List P) (js : List (Job P)) (k : ℕ), Books cores jobs ⟨q, js, k, rows⟩ →
    Books cores jobs ⟨(restock N cores t q js k).1, (restock N cores t q js k).2.1, (restock N cores t q js k).2.2, rows⟩
  | [], js, k, h => h
  | p :: q, js, k, h => by
    unfold Verif.Grf.restock
    split
    · next hc =>
      apply Books.restock N t rows q
      obtain ⟨h1, h2, h3, h4, h5, h6, h7⟩ := h
      dsimp only at h1 h2 h3 h4 h5 h6 h7
      have hk : k - 1 < jobs.length := by
        by_contra hn
        rw [List.drop_eq_nil_of_le (by omega)] at h2
        cases h2
      rw [List.drop_eq_getElem_cons hk] at h2
      injection h2 with h2 h2'
      have hk1 : k + 1 - 1 = (k - 1) + 1 := by omega
      refine ⟨by simp; omega, ?_, ?_, ?_, h5, by simp, by dsimp only; omega⟩
      · simp only; rw [hk1]; exact h2'
      · dsimp only
        rw [hk1, List.range'_concat, List.map_append, List.append_assoc]
        refine (List.perm_append_comm_assoc _ _ _).trans ?_
        have : 1 + 1 * (k - 1) = k := by omega
        rw [this]
        exact (List.Perm.append_left _ h3).trans List.perm_append_comm
      · intro j hj
        rcases List.mem_append.1 hj with hj | hj
        · exact h4 j hj
        · rw [List.mem_singleton.1 hj, h2, List.getElem?_eq_getElem hk]
    · exact h

theorem mem_restock (N : Nature) (cores t : ℕ) : ∀ (q : List P) (js : List (Job P)) (k : ℕ),
    ∀ j ∈ (restock N cores t q js k).2.1, j ∈ js ∨ j.start = N.startAt t j.id
  | [], js, k, j, hj => Or.inl hj
  | p :: q, js, k, j, hj => by
    unfold restock at hj
    split at hj
    · rcases mem_restock N cores t q _ _ j hj with h | h
      · rcases List.mem_append.1 h with h | h
        · exact Or.inl h
        · rw [List.mem_singleton.1 h]; exact Or.inr rfl
      · exact Or.inr h
    · exact Or.inl hj

/-- Everything that is known about the state between two turns. -/
structure Inv (N : Nature) (cores : ℕ) (timeout : ℚ) (jobs : List P) (s : Sched P) : Prop where
  books : Books cores jobs s
  start : ∀ j ∈ s.running, ∃ t, j.start = N.startAt t j.id
  truth : ∀ r ∈ s.rows, Truthful N timeout r

theorem inv_turn {N : Nature} {cores : ℕ} {timeout : ℚ} {jobs : List P} {s s' : Sched P} {t : ℕ}
    (h : Inv N cores timeout jobs s) (hr : turn N cores timeout t s = .ok s') : Inv N cores timeout jobs s' := by
  unfold turn at hr
  split at hr
  · cases hr
  · next running row hs =>
    cases hr
    have key : Inv N cores timeout jobs ⟨s.queue, running, s.next, s.rows ++ row.toList⟩ := by
      obtain ⟨⟨h1, h2, h3, h4, h5, h6, h7⟩, h8, h9⟩ := h
      rcases sweep_spec N timeout t 0 s.running running row hs with ⟨rfl, rfl⟩ | ⟨pre, j, post, o, e1, rfl, rfl, i, ho⟩
      · simp only [Option.toList_none, List.append_nil]
        exact ⟨⟨h1, h2, h3, h4, h5, h6, h7⟩, h8, h9⟩
      · rw [e1] at h1 h3 h4 h8
        refine ⟨⟨?_, h2, ?_, ?_, ?_, h6, h7⟩, ?_, ?_⟩
        · simp at h1 ⊢; omega
        · refine List.Perm.trans ?_ h3
          simp only [List.map_append, List.map_cons, Option.toList_some, List.map_nil, List.append_assoc,
            List.cons_append]
          refine List.Perm.append_left _ ?_
          rw [← List.append_assoc]
          exact List.perm_append_comm
        · intro j' hj'
          apply h4
          rcases List.mem_append.1 hj' with hj' | hj'
          · simp [hj']
          · simp [hj']
        · intro r hr
          rcases List.mem_append.1 hr with hr | hr
          · exact h5 r hr
          · simp only [Option.toList_some, List.mem_singleton] at hr
            rw [hr]
            exact h4 j (by simp)
        · intro j' hj'
          apply h8
          rcases List.mem_append.1 hj' with hj' | hj'
          · simp [hj']
          · simp [hj']
        · intro r hr
          rcases List.mem_append.1 hr with hr | hr
          · exact h9 r hr
          · simp only [Option.toList_some, List.mem_singleton] at hr
            rw [hr]
            obtain ⟨t', ht'⟩ := h8 j (by simp)
            rw [ht'] at ho
            cases o with
            | finished e hd =>
              obtain ⟨l, a1, a2, a3, a4⟩ := ho
              exact ⟨t, t', i, l, a1, a2, a3, a4⟩
            | timeout => exact ⟨t, t', i, ho.1, ho.2⟩
    refine ⟨key.books.restock N t _ _ _ _, ?_, key.truth⟩
    intro j hj
    rcases mem_restock N cores t _ _ _ j hj with h | h
    · exact key.start j h
    · exact ⟨t, h⟩

theorem inv_turns {N : Nature} {cores : ℕ} {timeout : ℚ} {jobs : List P} : ∀ {n t : ℕ} {s s' : Sched P},
    Inv N cores timeout jobs s → turns N cores timeout n t s = .ok s' → Inv N cores timeout jobs s'
  | 0, t, s, s', h, hr => by cases hr; exact h
  | n + 1, t, s, s', h, hr => by
    unfold turns at hr
    split at hr
    · cases hr; exact h
    · split at hr
      · cases hr
      · next s'' h1 => exact inv_turns (inv_turn h h1) hr

theorem inv_init (N : Nature) (cores : ℕ) (timeout : ℚ) (jobs : List P) :
    Inv N cores timeout jobs (Sched.init jobs) := by
  refine ⟨⟨by simp [Sched.init], by simp [Sched.init], by simp [Sched.init], ?_, ?_, by simp [Sched.init], by simp [Sched.init]⟩, ?_, ?_⟩ <;>
    simp [Sched.init]

theorem measure_turn {N : Nature} {cores : ℕ} {timeout : ℚ} {s s' : Sched P} {t : ℕ}
    (hr : turn N cores timeout t s = .ok s') :
    s'.queue.length + s'.running.length < s.queue.length + s.running.length ∨
    (s'.queue.length + s'.running.length = s.queue.length + s.running.length ∧ s.running <+: s'.running ∧
      (s'.queue ≠ [] → cores ≤ s'.running.length)) := by
  unfold turn at hr
  split at hr
  · cases hr
  · next running row hs =>
    cases hr
    obtain ⟨m1, m2, m3⟩ := restock_measure N cores t s.queue running s.next
    rcases sweep_spec N timeout t 0 s.running running row hs with ⟨rfl, rfl⟩ | ⟨pre, j, post, o, e1, rfl, rfl, i, ho⟩
    · exact Or.inr ⟨m1, m2, m3⟩
    · left
      simp only
      rw [m1, e1]
      simp

theorem turns_add {N : Nature} {cores : ℕ} {timeout : ℚ} : ∀ {n m t : ℕ} {s s' s'' : Sched P},
    turns N cores timeout n t s = .ok s' → (s'.done = false → turns N cores timeout m (t + n) s' = .ok s'') →
    (s'.done = true → s'' = s') → turns N cores timeout (n + m) t s = .ok s''
  | 0, m, t, s, s', s'', h, h1, h2 => by
    cases h
    rw [Nat.zero_add]
    cases hd : s.done with
    | false => exact h1 hd
    | true =>
      rw [h2 hd]
      cases m with
      | zero => rfl
      | succ m => unfold turns; rw [if_pos hd]
  | n + 1, m, t, s, s', s'', h, h1, h2 => by
    rw [Nat.add_right_comm]
    unfold turns at h ⊢
    split at h
    · next hd =>
      cases h
      rw [if_pos hd, h2 hd]
    · next hd =>
      rw [if_neg hd]
      split at h
      · cases h
      · next x hx =>
        refine turns_add h ?_ h2
        rwa [Nat.add_assoc, Nat.add_comm 1 n]

theorem progress {N : Nature} {cores : ℕ} {timeout : ℚ} (hN : ∀ id, N.result id ≠ none)
    (hclock : ∀ B : ℚ, ∃ T, ∀ t, T ≤ t → ∀ i, B < N.now t i) (j : Job P) :
    ∃ T, ∀ (d t : ℕ) (s : Sched P), T ≤ t + d → s.running.head? = some j → ∃ n s', turns N cores timeout n t s = .ok s' ∧
      s'.queue.length + s'.running.length < s.queue.length + s.running.length := by
  obtain ⟨T, hT⟩ := hclock (timeout + j.start)
  refine ⟨T, fun d => ?_⟩
  have hround : ∀ (t : ℕ) (s : Sched P), ∃ s', turn N cores timeout t s = .ok s' := by
    intro t s
    obtain ⟨x, hx⟩ := sweep_noerr N timeout t hN 0 s.running
    unfold turn
    rw [hx]
    exact ⟨_, rfl⟩
  have hnd : ∀ s : Sched P, s.running.head? = some j → s.done = false := by
    intro s hs
    unfold Sched.done
    cases hr : s.running with
    | nil => rw [hr] at hs; cases hs
    | cons a l => simp
  induction d with
  | zero =>
    intro t s ht hs
    obtain ⟨s', hs'⟩ := hround t s
    refine ⟨1, s', ?_, ?_⟩
    · unfold turns
      rw [hnd s hs, hs']
      rfl
    · unfold turn at hs'
      cases hr : s.running with
      | nil => rw [hr] at hs; cases hs
      | cons a l =>
        rw [hr] at hs
        cases hs
        rw [hr] at hs'
        have : ∃ o, sweep N timeout t 0 (j :: l) = .ok (l, some (j.id, j.params, o)) := by
          unfold sweep
          simp only
          have h1 := hT t (by omega) 0
          have h2 : timeout < N.now t 0 - j.start := by linarith
          rw [if_pos h2]
          split
          · split
            · next h => exact absurd h (hN _)
            · exact ⟨_, rfl⟩
          · exact ⟨_, rfl⟩
        obtain ⟨o, ho⟩ := this
        rw [ho] at hs'
        cases hs'
        simp only
        rw [(restock_measure N cores t s.queue l s.next).1]
        simp
  | succ d ih =>
    intro t s ht hs
    obtain ⟨s', hs'⟩ := hround t s
    have h1 : turns N cores timeout 1 t s = .ok s' := by
      unfold turns
      rw [hnd s hs, hs']
      rfl
    rcases measure_turn hs' with h | ⟨h, hp, _⟩
    · exact ⟨1, s', h1, h⟩
    · have hs2 : s'.running.head? = some j := by
        obtain ⟨l, hl⟩ := hp
        rw [← hl]
        cases hr : s.running with
        | nil => rw [hr] at hs; cases hs
        | cons a l => rw [hr] at hs; exact hs
      obtain ⟨n, s'', h2, h3⟩ := ih (t + 1) s' (by omega) hs2
      refine ⟨1 + n, s'', turns_add h1 (fun _ => h2) (fun hd => ?_), by omega⟩
      rw [hnd s' hs2] at hd
      cases hd

/-- **C47**: in every schedule, after any number of rounds at most `cores` processes run; the processes started so far
have the numbers 1, 2, ... and each of them is either running or recorded, and that once; process `k` runs the `k`-th
job, the others are in the queue; every row says the truth; and if the clock is unbounded, there is at least one core and
every process that ends has stored its result, the loop ends, with exactly one row for each job. -/
theorem C47_bookkeeping (N : Nature) (cores : ℕ) (timeout : ℚ) (jobs : List P) :
    (∀ n s, turns N cores timeout n 0 (Sched.init jobs) = .ok s →
      s.running.length ≤ cores ∧
      (s.running.map Job.id ++ s.rows.map Prod.fst).Perm (List.range' 1 (s.next - 1)) ∧
      s.queue = jobs.drop (s.next - 1) ∧
      (∀ j ∈ s.running, jobs[j.id - 1]? = some j.params) ∧ (∀ r ∈ s.rows, jobs[r.1 - 1]? = some r.2.1) ∧
      ∀ r ∈ s.rows, Truthful N timeout r) ∧
    (1 ≤ cores → (∀ id, N.result id ≠ none) → (∀ B : ℚ, ∃ T, ∀ t, T ≤ t → ∀ i, B < N.now t i) →
      ∃ n s, turns N cores timeout n 0 (Sched.init jobs) = .ok s ∧ s.queue = [] ∧ s.running = [] ∧
        (s.rows.map Prod.fst).Perm (List.range' 1 jobs.length) ∧ (s.rows.map fun r => r.2.1).Perm jobs) := by
  constructor
  · intro n s h
    obtain ⟨⟨h1, h2, h3, h4, h5, _, _⟩, _, h9⟩ := inv_turns (inv_init N cores timeout jobs) h
    exact ⟨h1, h3, h2, h4, h5, h9⟩
  · intro hc hN hclock
    have main : ∀ (m : ℕ) (t : ℕ) (s : Sched P), s.queue.length + s.running.length ≤ m →
        ∃ n s', turns N cores timeout n t s = .ok s' ∧ s'.done = true := by
      intro m
      induction m with
      | zero =>
        intro t s hm
        refine ⟨0, s, rfl, ?_⟩
        have h1 : s.queue = [] := List.length_eq_zero_iff.1 (by omega)
        have h2 : s.running = [] := List.length_eq_zero_iff.1 (by omega)
        simp [Sched.done, h1, h2]
      | succ m ih =>
        intro t s hm
        cases hd : s.done with
        | true => exact ⟨0, s, rfl, hd⟩
        | false =>
          obtain ⟨x, hx⟩ := sweep_noerr N timeout t hN 0 s.running
          have hr : ∃ s', turn N cores timeout t s = .ok s' := by
            unfold turn
            rw [hx]
            exact ⟨_, rfl⟩
          obtain ⟨s', hs'⟩ := hr
          have h1 : turns N cores timeout 1 t s = .ok s' := by
            unfold turns
            rw [hd, hs']
            rfl
          have chain : ∀ {n s1}, turns N cores timeout n t s = .ok s1 →
              s1.queue.length + s1.running.length < s.queue.length + s.running.length →
              ∃ n s', turns N cores timeout n t s = .ok s' ∧ s'.done = true := by
            intro n s1 e1 e2
            cases hd1 : s1.done with
            | true => exact ⟨n, s1, e1, hd1⟩
            | false =>
              obtain ⟨n2, s2, e3, e4⟩ := ih (t + n) s1 (by omega)
              exact ⟨n + n2, s2, turns_add e1 (fun _ => e3) (fun h => by rw [hd1] at h; cases h), e4⟩
          rcases measure_turn hs' with h | ⟨h, hp, hq⟩
          · exact chain h1 h
          · have hne : s'.running ≠ [] := by
              intro he
              have : s'.queue = [] := by
                by_contra hqe
                have := hq hqe
                rw [he] at this
                simp at this
                omega
              rw [he, this] at h
              have h3 : s.queue = [] := List.length_eq_zero_iff.1 (by simp at h; omega)
              have h4 : s.running = [] := List.length_eq_zero_iff.1 (by simp at h; omega)
              simp [Sched.done, h3, h4] at hd
            obtain ⟨j, l, hj⟩ := List.exists_cons_of_ne_nil hne
            obtain ⟨T, hT⟩ := progress (cores := cores) (timeout := timeout) hN hclock j
            obtain ⟨n, s2, e1, e2⟩ := hT T (t + 1) s' (by omega) (by rw [hj]; rfl)
            refine chain (turns_add h1 (fun _ => e1) (fun hdd => ?_)) (by omega)
            simp [Sched.done, hj] at hdd
    obtain ⟨n, s, h1, h2⟩ := main _ 0 (Sched.init jobs) le_rfl
    obtain ⟨⟨b1, b2, b3, b4, b5, b6, b7⟩, _, _⟩ := inv_turns (inv_init N cores timeout jobs) h1
    have hq : s.queue = [] := by
      simp [Sched.done] at h2; exact h2.1
    have hrun : s.running = [] := by
      simp [Sched.done] at h2; exact h2.2
    have hnext : s.next - 1 = jobs.length := by
      rw [hq] at b2
      have := congrArg List.length b2
      simp at this
      omega
    rw [hrun, hnext] at b3
    refine ⟨n, s, h1, hq, hrun, by simpa using b3, ?_⟩
    have e1 : (s.rows.map fun r => some r.2.1) = (s.rows.map Prod.fst).map fun i => jobs[i - 1]? := by
      rw [List.map_map]
      apply List.map_congr_left
      intro r hr
      exact (b5 r hr).symm
    have e2 : (List.range' 1 jobs.length).map (fun i => jobs[i - 1]?) = jobs.map some := by
      rw [List.range'_eq_map_range, List.map_map]
      apply List.ext_getElem
      · simp
      · intro i h1 h2
        simp at h1 h2 ⊢
    have e3 : (s.rows.map fun r => some r.2.1).Perm (jobs.map some) := by
      rw [e1, ← e2]
      exact List.Perm.map _ (by simpa using b3)
    have e4 : (s.rows.map fun r => some r.2.1) = (s.rows.map fun r => r.2.1).map some := by
      rw [List.map_map]; rfl
    rw [e4] at e3
    have := e3.filterMap id
    simpa using this

/-- Processes: each ends in the round after that in which it starts to be looked at, except process 2. -/
def testNature : Nature where
  alive t id := decide (t < id ∨ id = 2)
  now t _ := t
  startAt t _ := t
  result _ := some [1, 0, 1]

/-- Three jobs on two cores; the second job runs out of time. -/
example : (turns testNature 2 5 20 0 (Sched.init ["a", "b", "c"])).toOption =
    some ⟨[], [], 4, [(1, "a", .finished 1 2), (3, "c", .finished 2 2), (2, "b", .timeout)]⟩ := by decide +kernel

example : (∀ id, testNature.result id ≠ none) ∧ ∀ B : ℚ, ∃ T, ∀ t, T ≤ t → ∀ i, B < testNature.now t i := by
  refine ⟨fun _ => by simp [testNature], fun B => ?_⟩
  obtain ⟨T, hT⟩ := exists_nat_gt B
  exact ⟨T, fun t ht _ => lt_of_lt_of_le hT (by simp [testNature]; exact_mod_cast ht)⟩

/-- A job whose process ends without a result (for instance because of an exception in it). -/
def failNature : Nature where
  alive t id := decide (t < id)
  now t _ := t
  startAt t _ := t
  result id := if id = 1 then none else some [1]

/-- **C61** is violated: one job that ends without storing a result ends the harness, and nothing is recorded for the
other jobs, although their processes end with results. -/
theorem C61_violated : (∀ id, id ≠ 1 → failNature.result id = some [1]) ∧
    (∀ B : ℚ, ∃ T, ∀ t, T ≤ t → ∀ i, B < failNature.now t i) ∧
    (turns failNature 2 5 1 0 (Sched.init ["a", "b", "c"])).toOption.map Sched.rows = some [] ∧
    ∀ n, 2 ≤ n → turns failNature 2 5 n 0 (Sched.init ["a", "b", "c"]) = .error .keyError := by
  refine ⟨fun id h => by simp [failNature, h], fun B => ?_, by decide +kernel, fun n hn => ?_⟩
  · obtain ⟨T, hT⟩ := exists_nat_gt B
    exact ⟨T, fun t ht _ => lt_of_lt_of_le hT (by simp [failNature]; exact_mod_cast ht)⟩
  · obtain ⟨n, rfl⟩ := Nat.exists_eq_add_of_le hn
    rw [Nat.add_comm 2 n]
    rfl

/-- What holds instead of **C61**: as long as no process ends without a result no round fails. -/
theorem C61_partial (N : Nature) (cores : ℕ) (timeout : ℚ) (jobs : List P) (hN : ∀ id, N.result id ≠ none) :
    ∀ n, ∃ s, turns N cores timeout n 0 (Sched.init jobs) = .ok s := by
  have : ∀ (n t : ℕ) (s : Sched P), ∃ s', turns N cores timeout n t s = .ok s' := by
    intro n
    induction n with
    | zero => exact fun t s => ⟨s, rfl⟩
    | succ n ih =>
      intro t s
      unfold turns
      split
      · exact ⟨_, rfl⟩
      · obtain ⟨x, hx⟩ := sweep_noerr N timeout t hN 0 s.running
        unfold turn
        rw [hx]
        exact ih _ _
  exact fun n => this n 0 _

end Verif.Grf
