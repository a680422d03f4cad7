import Verif.Grf.PropsSched

/-!
# C61: when the test harness fails
-/

namespace Verif.Grf

variable {P : Type}

/-- The same processes, but all of them store a result. -/
def Nature.mended (N : Nature) : Nature := { N with result := fun id => some ((N.result id).getD []) }

theorem sweep_mended (N : Nature) (timeout : ℚ) (t : ℕ) : ∀ (i : ℕ) (js : List (Job P)),
    (sweep N timeout t i js = .error .keyError ∧ ∃ j ∈ js, N.alive t j.id = false ∧ N.result j.id = none) ∨
      sweep N timeout t i js = sweep N.mended timeout t i js
  | i, [] => Or.inr rfl
  | i, j :: js => by
    unfold sweep
    have e1 : N.mended.alive t j.id = N.alive t j.id := rfl
    have e2 : N.mended.now t i = N.now t i := rfl
    have e3 : N.mended.result j.id = some ((N.result j.id).getD []) := rfl
    simp only [e2, e3]
    by_cases ha : N.alive t j.id = false
    · rw [if_pos ha, if_pos (e1.trans ha)]
      cases hr : N.result j.id with
      | none => exact Or.inl ⟨rfl, j, by simp, ha, hr⟩
      | some l => exact Or.inr rfl
    · rw [if_neg ha, if_neg (fun h => ha (e1.symm.trans h))]
      split
      · exact Or.inr rfl
      · rcases sweep_mended N timeout t (i + 1) js with ⟨h1, j', hj', h2, h3⟩ | h
        · rw [h1]
          exact Or.inl ⟨rfl, j', List.mem_cons_of_mem _ hj', h2, h3⟩
        · rw [h]
          exact Or.inr rfl

theorem restock_mended (N : Nature) (cores t : ℕ) : ∀ (q : List P) (js : List (Job P)) (k : ℕ),
    restock N.mended cores t q js k = restock N cores t q js k
  | [], js, k => rfl
  | p :: q, js, k => by
    unfold restock
    split
    · exact restock_mended N cores t q _ _
    · rfl

theorem turn_mended (N : Nature) (cores : ℕ) (timeout : ℚ) (t : ℕ) (s : Sched P) :
    (turn N cores timeout t s = .error .keyError ∧ ∃ j ∈ s.running, N.alive t j.id = false ∧ N.result j.id = none) ∨
      turn N cores timeout t s = turn N.mended cores timeout t s := by
  unfold turn
  rcases sweep_mended N timeout t 0 s.running with ⟨h1, h2⟩ | h
  · rw [h1]
    exact Or.inl ⟨rfl, h2⟩
  · rw [h]
    simp only [restock_mended]
    exact Or.inr trivial

theorem turns_succ (N : Nature) (cores : ℕ) (timeout : ℚ) (n t : ℕ) (s : Sched P) :
    turns N cores timeout (n + 1) t s = if s.done then .ok s else
      match turn N cores timeout t s with
      | .error e => .error e
      | .ok s' => turns N cores timeout n (t + 1) s' := rfl

theorem turns_mended (N : Nature) (cores : ℕ) (timeout : ℚ) : ∀ (n t : ℕ) (s : Sched P),
    (turns N cores timeout n t s = .error .keyError ∧
      ∃ k s', k < n ∧ turns N cores timeout k t s = .ok s' ∧ ∃ j ∈ s'.running, N.result j.id = none) ∨
      turns N cores timeout n t s = turns N.mended cores timeout n t s
  | 0, t, s => Or.inr rfl
  | n + 1, t, s => by
    rw [turns_succ, turns_succ N.mended]
    split
    · exact Or.inr rfl
    · next hd =>
      rcases turn_mended N cores timeout t s with ⟨h1, j, hj, h2, h3⟩ | h
      · rw [h1]
        exact Or.inl ⟨rfl, 0, s, by omega, rfl, j, hj, h3⟩
      · rw [← h]
        cases ht : turn N cores timeout t s with
        | error e => exact Or.inr rfl
        | ok s1 =>
          rcases turns_mended N cores timeout n (t + 1) s1 with ⟨h1, k, s', hk, h2, h3⟩ | h1
          · refine Or.inl ⟨h1, k + 1, s', by omega, ?_, h3⟩
            rw [turns_succ, if_neg hd, ht]
            exact h2
          · exact Or.inr h1

theorem turns_error {N : Nature} {cores : ℕ} {timeout : ℚ} {e : GErr} : ∀ {n m t : ℕ} {s : Sched P}, n ≤ m →
    turns N cores timeout n t s = .error e → turns N cores timeout m t s = .error e
  | 0, m, t, s, _, h => by cases h
  | n + 1, m, t, s, hm, h => by
    obtain ⟨m, rfl⟩ : ∃ k, m = k + 1 := ⟨m - 1, by omega⟩
    unfold turns at h ⊢
    split at h
    · cases h
    · next hd =>
      rw [if_neg hd]
      split at h
      · next h1 => cases h; rfl
      · next s1 h1 => exact turns_error (by omega) h

/-- **C61**, exactly what happens: if there is a core and the clock is unbounded, then either the loop ends with one row
for each job, and then the jobs without a result are recorded as timeouts; or it ends with `KeyError`, some job being
without a result, and nothing more is recorded. -/
theorem C61_exact (N : Nature) (cores : ℕ) (timeout : ℚ) (jobs : List P) (hc : 1 ≤ cores)
    (hclock : ∀ B : ℚ, ∃ T, ∀ t, T ≤ t → ∀ i, B < N.now t i) :
    (∃ n s, turns N cores timeout n 0 (Sched.init jobs) = .ok s ∧ s.queue = [] ∧ s.running = [] ∧
        (s.rows.map Prod.fst).Perm (List.range' 1 jobs.length) ∧ (s.rows.map fun r => r.2.1).Perm jobs ∧
        ∀ r ∈ s.rows, N.result r.1 = none → r.2.2 = .timeout) ∨
    ∃ n, (∀ m, n ≤ m → turns N cores timeout m 0 (Sched.init jobs) = .error .keyError) ∧
      ∃ id, 1 ≤ id ∧ id ≤ jobs.length ∧ N.result id = none := by
  obtain ⟨n, s, h1, h2, h3, h4, h5⟩ := (C47_bookkeeping N.mended cores timeout jobs).2 hc
    (fun id => by simp [Nature.mended]) hclock
  rcases turns_mended N cores timeout n 0 (Sched.init jobs) with ⟨he, k, s', _, hk, j, hj, hr⟩ | he
  · right
    refine ⟨n, fun m hm => turns_error hm he, j.id, ?_, ?_, hr⟩
    all_goals
      obtain ⟨⟨b1, b2, b3, b4, b5, b6, b7⟩, _, _⟩ := inv_turns (inv_init N cores timeout jobs) hk
      have hm : j.id ∈ s'.running.map Job.id ++ s'.rows.map Prod.fst :=
        List.mem_append_left _ (List.mem_map_of_mem hj)
      have := b3.mem_iff.1 hm
      rw [List.mem_range'_1] at this
      omega
  · left
    rw [h1] at he
    refine ⟨n, s, he, h2, h3, h4, h5, fun r hr hn => ?_⟩
    have ht := ((C47_bookkeeping N cores timeout jobs).1 n s he).2.2.2.2.2 r hr
    unfold Truthful at ht
    split at ht
    · obtain ⟨_, _, _, l, _, h, _⟩ := ht
      rw [hn] at h
      cases h
    · next h => exact h

/-- **C61** is violated whenever a process ends at once without a result: whatever the other jobs and processes are, the
loop ends with `KeyError`. On the other hand the loop runs to its end if the processes without a result do not end. -/
theorem C61_when (N : Nature) (cores : ℕ) (timeout : ℚ) (jobs : List P) (hc : 1 ≤ cores)
    (hclock : ∀ B : ℚ, ∃ T, ∀ t, T ≤ t → ∀ i, B < N.now t i) :
    ((∃ id, 1 ≤ id ∧ id ≤ jobs.length ∧ N.result id = none ∧ ∀ t, N.alive t id = false) →
      ∃ n, ∀ m, n ≤ m → turns N cores timeout m 0 (Sched.init jobs) = .error .keyError) ∧
    ((∀ id, N.result id = none → ∀ t, N.alive t id = true) →
      ∃ n s, turns N cores timeout n 0 (Sched.init jobs) = .ok s ∧ s.queue = [] ∧ s.running = [] ∧
        (s.rows.map Prod.fst).Perm (List.range' 1 jobs.length) ∧ (s.rows.map fun r => r.2.1).Perm jobs) := by
  constructor
  · rintro ⟨id, h1, h2, h3, h4⟩
    rcases C61_exact N cores timeout jobs hc hclock with ⟨n, s, ha, _, _, hp, _, hr⟩ | ⟨n, h, _⟩
    · exfalso
      have hm : id ∈ s.rows.map Prod.fst := hp.mem_iff.2 (by rw [List.mem_range'_1]; omega)
      obtain ⟨r, hrm, rfl⟩ := List.mem_map.1 hm
      have ht := ((C47_bookkeeping N cores timeout jobs).1 n s ha).2.2.2.2.2 r hrm
      unfold Truthful at ht
      rw [hr r hrm h3] at ht
      obtain ⟨t, _, _, h, _⟩ := ht
      rw [h4] at h
      cases h
    · exact ⟨n, h⟩
  · intro hal
    have key : ∀ (n t : ℕ) (s : Sched P), turns N cores timeout n t s = turns N.mended cores timeout n t s := by
      intro n
      induction n with
      | zero => intro t s; rfl
      | succ n ih =>
        intro t s
        unfold turns
        split
        · rfl
        · rcases turn_mended N cores timeout t s with ⟨_, j, _, h2, h3⟩ | h
          · rw [hal _ h3] at h2
            cases h2
          · rw [h]
            split
            · rfl
            · exact ih _ _
    obtain ⟨n, s, h1, h2⟩ := (C47_bookkeeping N.mended cores timeout jobs).2 hc
      (fun id => by simp [Nature.mended]) hclock
    exact ⟨n, s, by rw [key]; exact h1, h2⟩

/-- Processes of which the second stores no result; it ends at once, or it does not end. -/
def twoNature (hangs : Bool) : Nature where
  alive t id := if id = 2 then hangs else decide (t < id)
  now t _ := t
  startAt t _ := t
  result id := if id = 2 then none else some [1]

example : (∀ t, (twoNature false).alive t 2 = false) ∧ (twoNature false).result 2 = none ∧
    (∀ id, (twoNature true).result id = none → ∀ t, (twoNature true).alive t id = true) ∧
    (∀ B : ℚ, ∃ T, ∀ t, T ≤ t → ∀ i, B < (twoNature true).now t i) ∧
    (turns (twoNature true) 2 5 20 0 (Sched.init ["a", "b", "c"])).toOption.map Sched.rows =
      some [(1, "a", .finished 1 1), (3, "c", .finished 2 1), (2, "b", .timeout)] ∧
    (turns (twoNature false) 2 5 20 0 (Sched.init ["a", "b", "c"])).toOption = none := by
  refine ⟨fun _ => rfl, rfl, fun id h t => ?_, fun B => ?_, by decide +kernel, by decide +kernel⟩
  · have : id = 2 := by
      by_contra hne
      simp [twoNature, hne] at h
    simp [twoNature, this]
  · obtain ⟨T, hT⟩ := exists_nat_gt B
    exact ⟨T, fun t ht _ => lt_of_lt_of_le hT (by simp [twoNature]; exact_mod_cast ht)⟩

end Verif.Grf
