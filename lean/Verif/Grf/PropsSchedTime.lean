import Verif.Grf.PropsSched
import Mathlib.Algebra.BigOperators.Group.Finset.Sigma
import Mathlib.Algebra.BigOperators.Group.Finset.Piecewise
import Mathlib.Algebra.Order.BigOperators.Group.Finset
import Mathlib.Data.Finset.Max
import Mathlib.Order.Interval.Finset.Nat

/-!
# C111, C112: the time taken by the test harness, and the recorded times

The `for` loop over the running processes is left after one process has been removed (`GRF/test.py:96-97, 109-110`), so
that in one round not all processes are looked at.
-/

namespace Verif.Grf

variable {P : Type}

/-- What one pass of the `for` loop does to the process at a given place: it is removed; or a process before it is
removed; or it is looked at and stays. -/
theorem sweep_place (N : Nature) (timeout : ℚ) (t : ℕ) (j : Job P) (post : List (Job P)) :
    ∀ (pre : List (Job P)) (i : ℕ) (js' : List (Job P)) (r : Option (ℕ × P × Outcome)),
    sweep N timeout t i (pre ++ j :: post) = .ok (js', r) →
    (∃ o, r = some (j.id, j.params, o)) ∨
    (∃ pre', js' = pre' ++ j :: post ∧ pre'.length + 1 = pre.length) ∨
    (∃ post', js' = pre ++ j :: post' ∧ ¬ timeout < N.now t (i + pre.length) - j.start)
  | [], i, js', r, h => by
    rw [List.nil_append] at h
    unfold sweep at h
    simp only at h
    split at h
    · split at h
      · cases h
      · cases h
        exact .inl ⟨_, rfl⟩
    · split at h
      · cases h
        exact .inl ⟨_, rfl⟩
      · next ht =>
        split at h
        · cases h
        · cases h
          exact .inr (.inr ⟨_, rfl, by simpa using ht⟩)
  | a :: pre, i, js', r, h => by
    rw [List.cons_append] at h
    unfold sweep at h
    simp only at h
    split at h
    · split at h
      · cases h
      · cases h
        exact .inr (.inl ⟨pre, rfl, by simp⟩)
    · split at h
      · cases h
        exact .inr (.inl ⟨pre, rfl, by simp⟩)
      · split at h
        · cases h
        · next js'' r' hs =>
          cases h
          rcases sweep_place N timeout t j post pre (i + 1) js'' r hs with h | ⟨pre', rfl, hl⟩ | ⟨post', rfl, hl⟩
          · exact .inl h
          · exact .inr (.inl ⟨a :: pre', rfl, by simp [hl]⟩)
          · refine .inr (.inr ⟨post', rfl, ?_⟩)
            have e : i + (a :: pre).length = i + 1 + pre.length := by simp; omega
            rw [e]
            exact hl

/-- The same for one round of the main loop. -/
theorem turn_place {N : Nature} {cores : ℕ} {timeout : ℚ} {t : ℕ} {s s' : Sched P} {pre post : List (Job P)} {j : Job P}
    (hs : s.running = pre ++ j :: post) (h : turn N cores timeout t s = .ok s') :
    (∃ r ∈ s'.rows, r.1 = j.id) ∨
    (∃ pre' post', s'.running = pre' ++ j :: post' ∧ pre'.length + 1 = pre.length) ∨
    (∃ post', s'.running = pre ++ j :: post' ∧ ¬ timeout < N.now t pre.length - j.start) := by
  unfold turn at h
  split at h
  · cases h
  · next running row hsw =>
    cases h
    obtain ⟨l, hl⟩ := (restock_measure N cores t s.queue running s.next).2.1
    rw [hs] at hsw
    rcases sweep_place N timeout t j post pre 0 running row hsw with ⟨o, rfl⟩ | ⟨pre', rfl, hp⟩ | ⟨post', rfl, hp⟩
    · exact .inl ⟨(j.id, j.params, o), by simp, rfl⟩
    · exact .inr (.inl ⟨pre', post ++ l, by rw [← hl]; simp, hp⟩)
    · exact .inr (.inr ⟨post' ++ l, by rw [← hl]; simp, by simpa using hp⟩)

theorem turn_rows {N : Nature} {cores : ℕ} {timeout : ℚ} {t : ℕ} {s s' : Sched P}
    (h : turn N cores timeout t s = .ok s') : s.rows <+: s'.rows := by
  unfold turn at h
  split at h
  · cases h
  · cases h
    exact List.prefix_append _ _

theorem turn_start {N : Nature} {cores : ℕ} {timeout : ℚ} {t : ℕ} {s s' : Sched P}
    (h : turn N cores timeout t s = .ok s') : ∀ j ∈ s'.running, j ∈ s.running ∨ j.start = N.startAt t j.id := by
  unfold turn at h
  split at h
  · cases h
  · next running row hsw =>
    cases h
    intro j hj
    rcases mem_restock N cores t _ _ _ j hj with h | h
    · left
      rcases sweep_spec N timeout t 0 s.running running row hsw with ⟨rfl, rfl⟩ | ⟨pre, j', post, o, e1, rfl, _⟩
      · exact h
      · rw [e1]
        rcases List.mem_append.1 h with h | h <;> simp [h]
    · exact .inr h

theorem turn_full {N : Nature} {cores : ℕ} {timeout : ℚ} {t : ℕ} {s s' : Sched P}
    (h : turn N cores timeout t s = .ok s') : s'.queue ≠ [] → cores ≤ s'.running.length := by
  unfold turn at h
  split at h
  · cases h
  · cases h
    exact (restock_measure N cores t _ _ _).2.2

/-- One more round. -/
theorem turns_step {N : Nature} {cores : ℕ} {timeout : ℚ} : ∀ {n t : ℕ} {s s₁ s₂ : Sched P},
    turns N cores timeout n t s = .ok s₁ → turns N cores timeout (n + 1) t s = .ok s₂ →
    (s₁.done = true ∧ s₂ = s₁) ∨ (s₁.done = false ∧ turn N cores timeout (t + n) s₁ = .ok s₂)
  | 0, t, s, s₁, s₂, h, h' => by
    cases h
    unfold turns at h'
    split at h'
    · next hd => cases h'; exact .inl ⟨hd, rfl⟩
    · next hd =>
      split at h'
      · cases h'
      · next x hx =>
        unfold turns at h'
        cases h'
        exact .inr ⟨by simpa using hd, hx⟩
  | n + 1, t, s, s₁, s₂, h, h' => by
    unfold turns at h h'
    split at h
    · next hd =>
      rw [if_pos hd] at h'
      cases h; cases h'
      exact .inl ⟨hd, rfl⟩
    · next hd =>
      rw [if_neg hd] at h'
      split at h
      · cases h
      · next x hx =>
        rw [hx] at h'
        have := turns_step (t := t + 1) h h'
        rwa [Nat.add_assoc, Nat.add_comm 1 n] at this

section
variable {N : Nature} {cores : ℕ} {timeout : ℚ} {jobs : List P} {σ : ℕ → Sched P}

theorem start_before (hσ : ∀ k, turns N cores timeout k 0 (Sched.init jobs) = .ok (σ k)) :
    ∀ k, ∀ j ∈ (σ k).running, ∃ t < k, j.start = N.startAt t j.id ∧ j ∈ (σ (t + 1)).running := by
  intro k
  induction k with
  | zero =>
    intro j hj
    have : σ 0 = Sched.init jobs := by have := hσ 0; unfold turns at this; exact (Except.ok.inj this).symm
    rw [this] at hj
    simp [Sched.init] at hj
  | succ k ih =>
    intro j hj
    rcases turns_step (hσ k) (hσ (k + 1)) with ⟨_, h⟩ | ⟨_, h⟩
    · rw [h] at hj
      obtain ⟨t, ht, he⟩ := ih j hj
      exact ⟨t, by omega, he⟩
    · rw [Nat.zero_add] at h
      rcases turn_start h j hj with h | h
      · obtain ⟨t, ht, he⟩ := ih j h
        exact ⟨t, by omega, he⟩
      · exact ⟨k, by omega, h, hj⟩

theorem rows_mono (hσ : ∀ k, turns N cores timeout k 0 (Sched.init jobs) = .ok (σ k)) (k : ℕ) :
    ∀ m, (σ k).rows <+: (σ (k + m)).rows := by
  intro m
  induction m with
  | zero => exact List.prefix_rfl
  | succ m ih =>
    rcases turns_step (hσ (k + m)) (hσ (k + m + 1)) with ⟨_, h⟩ | ⟨_, h⟩
    · rw [← Nat.add_assoc, h]; exact ih
    · exact ih.trans (turn_rows h)

theorem not_running_of_row (hσ : ∀ k, turns N cores timeout k 0 (Sched.init jobs) = .ok (σ k)) {k : ℕ} {r}
    (hr : r ∈ (σ k).rows) : r.1 ∉ (σ k).running.map Job.id := by
  intro h
  have b := (inv_turns (inv_init N cores timeout jobs) (hσ k)).books.ids
  have nd := b.nodup_iff.2 List.nodup_range'
  exact (List.disjoint_of_nodup_append nd) h (List.mem_map.2 ⟨r, hr, rfl⟩)

/-- The process stays at its place or moves forward until it is recorded; once it is over its limit it moves forward in
every round. -/
theorem place_after (hσ : ∀ k, turns N cores timeout k 0 (Sched.init jobs) = .ok (σ k)) {R : ℕ} (hR : 1 ≤ R)
    (hclock : ∀ t₀ id t i, t₀ + R ≤ t → timeout < N.now t i - N.startAt t₀ id)
    {k : ℕ} {j : Job P} (hj : j ∈ (σ k).running) :
    ∀ m, (∃ r ∈ (σ (k + m)).rows, r.1 = j.id) ∨
      ∃ pre post, (σ (k + m)).running = pre ++ j :: post ∧ pre.length + (m + 1 - R) + 1 ≤ cores := by
  obtain ⟨t₀, ht₀, hst, _⟩ := start_before hσ k j hj
  intro m
  induction m with
  | zero =>
    obtain ⟨pre, post, e⟩ := List.append_of_mem hj
    refine .inr ⟨pre, post, e, ?_⟩
    have := (inv_turns (inv_init N cores timeout jobs) (hσ k)).books.cap
    rw [e] at this
    simp at this
    omega
  | succ m ih =>
    rcases ih with ⟨r, hr, he⟩ | ⟨pre, post, e, hp⟩
    · obtain ⟨l, hl⟩ := rows_mono hσ (k + m) 1
      exact .inl ⟨r, by rw [← Nat.add_assoc, ← hl]; simp [hr], he⟩
    · rcases turns_step (hσ (k + m)) (hσ (k + m + 1)) with ⟨hd, _⟩ | ⟨_, h⟩
      · simp [Sched.done, e] at hd
      · rw [Nat.zero_add] at h
        rcases turn_place e h with h | ⟨pre', post', h1, h2⟩ | ⟨post', h1, h2⟩
        · exact .inl h
        · exact .inr ⟨pre', post', h1, by omega⟩
        · refine .inr ⟨pre, post', h1, ?_⟩
          have hlt : ¬ t₀ + R ≤ k + m := by
            intro hle
            rw [hst] at h2
            exact h2 (hclock t₀ j.id (k + m) pre.length hle)
          omega

/-- A process is in the running queue after less than `R + cores` rounds. -/
theorem span (hσ : ∀ k, turns N cores timeout k 0 (Sched.init jobs) = .ok (σ k)) {R : ℕ} (hR : 1 ≤ R)
    (hclock : ∀ t₀ id t i, t₀ + R ≤ t → timeout < N.now t i - N.startAt t₀ id)
    {k m id : ℕ} (h1 : id ∈ (σ k).running.map Job.id) (h2 : id ∈ (σ (k + m)).running.map Job.id) :
    m + 1 < R + cores := by
  obtain ⟨j, hj, rfl⟩ := List.mem_map.1 h1
  rcases place_after hσ hR hclock hj m with ⟨r, hr, he⟩ | ⟨pre, post, _, hp⟩
  · rw [← he] at h2
    exact absurd h2 (not_running_of_row hσ hr)
  · omega

/-- The time of a row is that of a round less than `R + cores` rounds after the start. -/
theorem row_time (hσ : ∀ k, turns N cores timeout k 0 (Sched.init jobs) = .ok (σ k)) {R : ℕ} (hR : 1 ≤ R)
    (hclock : ∀ t₀ id t i, t₀ + R ≤ t → timeout < N.now t i - N.startAt t₀ id) : ∀ k, ∀ r ∈ (σ k).rows, ∀ e h,
    r.2.2 = .finished e h → ∃ t₀ t i, t₀ < t ∧ t < t₀ + R + cores ∧ e = N.now t i - N.startAt t₀ r.1 := by
  intro k
  induction k with
  | zero =>
    intro r hr
    have : σ 0 = Sched.init jobs := by have := hσ 0; unfold turns at this; exact (Except.ok.inj this).symm
    rw [this] at hr
    simp [Sched.init] at hr
  | succ k ih =>
    rcases turns_step (hσ k) (hσ (k + 1)) with ⟨_, h⟩ | ⟨_, h⟩
    · rw [h]; exact ih
    · rw [Nat.zero_add] at h
      unfold turn at h
      split at h
      · cases h
      · next running row hsw =>
        rw [← Except.ok.inj h]
        intro r hr e hd ho
        rcases List.mem_append.1 hr with hr | hr
        · exact ih r hr e hd ho
        · rcases sweep_spec N timeout k 0 _ running row hsw with ⟨rfl, _⟩ | ⟨pre, j, post, o, e1, _, rfl, i, hi⟩
          · simp at hr
          · simp only [Option.toList_some, List.mem_singleton] at hr
            subst hr
            simp only at ho
            subst ho
            obtain ⟨l, _, _, _, he⟩ := hi
            have hj : j ∈ (σ k).running := by rw [e1]; simp
            obtain ⟨t₀, ht₀, hst, hj'⟩ := start_before hσ k j hj
            refine ⟨t₀, k, i, ht₀, ?_, by rw [he, hst]⟩
            have := span hσ hR hclock (k := t₀ + 1) (m := k - (t₀ + 1)) (List.mem_map.2 ⟨j, hj', rfl⟩)
              (by rw [Nat.add_sub_cancel' (by omega)]; exact List.mem_map.2 ⟨j, hj, rfl⟩)
            omega

/-- Double counting: as long as the queue is not empty all cores are busy. -/
theorem busy (hσ : ∀ k, turns N cores timeout k 0 (Sched.init jobs) = .ok (σ k)) {R : ℕ} (hR : 1 ≤ R)
    (hclock : ∀ t₀ id t i, t₀ + R ≤ t → timeout < N.now t i - N.startAt t₀ id) (n : ℕ)
    (hq : ∀ k ∈ Finset.Icc 1 n, (σ k).queue ≠ []) : cores * n ≤ (jobs.length - 1) * (R + cores - 1) := by
  classical
  rcases Nat.eq_zero_or_pos n with rfl | hn
  · simp
  have hB : ∀ k, Books cores jobs (σ k) := fun k => (inv_turns (inv_init N cores timeout jobs) (hσ k)).books
  have nd : ∀ k, ((σ k).running.map Job.id).Nodup := fun k =>
    List.Nodup.of_append_left ((hB k).ids.nodup_iff.2 List.nodup_range')
  have lt : ∀ k ∈ Finset.Icc 1 n, ∀ id ∈ (σ k).running.map Job.id, id ∈ Finset.Ico 1 jobs.length := by
    intro k hk id hid
    have h1 : id ∈ List.range' 1 ((σ k).next - 1) := (hB k).ids.subset (List.mem_append_left _ hid)
    have h2 : (σ k).next - 1 < jobs.length := by
      by_contra hle
      have := (hB k).queue
      rw [List.drop_eq_nil_of_le (by omega)] at this
      exact hq k hk this
    simp only [List.mem_range'_1] at h1
    simp only [Finset.mem_Ico]
    omega
  have full : ∀ k ∈ Finset.Icc 1 n, cores ≤ ((σ k).running.map Job.id).toFinset.card := by
    intro k hk
    rw [List.toFinset_card_of_nodup (nd k), List.length_map]
    obtain ⟨k, rfl⟩ : ∃ k', k = k' + 1 := ⟨k - 1, by simp only [Finset.mem_Icc] at hk; omega⟩
    rcases turns_step (hσ k) (hσ (k + 1)) with ⟨hd, h⟩ | ⟨_, h⟩
    · exfalso
      have := hq (k + 1) hk
      rw [h] at this
      simp [Sched.done] at hd
      exact this hd.1
    · exact turn_full h (hq (k + 1) hk)
  calc cores * n = ∑ _k ∈ Finset.Icc 1 n, cores := by simp [Nat.mul_comm]
    _ ≤ ∑ k ∈ Finset.Icc 1 n, ((σ k).running.map Job.id).toFinset.card := Finset.sum_le_sum full
    _ = ∑ k ∈ Finset.Icc 1 n, ∑ id ∈ Finset.Ico 1 jobs.length, if id ∈ (σ k).running.map Job.id then 1 else 0 := by
        refine Finset.sum_congr rfl fun k hk => ?_
        rw [← Finset.card_filter]
        congr 1
        ext id
        rw [List.mem_toFinset, Finset.mem_filter]
        exact ⟨fun h => ⟨lt k hk id h, h⟩, fun h => h.2⟩
    _ = ∑ id ∈ Finset.Ico 1 jobs.length, ∑ k ∈ Finset.Icc 1 n, if id ∈ (σ k).running.map Job.id then 1 else 0 :=
        Finset.sum_comm
    _ ≤ ∑ _id ∈ Finset.Ico 1 jobs.length, (R + cores - 1) := by
        refine Finset.sum_le_sum fun id _ => ?_
        rw [← Finset.card_filter]
        rcases (Finset.filter (fun k => id ∈ (σ k).running.map Job.id) (Finset.Icc 1 n)).eq_empty_or_nonempty with he | hne
        · rw [he]; simp
        · set A := Finset.filter (fun k => id ∈ (σ k).running.map Job.id) (Finset.Icc 1 n) with hA
          have hmin := Finset.min'_mem A hne
          have hsub : A ⊆ Finset.Ico (A.min' hne) (A.min' hne + (R + cores - 1)) := by
            intro k hk
            have hle := Finset.min'_le A k hk
            have h1 : id ∈ (σ (A.min' hne)).running.map Job.id := (Finset.mem_filter.1 hmin).2
            have h2 : id ∈ (σ (A.min' hne + (k - A.min' hne))).running.map Job.id := by
              rw [Nat.add_sub_cancel' hle]
              exact (Finset.mem_filter.1 hk).2
            have := span hσ hR hclock h1 h2
            simp only [Finset.mem_Ico]
            omega
          simpa using Finset.card_le_card hsub
    _ = (jobs.length - 1) * (R + cores - 1) := by simp

end

/-- **C111**: suppose that `R` rounds of the main loop take longer than the time limit, and every process that ends has
stored a result. Then (1) no process is running for more than `R + cores - 1` rounds: at most `cores - 1` rounds after
its limit it has been removed; and (2) the loop ends after at most `(jobs - 1) * (R + cores - 1) / cores + R + cores`
rounds: up to the delay of less than `cores` rounds this is the bound for schedules that leave no core unused. -/
theorem C111_rounds (N : Nature) (cores : ℕ) (timeout : ℚ) (jobs : List P) (R : ℕ) (hc : 1 ≤ cores) (hR : 1 ≤ R)
    (hN : ∀ id, N.result id ≠ none)
    (hclock : ∀ t₀ id t i, t₀ + R ≤ t → timeout < N.now t i - N.startAt t₀ id) :
    (∀ n m s s' id, turns N cores timeout n 0 (Sched.init jobs) = .ok s → turns N cores timeout (n + m) 0 (Sched.init jobs) = .ok s' →
      id ∈ s.running.map Job.id → id ∈ s'.running.map Job.id → m + 1 ≤ R + cores - 1) ∧
    ∃ s, turns N cores timeout ((jobs.length - 1) * (R + cores - 1) / cores + R + cores) 0 (Sched.init jobs) = .ok s ∧
      s.queue = [] ∧ s.running = [] ∧ (s.rows.map Prod.fst).Perm (List.range' 1 jobs.length) := by
  choose σ hσ using C61_partial N cores timeout jobs hN
  constructor
  · intro n m s s' id h1 h2 h3 h4
    rw [hσ n] at h1
    rw [hσ (n + m)] at h2
    cases h1; cases h2
    have := span hσ hR hclock h3 h4
    omega
  · set D := R + cores - 1 with hD
    set B := (jobs.length - 1) * D / cores with hBd
    have hB : ∀ k, Books cores jobs (σ k) := fun k => (inv_turns (inv_init N cores timeout jobs) (hσ k)).books
    have qstep : ∀ k, (σ k).queue = [] → (σ (k + 1)).queue = [] := by
      intro k hk
      rcases turns_step (hσ k) (hσ (k + 1)) with ⟨_, h⟩ | ⟨_, h⟩
      · rw [h]; exact hk
      · unfold turn at h
        split at h
        · cases h
        · rw [← Except.ok.inj h]
          simp [hk, restock]
    have qmono : ∀ k m, (σ k).queue = [] → (σ (k + m)).queue = [] := by
      intro k m hk
      induction m with
      | zero => exact hk
      | succ m ih => exact qstep _ ih
    -- the queue is empty after `B + 1` rounds
    have hq : (σ (B + 1)).queue = [] := by
      by_contra hne
      have hall : ∀ k ∈ Finset.Icc 1 (B + 1), (σ k).queue ≠ [] := by
        intro k hk h0
        simp only [Finset.mem_Icc] at hk
        apply hne
        have := qmono k (B + 1 - k) h0
        rwa [Nat.add_sub_cancel' hk.2] at this
      have hb := busy hσ hR hclock (B + 1) hall
      rw [← hD] at hb
      have : (jobs.length - 1) * D < cores * (B + 1) := by
        rw [hBd]
        exact Nat.lt_mul_div_succ _ (by omega)
      omega
    have hq' : ∀ m, (σ (B + 1 + m)).queue = [] := fun m => qmono _ m hq
    -- nothing runs `D` rounds later
    have ids_back : ∀ m id, id ∈ (σ (B + 1 + m)).running.map Job.id → id ∈ (σ (B + 1)).running.map Job.id := by
      intro m
      induction m with
      | zero => exact fun id h => h
      | succ m ih =>
        intro id hid
        apply ih
        rcases turns_step (hσ (B + 1 + m)) (hσ (B + 1 + m + 1)) with ⟨_, h⟩ | ⟨_, h⟩
        · rw [← Nat.add_assoc, h] at hid; exact hid
        · rw [← Nat.add_assoc] at hid
          unfold turn at h
          split at h
          · cases h
          · next running row hsw =>
            simp only [Except.ok.injEq] at h
            rw [← h, hq' m] at hid
            simp only [restock] at hid
            rcases sweep_spec N timeout _ 0 _ running row hsw with ⟨_, rfl⟩ | ⟨pre, j', post, o, e1, rfl, _⟩
            · exact hid
            · rw [e1]
              simp only [List.map_append, List.map_cons, List.mem_append, List.mem_cons] at hid ⊢
              tauto
    have hrun : (σ (B + 1 + D)).running = [] := by
      by_contra hne
      obtain ⟨j, hj⟩ := List.exists_mem_of_ne_nil _ hne
      have h2 : j.id ∈ (σ (B + 1 + D)).running.map Job.id := List.mem_map.2 ⟨j, hj, rfl⟩
      have := span hσ hR hclock (ids_back D _ h2) h2
      omega
    have he : B + R + cores = B + 1 + D := by omega
    refine ⟨σ (B + 1 + D), by rw [he]; exact hσ _, hq' D, hrun, ?_⟩
    have h1 := (hB (B + 1 + D)).ids
    have h2 := (hB (B + 1 + D)).queue
    have h3 := (hB (B + 1 + D)).le
    rw [hq' D] at h2
    have h4 := congrArg List.length h2
    simp at h4
    rw [hrun, show (σ (B + 1 + D)).next - 1 = jobs.length by omega] at h1
    simpa using h1

/-- A clock with 1/100 second for a round: processes are looked at and started at these times; process 2 ends in round
7 and the others do not end. -/
def slowNature : Nature where
  alive t id := decide (id ≠ 2 ∨ t < 7)
  now t _ := t / 100
  startAt t _ := t / 100
  result _ := some [1]

/-- The hypotheses of `C111_rounds` hold for this clock, a limit of 5/100 seconds and `R = 6`. -/
theorem slowNature_clock : ∀ t₀ id t i, t₀ + 6 ≤ t → (5 / 100 : ℚ) < slowNature.now t i - slowNature.startAt t₀ id := by
  intro t₀ id t i h
  have : ((t₀ : ℚ) + 6) ≤ t := by exact_mod_cast h
  simp only [slowNature]
  linarith

/-- Two jobs on two cores: the loop has ended after `7 / 2 + 6 + 2 = 11` rounds, and not after 7. -/
example : (∃ s, turns slowNature 2 (5 / 100) 11 0 (Sched.init ["a", "b"]) = .ok s ∧ s.queue = [] ∧ s.running = [] ∧
      (s.rows.map Prod.fst).Perm [1, 2]) ∧
    ((turns slowNature 2 (5 / 100) 7 0 (Sched.init ["a", "b"])).toOption.map fun s => s.running.length) = some 1 :=
  ⟨(C111_rounds slowNature 2 (5 / 100) ["a", "b"] 6 (by norm_num) (by norm_num) (by simp [slowNature]) slowNature_clock).2,
    by decide +kernel⟩

/-- **C112** is violated: two jobs on two cores are over their limit of 5/100 seconds when they are looked at after 6/100
seconds. The first is removed; the second is looked at 1/100 second later, when it has ended, and is recorded as finished with a
time of 7/100 seconds. -/
theorem C112_violated : (turns slowNature 2 (5 / 100) 8 0 (Sched.init ["a", "b"])).toOption.map Sched.rows =
    some [(1, "a", .timeout), (2, "b", .finished (7 / 100) 1)] ∧
    slowNature.alive 6 2 = true ∧ 5 / 100 < slowNature.now 6 1 - slowNature.startAt 0 2 := by
  decide +kernel

/-- What holds instead of **C112**: a process that does not end is recorded as a timeout; a process that is not alive
when it is over its limit is recorded as finished; and if `R` rounds take longer than the limit, the time recorded for a
finished process is taken less than `R + cores` rounds after its start. -/
theorem C112_partial (N : Nature) (cores : ℕ) (timeout : ℚ) (jobs : List P) (n : ℕ) (s : Sched P)
    (h : turns N cores timeout n 0 (Sched.init jobs) = .ok s) :
    (∀ r ∈ s.rows, (∀ t, N.alive t r.1 = true) → r.2.2 = .timeout) ∧
    (∀ r ∈ s.rows, (∀ t t' i, N.alive t r.1 = true → N.now t i - N.startAt t' r.1 ≤ timeout) →
      ∃ e k, r.2.2 = .finished e k) ∧
    ∀ R, 1 ≤ R → (∀ id, N.result id ≠ none) →
      (∀ t₀ id t i, t₀ + R ≤ t → timeout < N.now t i - N.startAt t₀ id) → ∀ r ∈ s.rows, ∀ e k, r.2.2 = .finished e k →
      ∃ t₀ t i, t₀ < t ∧ t < t₀ + R + cores ∧ e = N.now t i - N.startAt t₀ r.1 := by
  have ht := (inv_turns (inv_init N cores timeout jobs) h).truth
  refine ⟨fun r hr ha => ?_, fun r hr ha => ?_, fun R hR hN hclock => ?_⟩
  · have := ht r hr
    unfold Truthful at this
    cases ho : r.2.2 with
    | finished e k =>
      rw [ho] at this
      obtain ⟨t, t', i, l, h1, _⟩ := this
      rw [ha t] at h1
      cases h1
    | timeout => rfl
  · have := ht r hr
    unfold Truthful at this
    cases ho : r.2.2 with
    | finished e k => exact ⟨e, k, rfl⟩
    | timeout =>
      rw [ho] at this
      obtain ⟨t, t', i, h1, h2⟩ := this
      exact absurd h2 (not_lt.2 (ha t t' i h1))
  · choose σ hσ using C61_partial N cores timeout jobs hN
    rw [hσ n] at h
    cases h
    exact row_time hσ hR hclock n

/-- Both kinds of processes: 1 does not end and 2 ends in round 3. -/
def mixedNature : Nature where
  alive t id := decide (id ≠ 2 ∨ t < 3)
  now t _ := t / 100
  startAt t _ := t / 100
  result _ := some [1]

example : (turns mixedNature 2 (5 / 100) 8 0 (Sched.init ["a", "b"])).toOption.map Sched.rows =
      some [(2, "b", .finished (3 / 100) 1), (1, "a", .timeout)] ∧
    (∀ t, mixedNature.alive t 1 = true) ∧
    (∀ t₀ id t i, t₀ + 6 ≤ t → (5 / 100 : ℚ) < mixedNature.now t i - mixedNature.startAt t₀ id) ∧
    ∀ t t' i, mixedNature.alive t 2 = true → mixedNature.now t i - mixedNature.startAt t' 2 ≤ 5 / 100 := by
  refine ⟨by decide +kernel, by simp [mixedNature], slowNature_clock, fun t t' i h => ?_⟩
  have h3 : t < 3 := by simpa [mixedNature] using h
  have h3' : (t : ℚ) < 3 := by exact_mod_cast h3
  have h0 : (0 : ℚ) ≤ t' := Nat.cast_nonneg _
  simp only [mixedNature]
  linarith

end Verif.Grf
