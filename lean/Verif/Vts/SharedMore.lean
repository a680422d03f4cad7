import Verif.Vts.SharedLemmas

/-! Helper lemmas for C86: progress, and what holds when nobody was killed. -/

namespace Verif.Vts

variable {inv : Mat → Except Err Mat}

/-- the process of an event -/
def Ev.pid : Ev → ℕ
  | .start p => p
  | .call p _ => p
  | .step p _ => p
  | .exit p => p
  | .kill p => p

theorem put_ne {w : SWorld} {p p' : ℕ} {s : PState} (h : p' ≠ p) :
    (w.put p s).procs p' = w.procs p' := by
  show Function.update w.procs p s p' = _
  rw [Function.update_of_ne h]

theorem put_self {w : SWorld} {p : ℕ} {s : PState} : (w.put p s).procs p = s := by
  show Function.update w.procs p s p = _
  rw [Function.update_self]

theorem sstep_other {w : SWorld} {e : Ev} {p : ℕ} (h : p ≠ e.pid) :
    (sstep inv w e).1.procs p = w.procs p := by
  cases e with
  | start p' => simp only [sstep]; split <;> first | rfl | exact put_ne h
  | call p' c => simp only [sstep]; split <;> first | rfl | exact put_ne h
  | exit p' => simp only [sstep]; split <;> first | rfl | exact put_ne h
  | kill p' => exact put_ne h
  | step p' b =>
    simp only [sstep]
    split
    · exact put_ne h
    · exact put_ne h
    · exact (put_ne h).trans (congrFun (sAct_procs ..) p)
    · exact put_ne h
    · exact (put_ne h).trans (congrFun (sAct_procs ..) p)
    · rfl

theorem sstep_ex {w : SWorld} {e : Ev} {k : FKey} (h : w.ex k) : (sstep inv w e).1.ex k := by
  cases e with
  | start p' => simp only [sstep]; split <;> exact h
  | call p' c => simp only [sstep]; split <;> exact h
  | exit p' => simp only [sstep]; split <;> exact h
  | kill p' => exact h
  | step p' b =>
    simp only [sstep]
    split
    · exact h
    · exact h
    · exact sAct_ex (w := w) h
    · exact h
    · exact sAct_ex (w := w) h
    · exact h

/-- number of actions of `p` in a schedule -/
def acts (p : ℕ) (es : List Ev) : ℕ :=
  es.countP fun e => match e with | .step p' _ => p' == p | _ => false

theorem acts_cons_self {p : ℕ} {b : Bool} {es : List Ev} :
    acts p (.step p b :: es) = acts p es + 1 := by simp [acts]

theorem acts_cons_ne {p : ℕ} {e : Ev} {es : List Ev} (h : ∀ b, e ≠ .step p b) :
    acts p (e :: es) = acts p es := by
  cases e with
  | step p' b =>
    have : p' ≠ p := fun hp => h b (by rw [hp])
    simp [acts, this]
  | _ => simp [acts]

theorem mem_srun_tail {w : SWorld} {e : Ev} {es : List Ev} {o : SOut}
    (h : o ∈ (srun inv (sstep inv w e).1 es).2) : o ∈ (srun inv w (e :: es)).2 := by
  simp only [srun, List.mem_append]; exact Or.inr h

theorem mem_srun_head {w : SWorld} {e : Ev} {es : List Ev} {o : SOut}
    (h : (sstep inv w e).2 = some o) : o ∈ (srun inv w (e :: es)).2 := by
  simp only [srun, List.mem_append, h]; exact Or.inl (by simp)

/-- a process at work is only changed by its own actions and kills -/
theorem sstep_busy {w : SWorld} {e : Ev} {p : ℕ} (hk : e ≠ .kill p) (hs : ∀ b, e ≠ .step p b)
    (hb : (∃ q, w.procs p = .importing q) ∨ ∃ c q, w.procs p = .calling c q) :
    (sstep inv w e).1.procs p = w.procs p := by
  by_cases hp : p = e.pid
  · cases e with
    | start p' =>
      change p = p' at hp; subst hp
      rcases hb with ⟨q, hq⟩ | ⟨c, q, hq⟩ <;> simp only [sstep, hq]
    | call p' c =>
      change p = p' at hp; subst hp
      rcases hb with ⟨q, hq⟩ | ⟨c, q, hq⟩ <;> simp only [sstep, hq]
    | exit p' =>
      change p = p' at hp; subst hp
      rcases hb with ⟨q, hq⟩ | ⟨c, q, hq⟩ <;> simp only [sstep, hq]
    | kill p' => change p = p' at hp; subst hp; exact absurd rfl hk
    | step p' b => change p = p' at hp; subst hp; exact absurd rfl (hs b)
  · exact sstep_other hp

theorem progress_call {i1 : Mat} (hi : inv baseMatrix = .ok i1) {p : ℕ} {c : Call}
    {A : Except Err Mat} (es : List Ev) :
    ∀ {w : SWorld} {f : ℕ} {q : Prog}, SOK inv w → w.procs p = .calling c q →
      Good inv false A w.ex f q → .kill p ∉ es → f ≤ acts p es →
      ∃ r, SOut.result p c r ∈ (srun inv w es).2 := by
  induction es with
  | nil =>
    intro w f q hw hp hq _ hf
    have hf0 : f = 0 := by simpa [acts] using hf
    subst hf0
    cases q with
    | ret r d => exact absurd hq.1 (by omega)
    | hit k next => obtain ⟨f', h, _⟩ := hq; omega
    | load k next => obtain ⟨f', h, _⟩ := hq; omega
    | opn k next => obtain ⟨f', h, _⟩ := hq; omega
    | finish k m next => obtain ⟨f', h, _⟩ := hq; omega
  | cons e es ih =>
    intro w f q hw hp hq hk hf
    have hw' := (sstep_ok hi hw e).1
    have hk' : Ev.kill p ∉ es := fun h => hk (List.mem_cons_of_mem _ h)
    by_cases he : ∃ b, e = .step p b
    · obtain ⟨b, rfl⟩ := he
      rw [acts_cons_self] at hf
      rcases isRet q with ⟨r, d, rfl⟩ | hr
      · exact ⟨r, mem_srun_head (by simp only [sstep, hp])⟩
      · have h2 := (sAct_good (p := p) (b := b) hw.files hq hr (by simp)).2
        rw [sstep_calling hp hr] at hw'
        obtain ⟨r, hr'⟩ := ih (f := f - 1) hw' put_self h2 hk' (by omega)
        refine ⟨r, mem_srun_tail ?_⟩
        rw [sstep_calling hp hr]; exact hr'
    · have he' : ∀ b, e ≠ .step p b := fun b h => he ⟨b, h⟩
      rw [acts_cons_ne he'] at hf
      have hne : e ≠ .kill p := fun h => hk (by rw [h]; exact List.mem_cons_self)
      obtain ⟨r, hr'⟩ := ih (f := f) (q := q) hw'
        (by rw [sstep_busy hne he' (Or.inr ⟨c, q, hp⟩)]; exact hp)
        (hq.mono (fun k h => sstep_ex h) le_rfl) hk' hf
      exact ⟨r, mem_srun_tail hr'⟩

theorem progress_import {i1 : Mat} (hi : inv baseMatrix = .ok i1) {p : ℕ}
    {A : Except Err Mat} (es : List Ev) :
    ∀ {w : SWorld} {f : ℕ} {q : Prog}, SOK inv w → w.procs p = .importing q →
      Good inv false A w.ex f q → .kill p ∉ es → f ≤ acts p es →
      SOut.started p ∈ (srun inv w es).2 ∨ ∃ e, SOut.importFailed p e ∈ (srun inv w es).2 := by
  induction es with
  | nil =>
    intro w f q hw hp hq _ hf
    have hf0 : f = 0 := by simpa [acts] using hf
    subst hf0
    cases q with
    | ret r d => exact absurd hq.1 (by omega)
    | hit k next => obtain ⟨f', h, _⟩ := hq; omega
    | load k next => obtain ⟨f', h, _⟩ := hq; omega
    | opn k next => obtain ⟨f', h, _⟩ := hq; omega
    | finish k m next => obtain ⟨f', h, _⟩ := hq; omega
  | cons e es ih =>
    intro w f q hw hp hq hk hf
    have hw' := (sstep_ok hi hw e).1
    have hk' : Ev.kill p ∉ es := fun h => hk (List.mem_cons_of_mem _ h)
    by_cases he : ∃ b, e = .step p b
    · obtain ⟨b, rfl⟩ := he
      rw [acts_cons_self] at hf
      rcases isRet q with ⟨r, d, rfl⟩ | hr
      · cases r with
        | ok m => exact Or.inl (mem_srun_head (by simp only [sstep, hp]))
        | error e => exact Or.inr ⟨e, mem_srun_head (by simp only [sstep, hp])⟩
      · have h2 := (sAct_good (p := p) (b := b) hw.files hq hr (by simp)).2
        rw [sstep_importing hp hr] at hw'
        rcases ih (f := f - 1) hw' put_self h2 hk' (by omega) with h | ⟨e, h⟩
        · refine Or.inl (mem_srun_tail ?_)
          rw [sstep_importing hp hr]; exact h
        · refine Or.inr ⟨e, mem_srun_tail ?_⟩
          rw [sstep_importing hp hr]; exact h
    · have he' : ∀ b, e ≠ .step p b := fun b h => he ⟨b, h⟩
      rw [acts_cons_ne he'] at hf
      have hne : e ≠ .kill p := fun h => hk (by rw [h]; exact List.mem_cons_self)
      rcases ih (f := f) (q := q) hw'
        (by rw [sstep_busy hne he' (Or.inl ⟨q, hp⟩)]; exact hp)
        (hq.mono (fun k h => sstep_ex h) le_rfl) hk' hf with h | ⟨e', h⟩
      · exact Or.inl (mem_srun_tail h)
      · exact Or.inr ⟨e', mem_srun_tail h⟩

/-! ## Without kills -/

/-- the process is writing file `k` -/
def AtFinish (s : PState) (k : FKey) : Prop :=
  ∃ m next, s = .importing (.finish k m next) ∨ ∃ c, s = .calling c (.finish k m next)

/-- every incomplete file is being written -/
def NK (w : SWorld) : Prop :=
  ∀ k, w.files k = some .incomplete → ∃ p, w.owner k = some p ∧ AtFinish (w.procs p) k

theorem NK.put {w : SWorld} (h : NK w) {p : ℕ} {s : PState} (hs : ∀ k, ¬ AtFinish (w.procs p) k) :
    NK (w.put p s) := by
  intro k hk
  obtain ⟨p', h1, h2⟩ := h k hk
  refine ⟨p', h1, ?_⟩
  rw [put_ne (fun hp => hs k (by rw [hp] at h2; exact h2))]
  exact h2

theorem NK.act {w : SWorld} (h : NK w) (hw : FilesOK inv w) {p : ℕ} {b : Bool} {q : Prog}
    {S : Prog → PState} (hS : S = .importing ∨ ∃ c, S = .calling c) (hp : w.procs p = S q)
    {lone : Bool} {A : Except Err Mat} {E : FKey → Prop} {f : ℕ} (hq : Good inv lone A E f q) :
    NK ((sAct w p b q).1.put p (S (sAct w p b q).2)) := by
  have hS1 : ∀ k m next, AtFinish (S (.finish k m next)) k := by
    intro k m next
    rcases hS with rfl | ⟨c, rfl⟩
    · exact ⟨m, next, Or.inl rfl⟩
    · exact ⟨m, next, Or.inr ⟨c, rfl⟩⟩
  have hS2 : ∀ k q, AtFinish (S q) k → ∃ m next, q = .finish k m next := by
    rintro k q ⟨m, next, h | ⟨c, h⟩⟩
    · rcases hS with rfl | ⟨c, rfl⟩
      · exact ⟨m, next, by injection h⟩
      · cases h
    · rcases hS with rfl | ⟨c', rfl⟩
      · cases h
      · exact ⟨m, next, by injection h⟩
  have hidle : (∀ k m next, q ≠ .finish k m next) → ∀ s, NK (w.put p s) := by
    intro hne s
    apply h.put
    intro k hk
    rw [hp] at hk
    obtain ⟨m, next, e⟩ := hS2 k q hk
    exact hne k m next e
  cases q with
  | ret r d => exact hidle (by intro k m next h; cases h) _
  | hit k next => exact hidle (by intro k m next h; cases h) _
  | load k next => exact hidle (by intro k m next h; cases h) _
  | opn k next =>
    obtain ⟨f', rfl, ⟨m, next', rfl⟩, _⟩ := hq
    intro k' hk'
    by_cases hkk : k' = k
    · subst hkk
      refine ⟨p, ?_, ?_⟩
      · show Function.update w.owner k' (some p) k' = _
        rw [Function.update_self]
      · rw [put_self]; exact hS1 _ _ _
    · have hk2 : w.files k' = some .incomplete := by
        change Function.update w.files k (some .incomplete) k' = _ at hk'
        rwa [Function.update_of_ne hkk] at hk'
      obtain ⟨p', h1, h2⟩ := h k' hk2
      have hpp : p' ≠ p := by
        rintro rfl
        rw [hp] at h2
        obtain ⟨_, _, e⟩ := hS2 _ _ h2
        cases e
      refine ⟨p', ?_, ?_⟩
      · show Function.update w.owner k (some p) k' = _
        rw [Function.update_of_ne hkk]; exact h1
      · rw [put_ne hpp, sAct_procs]; exact h2
  | finish k m next =>
    obtain ⟨f', rfl, hm, _⟩ := hq
    show NK ((sFinish w p b k m).put p (S next))
    -- incomplete files other than `k`
    have hother : ∀ k', k' ≠ k → w.files k' = some .incomplete →
        ∃ p', p' ≠ p ∧ w.owner k' = some p' ∧ AtFinish (w.procs p') k' := by
      intro k' hkk hk'
      obtain ⟨p', h1, h2⟩ := h k' hk'
      refine ⟨p', ?_, h1, h2⟩
      rintro rfl
      rw [hp] at h2
      obtain ⟨_, _, e⟩ := hS2 _ _ h2
      injection e with e1
      exact hkk e1.symm
    unfold sFinish
    split
    · rename_i hown
      intro k' hk'
      change Function.update w.files k _ k' = _ at hk'
      by_cases hkk : k' = k
      · subst hkk; rw [Function.update_self] at hk'; simp at hk'
      · rw [Function.update_of_ne hkk] at hk'
        obtain ⟨p', h0, h1, h2⟩ := hother k' hkk hk'
        refine ⟨p', ?_, ?_⟩
        · show Function.update w.owner k none k' = _
          rw [Function.update_of_ne hkk]; exact h1
        · rw [put_ne h0]; exact h2
    · rename_i hown
      have hkeep : NK (w.put p (S next)) := by
        intro k' hk'
        change w.files k' = _ at hk'
        by_cases hkk : k' = k
        · subst hkk
          obtain ⟨p', h1, h2⟩ := h k' hk'
          refine ⟨p', h1, ?_⟩
          rw [put_ne (by rintro rfl; exact hown h1)]; exact h2
        · obtain ⟨p', h0, h1, h2⟩ := hother k' hkk hk'
          refine ⟨p', h1, ?_⟩
          rw [put_ne h0]; exact h2
      split
      · rename_i m' hm'
        rw [if_pos ((hw k m' hm').unique hm)]
        exact hkeep
      · split
        · intro k' hk'
          change Function.update w.files k _ k' = _ at hk'
          by_cases hkk : k' = k
          · subst hkk; rw [Function.update_self] at hk'; simp at hk'
          · rw [Function.update_of_ne hkk] at hk'
            obtain ⟨p', h0, h1, h2⟩ := hother k' hkk hk'
            refine ⟨p', h1, ?_⟩
            rw [put_ne h0]; exact h2
        · exact hkeep

theorem not_atFinish_idle {s : PState} (h1 : ∀ q, s ≠ .importing q) (h2 : ∀ c q, s ≠ .calling c q)
    (k : FKey) : ¬ AtFinish s k := by
  rintro ⟨m, next, h | ⟨c, h⟩⟩
  · exact h1 _ h
  · exact h2 _ _ h

theorem sstep_nk {w : SWorld} (hw : SOK inv w) (h : NK w) {e : Ev} (he : ∀ p, e ≠ .kill p) :
    NK (sstep inv w e).1 := by
  cases e with
  | start p =>
    simp only [sstep]
    split
    · rename_i hs; exact h.put (by rw [hs]; exact not_atFinish_idle (by simp) (by simp))
    · exact h
  | call p c =>
    simp only [sstep]
    split
    · rename_i d hs; exact h.put (by rw [hs]; exact not_atFinish_idle (by simp) (by simp))
    · exact h
  | exit p =>
    simp only [sstep]
    split
    · rename_i d hs; exact h.put (by rw [hs]; exact not_atFinish_idle (by simp) (by simp))
    · rename_i hs; exact h.put (by rw [hs]; exact not_atFinish_idle (by simp) (by simp))
    · exact h
  | kill p => exact absurd rfl (he p)
  | step p b =>
    have hp := hw.procs p
    cases hs : w.procs p with
    | absent => simp only [sstep, hs]; exact h
    | failed => simp only [sstep, hs]; exact h
    | idle d => simp only [sstep, hs]; exact h
    | importing q =>
      rw [hs] at hp
      obtain ⟨f, hf⟩ := hp
      rcases isRet q with ⟨r, d, rfl⟩ | hr
      · cases r with
        | ok m =>
          simp only [sstep, hs]
          exact h.put (by rw [hs]; rintro k ⟨m, next, h | ⟨c, h⟩⟩ <;> cases h)
        | error e =>
          simp only [sstep, hs]
          exact h.put (by rw [hs]; rintro k ⟨m, next, h | ⟨c, h⟩⟩ <;> cases h)
      · rw [sstep_importing hs hr]
        exact h.act (S := .importing) hw.files (Or.inl rfl) hs hf
    | calling c q =>
      rw [hs] at hp
      obtain ⟨f, hf⟩ := hp
      rcases isRet q with ⟨r, d, rfl⟩ | hr
      · simp only [sstep, hs]
        exact h.put (by rw [hs]; rintro k ⟨m, next, h | ⟨c, h⟩⟩ <;> cases h)
      · rw [sstep_calling hs hr]
        exact h.act (S := .calling c) hw.files (Or.inr ⟨c, rfl⟩) hs hf

theorem srun_nk {i1 : Mat} (hi : inv baseMatrix = .ok i1) (es : List Ev) :
    ∀ {w : SWorld}, SOK inv w → NK w → (∀ p, .kill p ∉ es) → NK (srun inv w es).1 := by
  induction es with
  | nil => intro w _ h _; exact h
  | cons e es ih =>
    intro w hw h hk
    exact ih (sstep_ok hi hw e).1
      (sstep_nk hw h fun p hp => hk p (by rw [hp]; exact List.mem_cons_self))
      fun p hp => hk p (List.mem_cons_of_mem _ hp)

theorem sEmpty_nk : NK sEmpty := by intro k hk; simp [sEmpty] at hk

/-- the process is in the middle of an import or a call -/
def Busy (s : PState) : Prop := (∃ q, s = .importing q) ∨ ∃ c q, s = .calling c q

/-- what a result must be -/
def OutRight (inv : Mat → Except Err Mat) (p : ℕ) : SOut → Prop
  | .result p' c r => p' = p ∧ r = pureCall inv c
  | .started p' => p' = p
  | .importFailed _ _ => False

theorem lone_step {i1 : Mat} (hi : inv baseMatrix = .ok i1) {w : SWorld} (hw : SOK inv w)
    (hn : NK w) {p : ℕ} (hb : ∀ p', p' ≠ p → ¬ Busy (w.procs p'))
    (hp : PStateOK inv true w.ex (w.procs p)) {e : Ev} (he : e.pid = p) (hk : ∀ p, e ≠ .kill p) :
    PStateOK inv true (sstep inv w e).1.ex ((sstep inv w e).1.procs p) ∧
      ∀ o ∈ (sstep inv w e).2, OutRight inv p o := by
  have hload : ∀ {q : Prog} {S : Prog → PState}, (S = .importing ∨ ∃ c, S = .calling c) →
      w.procs p = S q → ∀ k next, q = .load k next → w.files k ≠ some .incomplete := by
    intro q S hS hs k next hq hinc
    obtain ⟨p', _, hfin⟩ := hn k hinc
    by_cases hpp : p' = p
    · subst hpp
      rw [hs, hq] at hfin
      obtain ⟨m, n', h | ⟨c, h⟩⟩ := hfin
      · rcases hS with rfl | ⟨c', rfl⟩
        · injection h with h; cases h
        · cases h
      · rcases hS with rfl | ⟨c', rfl⟩
        · cases h
        · injection h with _ h; cases h
    · apply hb p' hpp
      obtain ⟨m, n', h | ⟨c, h⟩⟩ := hfin
      · exact Or.inl ⟨_, h⟩
      · exact Or.inr ⟨_, _, h⟩
  cases e with
  | start p' =>
    change p' = p at he
    subst he
    simp only [sstep]
    split
    · refine ⟨?_, by simp⟩
      rw [put_self]
      refine ⟨4, ?_⟩
      rw [hi]; exact pImport_good hi
    · exact ⟨hp, by simp⟩
  | call p' c =>
    change p' = p at he
    subst he
    simp only [sstep]
    split
    · rename_i d hd
      refine ⟨?_, by simp⟩
      rw [put_self]
      rw [hd] at hp
      exact ⟨16, pCall_good c hp⟩
    · exact ⟨hp, by simp⟩
  | exit p' =>
    change p' = p at he
    subst he
    simp only [sstep]
    split
    · exact ⟨by rw [put_self]; trivial, by simp⟩
    · exact ⟨by rw [put_self]; trivial, by simp⟩
    · exact ⟨hp, by simp⟩
  | kill p' => exact absurd rfl (hk p')
  | step p' b =>
    change p' = p at he
    subst he
    cases hs : w.procs p' with
    | absent => simp only [sstep, hs]; exact ⟨trivial, by simp⟩
    | failed => simp only [sstep, hs]; exact ⟨trivial, by simp⟩
    | idle d => rw [hs] at hp; simp only [sstep, hs]; exact ⟨hp, by simp⟩
    | importing q =>
      rw [hs] at hp
      obtain ⟨f, hf⟩ := hp
      rcases isRet q with ⟨r, d, rfl⟩ | hr
      · obtain ⟨h1, h2, h3⟩ := hf
        rw [hi] at h3
        have h3 : r = .ok i1 := by simpa using h3
        subst h3
        simp only [sstep, hs]
        exact ⟨by rw [put_self]; exact h2, by simp [OutRight]⟩
      · rw [sstep_importing hs hr]
        have := sAct_good (p := p') (b := b) hw.files hf hr
          (fun _ => hload (S := .importing) (Or.inl rfl) hs)
        exact ⟨by rw [put_self]; exact ⟨_, this.2⟩, by simp⟩
    | calling c q =>
      rw [hs] at hp
      obtain ⟨f, hf⟩ := hp
      rcases isRet q with ⟨r, d, rfl⟩ | hr
      · obtain ⟨h1, h2, h3⟩ := hf
        have h3 : r = pureCall inv c := by simpa using h3
        simp only [sstep, hs]
        exact ⟨by rw [put_self]; exact h2, by simp [OutRight, h3]⟩
      · rw [sstep_calling hs hr]
        have := sAct_good (p := p') (b := b) hw.files hf hr
          (fun _ => hload (S := .calling c) (Or.inr ⟨c, rfl⟩) hs)
        exact ⟨by rw [put_self]; exact ⟨_, this.2⟩, by simp⟩

theorem lone_run {i1 : Mat} (hi : inv baseMatrix = .ok i1) {p : ℕ} (es : List Ev) :
    ∀ {w : SWorld}, SOK inv w → NK w → (∀ p', p' ≠ p → ¬ Busy (w.procs p')) →
      PStateOK inv true w.ex (w.procs p) → (∀ e ∈ es, e.pid = p ∧ ∀ p, e ≠ .kill p) →
      ∀ o ∈ (srun inv w es).2, OutRight inv p o := by
  induction es with
  | nil => intro w _ _ _ _ _ o ho; simp [srun] at ho
  | cons e es ih =>
    intro w hw hn hb hp hes o ho
    obtain ⟨he, hk⟩ := hes e List.mem_cons_self
    obtain ⟨h1, h2⟩ := lone_step hi hw hn hb hp he hk
    simp only [srun, List.mem_append, Option.mem_toList] at ho
    rcases ho with ho | ho
    · exact h2 o ho
    · refine ih (sstep_ok hi hw e).1 (sstep_nk hw hn hk) ?_ h1
        (fun e' he' => hes e' (List.mem_cons_of_mem _ he')) o ho
      intro p' hp'
      rw [sstep_other (by rw [he]; exact hp')]
      exact hb p' hp'

/-! ## One process alone does what `CacheModel` says -/

/-- process `p` gets from `w` to `w'` by actions alone, without a result -/
def Reach (inv : Mat → Except Err Mat) (p : ℕ) (w w' : SWorld) : Prop :=
  ∃ n, srun inv w (List.replicate n (.step p false)) = (w', [])

theorem Reach.refl (p : ℕ) (w : SWorld) : Reach inv p w w := ⟨0, rfl⟩

theorem Reach.head {p : ℕ} {w w1 w' : SWorld} (h : sstep inv w (.step p false) = (w1, none))
    (h1 : Reach inv p w1 w') : Reach inv p w w' := by
  obtain ⟨n, hn⟩ := h1
  refine ⟨n + 1, ?_⟩
  rw [List.replicate_succ]
  simp only [srun, h, hn]
  rfl

/-- the world in which `p` executes `q` for the call `c`, with the directory `d` -/
def at' (w : SWorld) (p : ℕ) (c : Call) (q : Prog) (d : Disk) (o : FKey → Option ℕ) : SWorld :=
  ⟨d, o, Function.update w.procs p (.calling c q)⟩

theorem at_procs (w : SWorld) (p : ℕ) (c : Call) (q : Prog) (d : Disk) (o : FKey → Option ℕ) :
    (at' w p c q d o).procs p = .calling c q := Function.update_self ..

theorem at_put (w : SWorld) (p : ℕ) (c : Call) (q q' : Prog) (d d' : Disk)
    (o o' : FKey → Option ℕ) :
    SWorld.put ⟨d', o', (at' w p c q d o).procs⟩ p (.calling c q') = at' w p c q' d' o' := by
  simp [at', SWorld.put]

/-- `q` with directory `d` becomes `q'` with directory `d'` when `p` acts alone -/
def To (inv : Mat → Except Err Mat) (w : SWorld) (p : ℕ) (c : Call) (q : Prog) (d : Disk)
    (q' : Prog) (d' : Disk) : Prop :=
  ∀ o, ∃ o', Reach inv p (at' w p c q d o) (at' w p c q' d' o')

theorem To.refl {w : SWorld} {p : ℕ} {c : Call} {q : Prog} {d : Disk} : To inv w p c q d q d :=
  fun o => ⟨o, Reach.refl _ _⟩

theorem srun_append (w : SWorld) (es es' : List Ev) :
    srun inv w (es ++ es') = ((srun inv (srun inv w es).1 es').1,
      (srun inv w es).2 ++ (srun inv (srun inv w es).1 es').2) := by
  induction es generalizing w with
  | nil => rfl
  | cons e es ih => simp only [List.cons_append, srun, ih, List.append_assoc]

theorem Reach.trans {p : ℕ} {w w1 w2 : SWorld} (h : Reach inv p w w1) (h' : Reach inv p w1 w2) :
    Reach inv p w w2 := by
  obtain ⟨n, hn⟩ := h
  obtain ⟨n', hn'⟩ := h'
  refine ⟨n + n', ?_⟩
  rw [List.replicate_add, srun_append, hn, hn']
  rfl

theorem To.trans {w : SWorld} {p : ℕ} {c : Call} {q q1 q2 : Prog} {d d1 d2 : Disk}
    (h : To inv w p c q d q1 d1) (h' : To inv w p c q1 d1 q2 d2) : To inv w p c q d q2 d2 := by
  intro o
  obtain ⟨o1, h1⟩ := h o
  obtain ⟨o2, h2⟩ := h' o1
  exact ⟨o2, h1.trans h2⟩

theorem to_hit {w : SWorld} {p : ℕ} {c : Call} {k : FKey} {next : Bool → Prog} {d : Disk} :
    To inv w p c (.hit k next) d (next (d k).isSome) d := by
  intro o
  refine ⟨o, Reach.head ?_ (Reach.refl _ _)⟩
  rw [sstep_calling (at_procs w p c _ d o) (by intro r d h; cases h)]
  simp only [sAct]
  congr 1
  exact at_put w p c _ _ d d o o

theorem to_load {w : SWorld} {p : ℕ} {c : Call} {k : FKey} {next : Except Err Mat → Prog}
    {d : Disk} {F : File} (hF : d k = some F) :
    To inv w p c (.load k next) d (next (readFile F)) d := by
  intro o
  refine ⟨o, Reach.head ?_ (Reach.refl _ _)⟩
  rw [sstep_calling (at_procs w p c _ d o) (by intro r d h; cases h)]
  have : sLoad (at' w p c (.load k next) d o) k = readFile F := by
    show (match d k with | none => _ | some f => readFile f) = _
    rw [hF]
  simp only [sAct, this]
  congr 1
  exact at_put w p c _ _ d d o o

theorem to_write {w : SWorld} {p : ℕ} {c : Call} {k : FKey} {m : Mat} {next : Prog} {d : Disk} :
    To inv w p c (pWrite k m next) d next (Function.update d k (some (.full m))) := by
  intro o
  refine ⟨Function.update o k none, Reach.head (w1 := at' w p c (.finish k m next)
    (Function.update d k (some .incomplete)) (Function.update o k (some p))) ?_
    (Reach.head ?_ (Reach.refl _ _))⟩
  · rw [pWrite, sstep_calling (at_procs w p c _ d o) (by intro r d h; cases h)]
    simp only [sAct]
    congr 1
    exact at_put w p c _ _ d _ o _
  · rw [sstep_calling (at_procs w p c _ _ _) (by intro r d h; cases h)]
    simp only [sAct, sFinish]
    rw [if_pos (by show Function.update o k (some p) k = _; rw [Function.update_self])]
    congr 1
    simp [at', SWorld.put]

/-- the dictionaries of a process of `CacheModel` -/
def Proc.dicts (s : Proc) : Dicts := ⟨s.mem, s.imem⟩

theorem to_one {w : SWorld} {p : ℕ} {c : Call} {next : Except Err Mat → Dicts → Prog} {s : Proc} :
    To inv w p c (pOne s.dicts next) s.disk (next (getOne s).1 (getOne s).2.dicts)
      (getOne s).2.disk := by
  unfold getOne pOne
  have e : s.dicts.mem 1 = s.mem 1 := rfl
  rw [e]
  cases hm : s.mem 1 with
  | some m => exact To.refl
  | none =>
    simp only
    refine to_hit.trans ?_
    cases hd : s.disk (.mat 1) with
    | none => exact To.refl
    | some F =>
      simp only [Option.isSome_some, if_true]
      refine (to_load hd).trans ?_
      cases hF : readFile F with
      | error e => exact To.refl
      | ok m => exact To.refl

theorem to_matN {w : SWorld} {p : ℕ} {c : Call} (n : ℕ) :
    ∀ {next : Except Err Mat → Dicts → Prog} {s : Proc},
      To inv w p c (pMatN n s.dicts next) s.disk
        (next (newGetMatrixN s n).1 (newGetMatrixN s n).2.dicts) (newGetMatrixN s n).2.disk := by
  induction n with
  | zero => intro next s; exact To.refl
  | succ n ih =>
    cases n with
    | zero => intro next s; exact to_one
    | succ n =>
      intro next s
      have e : s.dicts.mem (n + 2) = s.mem (n + 2) := rfl
      rw [pMatN, newGetMatrixN, e]
      cases hm : s.mem (n + 2) with
      | some m => exact To.refl
      | none =>
        simp only
        by_cases h5 : n + 2 > 5
        · simp only [if_pos h5]; exact To.refl
        · simp only [if_neg h5]
          refine to_hit.trans ?_
          cases hd : s.disk (.mat (n + 2)) with
          | some F =>
            simp only [Option.isSome_some, if_true]
            refine (to_load hd).trans ?_
            cases hF : readFile F with
            | error e => exact To.refl
            | ok m => exact To.refl
          | none =>
            simp only [Option.isSome_none, Bool.false_eq_true, if_false]
            refine ih.trans ?_
            generalize newGetMatrixN s (n + 1) = res
            obtain ⟨r, s1⟩ := res
            cases r with
            | error e => exact To.refl
            | ok previous =>
              simp only
              refine to_one.trans ?_
              generalize getOne s1 = res
              obtain ⟨r, s2⟩ := res
              cases r with
              | error e => exact To.refl
              | ok first => exact to_write

theorem to_call {w : SWorld} {p : ℕ} {c : Call} {s : Proc} :
    To inv w p c (pCall inv s.dicts c) s.disk
      (.ret (doCall inv s c).1 (doCall inv s c).2.dicts) (doCall inv s c).2.disk := by
  cases c with
  | matrix n =>
    simp only [pCall, pMatrix, doCall, cGetMatrix]
    split
    · exact To.refl
    · exact to_matN (s := { s with log := [] }) n.toNat
  | inverse n =>
    simp only [pCall, pInverse, doCall, cGetInverse]
    split
    · exact To.refl
    · have e : s.dicts.imem n.toNat = s.imem n.toNat := rfl
      rw [e]
      cases hm : s.imem n.toNat with
      | some m => exact To.refl
      | none =>
        simp only
        by_cases h5 : n > 5
        · simp only [if_pos h5]; exact To.refl
        · simp only [if_neg h5]
          refine to_hit.trans ?_
          cases hd : s.disk (.inv n.toNat) with
          | some F =>
            simp only [Option.isSome_some, if_true]
            refine (to_load hd).trans ?_
            cases hF : readFile F with
            | error e => exact To.refl
            | ok m => exact To.refl
          | none =>
            simp only [Option.isSome_none, Bool.false_eq_true, if_false]
            refine (to_matN (s := { s with log := [] }) n.toNat).trans ?_
            generalize newGetMatrixN { s with log := [] } n.toNat = res
            obtain ⟨r, s1⟩ := res
            cases r with
            | error e => exact To.refl
            | ok m =>
              simp only
              cases hi : inv m with
              | error e => exact To.refl
              | ok i => exact to_write

theorem alone_call (w : SWorld) {p : ℕ} {c : Call} {s : Proc} (hf : w.files = s.disk)
    (hp : w.procs p = .idle s.dicts) :
    ∃ n w', srun inv w (.call p c :: List.replicate n (.step p false))
        = (w', [.result p c (doCall inv s c).1]) ∧
      w'.files = (doCall inv s c).2.disk ∧ w'.procs p = .idle (doCall inv s c).2.dicts ∧
      ∀ p', p' ≠ p → w'.procs p' = w.procs p' := by
  obtain ⟨o', n, hn⟩ := to_call (inv := inv) (w := w) (p := p) (c := c) (s := s) w.owner
  refine ⟨n + 1, (at' w p c (.ret (doCall inv s c).1 (doCall inv s c).2.dicts)
    (doCall inv s c).2.disk o').put p (.idle (doCall inv s c).2.dicts), ?_, rfl, put_self, ?_⟩
  · have h1 : sstep inv w (.call p c) = (at' w p c (pCall inv s.dicts c) s.disk w.owner, none) := by
      simp only [sstep, hp, SWorld.put, at', ← hf]
    rw [show n + 1 = n + 1 from rfl, List.replicate_add, srun, h1, srun_append, hn]
    have h2 : sstep inv (at' w p c (.ret (doCall inv s c).1 (doCall inv s c).2.dicts)
        (doCall inv s c).2.disk o') (.step p false)
        = ((at' w p c (.ret (doCall inv s c).1 (doCall inv s c).2.dicts)
            (doCall inv s c).2.disk o').put p (.idle (doCall inv s c).2.dicts),
          some (.result p c (doCall inv s c).1)) := by
      simp only [sstep, at_procs]
    show (_, _) = _
    simp only [List.replicate_one, srun, h2]
    rfl
  · intro p' hp'
    rw [put_ne hp']
    exact Function.update_of_ne hp' ..

end Verif.Vts
