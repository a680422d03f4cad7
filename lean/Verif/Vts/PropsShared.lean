import Verif.Vts.SharedMore

/-!
# Several processes on one cache directory (C86)

A schedule is any list of events of any processes, identified by numbers; it begins with no
directory and no process.  `getMatrix` and `getMatrixInverse inv` are the answers of a computation
without any cache; `inv` is `sympy.Matrix.inv`.
-/

namespace Verif.Vts

variable {inv : Mat → Except Err Mat}

/-- **C86** (what holds in general). Whatever the processes do and whenever they are killed: no call
ever returns a wrong matrix. It answers as without a cache or fails with the unpickling error, and an
import fails with nothing else. -/
theorem C86_partial {i1 : Mat} (hi : inv baseMatrix = .ok i1) (es : List Ev) (p : ℕ) :
    (∀ n r, .result p (.matrix n) r ∈ (srun inv sEmpty es).2 →
      r = getMatrix n ∨ r = .error .unpickle) ∧
    (∀ n r, .result p (.inverse n) r ∈ (srun inv sEmpty es).2 →
      r = getMatrixInverse inv n ∨ r = .error .unpickle) ∧
    (∀ e, .importFailed p e ∈ (srun inv sEmpty es).2 → e = .unpickle) := by
  have h := (srun_ok hi es (sEmpty_ok (inv := inv))).2
  exact ⟨fun n r hr => h _ hr, fun n r hr => h _ hr, fun e he => h _ he⟩

/-- **C86**, no process waits for another: a call returns after at most 16 actions of its own
process, whatever the others do in between. -/
theorem C86_wait_free {i1 : Mat} (hi : inv baseMatrix = .ok i1) (es es' : List Ev) (p : ℕ)
    (c : Call) (d : Dicts) (hp : (srun inv sEmpty es).1.procs p = .idle d) (hk : .kill p ∉ es')
    (hs : 16 ≤ es'.countP fun e => match e with | .step p' _ => p' == p | _ => false) :
    ∃ r, .result p c r ∈
      (srun inv (sstep inv (srun inv sEmpty es).1 (.call p c)).1 es').2 := by
  have h := (srun_ok hi es (sEmpty_ok (inv := inv))).1
  have hd := h.procs p
  rw [hp] at hd
  have h' := (sstep_ok hi h (.call p c)).1
  have he : sstep inv (srun inv sEmpty es).1 (.call p c)
      = ((srun inv sEmpty es).1.put p (.calling c (pCall inv d c)), none) := by
    simp only [sstep, hp]
  rw [he] at h' ⊢
  exact progress_call hi es' h' put_self (pCall_good c hd) hk hs

/-- **C86**, the same for the import of the module: at most 4 actions. -/
theorem C86_import_wait_free {i1 : Mat} (hi : inv baseMatrix = .ok i1) (es es' : List Ev) (p : ℕ)
    (hp : (srun inv sEmpty es).1.procs p = .absent) (hk : .kill p ∉ es')
    (hs : 4 ≤ es'.countP fun e => match e with | .step p' _ => p' == p | _ => false) :
    .started p ∈ (srun inv (sstep inv (srun inv sEmpty es).1 (.start p)).1 es').2 ∨
      ∃ e, .importFailed p e ∈ (srun inv (sstep inv (srun inv sEmpty es).1 (.start p)).1 es').2 := by
  have h := (srun_ok hi es (sEmpty_ok (inv := inv))).1
  have h' := (sstep_ok hi h (.start p)).1
  have he : sstep inv (srun inv sEmpty es).1 (.start p)
      = ((srun inv sEmpty es).1.put p (.importing (pImport inv)), none) := by
    simp only [sstep, hp]
  rw [he] at h' ⊢
  exact progress_import hi es' h' put_self (pImport_good hi) hk hs

/-- **C86**, concurrent writers do no lasting harm. If nobody was killed then at every moment at which
no process is inside an import or a call, all files of the directory are complete and right, -/
theorem C86_settled {i1 : Mat} (hi : inv baseMatrix = .ok i1) (es : List Ev)
    (hk : ∀ p, .kill p ∉ es)
    (hq : ∀ p, (∀ q, (srun inv sEmpty es).1.procs p ≠ .importing q) ∧
      ∀ c q, (srun inv sEmpty es).1.procs p ≠ .calling c q) :
    (∀ n f, (srun inv sEmpty es).1.files (.mat n) = some f → f = .full (signMatrix n)) ∧
    (∀ n f, (srun inv sEmpty es).1.files (.inv n) = some f →
      ∃ m, f = .full m ∧ inv (signMatrix n) = .ok m) ∧
    (∀ f, (srun inv sEmpty es).1.files .legacy = some f → f = .full i1) := by
  have h := (srun_ok hi es (sEmpty_ok (inv := inv))).1
  have hn := srun_nk hi es (sEmpty_ok (inv := inv)) sEmpty_nk hk
  have hfull : ∀ k f, (srun inv sEmpty es).1.files k = some f → ∃ m, f = .full m ∧ FileOK inv k m := by
    intro k f hf
    cases f with
    | full m => exact ⟨m, rfl, h.files k m hf⟩
    | incomplete =>
      obtain ⟨p, _, hp⟩ := hn k hf
      exact absurd hp (not_atFinish_idle (hq p).1 (hq p).2 k)
  refine ⟨?_, ?_, ?_⟩
  · intro n f hf
    obtain ⟨m, rfl, hm⟩ := hfull _ _ hf
    change m = signMatrix n at hm
    rw [hm]
  · intro n f hf
    obtain ⟨m, rfl, hm⟩ := hfull _ _ hf
    exact ⟨m, rfl, hm⟩
  · intro f hf
    obtain ⟨m, rfl, hm⟩ := hfull _ _ hf
    change inv baseMatrix = .ok m at hm
    rw [hi] at hm
    rw [Except.ok.inj hm]

/-- and as long as only one process is active afterwards, it sees only right answers. -/
theorem C86_then_right {i1 : Mat} (hi : inv baseMatrix = .ok i1) (es es' : List Ev) (p : ℕ)
    (hk : ∀ p, .kill p ∉ es)
    (hq : ∀ p, (∀ q, (srun inv sEmpty es).1.procs p ≠ .importing q) ∧
      ∀ c q, (srun inv sEmpty es).1.procs p ≠ .calling c q)
    (hes' : ∀ e ∈ es', e = .start p ∨ (∃ c, e = .call p c) ∨ (∃ b, e = .step p b) ∨ e = .exit p)
    (o : SOut) (ho : o ∈ (srun inv (srun inv sEmpty es).1 es').2) :
    o = .started p ∨ (∃ n, o = .result p (.matrix n) (getMatrix n)) ∨
      ∃ n, o = .result p (.inverse n) (getMatrixInverse inv n) := by
  have h := (srun_ok hi es (sEmpty_ok (inv := inv))).1
  have hn := srun_nk hi es (sEmpty_ok (inv := inv)) sEmpty_nk hk
  have hp : PStateOK inv true (srun inv sEmpty es).1.ex ((srun inv sEmpty es).1.procs p) := by
    have := h.procs p
    cases hs : (srun inv sEmpty es).1.procs p with
    | importing q => exact absurd hs ((hq p).1 q)
    | calling c q => exact absurd hs ((hq p).2 c q)
    | idle d => rw [hs] at this; exact this
    | absent => trivial
    | failed => trivial
  have hb : ∀ p', p' ≠ p → ¬ Busy ((srun inv sEmpty es).1.procs p') := by
    rintro p' _ (⟨q, hh⟩ | ⟨c, q, hh⟩)
    · exact (hq p').1 q hh
    · exact (hq p').2 c q hh
  have := lone_run hi es' h hn hb hp (by
    intro e he
    rcases hes' e he with rfl | ⟨c, rfl⟩ | ⟨b, rfl⟩ | rfl <;> exact ⟨rfl, by simp⟩) o ho
  cases o with
  | started p' => left; rw [show p' = p from this]
  | importFailed p' e => exact this.elim
  | result p' c r =>
    obtain ⟨rfl, rfl⟩ := this
    cases c with
    | matrix n => exact Or.inr (Or.inl ⟨n, rfl⟩)
    | inverse n => exact Or.inr (Or.inr ⟨n, rfl⟩)

/-- One process that runs alone does what `CacheModel` says (C10, C11). -/
theorem C86_alone (w : SWorld) {p : ℕ} {c : Call} {s : Proc} (hf : w.files = s.disk)
    (hp : w.procs p = .idle ⟨s.mem, s.imem⟩) :
    ∃ n w', srun inv w (.call p c :: List.replicate n (.step p false))
        = (w', [.result p c (doCall inv s c).1]) ∧
      w'.files = (doCall inv s c).2.disk ∧
      w'.procs p = .idle ⟨(doCall inv s c).2.mem, (doCall inv s c).2.imem⟩ ∧
      ∀ p', p' ≠ p → w'.procs p' = w.procs p' :=
  alone_call w hf hp

/-- **C86**, what the events do to the processes, in any state. An event of one process does not touch the others; a kill or
the end of a process leaves the directory as it is; a process at work is changed only by its own actions and kills; after the
result of a call the process waits for the next one. -/
theorem C86_events (w : SWorld) (p : ℕ) :
    (∀ e, (e = .start p ∨ (∃ c, e = .call p c) ∨ (∃ b, e = .step p b) ∨ e = .exit p ∨ e = .kill p) →
      (∀ p', p' ≠ p → (sstep inv w e).1.procs p' = w.procs p') ∧
      ((∀ b, e ≠ .step p b) → (sstep inv w e).1.files = w.files ∧ (sstep inv w e).2 = none ∧
        (e ≠ .kill p → ((∃ q, w.procs p = .importing q) ∨ ∃ c q, w.procs p = .calling c q) →
          (sstep inv w e).1.procs p = w.procs p))) ∧
    (sstep inv w (.kill p)).1.procs p = .absent ∧
    (∀ d, w.procs p = .idle d → (sstep inv w (.exit p)).1.procs p = .absent) ∧
    (w.procs p = .failed → (sstep inv w (.exit p)).1.procs p = .absent) ∧
    (∀ b c p' r, (sstep inv w (.step p b)).2 = some (.result p' c r) →
      p' = p ∧ ∃ d, (sstep inv w (.step p b)).1.procs p = .idle d) := by
  refine ⟨?_, put_self, ?_, ?_, ?_⟩
  · intro e he
    have hpid : e.pid = p := by
      rcases he with rfl | ⟨c, rfl⟩ | ⟨b, rfl⟩ | rfl | rfl <;> rfl
    refine ⟨fun p' hp' => sstep_other (by rw [hpid]; exact hp'), fun hs => ⟨?_, ?_, ?_⟩⟩
    · rcases he with rfl | ⟨c, rfl⟩ | ⟨b, rfl⟩ | rfl | rfl
      · simp only [sstep]; split <;> rfl
      · simp only [sstep]; split <;> rfl
      · exact absurd rfl (hs b)
      · simp only [sstep]; split <;> rfl
      · rfl
    · rcases he with rfl | ⟨c, rfl⟩ | ⟨b, rfl⟩ | rfl | rfl
      · simp only [sstep]; split <;> rfl
      · simp only [sstep]; split <;> rfl
      · exact absurd rfl (hs b)
      · simp only [sstep]; split <;> rfl
      · rfl
    · exact fun hk hb => sstep_busy hk hs hb
  · intro d hd
    simp only [sstep, hd]
    exact put_self
  · intro hd
    simp only [sstep, hd]
    exact put_self
  · intro b c p' r h
    cases hs : w.procs p with
    | calling c' q =>
      rcases isRet q with ⟨r', d, rfl⟩ | hr
      · simp only [sstep, hs] at h ⊢
        cases h
        exact ⟨rfl, d, put_self⟩
      · rw [sstep_calling hs hr] at h
        cases h
    | importing q =>
      rcases isRet q with ⟨r', d, rfl⟩ | hr
      · cases r' with
        | ok m => simp only [sstep, hs] at h; cases h
        | error e => simp only [sstep, hs] at h; cases h
      · rw [sstep_importing hs hr] at h
        cases h
    | absent => simp only [sstep, hs] at h; cases h
    | failed => simp only [sstep, hs] at h; cases h
    | idle d => simp only [sstep, hs] at h; cases h

/-- Two processes start one after the other; process 0 asks for the matrix of size 2 and is in the
middle of writing it. -/
def midWrite : List Ev :=
  [.start 0, .step 0 false, .step 0 false, .step 0 false, .step 0 false,
   .start 1, .step 1 false, .step 1 false, .step 1 false,
   .call 0 (.matrix 2), .step 0 false, .step 0 false]

/-- **C86** does not hold without exception: nobody is killed, but process 1 asks for the matrix while
process 0 writes it, and fails. -/
theorem C86_violated {i1 : Mat} (hi : inv baseMatrix = .ok i1) :
    (srun inv sEmpty (midWrite ++
        [.call 1 (.matrix 2), .step 1 false, .step 1 false, .step 1 false])).2
      = [.started 0, .started 1, .result 1 (.matrix 2) (.error .unpickle)] ∧
    getMatrix 2 = .ok (signMatrix 2) := by
  refine ⟨?_, rfl⟩
  simp [midWrite, srun, sstep, sEmpty, SWorld.put, pImport, hi, pOne, pWrite, sAct, sFinish, pCall,
    pMatrix, pMatN, sLoad, readFile, Function.update]

/-- The same for the start of a process: it fails if another one is just writing its first file. -/
theorem C86_import_violated {i1 : Mat} (hi : inv baseMatrix = .ok i1) :
    (srun inv sEmpty [.start 0, .step 0 false, .step 0 false,
        .start 1, .step 1 false, .step 1 false, .step 1 false]).2
      = [.importFailed 1 .unpickle] := by
  simp [srun, sstep, sEmpty, SWorld.put, pImport, hi, pOne, pWrite, sAct,
    sLoad, readFile, Function.update]

/-- The hypotheses of `C86_settled` and `C86_then_right` are met after two processes have written the
same file at the same time: both found it missing, process 1 emptied it while process 0 wrote. -/
example {i1 : Mat} (hi : inv baseMatrix = .ok i1) :
    let es : List Ev := [.start 0, .step 0 false, .step 0 false, .step 0 false, .step 0 false,
      .start 1, .step 1 false, .step 1 false, .step 1 false,
      .call 0 (.matrix 2), .call 1 (.matrix 2), .step 0 false, .step 1 false,
      .step 0 false, .step 1 false, .step 0 false, .step 1 false, .step 0 false, .step 1 false]
    (srun inv sEmpty es).2 = [.started 0, .started 1, .result 0 (.matrix 2) (getMatrix 2),
        .result 1 (.matrix 2) (getMatrix 2)] ∧
      (srun inv sEmpty es).1.files (.mat 2) = some (.full (signMatrix 2)) ∧
      ∀ p, (∀ q, (srun inv sEmpty es).1.procs p ≠ .importing q) ∧
        ∀ c q, (srun inv sEmpty es).1.procs p ≠ .calling c q := by
  refine ⟨?_, ?_, ?_⟩
  · simp [srun, sstep, sEmpty, SWorld.put, pImport, hi, pOne, pWrite, sAct, sFinish, pCall,
      pMatrix, pMatN, sLoad, readFile, Function.update, getMatrix, signMatrix]
  · simp [srun, sstep, sEmpty, SWorld.put, pImport, hi, pOne, pWrite, sAct, sFinish, pCall,
      pMatrix, pMatN, sLoad, readFile, Function.update, signMatrix]
  · intro p
    simp [srun, sstep, sEmpty, SWorld.put, pImport, hi, pOne, pWrite, sAct, sFinish, pCall,
      pMatrix, pMatN, sLoad, readFile, Function.update]
    split_ifs <;> simp

end Verif.Vts
