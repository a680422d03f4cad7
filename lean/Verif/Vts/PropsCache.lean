import Verif.Vts.CacheLemmas

/-!
# Properties of the matrix caches (C10, C11)

`getMatrix` and `getMatrixInverse inv` are the answers of a computation without any cache; `inv` is
`sympy.Matrix.inv`.  A history is a list of operations on one cache directory.
-/

namespace Verif.Vts

variable {inv : Mat → Except Err Mat}

/-- **C10**. After any history of calls and restarts on an initially empty directory, in the process
started last, every call answers like a fresh computation. -/
theorem C10_cache_transparent {i1 : Mat} (hi : inv baseMatrix = .ok i1) (ops : List COp)
    (hops : ∀ op ∈ ops, op = .restart ∨ ∃ c, op = .call c) (n : ℤ) :
    (cstep inv (crun inv emptyWorld (.restart :: ops)).1 (.call (.matrix n))).2
      = .result (getMatrix n) ∧
    (cstep inv (crun inv emptyWorld (.restart :: ops)).1 (.call (.inverse n))).2
      = .result (getMatrixInverse inv n) := by
  have hnc : ∀ op ∈ COp.restart :: ops, false = true ∨ op.noCrash := by
    intro op hop
    right
    rcases List.mem_cons.1 hop with rfl | hop
    · trivial
    · rcases hops op hop with rfl | ⟨c, rfl⟩ <;> trivial
  have hw := crun_ok hi (COp.restart :: ops) (emptyWorld_ok (inv := inv) false) hnc
  -- the process is running
  have hrun : ∀ (ops : List COp) (w : World), (∀ op ∈ ops, op = .restart ∨ ∃ c, op = .call c) →
      WorldOK inv false w → (∃ s, w.proc = some s) → ∃ s, (crun inv w ops).1.proc = some s := by
    intro ops
    induction ops with
    | nil => intro w _ _ h; exact h
    | cons op ops ih =>
      intro w hop hw ⟨s, hs⟩
      simp only [crun]
      have hop1 := hop op (by simp)
      refine ih _ (fun o ho => hop o (List.mem_cons_of_mem _ ho))
        (cstep_ok hi hw op (Or.inr (by rcases hop1 with rfl | ⟨c, rfl⟩ <;> trivial))) ?_
      rcases hop1 with rfl | ⟨c, rfl⟩
      · rcases startProc_spec hi hw.1 with ⟨s, h1, _⟩ | ⟨h1, _⟩
        · exact ⟨s, by simp [cstep, h1]⟩
        · simp at h1
      · exact ⟨(doCall inv s c).2, by simp [cstep, hs]⟩
  have hstart : ∃ s, (cstep inv emptyWorld .restart).1.proc = some s := by
    rcases startProc_spec hi (emptyWorld_ok (inv := inv) false).1 with ⟨s, h1, _⟩ | ⟨h1, _⟩
    · exact ⟨s, by simp [cstep, h1]⟩
    · simp at h1
  obtain ⟨s, hs⟩ := hrun ops _ hops
    (cstep_ok hi (emptyWorld_ok (inv := inv) false) .restart (Or.inr trivial)) hstart
  have hs' : (crun inv emptyWorld (.restart :: ops)).1.proc = some s := hs
  have hp := (hw.2 s hs').1
  constructor
  · have := (doCall_spec (.matrix n) hp).2
    simp only [Bool.false_eq_true, false_and, or_false] at this
    simp [cstep, hs', this, pureCall]
  · have := (doCall_spec (.inverse n) hp).2
    simp only [Bool.false_eq_true, false_and, or_false] at this
    simp [cstep, hs', this, pureCall]

-- a history that uses both cache levels
example : ∀ op ∈ [COp.call (.inverse 3), .restart, .call (.matrix 2), .call (.inverse 7)],
    op = .restart ∨ ∃ c, op = .call c := by
  intro op hop
  simp at hop
  rcases hop with rfl | rfl | rfl | rfl
  · exact Or.inr ⟨_, rfl⟩
  · exact Or.inl rfl
  · exact Or.inr ⟨_, rfl⟩
  · exact Or.inr ⟨_, rfl⟩

/-- **C11 is violated**: killing the process while the file of the 2-polynomial inverse is being
written makes every later request for that matrix fail, in every later process, for ever. -/
theorem C11_crash_violated {i1 i2 : Mat} (hi : inv baseMatrix = .ok i1)
    (hi2 : inv (signMatrix 2) = .ok i2) :
    ∃ i, ∀ ops : List COp, (∀ op ∈ ops, op = .restart ∨ ∃ c, op = .call c) →
      (cstep inv (crun inv emptyWorld
        ([.restart, .crash (.inverse 2) i, .restart] ++ ops)).1 (.call (.inverse 2))).2
        = .result (.error .unpickle) := by
  refine ⟨2, fun ops hops => ?_⟩
  rw [crun_append]
  have h2 : kron baseMatrix baseMatrix = signMatrix 2 := rfl
  have hw : WStuck 2 (crun inv emptyWorld [.restart, .crash (.inverse 2) 2]).1 := by
    refine ⟨?_, ?_⟩ <;>
    simp [crun, cstep, emptyWorld, startProc, hi, getOne, writeCache, doCall, cGetInverse,
      newGetMatrixN, Function.update_of_ne, h2, hi2]
  have hw3 : WStuck 2 (crun inv emptyWorld [.restart, .crash (.inverse 2) 2, .restart]).1 := by
    have := cstep_stuck (inv := inv) (by decide) hw .restart trivial
    rw [show [COp.restart, .crash (.inverse 2) 2, .restart] =
      [COp.restart, .crash (.inverse 2) 2] ++ [.restart] from rfl, crun_append]
    exact this
  have hnc : ∀ op ∈ ops, op.noCrash := by
    intro op hop
    rcases hops op hop with rfl | ⟨c, rfl⟩ <;> trivial
  have hfin := crun_stuck (inv := inv) (by decide) ops hw3 hnc
  -- the process is running because the legacy file is complete
  have hrun : ∀ (ops : List COp) (w : World), (∀ op ∈ ops, op = .restart ∨ ∃ c, op = .call c) →
      (∃ m, w.disk .legacy = some (.full m)) → (∃ s, w.proc = some s ∧ s.disk = w.disk) →
      ∃ s, (crun inv w ops).1.proc = some s ∧ s.disk = (crun inv w ops).1.disk := by
    intro ops
    induction ops with
    | nil => intro w _ _ h; exact h
    | cons op ops ih =>
      intro w hop ⟨m, hm⟩ ⟨s, hs, hsd⟩
      simp only [crun]
      have hop1 := hop op (by simp)
      have hop2 := fun o ho => hop o (List.mem_cons_of_mem _ ho)
      rcases hop1 with rfl | ⟨c, rfl⟩
      · have : startProc inv w.disk = .ok
            { disk := w.disk, mem := fun n => if n = 1 then some baseMatrix else none,
              imem := fun n => if n = 1 then some i1 else none, log := [] } := by
          simp [startProc, hi, hm, readFile]
        apply ih _ hop2
        · exact ⟨m, by simp [cstep, this, hm]⟩
        · simp [cstep, this]
      · apply ih _ hop2
        · refine ⟨m, ?_⟩
          simp only [cstep, hs]
          exact (doCall_legacy s c).trans (hsd ▸ hm)
        · simp [cstep, hs]
  obtain ⟨s, hs, _⟩ := hrun ops
    (crun inv emptyWorld [.restart, .crash (.inverse 2) 2, .restart]).1 hops (by
      simp [crun, cstep, emptyWorld, startProc, hi, getOne, writeCache, doCall, cGetInverse,
        newGetMatrixN, Function.update_of_ne, h2, hi2, readFile]) (by
      simp [crun, cstep, emptyWorld, startProc, hi, getOne, writeCache, doCall, cGetInverse,
        newGetMatrixN, Function.update_of_ne, h2, hi2, readFile])
  have hst := hfin.2 s hs
  simp only [cstep, hs]
  simp [doCall, cGetInverse, hst.1, hst.2, readFile]

/-- **C11 is violated**, at import: a kill during the very first import leaves an incomplete file
with which no later import succeeds. -/
theorem C11_import_violated {i1 : Mat} (hi : inv baseMatrix = .ok i1) :
    ∃ i, (crun inv emptyWorld [.crashImport i, .restart, .restart]).2 =
      [.killed, .importFailed .unpickle, .importFailed .unpickle] := by
  refine ⟨0, ?_⟩
  simp [crun, cstep, emptyWorld, startProc, hi, getOne, writeCache, readFile]

/-- What remains of **C11**: after any history with kills at any points, no call ever returns a
wrong matrix; it returns the right answer or raises because of an incomplete file.  Missing: that it
does not raise. -/
theorem C11_crash_partial {i1 : Mat} (hi : inv baseMatrix = .ok i1) (ops : List COp) (s : Proc)
    (hs : (crun inv emptyWorld ops).1.proc = some s) (n : ℤ) :
    ((cstep inv (crun inv emptyWorld ops).1 (.call (.matrix n))).2 = .result (getMatrix n) ∨
     (cstep inv (crun inv emptyWorld ops).1 (.call (.matrix n))).2
        = .result (.error .unpickle)) ∧
    ((cstep inv (crun inv emptyWorld ops).1 (.call (.inverse n))).2
        = .result (getMatrixInverse inv n) ∨
     (cstep inv (crun inv emptyWorld ops).1 (.call (.inverse n))).2
        = .result (.error .unpickle)) := by
  have hw := crun_ok hi ops (emptyWorld_ok (inv := inv) true) fun _ _ => Or.inl rfl
  have hp := (hw.2 s hs).1
  constructor
  · rcases (doCall_spec (.matrix n) hp).2 with h | ⟨_, h⟩
    · left; simp [cstep, hs, h, pureCall]
    · right; simp [cstep, hs, h]
  · rcases (doCall_spec (.inverse n) hp).2 with h | ⟨_, h⟩
    · left; simp [cstep, hs, h, pureCall]
    · right; simp [cstep, hs, h]

-- the hypotheses are met, with a history containing a kill in the middle of a write
example : (crun (fun A => .ok A) emptyWorld
    [.restart, .crash (.inverse 2) 2, .restart]).1.proc.isSome = true := by
  simp [crun, cstep, emptyWorld, startProc, getOne, writeCache, doCall, cGetInverse,
    newGetMatrixN, Function.update_of_ne, readFile]

/-- **C50 is violated**: a caller that modifies the matrix it was given changes the answers of later
calls, and through the disk cache those of later processes. -/
theorem C50_aliasing_violated {i1 : Mat} (hi : inv baseMatrix = .ok i1) :
    ∃ s s3, startProc inv emptyWorld.disk = .ok s ∧
      (doCall inv s (.matrix 2)).1 = .ok (signMatrix 2) ∧
      startProc inv (doCall inv (mutateReturned (doCall inv s (.matrix 2)).2 2 [[0]])
        (.matrix 3)).2.disk = .ok s3 ∧
      (doCall inv s3 (.matrix 3)).1 = .ok (kron [[0]] baseMatrix) ∧
      kron [[0]] baseMatrix ≠ signMatrix 3 := by
  have h2 : kron baseMatrix baseMatrix = signMatrix 2 := rfl
  let s : Proc := writeCache
    { disk := fun _ => none, mem := fun n => if n = 1 then some baseMatrix else none,
      imem := fun n => if n = 1 then some i1 else none, log := [] } .legacy i1
  let d := (doCall inv (mutateReturned (doCall inv s (.matrix 2)).2 2 [[0]]) (.matrix 3)).2.disk
  have hd3 : d (.mat 3) = some (.full (kron [[0]] baseMatrix)) := by
    simp [d, s, doCall, cGetMatrix, newGetMatrixN, getOne, writeCache, mutateReturned]
  have hdl : d .legacy = some (.full i1) := by
    simp [d, s, doCall, cGetMatrix, newGetMatrixN, getOne, writeCache, mutateReturned]
  let s3 : Proc :=
    { disk := d, mem := fun n => if n = 1 then some baseMatrix else none,
      imem := fun n => if n = 1 then some i1 else none, log := [] }
  refine ⟨s, s3, ?_, ?_, ?_, ?_, ?_⟩
  · simp [s, startProc, emptyWorld, hi, getOne]
  · simp [s, doCall, cGetMatrix, newGetMatrixN, getOne, writeCache, h2]
  · show startProc inv d = _
    simp [s3, startProc, hi, hdl, readFile]
  · simp [s3, doCall, cGetMatrix, newGetMatrixN, hd3, readFile]
  · intro h
    have h1 := congrArg List.length h
    have h3 := (isSquare_signMatrix 3).1
    rw [← h1] at h3
    simp [kron, baseMatrix] at h3

end Verif.Vts
