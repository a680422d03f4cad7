import Verif.Vts.PropsCache

/-!
# The effect of crashes on the matrix caches, exactly (C11)
-/

namespace Verif.Vts

variable {inv : Mat → Except Err Mat}

/-! ### Files are written once -/

theorem getOne_disk (s : Proc) : (getOne s).2.disk = s.disk ∧ (getOne s).2.log = s.log := by
  unfold getOne
  split
  · simp
  · split
    · split <;> simp
    · simp

theorem newGetMatrixN_frame (n : ℕ) : ∀ (s : Proc) (k : FKey), (∀ j ≤ n, k ≠ .mat j) →
    (newGetMatrixN s n).2.disk k = s.disk k := by
  induction n with
  | zero => intro s k _; rfl
  | succ n ih =>
    cases n with
    | zero => intro s k _; rw [newGetMatrixN, (getOne_disk s).1]
    | succ n =>
      intro s k hk
      rw [newGetMatrixN]
      split
      · rfl
      · split
        · rfl
        · split
          · split <;> rfl
          · have ih' := ih s k (fun j hj => hk j (by omega))
            generalize newGetMatrixN s (n + 1) = res at ih' ⊢
            obtain ⟨r, s1⟩ := res
            cases r with
            | error e => exact ih'
            | ok p =>
              simp only at ih' ⊢
              have h1 := (getOne_disk s1).1
              generalize getOne s1 = res2 at h1 ⊢
              obtain ⟨r2, s2⟩ := res2
              cases r2 with
              | error e => simp only at h1 ⊢; rw [h1]; exact ih'
              | ok f =>
                simp only [writeCache] at h1 ⊢
                rw [Function.update_of_ne (hk (n + 2) (by omega)), h1]
                exact ih'

/-- the file `k` is not changed, at no moment -/
def Keeps (k : FKey) (f : File) (s : Proc) : Prop := s.disk k = some f ∧ ∀ d ∈ s.log, d k = some f

theorem Keeps.write {k : FKey} {f : File} {s : Proc} (h : Keeps k f s) {k' : FKey} (hk : k ≠ k')
    (m : Mat) : Keeps k f (writeCache s k' m) := by
  refine ⟨?_, ?_⟩
  · simp only [writeCache]; rw [Function.update_of_ne hk]; exact h.1
  · intro d hd
    simp only [writeCache, List.mem_append, List.mem_cons, List.not_mem_nil, or_false] at hd
    rcases hd with hd | rfl | rfl
    · exact h.2 d hd
    · rw [Function.update_of_ne hk]; exact h.1
    · rw [Function.update_of_ne hk]; exact h.1

theorem newGetMatrixN_keeps {k : FKey} {f : File} (n : ℕ) : ∀ s : Proc, Keeps k f s →
    Keeps k f (newGetMatrixN s n).2 := by
  have hone : ∀ s, Keeps k f s → Keeps k f (getOne s).2 := by
    intro s h
    unfold Keeps
    rw [(getOne_disk s).1, (getOne_disk s).2]
    exact h
  induction n with
  | zero => intro s h; exact h
  | succ n ih =>
    cases n with
    | zero => intro s h; exact hone s h
    | succ n =>
      intro s h
      rw [newGetMatrixN]
      split
      · exact h
      · split
        · exact h
        · split
          · split <;> exact h
          · rename_i hnone
            have ih' := ih s h
            generalize newGetMatrixN s (n + 1) = res at ih' ⊢
            obtain ⟨r, s1⟩ := res
            cases r with
            | error e => exact ih'
            | ok p =>
              simp only at ih' ⊢
              have h1 := hone s1 ih'
              generalize getOne s1 = res2 at h1 ⊢
              obtain ⟨r2, s2⟩ := res2
              cases r2 with
              | error e => exact h1
              | ok f' =>
                have hk : k ≠ .mat (n + 2) := by
                  rintro rfl
                  rw [h.1] at hnone
                  cases hnone
                exact h1.write hk _

theorem doCall_keeps {k : FKey} {f : File} {s : Proc} (h : s.disk k = some f) (c : Call) :
    Keeps k f (doCall inv s c).2 := by
  have h0 : Keeps k f { s with log := [] } := ⟨h, by simp⟩
  cases c with
  | matrix n =>
    simp only [doCall, cGetMatrix]
    split
    · exact h0
    · exact newGetMatrixN_keeps _ _ h0
  | inverse n =>
    simp only [doCall, cGetInverse]
    split
    · exact h0
    · split
      · exact h0
      · split
        · exact h0
        · split
          · split <;> exact h0
          · rename_i hnone
            have h1 := newGetMatrixN_keeps n.toNat _ h0
            generalize newGetMatrixN { s with log := [] } n.toNat = res at h1 ⊢
            obtain ⟨r, s1⟩ := res
            cases r with
            | error e => exact h1
            | ok m =>
              simp only at h1 ⊢
              cases inv m with
              | error e => exact h1
              | ok i =>
                have hk : k ≠ .inv n.toNat := by
                  rintro rfl
                  change s.disk _ = none at hnone
                  rw [h] at hnone
                  cases hnone
                exact h1.write hk _

theorem startProc_keeps {k : FKey} {f : File} {d : Disk} (h : d k = some f) :
    (∀ s, startProc inv d = .ok s → Keeps k f s) ∧
    ∀ e l, startProc inv d = .error (e, l) → ∀ d ∈ l, d k = some f := by
  unfold startProc
  cases hi : inv baseMatrix with
  | error e =>
    refine ⟨by simp, ?_⟩
    intro e' l hl
    simp only [Except.error.injEq, Prod.mk.injEq] at hl
    rw [← hl.2]; simp
  | ok i1 =>
    simp only
    split
    · split
      · refine ⟨by simp, ?_⟩
        intro e' l hl
        simp only [Except.error.injEq, Prod.mk.injEq] at hl
        rw [← hl.2]; simp
      · refine ⟨?_, by simp⟩
        intro s hs
        simp only [Except.ok.injEq] at hs
        subst hs
        exact ⟨h, by simp⟩
    · rename_i hnone
      simp only [getOne, if_true]
      simp only [hi]
      refine ⟨?_, by simp⟩
      intro s hs
      simp only [Except.ok.injEq] at hs
      subst hs
      refine Keeps.write ⟨h, by simp⟩ ?_ _
      rintro rfl
      rw [h] at hnone
      cases hnone

theorem getD_keeps {k : FKey} {f : File} {l : List Disk} {d : Disk} (hl : ∀ d ∈ l, d k = some f)
    (hd : d k = some f) (i : ℕ) : l.getD i d k = some f := by
  rw [List.getD]
  cases h : l[i]? with
  | none => exact hd
  | some x => exact hl x (List.mem_of_getElem? h)

theorem getLastD_keeps {k : FKey} {f : File} {l : List Disk} {d : Disk} (hl : ∀ d ∈ l, d k = some f)
    (hd : d k = some f) : l.getLastD d k = some f := by
  induction l generalizing d with
  | nil => exact hd
  | cons a l ih =>
    rw [List.getLastD_cons]
    exact ih (fun d h => hl d (List.mem_cons_of_mem _ h)) (hl a (by simp))

theorem cstep_keeps {k : FKey} {f : File} {w : World} (hw : ∀ s, w.proc = some s → s.disk = w.disk)
    (h : w.disk k = some f) (op : COp) :
    (cstep inv w op).1.disk k = some f ∧
      ∀ s, (cstep inv w op).1.proc = some s → s.disk = (cstep inv w op).1.disk := by
  cases op with
  | call c =>
    simp only [cstep]
    cases hp : w.proc with
    | none => exact ⟨h, by simp [hp]⟩
    | some s =>
      refine ⟨(doCall_keeps (inv := inv) (by rw [hw s hp]; exact h) c).1, ?_⟩
      intro s' hs'
      simp only [Option.some.injEq] at hs'
      rw [← hs']
  | restart =>
    simp only [cstep]
    have hk := startProc_keeps (inv := inv) h
    cases hs : startProc inv w.disk with
    | error el =>
      obtain ⟨e, l⟩ := el
      exact ⟨getLastD_keeps (hk.2 e l hs) h, by simp⟩
    | ok s =>
      refine ⟨(hk.1 s hs).1, ?_⟩
      intro s' hs'
      simp only [Option.some.injEq] at hs'
      rw [← hs']
  | crash c i =>
    simp only [cstep]
    cases hp : w.proc with
    | none => exact ⟨h, by simp [hp]⟩
    | some s =>
      have := doCall_keeps (inv := inv) (s := s) (by rw [hw s hp]; exact h) c
      exact ⟨getD_keeps this.2 h i, by simp⟩
  | crashImport i =>
    simp only [cstep]
    have hk := startProc_keeps (inv := inv) h
    cases hs : startProc inv w.disk with
    | error el =>
      obtain ⟨e, l⟩ := el
      exact ⟨getD_keeps (hk.2 e l hs) h i, by simp⟩
    | ok s => exact ⟨getD_keeps (hk.1 s hs).2 h i, by simp⟩

/-- **C11**, damage is permanent. After any history with kills at any points, a file of the cache
directory is never changed again by any further history: an incomplete file stays incomplete for
ever, a complete one is never touched. -/
theorem C11_written_once {i1 : Mat} (hi : inv baseMatrix = .ok i1) (ops ops' : List COp) (k : FKey)
    (f : File) (h : (crun inv emptyWorld ops).1.disk k = some f) :
    (crun inv emptyWorld (ops ++ ops')).1.disk k = some f := by
  rw [crun_append]
  have hw := crun_ok hi ops (emptyWorld_ok (inv := inv) true) fun _ _ => Or.inl rfl
  have hw' : ∀ s, (crun inv emptyWorld ops).1.proc = some s → s.disk = (crun inv emptyWorld ops).1.disk :=
    fun s hs => (hw.2 s hs).2
  clear hw
  generalize (crun inv emptyWorld ops).1 = w at h hw'
  induction ops' generalizing w with
  | nil => exact h
  | cons op ops' ih =>
    simp only [crun]
    obtain ⟨h1, h2⟩ := cstep_keeps (inv := inv) hw' h op
    exact ih _ h1 h2

/-! ### Which calls fail -/

theorem newGetMatrixN_fails (n : ℕ) : ∀ (s : Proc), ProcOK inv true s → n ≤ 5 →
    (∀ i, 2 ≤ i → i ≤ n → s.mem i = none) →
    ((newGetMatrixN s n).1 = .error .unpickle ↔
      ∃ j, 2 ≤ j ∧ j ≤ n ∧ s.disk (.mat j) = some .incomplete ∧
        ∀ i, j < i → i ≤ n → s.disk (.mat i) = none) := by
  induction n with
  | zero =>
    intro s _ _ _
    constructor
    · intro h; simp [newGetMatrixN] at h
    · rintro ⟨j, h1, h2, _⟩; omega
  | succ n ih =>
    cases n with
    | zero =>
      intro s hs _ _
      constructor
      · intro h; rw [newGetMatrixN, getOne_spec hs] at h; cases h
      · rintro ⟨j, h1, h2, _⟩; omega
    | succ n =>
      intro s hs h5 hmem
      rw [newGetMatrixN, hmem (n + 2) (by omega) (by omega)]
      simp only
      rw [if_neg (by omega)]
      cases hd : s.disk (.mat (n + 2)) with
      | some F =>
        simp only
        cases F with
        | incomplete =>
          simp only [readFile, true_iff]
          exact ⟨n + 2, by omega, by omega, hd, fun i h1 h2 => by omega⟩
        | full m =>
          simp only [readFile]
          constructor
          · intro h; cases h
          · rintro ⟨j, h1, h2, h3, h4⟩
            by_cases hj : j = n + 2
            · subst hj; rw [hd] at h3; cases h3
            · have := h4 (n + 2) (by omega) (by omega)
              rw [hd] at this; cases this
      | none =>
        have ih' := ih s hs (by omega) (fun i h1 h2 => hmem i h1 (by omega))
        have sp := newGetMatrixN_spec (n + 1) hs
        have hiff : (∃ j, 2 ≤ j ∧ j ≤ n + 1 ∧ s.disk (.mat j) = some .incomplete ∧
            ∀ i, j < i → i ≤ n + 1 → s.disk (.mat i) = none) ↔
            ∃ j, 2 ≤ j ∧ j ≤ n + 1 + 1 ∧ s.disk (.mat j) = some .incomplete ∧
            ∀ i, j < i → i ≤ n + 1 + 1 → s.disk (.mat i) = none := by
          constructor
          · rintro ⟨j, h1, h2, h3, h4⟩
            refine ⟨j, h1, by omega, h3, fun i hi1 hi2 => ?_⟩
            by_cases hin : i = n + 2
            · rw [hin]; exact hd
            · exact h4 i hi1 (by omega)
          · rintro ⟨j, h1, h2, h3, h4⟩
            have hj : j ≠ n + 2 := by rintro rfl; rw [hd] at h3; cases h3
            exact ⟨j, h1, by omega, h3, fun i hi1 hi2 => h4 i hi1 (by omega)⟩
        rw [← hiff, ← ih']
        generalize newGetMatrixN s (n + 1) = res at sp ⊢
        obtain ⟨r, s1⟩ := res
        cases r with
        | error e => simp
        | ok p =>
          simp only
          rw [getOne_spec sp.1]
          simp

/-- **C11**, exactly. After any history with kills at any points, let a process start on what is in
the directory. It starts unless `matrix_of_signs_inverse.pkl` is incomplete. Its first call is answered
as if there were no cache unless: for the matrix of `n`, the first existing file among those of
`n, n - 1, …, 2` is incomplete; for the inverse, its file is incomplete, or does not exist and the
matrix of `n` is not obtained. Then the call raises because of the incomplete file. -/
theorem C11_exact {i1 : Mat} (hi : inv baseMatrix = .ok i1) (ops : List COp) (d : Disk)
    (hd : d = (crun inv emptyWorld ops).1.disk) (n : ℕ) (hn : 1 ≤ n) (h5 : n ≤ 5) (badMat : Prop)
    (hbad : badMat ↔ ∃ j, 2 ≤ j ∧ j ≤ n ∧ d (.mat j) = some .incomplete ∧
        ∀ i, j < i → i ≤ n → d (.mat i) = none) :
    ((cstep inv (crun inv emptyWorld ops).1 .restart).2
        = if d .legacy = some .incomplete then .importFailed .unpickle else .started) ∧
    (d .legacy ≠ some .incomplete →
      (badMat → (cstep inv (cstep inv (crun inv emptyWorld ops).1 .restart).1 (.call (.matrix n))).2
        = .result (.error .unpickle)) ∧
      (¬ badMat → (cstep inv (cstep inv (crun inv emptyWorld ops).1 .restart).1 (.call (.matrix n))).2
        = .result (getMatrix n)) ∧
      (n ≠ 1 → (d (.inv n) = some .incomplete ∨ d (.inv n) = none ∧ badMat) →
        (cstep inv (cstep inv (crun inv emptyWorld ops).1 .restart).1 (.call (.inverse n))).2
          = .result (.error .unpickle)) ∧
      (¬ (n ≠ 1 ∧ (d (.inv n) = some .incomplete ∨ d (.inv n) = none ∧ badMat)) →
        (cstep inv (cstep inv (crun inv emptyWorld ops).1 .restart).1 (.call (.inverse n))).2
          = .result (getMatrixInverse inv n))) := by
  have hw := crun_ok hi ops (emptyWorld_ok (inv := inv) true) fun _ _ => Or.inl rfl
  have hdok : DiskOK inv true d := hd ▸ hw.1
  generalize (crun inv emptyWorld ops).1 = w at hd hw
  -- the new process
  have hstart : d .legacy ≠ some .incomplete → ∃ s, startProc inv d = .ok s ∧
      s.mem = (fun n => if n = 1 then some baseMatrix else none) ∧
      s.imem = (fun n => if n = 1 then some i1 else none) ∧ ∀ k, k ≠ .legacy → s.disk k = d k := by
    intro hl
    unfold startProc
    rw [hi]
    simp only
    cases hf : d .legacy with
    | some F =>
      cases F with
      | incomplete => exact absurd hf hl
      | full m => exact ⟨_, rfl, rfl, rfl, fun _ _ => rfl⟩
    | none =>
      simp only [getOne, if_true, hi]
      exact ⟨_, rfl, rfl, rfl, fun k hk => by simp only [writeCache]; rw [Function.update_of_ne hk]⟩
  refine ⟨?_, ?_⟩
  · simp only [cstep, ← hd]
    by_cases hl : d .legacy = some .incomplete
    · rw [if_pos hl]; simp [startProc, hi, hl, readFile]
    · rw [if_neg hl]
      obtain ⟨s, hs, _⟩ := hstart hl
      rw [hs]
  · intro hl
    obtain ⟨s, hs, hmem, himem, hdisk⟩ := hstart hl
    have hs' : ProcOK inv true s := by
      rcases startProc_spec hi hdok with ⟨s', h1, h2⟩ | ⟨_, h2⟩
      · rw [hs] at h1; cases h1; exact h2
      · rw [hs] at h2; cases h2
    have hc : ∀ c, (cstep inv (cstep inv w .restart).1 (.call c)).2 = .result (doCall inv s c).1 := by
      intro c
      simp only [cstep, ← hd, hs]
    have hbad' : (newGetMatrixN { s with log := [] } n).1 = .error .unpickle ↔ badMat := by
      rw [newGetMatrixN_fails n _ hs'.clearLog h5 (fun i h1 _ => by
        show s.mem i = none
        rw [hmem]; simp; omega), hbad]
      have : ∀ i, s.disk (.mat i) = d (.mat i) := fun i => hdisk _ (by simp)
      simp only [this]
    have hz : ¬ (n : ℤ) < 1 := by omega
    have hspec := newGetMatrixN_spec n hs'.clearLog
    have hpure : pureN n = getMatrix n := by
      unfold pureN getMatrix
      rw [if_neg (by omega), if_neg hz]
      by_cases h1 : n = 1
      · subst h1; rfl
      · rw [if_neg (by omega), if_neg (by omega), if_neg (by omega)]; rfl
    have hmat : (doCall inv s (.matrix n)).1 = (newGetMatrixN { s with log := [] } n).1 := by
      simp only [doCall, cGetMatrix]
      rw [if_neg hz]; rfl
    rw [hc, hc, hmat]
    refine ⟨?_, ?_, ?_, ?_⟩
    · intro hb; rw [hbad'.2 hb]
    · intro hb
      rcases hspec.2 with h | ⟨_, h⟩
      · rw [h, hpure]
      · exact absurd (hbad'.1 h) hb
    · intro hn1 hb
      have him : s.imem n = none := by rw [himem]; simp [hn1]
      simp only [doCall, cGetInverse]
      rw [if_neg hz]
      simp only [Int.toNat_natCast, him]
      rw [if_neg (by omega), hdisk _ (by simp)]
      rcases hb with hb | ⟨hb1, hb2⟩
      · rw [hb]; rfl
      · rw [hb1]
        simp only
        have := hbad'.2 hb2
        generalize newGetMatrixN { s with log := [] } n = res at this ⊢
        obtain ⟨r, s1⟩ := res
        simp only at this
        subst this
        rfl
    · intro hb
      have hi' : getMatrixInverse inv n = inv (signMatrix n) := by
        rw [getMatrixInverse, if_neg hz]
        by_cases h1 : n = 1
        · subst h1; rfl
        · rw [if_neg (by omega), if_neg (by omega)]; rfl
      by_cases hn1 : n = 1
      · subst hn1
        simp only [doCall, cGetInverse]
        rw [if_neg hz]
        simp only [Int.toNat_natCast, himem, if_true]
        rw [hi']
        exact congrArg _ hi.symm
      · have him : s.imem n = none := by rw [himem]; simp [hn1]
        have hb' : ¬ (d (.inv n) = some .incomplete ∨ d (.inv n) = none ∧ badMat) :=
          fun h => hb ⟨hn1, h⟩
        simp only [not_or, not_and] at hb'
        simp only [doCall, cGetInverse]
        rw [if_neg hz]
        simp only [Int.toNat_natCast, him]
        rw [if_neg (by omega), hdisk _ (by simp)]
        cases hf : d (.inv n) with
        | some F =>
          cases F with
          | incomplete => exact absurd hf hb'.1
          | full m =>
            simp only [readFile]
            have := (hdok _ _ hf).2 m rfl
            rw [hi']
            exact congrArg _ this.symm
        | none =>
          simp only
          have hnb := hb'.2 hf
          have hok : (newGetMatrixN { s with log := [] } n).1 = pureN n := by
            rcases hspec.2 with h | ⟨_, h⟩
            · exact h
            · exact absurd (hbad'.1 h) hnb
          have hp1 : pureN n = .ok (signMatrix n) := by
            simp only [pureN]; rw [if_neg (by omega), if_neg (by omega)]
          rw [hp1] at hok
          generalize newGetMatrixN { s with log := [] } n = res at hok ⊢
          obtain ⟨r, s1⟩ := res
          simp only at hok
          subst hok
          simp only
          rw [hi']
          cases inv (signMatrix n) <;> rfl

/-- A kill in the middle of writing the matrix of size 2: that matrix is lost, and with it the larger
ones that are not stored; the single matrix and its inverse are not. -/
example {i1 : Mat} (hi : inv baseMatrix = .ok i1) :
    let d := (crun inv emptyWorld [.restart, .crash (.matrix 2) 0]).1.disk
    d (.mat 2) = some .incomplete ∧ (∀ n, 2 < n → d (.mat n) = none) ∧ d .legacy ≠ some .incomplete := by
  simp [crun, cstep, emptyWorld, startProc, hi, getOne, writeCache, doCall, cGetMatrix,
    newGetMatrixN, Function.update]
  omega

end Verif.Vts
