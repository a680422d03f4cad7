import Verif.Vts.CacheModel
import Verif.Vts.MatrixLemmas

/-! Helper lemmas for the cache properties C10, C11. -/

namespace Verif.Vts

variable (inv : Mat → Except Err Mat)

/-- the right content of a file -/
def Right : FKey → Mat → Prop
  | .mat n, m => m = signMatrix n
  | .inv n, m => inv (signMatrix n) = .ok m
  | .legacy, _ => True

/-- complete files are right; incomplete files occur only if `b` -/
def DiskOK (b : Bool) (d : Disk) : Prop :=
  ∀ k f, d k = some f → (f = .incomplete → b = true) ∧ ∀ m, f = .full m → Right inv k m

/-- invariant of a process -/
structure ProcOK (b : Bool) (s : Proc) : Prop where
  disk : DiskOK inv b s.disk
  one : s.mem 1 = some baseMatrix
  mem : ∀ n m, s.mem n = some m → 1 ≤ n ∧ n ≤ 5 ∧ m = signMatrix n
  imem1 : ∃ m, s.imem 1 = some m
  imem : ∀ n m, s.imem n = some m → 1 ≤ n ∧ n ≤ 5 ∧ inv (signMatrix n) = .ok m
  log : ∀ d ∈ s.log, DiskOK inv true d

variable {inv}

theorem DiskOK.mono {b : Bool} {d : Disk} (h : DiskOK inv b d) : DiskOK inv true d :=
  fun k f hf => ⟨fun _ => rfl, (h k f hf).2⟩

theorem DiskOK.update {b : Bool} {d : Disk} (h : DiskOK inv b d) (k : FKey) (m : Mat)
    (hm : Right inv k m) : DiskOK inv b (Function.update d k (some (.full m))) := by
  intro k' f hf
  by_cases hk : k' = k
  · subst hk
    simp only [Function.update_self, Option.some.injEq] at hf
    subst hf
    exact ⟨by simp, by intro m' hm'; simp only [File.full.injEq] at hm'; subst hm'; exact hm⟩
  · rw [Function.update_of_ne hk] at hf
    exact h k' f hf

theorem DiskOK.update_incomplete {b : Bool} {d : Disk} (h : DiskOK inv b d) (k : FKey) :
    DiskOK inv true (Function.update d k (some .incomplete)) := by
  intro k' f hf
  by_cases hk : k' = k
  · subst hk
    simp only [Function.update_self, Option.some.injEq] at hf
    subst hf
    exact ⟨by simp, by simp⟩
  · rw [Function.update_of_ne hk] at hf
    exact h.mono k' f hf

theorem ProcOK.write {b : Bool} {s : Proc} (h : ProcOK inv b s) (k : FKey) (m : Mat)
    (hm : Right inv k m) : ProcOK inv b (writeCache s k m) where
  disk := h.disk.update k m hm
  one := h.one
  mem := h.mem
  imem1 := h.imem1
  imem := h.imem
  log := by
    intro d hd
    simp only [writeCache, List.mem_append, List.mem_cons, List.not_mem_nil, or_false] at hd
    rcases hd with hd | rfl | rfl
    · exact h.log d hd
    · exact h.disk.update_incomplete k
    · exact (h.disk.update k m hm).mono

theorem ProcOK.setMem {b : Bool} {s : Proc} (h : ProcOK inv b s) (n : ℕ) (h1 : 2 ≤ n) (h5 : n ≤ 5) :
    ProcOK inv b { s with mem := Function.update s.mem n (some (signMatrix n)) } where
  disk := h.disk
  one := by
    show Function.update s.mem n _ 1 = _
    rw [Function.update_of_ne (by omega)]; exact h.one
  mem := by
    intro k m hk
    change Function.update s.mem n _ k = _ at hk
    by_cases hkn : k = n
    · subst hkn; simp at hk; exact ⟨by omega, h5, hk.symm⟩
    · rw [Function.update_of_ne hkn] at hk; exact h.mem k m hk
  imem1 := h.imem1
  imem := h.imem
  log := h.log

theorem ProcOK.setIMem {b : Bool} {s : Proc} (h : ProcOK inv b s) (n : ℕ) (m : Mat) (h1 : 1 ≤ n)
    (h5 : n ≤ 5) (hm : inv (signMatrix n) = .ok m) :
    ProcOK inv b { s with imem := Function.update s.imem n (some m) } where
  disk := h.disk
  one := h.one
  mem := h.mem
  imem1 := by
    show ∃ m', Function.update s.imem n _ 1 = some m'
    by_cases hn : 1 = n
    · subst hn; exact ⟨m, by simp⟩
    · rw [Function.update_of_ne hn]; exact h.imem1
  imem := by
    intro k m' hk
    change Function.update s.imem n _ k = _ at hk
    by_cases hkn : k = n
    · subst hkn; simp at hk; exact ⟨h1, h5, by rw [← hk]; exact hm⟩
    · rw [Function.update_of_ne hkn] at hk; exact h.imem k m' hk
  log := h.log

theorem getOne_spec {b : Bool} {s : Proc} (h : ProcOK inv b s) : getOne s = (.ok baseMatrix, s) := by
  rw [getOne, h.one]

/-- the answer of a fresh computation, natural argument -/
def pureN (n : ℕ) : Except Err Mat :=
  if n = 0 then .error .lessThanOne else if n > 5 then .error .moreThan5 else .ok (signMatrix n)

theorem newGetMatrixN_spec {b : Bool} (n : ℕ) {s : Proc} (h : ProcOK inv b s) :
    ProcOK inv b (newGetMatrixN s n).2 ∧
      ((newGetMatrixN s n).1 = pureN n ∨
        (b = true ∧ (newGetMatrixN s n).1 = .error .unpickle)) := by
  induction n generalizing s with
  | zero => exact ⟨h, Or.inl rfl⟩
  | succ n ih =>
    cases n with
    | zero =>
      rw [newGetMatrixN, getOne_spec h]
      exact ⟨h, Or.inl rfl⟩
    | succ n =>
      rw [newGetMatrixN]
      split
      · rename_i m hm
        obtain ⟨h1, h2, h3⟩ := h.mem _ _ hm
        refine ⟨h, Or.inl ?_⟩
        simp only [pureN]
        rw [if_neg (by omega), if_neg (by omega), h3]
      · split
        · rename_i h5
          refine ⟨h, Or.inl ?_⟩
          simp only [pureN]
          rw [if_neg (by omega), if_pos h5]
        · rename_i h5
          have hp : pureN (n + 1 + 1) = .ok (signMatrix (n + 2)) := by
            simp only [pureN]; rw [if_neg (by omega), if_neg (by omega)]
          split
          · rename_i f hf
            obtain ⟨hf1, hf2⟩ := h.disk _ f hf
            cases f with
            | incomplete => exact ⟨h, Or.inr ⟨hf1 rfl, rfl⟩⟩
            | full m =>
              have hm : m = signMatrix (n + 2) := hf2 m rfl
              subst hm
              exact ⟨h.setMem (n + 2) (by omega) (by omega), Or.inl (by rw [hp]; rfl)⟩
          · have ih' := ih (s := s) h
            generalize newGetMatrixN s (n + 1) = res at ih' ⊢
            obtain ⟨r, s1⟩ := res
            obtain ⟨i1, i2⟩ := ih'
            have hp1 : pureN (n + 1) = .ok (signMatrix (n + 1)) := by
              simp only [pureN]; rw [if_neg (by omega), if_neg (by omega)]
            rw [hp1] at i2
            rcases i2 with i2 | ⟨i2, i3⟩
            · simp only at i1 i2
              subst i2
              simp only [getOne_spec i1]
              have e : kron (signMatrix (n + 1)) baseMatrix = signMatrix (n + 2) := rfl
              rw [e]
              exact ⟨(i1.write (.mat (n + 2)) _ rfl).setMem (n + 2) (by omega) (by omega),
                Or.inl hp.symm⟩
            · simp only at i1 i3
              subst i3
              exact ⟨i1, Or.inr ⟨i2, rfl⟩⟩

theorem cGetMatrix_spec {b : Bool} (n : ℤ) {s : Proc} (h : ProcOK inv b s) :
    ProcOK inv b (cGetMatrix s n).2 ∧
      ((cGetMatrix s n).1 = getMatrix n ∨ (b = true ∧ (cGetMatrix s n).1 = .error .unpickle)) := by
  unfold cGetMatrix
  by_cases hn : n < 1
  · rw [if_pos hn]; exact ⟨h, Or.inl (by rw [getMatrix, if_pos hn])⟩
  · rw [if_neg hn]
    have e : pureN n.toNat = getMatrix n := by
      unfold pureN getMatrix
      rw [if_neg (by omega), if_neg hn]
      by_cases h1 : n = 1
      · subst h1; rfl
      · rw [if_neg h1]
        by_cases h5 : n > 5
        · rw [if_pos h5, if_pos (by omega)]
        · rw [if_neg h5, if_neg (by omega)]
    rw [← e]
    exact newGetMatrixN_spec n.toNat h

theorem cGetInverse_spec {b : Bool} (n : ℤ) {s : Proc} (h : ProcOK inv b s) :
    ProcOK inv b (cGetInverse inv s n).2 ∧
      ((cGetInverse inv s n).1 = getMatrixInverse inv n ∨
        (b = true ∧ (cGetInverse inv s n).1 = .error .unpickle)) := by
  unfold cGetInverse
  by_cases hn : n < 1
  · rw [if_pos hn]; exact ⟨h, Or.inl (by rw [getMatrixInverse, if_pos hn])⟩
  · rw [if_neg hn]
    have hpure : ¬ n > 5 → getMatrixInverse inv n = inv (signMatrix n.toNat) := by
      intro h5
      rw [getMatrixInverse, if_neg hn]
      split
      · rename_i h1; subst h1; rfl
      · rfl
    split
    · rename_i m hm
      obtain ⟨h1, h2, h3⟩ := h.imem _ _ hm
      exact ⟨h, Or.inl (by rw [hpure (by omega), h3])⟩
    · rename_i hnone
      split
      · rename_i h5
        refine ⟨h, Or.inl ?_⟩
        rw [getMatrixInverse, if_neg hn, if_neg (by omega), if_pos h5]
      · rename_i h5
        rw [hpure h5]
        split
        · rename_i f hf
          obtain ⟨hf1, hf2⟩ := h.disk _ f hf
          cases f with
          | incomplete => exact ⟨h, Or.inr ⟨hf1 rfl, rfl⟩⟩
          | full m =>
            have hm : inv (signMatrix n.toNat) = .ok m := hf2 m rfl
            exact ⟨h.setIMem n.toNat m (by omega) (by omega) hm, Or.inl hm.symm⟩
        · have hs := newGetMatrixN_spec n.toNat h
          generalize newGetMatrixN s n.toNat = res at hs ⊢
          obtain ⟨r, s1⟩ := res
          obtain ⟨i1, i2⟩ := hs
          have hp1 : pureN n.toNat = .ok (signMatrix n.toNat) := by
            simp only [pureN]; rw [if_neg (by omega), if_neg (by omega)]
          rw [hp1] at i2
          rcases i2 with i2 | ⟨i2, i3⟩
          · simp only at i1 i2
            subst i2
            simp only
            cases hi : inv (signMatrix n.toNat) with
            | error e => exact ⟨i1, Or.inl rfl⟩
            | ok m => exact ⟨(i1.write (.inv n.toNat) m hi).setIMem n.toNat m (by omega) (by omega) hi, Or.inl rfl⟩
          · simp only at i1 i3
            subst i3
            exact ⟨i1, Or.inr ⟨i2, rfl⟩⟩

/-- the answer of a fresh computation -/
def pureCall (inv : Mat → Except Err Mat) : Call → Except Err Mat
  | .matrix n => getMatrix n
  | .inverse n => getMatrixInverse inv n

theorem ProcOK.clearLog {b : Bool} {s : Proc} (h : ProcOK inv b s) :
    ProcOK inv b { s with log := [] } :=
  ⟨h.disk, h.one, h.mem, h.imem1, h.imem, by simp⟩

theorem doCall_spec {b : Bool} (c : Call) {s : Proc} (h : ProcOK inv b s) :
    ProcOK inv b (doCall inv s c).2 ∧
      ((doCall inv s c).1 = pureCall inv c ∨
        (b = true ∧ (doCall inv s c).1 = .error .unpickle)) := by
  cases c with
  | matrix n => exact cGetMatrix_spec n h.clearLog
  | inverse n => exact cGetInverse_spec n h.clearLog

theorem startProc_spec {b : Bool} {i1 : Mat} (hi : inv baseMatrix = .ok i1) {d : Disk}
    (h : DiskOK inv b d) :
    (∃ s, startProc inv d = .ok s ∧ ProcOK inv b s) ∨
      (b = true ∧ startProc inv d = .error (.unpickle, [])) := by
  have hs : ∀ l, (∀ d ∈ l, DiskOK inv true d) → ProcOK inv b
      { disk := d, mem := fun n => if n = 1 then some baseMatrix else none,
        imem := fun n => if n = 1 then some i1 else none, log := l } := by
    intro l hl
    refine ⟨h, rfl, ?_, ⟨i1, rfl⟩, ?_, hl⟩
    · intro n m hm
      simp only at hm
      split at hm
      · rename_i hn; subst hn; simp at hm; subst hm; exact ⟨le_rfl, by omega, rfl⟩
      · simp at hm
    · intro n m hm
      simp only at hm
      split at hm
      · rename_i hn; subst hn; simp at hm; subst hm; exact ⟨le_rfl, by omega, hi⟩
      · simp at hm
  unfold startProc
  rw [hi]
  simp only
  split
  · rename_i f hf
    cases f with
    | incomplete => exact Or.inr ⟨(h _ _ hf).1 rfl, rfl⟩
    | full m => exact Or.inl ⟨_, rfl, hs [] (by simp)⟩
  · rw [getOne_spec (hs [] (by simp))]
    simp only [hi]
    exact Or.inl ⟨_, rfl, (hs [] (by simp)).write .legacy i1 trivial⟩

/-- invariant of the world -/
def WorldOK (inv : Mat → Except Err Mat) (b : Bool) (w : World) : Prop :=
  DiskOK inv b w.disk ∧ ∀ s, w.proc = some s → ProcOK inv b s ∧ s.disk = w.disk

/-- operations without kills -/
def COp.noCrash : COp → Prop
  | .crash _ _ => False
  | .crashImport _ => False
  | _ => True

theorem getD_ok {l : List Disk} {d : Disk} (hl : ∀ d ∈ l, DiskOK inv true d)
    (hd : DiskOK inv true d) (i : ℕ) : DiskOK inv true (l.getD i d) := by
  rw [List.getD]
  cases h : l[i]? with
  | none => exact hd
  | some x => exact hl x (List.mem_of_getElem? h)

theorem cstep_ok {b : Bool} {i1 : Mat} (hi : inv baseMatrix = .ok i1) {w : World}
    (h : WorldOK inv b w) (op : COp) (hop : b = true ∨ op.noCrash) :
    WorldOK inv b (cstep inv w op).1 := by
  cases op with
  | call c =>
    simp only [cstep]
    cases hp : w.proc with
    | none => exact h
    | some s =>
      have := doCall_spec c (h.2 s hp).1
      exact ⟨this.1.disk, fun s' hs' => by
        simp only [Option.some.injEq] at hs'; subst hs'; exact ⟨this.1, rfl⟩⟩
  | restart =>
    simp only [cstep]
    rcases startProc_spec hi h.1 with ⟨s, h1, h2⟩ | ⟨h1, h2⟩
    · rw [h1]
      exact ⟨h2.disk, fun s' hs' => by
        simp only [Option.some.injEq] at hs'; subst hs'; exact ⟨h2, rfl⟩⟩
    · rw [h2]; exact ⟨by simpa using h.1, by simp⟩
  | crash c i =>
    have hb : b = true := hop.resolve_right id
    subst hb
    simp only [cstep]
    cases hp : w.proc with
    | none => exact h
    | some s =>
      have := doCall_spec c (h.2 s hp).1
      exact ⟨getD_ok this.1.log h.1 i, by simp⟩
  | crashImport i =>
    have hb : b = true := hop.resolve_right id
    subst hb
    simp only [cstep]
    rcases startProc_spec hi h.1 with ⟨s, h1, h2⟩ | ⟨h1, h2⟩
    · rw [h1]; exact ⟨getD_ok h2.log h.1 i, by simp⟩
    · rw [h2]; exact ⟨by simpa using h.1, by simp⟩

theorem crun_ok {b : Bool} {i1 : Mat} (hi : inv baseMatrix = .ok i1) (ops : List COp) {w : World}
    (h : WorldOK inv b w) (hop : ∀ op ∈ ops, b = true ∨ op.noCrash) :
    WorldOK inv b (crun inv w ops).1 := by
  induction ops generalizing w with
  | nil => exact h
  | cons op ops ih =>
    simp only [crun]
    exact ih (cstep_ok hi h op (hop op (by simp))) fun o ho => hop o (List.mem_cons_of_mem _ ho)

theorem emptyWorld_ok (b : Bool) : WorldOK inv b emptyWorld :=
  ⟨fun k f hf => by simp [emptyWorld] at hf, by simp [emptyWorld]⟩

theorem crun_append (w : World) (a b : List COp) :
    (crun inv w (a ++ b)).1 = (crun inv (crun inv w a).1 b).1 := by
  induction a generalizing w with
  | nil => rfl
  | cons op a ih => simp only [List.cons_append, crun]; exact ih _

/-! ### Incomplete files stay -/

/-- file `k` is incomplete and not hidden by an entry in memory -/
def StuckInv (n : ℕ) (s : Proc) : Prop :=
  s.disk (.inv n) = some .incomplete ∧ s.imem n = none

theorem newGetMatrixN_inv (n : ℕ) (s : Proc) (k : ℕ) :
    (newGetMatrixN s n).2.disk (.inv k) = s.disk (.inv k) ∧
    (newGetMatrixN s n).2.imem = s.imem := by
  have hone : ∀ s : Proc, (getOne s).2.disk = s.disk ∧ (getOne s).2.imem = s.imem := by
    intro s
    unfold getOne
    split
    · simp
    · split
      · split <;> simp
      · simp
  induction n generalizing s with
  | zero => simp [newGetMatrixN]
  | succ n ih =>
    cases n with
    | zero => rw [newGetMatrixN]; simp [hone s]
    | succ n =>
      rw [newGetMatrixN]
      split
      · simp
      · split
        · simp
        · split
          · split <;> simp
          · have ih' := ih s
            generalize newGetMatrixN s (n + 1) = res at ih' ⊢
            obtain ⟨r, s1⟩ := res
            cases r with
            | error e => simpa using ih'
            | ok p =>
              simp only at ih' ⊢
              have h1 := hone s1
              generalize getOne s1 = res2 at h1 ⊢
              obtain ⟨r2, s2⟩ := res2
              cases r2 with
              | error e => simp only at h1 ⊢; rw [h1.1, h1.2]; exact ih'
              | ok f => simp only [writeCache] at h1 ⊢; rw [h1.1, h1.2]; simpa using ih'

theorem doCall_stuck {n : ℕ} {s : Proc} (h : StuckInv n s) (c : Call) :
    StuckInv n (doCall inv s c).2 := by
  cases c with
  | matrix m =>
    simp only [doCall, cGetMatrix]
    split
    · exact h
    · have := newGetMatrixN_inv m.toNat { s with log := [] } n
      exact ⟨this.1.trans h.1, by rw [this.2]; exact h.2⟩
  | inverse m =>
    simp only [doCall, cGetInverse]
    split
    · exact h
    · split
      · exact h
      · split
        · exact h
        · split
          · rename_i f hf
            cases f with
            | incomplete => exact h
            | full x =>
              refine ⟨h.1, ?_⟩
              have : n ≠ m.toNat := by
                rintro rfl; rw [h.1] at hf; simp at hf
              simp [readFile, Function.update_of_ne this, h.2]
          · rename_i hnone
            have hne : n ≠ m.toNat := by
              rintro rfl; rw [h.1] at hnone; simp at hnone
            have := newGetMatrixN_inv m.toNat { s with log := [] } n
            generalize newGetMatrixN { s with log := [] } m.toNat = res at this ⊢
            obtain ⟨r, s1⟩ := res
            have h1 : StuckInv n s1 := ⟨this.1.trans h.1, by rw [this.2]; exact h.2⟩
            cases r with
            | error e => exact h1
            | ok x =>
              simp only
              cases inv x with
              | error e => exact h1
              | ok y =>
                refine ⟨?_, ?_⟩
                · simp only [writeCache]
                  rw [Function.update_of_ne (by simpa using hne)]; exact h1.1
                · simp only [writeCache]
                  rw [Function.update_of_ne hne]; exact h1.2

theorem newGetMatrixN_legacy (n : ℕ) (s : Proc) :
    (newGetMatrixN s n).2.disk .legacy = s.disk .legacy := by
  have hone : ∀ s : Proc, (getOne s).2.disk = s.disk := by
    intro s
    unfold getOne
    split
    · simp
    · split
      · split <;> simp
      · simp
  induction n generalizing s with
  | zero => simp [newGetMatrixN]
  | succ n ih =>
    cases n with
    | zero => rw [newGetMatrixN]; simp [hone s]
    | succ n =>
      rw [newGetMatrixN]
      split
      · simp
      · split
        · simp
        · split
          · split <;> simp
          · have ih' := ih s
            generalize newGetMatrixN s (n + 1) = res at ih' ⊢
            obtain ⟨r, s1⟩ := res
            cases r with
            | error e => simpa using ih'
            | ok p =>
              simp only at ih' ⊢
              have h1 := hone s1
              generalize getOne s1 = res2 at h1 ⊢
              obtain ⟨r2, s2⟩ := res2
              cases r2 with
              | error e => simp only at h1 ⊢; rw [h1]; exact ih'
              | ok f => simp only [writeCache] at h1 ⊢; rw [h1]; simpa using ih'

theorem doCall_legacy (s : Proc) (c : Call) :
    (doCall inv s c).2.disk .legacy = s.disk .legacy := by
  cases c with
  | matrix m =>
    simp only [doCall, cGetMatrix]
    split
    · rfl
    · exact newGetMatrixN_legacy m.toNat { s with log := [] }
  | inverse m =>
    simp only [doCall, cGetInverse]
    split
    · rfl
    · split
      · rfl
      · split
        · rfl
        · split
          · split <;> rfl
          · have := newGetMatrixN_legacy m.toNat { s with log := [] }
            generalize newGetMatrixN { s with log := [] } m.toNat = res at this ⊢
            obtain ⟨r, s1⟩ := res
            cases r with
            | error e => exact this
            | ok x =>
              simp only
              cases inv x with
              | error e => exact this
              | ok y => simp only [writeCache]; rw [Function.update_of_ne (by simp)]; exact this

/-- the stuck condition for worlds -/
def WStuck (n : ℕ) (w : World) : Prop :=
  w.disk (.inv n) = some .incomplete ∧ ∀ s, w.proc = some s → StuckInv n s

theorem startProc_stuck {n : ℕ} (hn : n ≠ 1) {d : Disk} (h : d (.inv n) = some .incomplete) :
    (∀ s, startProc inv d = .ok s → StuckInv n s) ∧
    (∀ e l, startProc inv d = .error (e, l) → ∀ d' ∈ l, d' (.inv n) = some .incomplete) := by
  unfold startProc
  cases inv baseMatrix with
  | error e =>
    refine ⟨by simp, ?_⟩
    intro e' l he
    simp only [Except.error.injEq, Prod.mk.injEq] at he
    rw [← he.2]; simp
  | ok i1 =>
    simp only
    split
    · rename_i f hf
      cases f with
      | incomplete =>
        refine ⟨by simp [readFile], ?_⟩
        intro e' l he
        simp only [readFile, Except.error.injEq, Prod.mk.injEq] at he
        rw [← he.2]; simp
      | full m =>
        refine ⟨?_, by simp [readFile]⟩
        intro s hs
        simp only [readFile, Except.ok.injEq] at hs
        subst hs
        exact ⟨h, by simp [hn]⟩
    · simp only [getOne, if_true]
      cases inv baseMatrix with
      | error e =>
        refine ⟨by simp, ?_⟩
        intro e' l he
        simp only [Except.error.injEq, Prod.mk.injEq] at he
        rw [← he.2]; simp
      | ok i2 =>
        refine ⟨?_, by simp⟩
        intro s hs
        simp only [Except.ok.injEq] at hs
        subst hs
        exact ⟨by simp only [writeCache]; rw [Function.update_of_ne (by simp)]; exact h,
          by simp [writeCache, hn]⟩

theorem cstep_stuck {n : ℕ} (hn : n ≠ 1) {w : World} (h : WStuck n w) (op : COp)
    (hop : op.noCrash) : WStuck n (cstep inv w op).1 := by
  cases op with
  | call c =>
    simp only [cstep]
    cases hp : w.proc with
    | none => exact h
    | some s =>
      have := doCall_stuck (inv := inv) (h.2 s hp) c
      exact ⟨this.1, fun s' hs' => by simp only [Option.some.injEq] at hs'; subst hs'; exact this⟩
  | restart =>
    simp only [cstep]
    have hs := startProc_stuck (inv := inv) hn h.1
    cases hst : startProc inv w.disk with
    | error el =>
      obtain ⟨e, l⟩ := el
      refine ⟨?_, by simp⟩
      have := hs.2 e l hst
      show l.getLastD w.disk (.inv n) = _
      rw [List.getLastD_eq_getLast?]
      cases hl : l.getLast? with
      | none => exact h.1
      | some x => exact this x (List.mem_of_getLast? hl)
    | ok s =>
      exact ⟨(hs.1 s hst).1, fun s' hs' => by
        simp only [Option.some.injEq] at hs'; subst hs'; exact hs.1 s hst⟩
  | crash c i => exact hop.elim
  | crashImport i => exact hop.elim

theorem crun_stuck {n : ℕ} (hn : n ≠ 1) (ops : List COp) {w : World} (h : WStuck n w)
    (hop : ∀ op ∈ ops, op.noCrash) : WStuck n (crun inv w ops).1 := by
  induction ops generalizing w with
  | nil => exact h
  | cons op ops ih =>
    simp only [crun]
    exact ih (cstep_stuck hn h op (hop op (by simp))) fun o ho => hop o (List.mem_cons_of_mem _ ho)

end Verif.Vts
