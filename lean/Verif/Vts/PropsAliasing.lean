import Verif.Vts.PropsCache

/-!
# C50: how far modifications of returned matrices reach
-/

namespace Verif.Vts

variable {inv : Mat → Except Err Mat}

section
variable (inv) (n : ℕ) (q b : Bool)

/-- the files that are right although other matrices may have been modified -/
def DiskUp (d : Disk) : Prop := ∀ k f, d k = some f → (f = .incomplete → b = true) ∧
  ∀ m, f = .full m → (∀ j, j ≤ n → k = .mat j → m = signMatrix j) ∧ (k = .inv n → inv (signMatrix n) = .ok m)

/-- the dictionary entries that are right -/
structure ProcUp (s : Proc) : Prop where
  disk : DiskUp inv n b s.disk
  one : 1 ≤ n → s.mem 1 = some baseMatrix
  mem : ∀ k m, k ≤ n → s.mem k = some m → 1 ≤ k ∧ k ≤ 5 ∧ m = signMatrix k
  imem : q = true → ∀ m, s.imem n = some m → 1 ≤ n ∧ n ≤ 5 ∧ inv (signMatrix n) = .ok m
  log : ∀ d ∈ s.log, DiskUp inv n true d

end

section
variable {n : ℕ} {q b : Bool}

theorem DiskUp.mono {d : Disk} (h : DiskUp inv n b d) : DiskUp inv n true d :=
  fun k f hf => ⟨fun _ => rfl, (h k f hf).2⟩

theorem DiskUp.update {d : Disk} (h : DiskUp inv n b d) (k : FKey) (m : Mat)
    (hm : ∀ j, j ≤ n → k = .mat j → m = signMatrix j) (hi : k = .inv n → inv (signMatrix n) = .ok m) :
    DiskUp inv n b (Function.update d k (some (.full m))) := by
  intro k' f hf
  by_cases hk : k' = k
  · subst hk
    rw [Function.update_self] at hf
    cases hf
    exact ⟨fun h => (by cases h), fun m' hm' => (by cases hm'; exact ⟨hm, hi⟩)⟩
  · rw [Function.update_of_ne hk] at hf
    exact h k' f hf

theorem DiskUp.update_incomplete {d : Disk} (h : DiskUp inv n b d) (k : FKey) :
    DiskUp inv n true (Function.update d k (some .incomplete)) := by
  intro k' f hf
  by_cases hk : k' = k
  · subst hk
    rw [Function.update_self] at hf
    cases hf
    exact ⟨fun _ => rfl, fun m' hm' => by cases hm'⟩
  · rw [Function.update_of_ne hk] at hf
    exact h.mono k' f hf

theorem ProcUp.write {s : Proc} (h : ProcUp inv n q b s) (k : FKey) (m : Mat)
    (hm : ∀ j, j ≤ n → k = .mat j → m = signMatrix j) (hi : k = .inv n → inv (signMatrix n) = .ok m) :
    ProcUp inv n q b (writeCache s k m) where
  disk := h.disk.update k m hm hi
  one := h.one
  mem := h.mem
  imem := h.imem
  log := by
    intro d hd
    simp only [writeCache, List.mem_append, List.mem_cons, List.not_mem_nil, or_false] at hd
    rcases hd with hd | rfl | rfl
    · exact h.log d hd
    · exact h.disk.update_incomplete k
    · exact (h.disk.update k m hm hi).mono

theorem ProcUp.setMem {s : Proc} (h : ProcUp inv n q b s) (k : ℕ) (m : Mat)
    (hk : k ≤ n → 1 ≤ k ∧ k ≤ 5 ∧ m = signMatrix k) :
    ProcUp inv n q b { s with mem := Function.update s.mem k (some m) } where
  disk := h.disk
  one := by
    intro hn
    show Function.update s.mem k _ 1 = _
    by_cases h1 : 1 = k
    · subst h1
      rw [Function.update_self, (hk hn).2.2]
      rfl
    · rw [Function.update_of_ne h1]
      exact h.one hn
  mem := by
    intro j m' hj hm
    change Function.update s.mem k _ j = _ at hm
    by_cases hjk : j = k
    · subst hjk
      rw [Function.update_self] at hm
      cases hm
      exact hk hj
    · rw [Function.update_of_ne hjk] at hm
      exact h.mem j m' hj hm
  imem := h.imem
  log := h.log

theorem ProcUp.setIMem {s : Proc} (h : ProcUp inv n q b s) (k : ℕ) (m : Mat)
    (hk : q = true → k = n → 1 ≤ k ∧ k ≤ 5 ∧ inv (signMatrix k) = .ok m) :
    ProcUp inv n q b { s with imem := Function.update s.imem k (some m) } where
  disk := h.disk
  one := h.one
  mem := h.mem
  imem := by
    intro hq m' hm
    change Function.update s.imem k _ n = _ at hm
    by_cases hjk : n = k
    · subst hjk
      rw [Function.update_self] at hm
      cases hm
      exact hk hq rfl
    · rw [Function.update_of_ne hjk] at hm
      exact h.imem hq m' hm
  log := h.log

theorem getOne_up {s : Proc} (h : ProcUp inv n q b s) : ProcUp inv n q b (getOne s).2 ∧
    (1 ≤ n → (getOne s).1 = .ok baseMatrix) := by
  by_cases hn : 1 ≤ n
  · rw [getOne, h.one hn]
    exact ⟨h, fun _ => rfl⟩
  · refine ⟨?_, fun h => absurd h hn⟩
    unfold getOne
    split
    · exact h
    · split
      · split
        · exact h
        · exact h.setMem 1 _ (fun h => by omega)
      · exact h

theorem newGetMatrixN_up (k : ℕ) {s : Proc} (h : ProcUp inv n q b s) :
    ProcUp inv n q b (newGetMatrixN s k).2 ∧
      (k ≤ n → (newGetMatrixN s k).1 = pureN k ∨ (b = true ∧ (newGetMatrixN s k).1 = .error .unpickle)) := by
  induction k generalizing s with
  | zero => exact ⟨h, fun _ => Or.inl rfl⟩
  | succ k ih =>
    cases k with
    | zero =>
      rw [newGetMatrixN]
      refine ⟨(getOne_up h).1, fun hk => Or.inl ?_⟩
      rw [(getOne_up h).2 hk]
      rfl
    | succ k =>
      rw [newGetMatrixN]
      split
      · rename_i m hm
        refine ⟨h, fun hk => Or.inl ?_⟩
        obtain ⟨h1, h2, h3⟩ := h.mem _ _ hk hm
        simp only [pureN]
        rw [if_neg (by omega), if_neg (by omega), h3]
      · split
        · rename_i h5
          refine ⟨h, fun _ => Or.inl ?_⟩
          simp only [pureN]
          rw [if_neg (by omega), if_pos h5]
        · rename_i h5
          have hp : pureN (k + 1 + 1) = .ok (signMatrix (k + 2)) := by
            simp only [pureN]; rw [if_neg (by omega), if_neg (by omega)]
          split
          · rename_i f hf
            obtain ⟨hf1, hf2⟩ := h.disk _ f hf
            cases f with
            | incomplete => exact ⟨h, fun _ => Or.inr ⟨hf1 rfl, rfl⟩⟩
            | full m =>
              have hm : k + 2 ≤ n → m = signMatrix (k + 2) := fun hk => (hf2 m rfl).1 _ hk rfl
              refine ⟨h.setMem (k + 2) m (fun hk => ⟨by omega, by omega, hm hk⟩), fun hk => Or.inl ?_⟩
              rw [hp, ← hm hk]
              rfl
          · have ih' := ih (s := s) h
            generalize newGetMatrixN s (k + 1) = res at ih' ⊢
            obtain ⟨r, s1⟩ := res
            obtain ⟨i1, i2⟩ := ih'
            simp only at i1 i2
            have hp1 : pureN (k + 1) = .ok (signMatrix (k + 1)) := by
              simp only [pureN]; rw [if_neg (by omega), if_neg (by omega)]
            rw [hp1] at i2
            cases r with
            | error e =>
              refine ⟨i1, fun hk => ?_⟩
              rcases i2 (by omega) with i2 | ⟨i2, i3⟩
              · cases i2
              · exact Or.inr ⟨i2, i3⟩
            | ok previous =>
              have i2' : k + 2 ≤ n → previous = signMatrix (k + 1) := fun hk => by
                rcases i2 (by omega) with i2 | ⟨_, i3⟩
                · cases i2; rfl
                · cases i3
              obtain ⟨g1, g2⟩ := getOne_up i1
              simp only
              generalize getOne s1 = res at g1 g2 ⊢
              obtain ⟨r, s2⟩ := res
              simp only at g1 g2
              cases r with
              | error e =>
                refine ⟨g1, fun hk => ?_⟩
                cases g2 (by omega)
              | ok first =>
                have hc : k + 2 ≤ n → kron previous first = signMatrix (k + 2) := fun hk => by
                  cases g2 (by omega)
                  rw [i2' hk]
                  rfl
                refine ⟨(g1.write (.mat (k + 2)) (kron previous first) (fun j hj e => ?_) (fun e => by cases e)).setMem (k + 2) _
                  (fun hk => ⟨by omega, by omega, hc hk⟩), fun hk => Or.inl ?_⟩
                · cases e
                  exact hc hj
                · rw [hp, ← hc hk]

theorem cGetInverse_up (k : ℤ) {s : Proc} (h : ProcUp inv n q b s) :
    ProcUp inv n q b (cGetInverse inv s k).2 ∧ (q = true → k = n → (cGetInverse inv s k).1 = getMatrixInverse inv k ∨
        (b = true ∧ (cGetInverse inv s k).1 = .error .unpickle)) := by
  unfold cGetInverse
  by_cases hn : k < 1
  · rw [if_pos hn]; exact ⟨h, fun _ _ => Or.inl (by rw [getMatrixInverse, if_pos hn])⟩
  · rw [if_neg hn]
    have hpure : ¬ k > 5 → getMatrixInverse inv k = inv (signMatrix k.toNat) := by
      intro h5
      rw [getMatrixInverse, if_neg hn]
      split
      · rename_i h1; subst h1; rfl
      · rfl
    split
    · rename_i m hm
      refine ⟨h, fun hq hk => Or.inl ?_⟩
      subst hk
      rw [Int.toNat_natCast] at hm
      obtain ⟨h1, h2, h3⟩ := h.imem hq _ hm
      rw [hpure (by omega), Int.toNat_natCast, h3]
    · rename_i hnone
      split
      · rename_i h5
        refine ⟨h, fun _ _ => Or.inl ?_⟩
        rw [getMatrixInverse, if_neg hn, if_neg (by omega), if_pos h5]
      · rename_i h5
        rw [hpure h5]
        split
        · rename_i f hf
          obtain ⟨hf1, hf2⟩ := h.disk _ f hf
          cases f with
          | incomplete => exact ⟨h, fun _ _ => Or.inr ⟨hf1 rfl, rfl⟩⟩
          | full m =>
            have hm : k.toNat = n → inv (signMatrix k.toNat) = .ok m := fun e => by
              rw [e]
              exact (hf2 m rfl).2 (by rw [e])
            exact ⟨h.setIMem k.toNat m fun _ e => ⟨by omega, by omega, hm e⟩, fun _ e => Or.inl (hm (by omega)).symm⟩
        · have hs := newGetMatrixN_up k.toNat h
          generalize newGetMatrixN s k.toNat = res at hs ⊢
          obtain ⟨r, s1⟩ := res
          obtain ⟨i1, i2⟩ := hs
          simp only at i1 i2
          have hp1 : pureN k.toNat = .ok (signMatrix k.toNat) := by
            simp only [pureN]; rw [if_neg (by omega), if_neg (by omega)]
          rw [hp1] at i2
          cases r with
          | error e =>
            refine ⟨i1, fun _ hk => ?_⟩
            rcases i2 (by omega) with i2 | ⟨i2, i3⟩
            · cases i2
            · exact Or.inr ⟨i2, i3⟩
          | ok matrix =>
            have i2' : k.toNat = n → matrix = signMatrix k.toNat := fun e => by
              rcases i2 (by omega) with i2 | ⟨_, i3⟩
              · cases i2; rfl
              · cases i3
            simp only
            cases hi : inv matrix with
            | error e =>
              refine ⟨i1, fun _ hk => Or.inl ?_⟩
              rw [← i2' (by omega), hi]
            | ok m =>
              have hm : k.toNat = n → inv (signMatrix k.toNat) = .ok m := fun e => by rw [← i2' e]; exact hi
              refine ⟨(i1.write (.inv k.toNat) m (fun j _ e => by cases e) (fun e => ?_)).setIMem k.toNat m
                (fun _ e => ⟨by omega, by omega, hm e⟩), fun _ hk => Or.inl (hm (by omega)).symm⟩
              cases e
              exact hm rfl

theorem ProcUp.clearLog {s : Proc} (h : ProcUp inv n q b s) : ProcUp inv n q b { s with log := [] } :=
  ⟨h.disk, h.one, h.mem, h.imem, by simp⟩

theorem doCall_up (c : Call) {s : Proc} (h : ProcUp inv n q b s) : ProcUp inv n q b (doCall inv s c).2 := by
  cases c with
  | matrix k =>
    unfold doCall cGetMatrix
    simp only
    split
    · exact h.clearLog
    · exact (newGetMatrixN_up _ h.clearLog).1
  | inverse k => exact (cGetInverse_up k h.clearLog).1

theorem startProc_up {i1 : Mat} (hi : inv baseMatrix = .ok i1) {d : Disk} (h : DiskUp inv n b d) :
    (∃ s, startProc inv d = .ok s ∧ ProcUp inv n q b s) ∨ (b = true ∧ startProc inv d = .error (.unpickle, [])) := by
  have hs : ProcUp inv n q b
      { disk := d, mem := fun n => if n = 1 then some baseMatrix else none,
        imem := fun n => if n = 1 then some i1 else none, log := [] } := by
    refine ⟨h, fun _ => rfl, ?_, ?_, by simp⟩
    · intro k m _ hm
      simp only at hm
      split at hm
      · next hk =>
        subst hk
        cases hm
        exact ⟨le_rfl, by omega, rfl⟩
      · cases hm
    · intro _ m hm
      simp only at hm
      split at hm
      · next hk =>
        cases hm
        rw [hk]
        exact ⟨le_rfl, by omega, hi⟩
      · cases hm
  unfold startProc
  rw [hi]
  simp only
  split
  · rename_i f hf
    cases f with
    | incomplete => exact Or.inr ⟨(h _ _ hf).1 rfl, rfl⟩
    | full m => exact Or.inl ⟨_, rfl, hs⟩
  · simp only [getOne, hi, if_true]
    exact Or.inl ⟨_, rfl, hs.write .legacy i1 (fun j _ e => by cases e) (fun e => by cases e)⟩

/-- invariant of the world -/
def WorldUp (inv : Mat → Except Err Mat) (n : ℕ) (q b : Bool) (w : World) : Prop :=
  DiskUp inv n b w.disk ∧ ∀ s, w.proc = some s → ProcUp inv n q b s ∧ s.disk = w.disk

theorem getD_up {l : List Disk} {d : Disk} (hl : ∀ d ∈ l, DiskUp inv n true d) (hd : DiskUp inv n true d) (i : ℕ) :
    DiskUp inv n true (l.getD i d) := by
  rw [List.getD]
  cases h : l[i]? with
  | none => exact hd
  | some x => exact hl x (List.mem_of_getElem? h)

theorem cstep_up {i1 : Mat} (hi : inv baseMatrix = .ok i1) {w : World} (h : WorldUp inv n q b w) (op : COp)
    (hop : b = true ∨ op.noCrash) : WorldUp inv n q b (cstep inv w op).1 := by
  cases op with
  | call c =>
    simp only [cstep]
    cases hp : w.proc with
    | none => exact h
    | some s =>
      have := doCall_up c (h.2 s hp).1
      exact ⟨this.disk, fun s' hs' => by cases hs'; exact ⟨this, rfl⟩⟩
  | restart =>
    simp only [cstep]
    rcases startProc_up (q := q) hi h.1 with ⟨s, h1, h2⟩ | ⟨h1, h2⟩
    · rw [h1]
      exact ⟨h2.disk, fun s' hs' => by cases hs'; exact ⟨h2, rfl⟩⟩
    · rw [h2]; exact ⟨by simpa using h.1, by simp⟩
  | crash c i =>
    have hb : b = true := hop.resolve_right id
    subst hb
    simp only [cstep]
    cases hp : w.proc with
    | none => exact h
    | some s =>
      have := doCall_up c (h.2 s hp).1
      exact ⟨getD_up this.log h.1 i, by simp⟩
  | crashImport i =>
    have hb : b = true := hop.resolve_right id
    subst hb
    simp only [cstep]
    rcases startProc_up (q := q) hi h.1 with ⟨s, h1, h2⟩ | ⟨h1, h2⟩
    · rw [h1]; exact ⟨getD_up h2.log h.1 i, by simp⟩
    · rw [h2]; exact ⟨by simpa using h.1, by simp⟩

/-- operations that do not modify the matrices `1, …, n` -/
def MOp.spares (n : ℕ) : MOp → Prop
  | .modify k _ => n < k
  | _ => True

/-- operations that do not modify the inverse of the matrix `n` -/
def MOp.sparesInverse (n : ℕ) : MOp → Prop
  | .modifyInverse k _ => k ≠ n
  | _ => True

/-- no kills -/
def MOp.noCrash : MOp → Prop
  | .op o => o.noCrash
  | _ => True

theorem mstep_up {i1 : Mat} (hi : inv baseMatrix = .ok i1) {w : World} (h : WorldUp inv n q b w) (op : MOp)
    (hop : b = true ∨ op.noCrash) (hn : op.spares n) (hq : q = true → op.sparesInverse n) :
    WorldUp inv n q b (mstep inv w op) := by
  cases op with
  | op o => exact cstep_up hi h o hop
  | modify k m =>
    simp only [mstep]
    split
    · exact h
    · next s hs =>
      split
      · exact h
      · refine ⟨h.1, fun s' hs' => ?_⟩
        cases hs'
        refine ⟨(h.2 s hs).1.setMem k m fun hk => ?_, (h.2 s hs).2⟩
        have : n < k := hn
        omega
  | modifyInverse k m =>
    simp only [mstep]
    split
    · exact h
    · next s hs =>
      split
      · exact h
      · refine ⟨h.1, fun s' hs' => ?_⟩
        cases hs'
        exact ⟨(h.2 s hs).1.setIMem k m fun h1 h2 => absurd h2 (hq h1), (h.2 s hs).2⟩

theorem mrun_up {i1 : Mat} (hi : inv baseMatrix = .ok i1) (ops : List MOp) {w : World} (h : WorldUp inv n q b w)
    (hop : ∀ op ∈ ops, b = true ∨ op.noCrash) (hn : ∀ op ∈ ops, op.spares n)
    (hq : q = true → ∀ op ∈ ops, op.sparesInverse n) : WorldUp inv n q b (mrun inv w ops) := by
  induction ops generalizing w with
  | nil => exact h
  | cons op ops ih =>
    exact ih (mstep_up hi h op (hop _ (by simp)) (hn _ (by simp)) (fun h1 => hq h1 _ (by simp)))
      (fun o ho => hop o (List.mem_cons_of_mem _ ho)) (fun o ho => hn o (List.mem_cons_of_mem _ ho))
      (fun h1 o ho => hq h1 o (List.mem_cons_of_mem _ ho))

theorem empty_up : WorldUp inv n q b emptyWorld :=
  ⟨fun k f hf => by simp [emptyWorld] at hf, fun s hs => by simp [emptyWorld] at hs⟩

end

/-- Whether a history modifies one of the matrices numbered `1, …, n` that were returned. -/
def ModifiesUpTo (n : ℕ) (ops : List MOp) : Prop := ∃ k m, MOp.modify k m ∈ ops ∧ k ≤ n

/-- Whether a history modifies the returned inverse numbered `n`. -/
def ModifiesInverse (n : ℕ) (ops : List MOp) : Prop := ∃ m, MOp.modifyInverse n m ∈ ops

/-- Whether a history contains a kill. -/
def Kills (ops : List MOp) : Prop := ∃ o, MOp.op o ∈ ops ∧ ((∃ c i, o = .crash c i) ∨ ∃ i, o = .crashImport i)

theorem up_of_history {i1 : Mat} (hi : inv baseMatrix = .ok i1) (n : ℕ) (b : Bool) (ops₁ ops₂ : List MOp)
    (hk : b = false → ¬ Kills (ops₁ ++ .op .restart :: ops₂)) (hn : ¬ ModifiesUpTo n (ops₁ ++ .op .restart :: ops₂))
    (q : Bool) (hq : q = true → ¬ ModifiesInverse n ops₂) :
    WorldUp inv n q b (mrun inv emptyWorld (ops₁ ++ .op .restart :: ops₂)) := by
  have hn' : ∀ op ∈ ops₁ ++ .op .restart :: ops₂, op.spares n := by
    intro op hop
    cases op with
    | op => trivial
    | modifyInverse => trivial
    | modify k m =>
      by_contra h
      exact hn ⟨k, m, hop, not_lt.1 h⟩
  have hc : ∀ op ∈ ops₁ ++ .op .restart :: ops₂, b = true ∨ op.noCrash := by
    intro op hop
    cases b with
    | true => exact Or.inl rfl
    | false =>
      right
      cases op with
      | op o =>
        cases o with
        | call => trivial
        | restart => trivial
        | crash c i => exact (hk rfl ⟨_, hop, Or.inl ⟨c, i, rfl⟩⟩).elim
        | crashImport i => exact (hk rfl ⟨_, hop, Or.inr ⟨i, rfl⟩⟩).elim
      | modify => trivial
      | modifyInverse => trivial
  have hq' : q = true → ∀ op ∈ ops₂, op.sparesInverse n := by
    intro h op hop
    cases op with
    | op => trivial
    | modify => trivial
    | modifyInverse k m =>
      rintro rfl
      exact hq h ⟨m, hop⟩
  unfold mrun
  rw [List.foldl_append, List.foldl_cons]
  have h1 : WorldUp inv n false b (mrun inv emptyWorld ops₁) :=
    mrun_up hi ops₁ empty_up (fun o ho => hc o (List.mem_append_left _ ho))
      (fun o ho => hn' o (List.mem_append_left _ ho)) (fun h => by cases h)
  have h2 : WorldUp inv n q b (mstep inv (mrun inv emptyWorld ops₁) (.op .restart)) := by
    have h3 := h1.1
    show WorldUp inv n q b (cstep inv _ .restart).1
    have : WorldUp inv n q b { disk := (mrun inv emptyWorld ops₁).disk, proc := none } := ⟨h3, fun s hs => by cases hs⟩
    exact cstep_up hi this .restart (Or.inr trivial)
  exact mrun_up hi ops₂ h2 (fun o ho => hc o (List.mem_append_right _ (List.mem_cons_of_mem _ ho)))
    (fun o ho => hn' o (List.mem_append_right _ (List.mem_cons_of_mem _ ho))) hq'

/-- **C50**, what holds: after any history of calls, restarts, kills, and modifications of returned matrices and inverses,
the answer for a matrix is not affected by modifications of matrices with larger numbers and of any inverses, in the same
process or in earlier ones; the answer for an inverse is not affected by those of matrices with larger numbers, of other
inverses, nor by those of any inverse in earlier processes. (As in C11, a kill may lead to an error.) Missing:
modifications of the matrix itself, or of those from which it is computed (`C50_aliasing_violated`). -/
theorem C50_partial {i1 : Mat} (hi : inv baseMatrix = .ok i1) (n : ℕ) (ops₁ ops₂ : List MOp) (ops : List MOp)
    (hops : ops = ops₁ ++ .op .restart :: ops₂) (hn : ¬ ModifiesUpTo n ops) (s : Proc)
    (hs : (mrun inv emptyWorld ops).proc = some s) :
    ((doCall inv s (.matrix n)).1 = getMatrix n ∨ (Kills ops ∧ (doCall inv s (.matrix n)).1 = .error .unpickle)) ∧
    (¬ ModifiesInverse n ops₂ → (doCall inv s (.inverse n)).1 = getMatrixInverse inv n ∨
      (Kills ops ∧ (doCall inv s (.inverse n)).1 = .error .unpickle)) := by
  classical
  subst hops
  obtain ⟨b, hb⟩ : ∃ b : Bool, b = true ↔ Kills (ops₁ ++ .op .restart :: ops₂) := ⟨decide _, decide_eq_true_iff⟩
  have hk : b = false → ¬ Kills (ops₁ ++ .op .restart :: ops₂) := by
    intro h
    rw [← hb, h]
    decide
  constructor
  · have h := (up_of_history hi n b ops₁ ops₂ hk hn false (fun h => by cases h)).2 s hs
    have h1 := (newGetMatrixN_up n h.1.clearLog).2 le_rfl
    rw [hb] at h1
    have e1 : (doCall inv s (.matrix n)).1 = (newGetMatrixN { s with log := [] } n).1 := by
      unfold doCall cGetMatrix
      simp only
      split
      · next h0 =>
        have : n = 0 := by omega
        subst this
        rfl
      · rw [Int.toNat_natCast]
    have e2 : getMatrix n = pureN n := by
      unfold pureN getMatrix
      by_cases h0 : n = 0
      · subst h0; rfl
      · rw [if_neg (by omega), if_neg h0]
        by_cases h1 : n = 1
        · subst h1; rfl
        · rw [if_neg (by omega)]
          by_cases h5 : n > 5
          · rw [if_pos h5, if_pos (by omega)]
          · rw [if_neg h5, if_neg (by omega), Int.toNat_natCast]
    rw [e1, e2]
    exact h1
  · intro hq
    have h := (up_of_history hi n b ops₁ ops₂ hk hn true (fun _ => hq)).2 s hs
    have h1 := (cGetInverse_up (n : ℤ) h.1.clearLog).2 rfl rfl
    rw [hb] at h1
    exact h1

/-- A history in which the matrices 3 and 4 and the inverses 2 and 3 are modified, the inverse 2 in an earlier process. -/
def careless : List MOp :=
  [.op .restart, .op (.call (.inverse 2)), .modifyInverse 2 [[7]]] ++ .op .restart ::
    [.op (.call (.matrix 4)), .modify 3 [[0]], .modify 4 [[1]], .op (.call (.inverse 3)), .modifyInverse 3 [[5]]]

-- the hypotheses are met for the matrix 2 and its inverse; the others are modified, also in the files
example : ¬ ModifiesUpTo 2 careless ∧ ¬ Kills careless ∧
    ((mrun (fun A => .ok A) emptyWorld careless).proc.map fun s => ((s.imem 3), (s.mem 4), (s.disk (.inv 3)))) =
      some (some [[5]], some [[1]], some (.full [[0]])) := by
  refine ⟨?_, ?_, ?_⟩
  · rintro ⟨k, m, h, hk⟩
    simp [careless] at h
    omega
  · rintro ⟨o, h, ⟨c, i, rfl⟩ | ⟨i, rfl⟩⟩ <;> simp [careless] at h
  · decide +kernel

/-- Callers can change only what they were given: the operation has no effect before a process is started, or if the
matrix is not in the dictionary. -/
theorem C50_given (inv : Mat → Except Err Mat) (w : World) (n : ℕ) (m : Mat) :
    ((∀ s, w.proc = some s → s.mem n = none) → mstep inv w (.modify n m) = w) ∧
    ((∀ s, w.proc = some s → s.imem n = none) → mstep inv w (.modifyInverse n m) = w) := by
  constructor
  · intro h
    simp only [mstep]
    split
    · rfl
    · next s hs => rw [if_pos (h s hs)]
  · intro h
    simp only [mstep]
    split
    · rfl
    · next s hs => rw [if_pos (h s hs)]

-- a process after the import has no matrix of size 5
example : (∀ s, (mrun (fun m => .ok m) emptyWorld [.op .restart]).proc = some s → s.mem 5 = none) ∧
    (mrun (fun m => .ok m) emptyWorld [.op .restart]).proc.isSome := by
  constructor
  · intro s hs
    have h : ((mrun (fun m => .ok m) emptyWorld [.op .restart]).proc.map fun s => s.mem 5) = some none := rfl
    rw [hs] at h
    simpa using h
  · rfl

end Verif.Vts
