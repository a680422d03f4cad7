import Verif.Vts.SharedModel
import Verif.Vts.CacheLemmas

/-! Helper lemmas for the property of shared cache directories, C86. -/

namespace Verif.Vts

variable (inv : Mat → Except Err Mat)

/-- the right content of a file -/
def FileOK : FKey → Mat → Prop
  | .mat n, m => m = signMatrix n
  | .inv n, m => inv (signMatrix n) = .ok m
  | .legacy, m => inv baseMatrix = .ok m

/-- the dictionaries are right -/
structure DictsOK (d : Dicts) : Prop where
  one : d.mem 1 = some baseMatrix
  mem : ∀ n m, d.mem n = some m → 1 ≤ n ∧ n ≤ 5 ∧ m = signMatrix n
  imem : ∀ n m, d.imem n = some m → 1 ≤ n ∧ n ≤ 5 ∧ inv (signMatrix n) = .ok m

/-- The program finishes within `f` actions with the answer `A` (or, unless `lone`, the unpickling
error), writes only right contents, and reads only files that exist; `E` are the files known to
exist. If `lone` it is assumed not to read incomplete files. -/
def Good (lone : Bool) (A : Except Err Mat) : (FKey → Prop) → ℕ → Prog → Prop
  | _, f, .ret r d => 1 ≤ f ∧ DictsOK inv d ∧ (r = A ∨ lone = false ∧ r = .error .unpickle)
  | E, f, .hit k next => ∃ f', f = f' + 1 ∧ Good lone A E f' (next false) ∧
      Good lone A (fun k' => k' = k ∨ E k') f' (next true)
  | E, f, .load k next => ∃ f', f = f' + 1 ∧ E k ∧
      (∀ m, FileOK inv k m → Good lone A E f' (next (.ok m))) ∧
      (lone = false → Good lone A E f' (next (.error .unpickle)))
  | E, f, .opn k next => ∃ f', f = f' + 1 ∧ (∃ m next', next = .finish k m next') ∧
      Good lone A E f' next
  | E, f, .finish k m next => ∃ f', f = f' + 1 ∧ FileOK inv k m ∧ Good lone A E f' next

variable {inv}

theorem FileOK.unique {k : FKey} {m m' : Mat} (h : FileOK inv k m) (h' : FileOK inv k m') :
    m = m' := by
  cases k with
  | mat n => exact h.trans h'.symm
  | inv n => simp only [FileOK] at h h'; rw [h] at h'; exact Except.ok.inj h'
  | legacy => simp only [FileOK] at h h'; rw [h] at h'; exact Except.ok.inj h'

theorem Good.mono {lone : Bool} {A : Except Err Mat} {q : Prog} :
    ∀ {E E' : FKey → Prop} {f f' : ℕ}, Good inv lone A E f q → (∀ k, E k → E' k) → f ≤ f' →
      Good inv lone A E' f' q := by
  induction q with
  | ret r d =>
    intro E E' f f' h hE hf
    exact ⟨le_trans h.1 hf, h.2⟩
  | hit k next ih =>
    intro E E' f f' h hE hf
    obtain ⟨g, rfl, h1, h2⟩ := h
    obtain ⟨g', rfl⟩ : ∃ g', f' = g' + 1 := ⟨f' - 1, by omega⟩
    exact ⟨g', rfl, ih _ h1 hE (by omega),
      ih _ h2 (fun k' hk => hk.imp id (hE k')) (by omega)⟩
  | load k next ih =>
    intro E E' f f' h hE hf
    obtain ⟨g, rfl, h0, h1, h2⟩ := h
    obtain ⟨g', rfl⟩ : ∃ g', f' = g' + 1 := ⟨f' - 1, by omega⟩
    exact ⟨g', rfl, hE _ h0, fun m hm => ih _ (h1 m hm) hE (by omega),
      fun hl => ih _ (h2 hl) hE (by omega)⟩
  | opn k next ih =>
    intro E E' f f' h hE hf
    obtain ⟨g, rfl, h1, h2⟩ := h
    obtain ⟨g', rfl⟩ : ∃ g', f' = g' + 1 := ⟨f' - 1, by omega⟩
    exact ⟨g', rfl, h1, ih h2 hE (by omega)⟩
  | finish k m next ih =>
    intro E E' f f' h hE hf
    obtain ⟨g, rfl, h1, h2⟩ := h
    obtain ⟨g', rfl⟩ : ∃ g', f' = g' + 1 := ⟨f' - 1, by omega⟩
    exact ⟨g', rfl, h1, ih h2 hE (by omega)⟩

theorem DictsOK.setMem {d : Dicts} (h : DictsOK inv d) (n : ℕ) (h1 : 2 ≤ n) (h5 : n ≤ 5) :
    DictsOK inv { d with mem := Function.update d.mem n (some (signMatrix n)) } where
  one := by
    show Function.update d.mem n _ 1 = _
    rw [Function.update_of_ne (by omega)]; exact h.one
  mem := by
    intro k m hk
    change Function.update d.mem n _ k = _ at hk
    by_cases hkn : k = n
    · subst hkn; simp at hk; exact ⟨by omega, h5, hk.symm⟩
    · rw [Function.update_of_ne hkn] at hk; exact h.mem k m hk
  imem := h.imem

theorem DictsOK.setIMem {d : Dicts} (h : DictsOK inv d) (n : ℕ) (m : Mat) (h1 : 1 ≤ n)
    (h5 : n ≤ 5) (hm : inv (signMatrix n) = .ok m) :
    DictsOK inv { d with imem := Function.update d.imem n (some m) } where
  one := h.one
  mem := h.mem
  imem := by
    intro k m' hk
    change Function.update d.imem n _ k = _ at hk
    by_cases hkn : k = n
    · subst hkn; simp at hk; exact ⟨h1, h5, by rw [← hk]; exact hm⟩
    · rw [Function.update_of_ne hkn] at hk; exact h.imem k m' hk

theorem pOne_eq {d : Dicts} (h : DictsOK inv d) (next) : pOne d next = next (.ok baseMatrix) d := by
  rw [pOne, h.one]

theorem pMatN_good {lone : Bool} {A : Except Err Mat} (n : ℕ) :
    ∀ {E : FKey → Prop} {f : ℕ} {d : Dicts} {next : Except Err Mat → Dicts → Prog},
      DictsOK inv d →
      (∀ E' d', (∀ k, E k → E' k) → DictsOK inv d' → Good inv lone A E' f (next (pureN n) d')) →
      (lone = false → ∀ E' d', (∀ k, E k → E' k) → DictsOK inv d' →
        Good inv lone A E' f (next (.error .unpickle) d')) →
      Good inv lone A E (f + 3 * (min n 5 - 1)) (pMatN n d next) := by
  induction n with
  | zero =>
    intro E f d next hd h1 _
    exact h1 E d (fun _ h => h) hd
  | succ n ih =>
    cases n with
    | zero =>
      intro E f d next hd h1 _
      rw [pMatN, pOne_eq hd]
      exact h1 E d (fun _ h => h) hd
    | succ n =>
      intro E f d next hd h1 h2
      rw [pMatN]
      split
      · rename_i m hm
        obtain ⟨a, b, c⟩ := hd.mem _ _ hm
        have e : pureN (n + 1 + 1) = .ok m := by
          simp only [pureN]; rw [if_neg (by omega), if_neg (by omega), c]
        rw [← e]
        exact (h1 E d (fun _ h => h) hd).mono (fun _ h => h) (by omega)
      · split
        · rename_i h5
          have e : pureN (n + 1 + 1) = .error .moreThan5 := by
            simp only [pureN]; rw [if_neg (by omega), if_pos h5]
          rw [← e]
          exact (h1 E d (fun _ h => h) hd).mono (fun _ h => h) (by omega)
        · rename_i h5
          have e : pureN (n + 1 + 1) = .ok (signMatrix (n + 2)) := by
            simp only [pureN]; rw [if_neg (by omega), if_neg (by omega)]
          rw [e] at h1
          have hf : f + 3 * (min (n + 1 + 1) 5 - 1) = (f + 2 + 3 * (min (n + 1) 5 - 1)) + 1 := by
            omega
          rw [hf]
          refine ⟨_, rfl, ?_, ?_⟩
          · simp only [Bool.false_eq_true, if_false]
            have e1 : pureN (n + 1) = .ok (signMatrix (n + 1)) := by
              simp only [pureN]; rw [if_neg (by omega), if_neg (by omega)]
            apply ih hd
            · intro E' d' hE hd'
              rw [e1]
              simp only
              rw [pOne_eq hd']
              exact ⟨f + 1, rfl, ⟨_, _, rfl⟩, f, rfl, rfl,
                h1 E' _ hE (hd'.setMem (n + 2) (by omega) (by omega))⟩
            · intro hl E' d' hE hd'
              exact (h2 hl E' d' hE hd').mono (fun _ h => h) (by omega)
          · simp only [if_true]
            refine ⟨f + 1 + 3 * (min (n + 1) 5 - 1), by omega, Or.inl rfl, ?_, ?_⟩
            · intro m hm
              change m = signMatrix (n + 2) at hm
              subst hm
              exact (h1 _ _ (fun _ h => Or.inr h) (hd.setMem (n + 2) (by omega) (by omega))).mono
                (fun _ h => h) (by omega)
            · intro hl
              exact (h2 hl _ d (fun _ h => Or.inr h) hd).mono (fun _ h => h) (by omega)

theorem pCall_good {lone : Bool} (c : Call) {E : FKey → Prop} {d : Dicts} (hd : DictsOK inv d) :
    Good inv lone (pureCall inv c) E 16 (pCall inv d c) := by
  cases c with
  | matrix n =>
    show Good inv lone (getMatrix n) E 16 (pMatrix n d)
    unfold pMatrix
    by_cases hn : n < 1
    · rw [if_pos hn]
      exact ⟨by omega, hd, Or.inl (by rw [getMatrix, if_pos hn])⟩
    · rw [if_neg hn]
      have e : pureN n.toNat = getMatrix n := by
        unfold pureN getMatrix
        rw [if_neg (by omega), if_neg hn]
        by_cases h1 : n = 1
        · subst h1; rfl
        · rw [if_neg h1]
          by_cases h5 : n > 5
          · rw [if_pos h5, if_pos (by omega)]
          · rw [if_neg h5, if_neg (by omega)]
      refine (pMatN_good (f := 1) n.toNat hd ?_ ?_).mono (fun _ h => h) (by omega)
      · intro E' d' _ hd'
        exact ⟨le_rfl, hd', Or.inl e⟩
      · intro hl E' d' _ hd'
        exact ⟨le_rfl, hd', Or.inr ⟨hl, rfl⟩⟩
  | inverse n =>
    show Good inv lone (getMatrixInverse inv n) E 16 (pInverse inv n d)
    unfold pInverse
    by_cases hn : n < 1
    · rw [if_pos hn]
      exact ⟨by omega, hd, Or.inl (by rw [getMatrixInverse, if_pos hn])⟩
    · rw [if_neg hn]
      have hpure : ¬ n > 5 → getMatrixInverse inv n = inv (signMatrix n.toNat) := by
        intro h5
        rw [getMatrixInverse, if_neg hn]
        split
        · rename_i h1; subst h1; rfl
        · rfl
      split
      · rename_i m hm
        obtain ⟨h1, h2, h3⟩ := hd.imem _ _ hm
        exact ⟨by omega, hd, Or.inl (by rw [hpure (by omega), h3])⟩
      · split
        · rename_i h5
          refine ⟨by omega, hd, Or.inl ?_⟩
          rw [getMatrixInverse, if_neg hn, if_neg (by omega), if_pos h5]
        · rename_i h5
          rw [hpure h5]
          refine ⟨15, rfl, ?_, ?_⟩
          · simp only [Bool.false_eq_true, if_false]
            have e1 : pureN n.toNat = .ok (signMatrix n.toNat) := by
              simp only [pureN]; rw [if_neg (by omega), if_neg (by omega)]
            refine (pMatN_good (f := 3) n.toNat hd ?_ ?_).mono (fun _ h => h) (by omega)
            · intro E' d' _ hd'
              rw [e1]
              simp only
              cases hi : inv (signMatrix n.toNat) with
              | error e => exact ⟨by omega, hd', Or.inl rfl⟩
              | ok m =>
                exact ⟨2, rfl, ⟨_, _, rfl⟩, 1, rfl, hi, le_rfl,
                  hd'.setIMem n.toNat m (by omega) (by omega) hi, Or.inl rfl⟩
            · intro hl E' d' _ hd'
              exact ⟨by omega, hd', Or.inr ⟨hl, rfl⟩⟩
          · simp only [if_true]
            refine ⟨14, rfl, Or.inl rfl, ?_, ?_⟩
            · intro m hm
              change inv (signMatrix n.toNat) = .ok m at hm
              exact ⟨by omega, hd.setIMem n.toNat m (by omega) (by omega) hm, Or.inl hm.symm⟩
            · intro hl
              exact ⟨by omega, hd, Or.inr ⟨hl, rfl⟩⟩

theorem pImport_good {lone : Bool} {i1 : Mat} (hi : inv baseMatrix = .ok i1) {E : FKey → Prop} :
    Good inv lone (.ok i1) E 4 (pImport inv) := by
  have hd : DictsOK inv ⟨fun n => if n = 1 then some baseMatrix else none,
      fun n => if n = 1 then some i1 else none⟩ := by
    refine ⟨rfl, ?_, ?_⟩
    · intro n m hm
      simp only at hm
      split at hm
      · rename_i hn; subst hn; simp at hm; subst hm; exact ⟨le_rfl, by omega, rfl⟩
      · simp at hm
    · intro n m hm
      simp only at hm
      split at hm
      · rename_i hn; subst hn; simp at hm; subst hm; exact ⟨le_rfl, by omega, hi⟩
      · simp at hm
  unfold pImport
  rw [hi]
  simp only
  refine ⟨3, rfl, ?_, ?_⟩
  · simp only [Bool.false_eq_true, if_false]
    rw [pOne_eq hd]
    simp only [hi]
    exact ⟨2, rfl, ⟨_, _, rfl⟩, 1, rfl, hi, le_rfl, hd, Or.inl rfl⟩
  · simp only [if_true]
    refine ⟨2, rfl, Or.inl rfl, ?_, ?_⟩
    · intro m hm
      change inv baseMatrix = .ok m at hm
      rw [hi] at hm
      exact ⟨by omega, hd, Or.inl hm.symm⟩
    · intro hl
      exact ⟨by omega, hd, Or.inr ⟨hl, rfl⟩⟩

/-! ## One action -/

/-- complete files are right -/
def FilesOK (inv : Mat → Except Err Mat) (w : SWorld) : Prop :=
  ∀ k m, w.files k = some (.full m) → FileOK inv k m

/-- the file exists -/
def SWorld.ex (w : SWorld) (k : FKey) : Prop := (w.files k).isSome = true

theorem sFinish_procs (w : SWorld) (p : ℕ) (b : Bool) (k : FKey) (m : Mat) :
    (sFinish w p b k m).procs = w.procs := by
  unfold sFinish
  split
  · rfl
  · split
    · split <;> rfl
    · split <;> rfl

theorem sAct_procs (w : SWorld) (p : ℕ) (b : Bool) (q : Prog) :
    (sAct w p b q).1.procs = w.procs := by
  cases q with
  | finish k m next => exact sFinish_procs w p b k m
  | _ => rfl

theorem isSome_update {d : Disk} {k k' : FKey} {f : File} (h : (d k').isSome = true) :
    (Function.update d k (some f) k').isSome = true := by
  by_cases hk : k' = k
  · subst hk; simp
  · rw [Function.update_of_ne hk]; exact h

theorem sFinish_ex {w : SWorld} {p : ℕ} {b : Bool} {k : FKey} {m : Mat} {k' : FKey}
    (h : w.ex k') : (sFinish w p b k m).ex k' := by
  unfold sFinish SWorld.ex
  split
  · exact isSome_update h
  · split
    · split
      · exact h
      · exact isSome_update h
    · split
      · exact isSome_update h
      · exact h

theorem sAct_ex {w : SWorld} {p : ℕ} {b : Bool} {q : Prog} {k' : FKey} (h : w.ex k') :
    (sAct w p b q).1.ex k' := by
  cases q with
  | finish k m next => exact sFinish_ex h
  | opn k next => exact isSome_update h
  | _ => exact h

theorem FilesOK.update {w : SWorld} (h : FilesOK inv w) {k : FKey} {m : Mat} (hm : FileOK inv k m)
    {k' : FKey} {m' : Mat} (h' : Function.update w.files k (some (.full m)) k' = some (.full m')) :
    FileOK inv k' m' := by
  by_cases hk : k' = k
  · subst hk
    rw [Function.update_self] at h'
    simp only [Option.some.injEq, File.full.injEq] at h'
    subst h'; exact hm
  · rw [Function.update_of_ne hk] at h'
    exact h k' m' h'

theorem FilesOK.update_incomplete {w : SWorld} (h : FilesOK inv w) {k k' : FKey} {m' : Mat}
    (h' : Function.update w.files k (some .incomplete) k' = some (.full m')) :
    FileOK inv k' m' := by
  by_cases hk : k' = k
  · subst hk
    rw [Function.update_self] at h'
    simp at h'
  · rw [Function.update_of_ne hk] at h'
    exact h k' m' h'

theorem sFinish_files {w : SWorld} (h : FilesOK inv w) {p : ℕ} {b : Bool} {k : FKey} {m : Mat}
    (hm : FileOK inv k m) : FilesOK inv (sFinish w p b k m) := by
  unfold sFinish
  split
  · intro k' m' h'; exact h.update hm h'
  · split
    · split
      · exact h
      · intro k' m' h'; exact h.update_incomplete h'
    · split
      · intro k' m' h'; exact h.update hm h'
      · exact h

/-- one action of a good program -/
theorem sAct_good {w : SWorld} (hw : FilesOK inv w) {lone : Bool} {A : Except Err Mat} {f p : ℕ}
    {b : Bool} {q : Prog} (hq : Good inv lone A w.ex f q) (hr : ∀ r d, q ≠ .ret r d)
    (hl : lone = true → ∀ k next, q = .load k next → w.files k ≠ some .incomplete) :
    FilesOK inv (sAct w p b q).1 ∧
      Good inv lone A (sAct w p b q).1.ex (f - 1) (sAct w p b q).2 := by
  cases q with
  | ret r d => exact absurd rfl (hr r d)
  | hit k next =>
    obtain ⟨f', rfl, h1, h2⟩ := hq
    refine ⟨hw, ?_⟩
    show Good inv lone A w.ex f' (next (w.files k).isSome)
    cases hk : (w.files k).isSome with
    | false => exact h1
    | true =>
      refine h2.mono ?_ le_rfl
      rintro k' (rfl | h)
      · exact hk
      · exact h
  | load k next =>
    obtain ⟨f', rfl, h0, h1, h2⟩ := hq
    refine ⟨hw, ?_⟩
    show Good inv lone A w.ex f' (next (sLoad w k))
    unfold sLoad
    cases hk : w.files k with
    | none => rw [SWorld.ex, hk] at h0; simp at h0
    | some F =>
      cases F with
      | full m => exact h1 m (hw k m hk)
      | incomplete =>
        cases hlone : lone with
        | true => exact absurd hk (hl hlone k next rfl)
        | false => subst hlone; exact h2 rfl
  | opn k next =>
    obtain ⟨f', rfl, h1, h2⟩ := hq
    refine ⟨fun k' m' h' => hw.update_incomplete h', ?_⟩
    exact h2.mono (fun k' h => isSome_update h) le_rfl
  | finish k m next =>
    obtain ⟨f', rfl, h1, h2⟩ := hq
    exact ⟨sFinish_files hw h1, h2.mono (fun k' h => sFinish_ex h) le_rfl⟩

/-! ## One event -/

/-- invariant of a process -/
def PStateOK (inv : Mat → Except Err Mat) (lone : Bool) (E : FKey → Prop) : PState → Prop
  | .importing q => ∃ f, Good inv lone (inv baseMatrix) E f q
  | .calling c q => ∃ f, Good inv lone (pureCall inv c) E f q
  | .idle d => DictsOK inv d
  | _ => True

theorem PStateOK.mono {lone : Bool} {E E' : FKey → Prop} {s : PState} (h : PStateOK inv lone E s)
    (hE : ∀ k, E k → E' k) : PStateOK inv lone E' s := by
  cases s with
  | importing q => obtain ⟨f, h⟩ := h; exact ⟨f, h.mono hE le_rfl⟩
  | calling c q => obtain ⟨f, h⟩ := h; exact ⟨f, h.mono hE le_rfl⟩
  | _ => exact h

/-- invariant of the world -/
structure SOK (inv : Mat → Except Err Mat) (w : SWorld) : Prop where
  files : FilesOK inv w
  procs : ∀ p, PStateOK inv false w.ex (w.procs p)

theorem sEmpty_ok : SOK inv sEmpty := ⟨by intro k m h; simp [sEmpty] at h, fun _ => trivial⟩

theorem SOK.put {w w' : SWorld} (h : SOK inv w) (hf : FilesOK inv w') (hp : w'.procs = w.procs)
    (hE : ∀ k, w.ex k → w'.ex k) {p : ℕ} {s : PState} (hs : PStateOK inv false w'.ex s) :
    SOK inv (w'.put p s) := by
  refine ⟨hf, fun p' => ?_⟩
  show PStateOK inv false w'.ex (Function.update w'.procs p s p')
  by_cases hpp : p' = p
  · subst hpp; rw [Function.update_self]; exact hs
  · rw [Function.update_of_ne hpp, hp]
    exact (h.procs p').mono hE

/-- what a result should be -/
def OutOK (inv : Mat → Except Err Mat) : SOut → Prop
  | .result _ c r => r = pureCall inv c ∨ r = .error .unpickle
  | .started _ => True
  | .importFailed _ e => e = .unpickle

/-- the event is a step of `p`, which executes `q`, not yet at its end -/
theorem sstep_importing {w : SWorld} {p : ℕ} {b : Bool} {q : Prog}
    (h : w.procs p = .importing q) (hr : ∀ r d, q ≠ .ret r d) :
    sstep inv w (.step p b)
      = ((sAct w p b q).1.put p (.importing (sAct w p b q).2), none) := by
  cases q with
  | ret r d => exact absurd rfl (hr r d)
  | _ => simp only [sstep, h]

theorem sstep_calling {w : SWorld} {p : ℕ} {b : Bool} {c : Call} {q : Prog}
    (h : w.procs p = .calling c q) (hr : ∀ r d, q ≠ .ret r d) :
    sstep inv w (.step p b)
      = ((sAct w p b q).1.put p (.calling c (sAct w p b q).2), none) := by
  cases q with
  | ret r d => exact absurd rfl (hr r d)
  | _ => simp only [sstep, h]

theorem isRet (q : Prog) : (∃ r d, q = .ret r d) ∨ ∀ r d, q ≠ .ret r d := by
  cases q with
  | ret r d => exact Or.inl ⟨r, d, rfl⟩
  | _ => exact Or.inr (by intro r d h; cases h)

theorem sstep_ok {i1 : Mat} (hi : inv baseMatrix = .ok i1) {w : SWorld} (h : SOK inv w) (e : Ev) :
    SOK inv (sstep inv w e).1 ∧ ∀ o ∈ (sstep inv w e).2, OutOK inv o := by
  cases e with
  | start p =>
    simp only [sstep]
    split
    · refine ⟨h.put h.files rfl (fun _ h => h) ⟨4, ?_⟩, by simp⟩
      rw [hi]; exact pImport_good hi
    · exact ⟨h, by simp⟩
  | call p c =>
    simp only [sstep]
    split
    · rename_i d hd
      have hd' := h.procs p
      rw [hd] at hd'
      exact ⟨h.put h.files rfl (fun _ h => h) ⟨16, pCall_good c hd'⟩, by simp⟩
    · exact ⟨h, by simp⟩
  | exit p =>
    simp only [sstep]
    split
    · exact ⟨h.put h.files rfl (fun _ h => h) trivial, by simp⟩
    · exact ⟨h.put h.files rfl (fun _ h => h) trivial, by simp⟩
    · exact ⟨h, by simp⟩
  | kill p => exact ⟨h.put h.files rfl (fun _ h => h) trivial, by simp [sstep]⟩
  | step p b =>
    have hp := h.procs p
    cases hs : w.procs p with
    | absent => simp only [sstep, hs]; exact ⟨h, by simp⟩
    | failed => simp only [sstep, hs]; exact ⟨h, by simp⟩
    | idle d => simp only [sstep, hs]; exact ⟨h, by simp⟩
    | importing q =>
      rw [hs] at hp
      obtain ⟨f, hf⟩ := hp
      rcases isRet q with ⟨r, d, rfl⟩ | hr
      · obtain ⟨h1, h2, h3⟩ := hf
        cases r with
        | ok m =>
          simp only [sstep, hs]
          exact ⟨h.put h.files rfl (fun _ h => h) h2, by simp [OutOK]⟩
        | error e =>
          simp only [sstep, hs]
          refine ⟨h.put h.files rfl (fun _ h => h) trivial, ?_⟩
          rw [hi] at h3
          simpa [OutOK] using h3
      · rw [sstep_importing hs hr]
        have := sAct_good (p := p) (b := b) h.files hf hr (by simp)
        exact ⟨h.put this.1 (sAct_procs _ _ _ _) (fun _ h => sAct_ex h) ⟨_, this.2⟩, by simp⟩
    | calling c q =>
      rw [hs] at hp
      obtain ⟨f, hf⟩ := hp
      rcases isRet q with ⟨r, d, rfl⟩ | hr
      · obtain ⟨h1, h2, h3⟩ := hf
        simp only [sstep, hs]
        refine ⟨h.put h.files rfl (fun _ h => h) h2, ?_⟩
        simpa [OutOK] using h3
      · rw [sstep_calling hs hr]
        have := sAct_good (p := p) (b := b) h.files hf hr (by simp)
        exact ⟨h.put this.1 (sAct_procs _ _ _ _) (fun _ h => sAct_ex h) ⟨_, this.2⟩, by simp⟩

theorem srun_ok {i1 : Mat} (hi : inv baseMatrix = .ok i1) (es : List Ev) :
    ∀ {w : SWorld}, SOK inv w → SOK inv (srun inv w es).1 ∧ ∀ o ∈ (srun inv w es).2, OutOK inv o := by
  induction es with
  | nil => intro w h; exact ⟨h, by simp [srun]⟩
  | cons e es ih =>
    intro w h
    obtain ⟨h1, h2⟩ := sstep_ok hi h e
    obtain ⟨h3, h4⟩ := ih h1
    refine ⟨h3, fun o ho => ?_⟩
    simp only [srun, List.mem_append, Option.mem_toList] at ho
    exact ho.elim (h2 o) (h4 o)

end Verif.Vts
