import Verif.Vts.ExamplesModel
import Verif.Vts.PropsParserExact
import Verif.Vts.PropsUniv
import Mathlib.Tactic.DeriveEncodable
import Mathlib.Data.Rat.Encodable

/-!
# Properties of the example files: C80 (written examples are read back), C81 (crashes), C82 (what a check depends on)
-/

set_option linter.unusedSectionVars false

namespace Verif.Vts

/-- Two paths name the same file. -/
def SamePath (ci : Bool) (p q : Path) : Prop :=
  if ci then (p.map fun n => n.map Char.toLower) = q.map fun n => n.map Char.toLower else p = q

/-- The file system has a file `p` with contents `c`. -/
def Fs.Has (fs : Fs) (p : Path) (c : List Char) : Prop := ∃ p', (p', c) ∈ fs.files ∧ SamePath fs.ci p' p

/-- the file in which the examples of the file `n` are stored -/
def target (n : List Char) : Path := ["Examples".toList, "Metitarski".toList, n ++ ".pkl".toList]

/-- Loading gives back what was dumped. -/
def Pickle.OK (P : Pickle) : Prop := ∀ l, P.load (P.dump l) = .ok l

/-! ### The file system -/

theorem key_iff (fs : Fs) (p q : Path) : fs.key p = fs.key q ↔ SamePath fs.ci p q := by
  unfold Fs.key SamePath
  cases fs.ci <;> simp

theorem put_ci (fs : Fs) (p : Path) (c : List Char) : (fs.put p c).ci = fs.ci := by
  unfold Fs.put; split <;> rfl

theorem put_dirs (fs : Fs) (p : Path) (c : List Char) : (fs.put p c).dirs = fs.dirs := by
  unfold Fs.put; split <;> rfl

theorem key_of_ci {fs fs' : Fs} (h : fs'.ci = fs.ci) : fs'.key = fs.key := by
  funext p; unfold Fs.key; rw [h]

theorem put_key (fs : Fs) (p : Path) (c : List Char) : (fs.put p c).key = fs.key := key_of_ci (put_ci ..)

theorem isDir_put (fs : Fs) (p : Path) (c : List Char) : (fs.put p c).isDir = fs.isDir := by
  funext q; unfold Fs.isDir; rw [put_key, put_dirs]

theorem isFile_iff (fs : Fs) (p : Path) : fs.isFile p = true ↔ ∃ f ∈ fs.files, fs.key f.1 = fs.key p := by
  unfold Fs.isFile
  simp

theorem has_put (fs : Fs) (p q : Path) (c d : List Char) :
    (fs.put p c).Has q d ↔ (SamePath fs.ci p q ∧ d = c) ∨ (¬ SamePath fs.ci p q ∧ fs.Has q d) := by
  unfold Fs.Has
  rw [put_ci]
  simp only [← key_iff]
  unfold Fs.put
  split
  · next h =>
    obtain ⟨f, hf, hk⟩ := (isFile_iff ..).1 h
    constructor
    · rintro ⟨p', hm, hp'⟩
      obtain ⟨e, he, hee⟩ := List.mem_map.1 hm
      split at hee
      · next hke =>
        cases hee
        exact Or.inl ⟨hke.symm.trans hp', rfl⟩
      · next hke =>
        subst hee
        exact Or.inr ⟨fun hh => hke (hp'.trans hh.symm), _, he, hp'⟩
    · rintro (⟨hpq, rfl⟩ | ⟨hpq, p', hm, hp'⟩)
      · exact ⟨f.1, List.mem_map.2 ⟨f, hf, by rw [if_pos hk]⟩, hk.trans hpq⟩
      · exact ⟨p', List.mem_map.2 ⟨_, hm, by rw [if_neg fun hh => hpq (hh.symm.trans hp')]⟩, hp'⟩
  · next h =>
    have hn : ∀ f ∈ fs.files, fs.key f.1 ≠ fs.key p := fun f hf hh => h ((isFile_iff ..).2 ⟨f, hf, hh⟩)
    simp only [List.mem_append, List.mem_singleton]
    constructor
    · rintro ⟨p', hm | hm, hp'⟩
      · exact Or.inr ⟨fun hh => hn _ hm (hp'.trans hh.symm), p', hm, hp'⟩
      · cases hm
        exact Or.inl ⟨hp', rfl⟩
    · rintro (⟨hpq, rfl⟩ | ⟨hpq, p', hm, hp'⟩)
      · exact ⟨p, Or.inr rfl, hpq⟩
      · exact ⟨p', Or.inl hm, hp'⟩

theorem put_of_isFile {fs : Fs} {p : Path} (h : fs.isFile p = true) (c : List Char) :
    fs.put p c = { fs with files := fs.files.map fun f => if fs.key f.1 = fs.key p then (f.1, c) else f } := by
  unfold Fs.put; rw [if_pos h]

theorem put_put (fs : Fs) (p : Path) (c d : List Char) : (fs.put p c).put p d = fs.put p d := by
  have h2 : (fs.put p c).isFile p = true := by
    rw [isFile_iff, put_key]
    unfold Fs.put
    split
    · next h =>
      obtain ⟨f, hf, hk⟩ := (isFile_iff ..).1 h
      exact ⟨_, List.mem_map.2 ⟨f, hf, rfl⟩, by rw [if_pos hk]; exact hk⟩
    · exact ⟨_, by simp; exact Or.inr rfl, rfl⟩
  rw [put_of_isFile h2, put_key]
  unfold Fs.put
  split
  · next h =>
    simp only [List.map_map, Fs.mk.injEq, true_and]
    apply List.map_congr_left
    intro f _
    simp only [Function.comp]
    split <;> simp_all
  · next h =>
    have hn : ∀ f ∈ fs.files, fs.key f.1 ≠ fs.key p := fun f hf hh => h ((isFile_iff ..).2 ⟨f, hf, hh⟩)
    simp only [List.map_append, List.map_cons, List.map_nil, if_true, Fs.mk.injEq, true_and]
    congr 1
    conv_rhs => rw [← List.map_id fs.files]
    apply List.map_congr_left
    intro f hf
    rw [if_neg (hn f hf)]; rfl

theorem walk_put (fs : Fs) (p dir : Path) (c : List Char)
    (h : (fs.key dir).isPrefixOf (fs.key p.dropLast) = false) : (fs.put p c).walk dir = fs.walk dir := by
  unfold Fs.walk
  rw [put_key]
  unfold Fs.put
  split
  · simp only [List.filter_map]
    have hk : ∀ f : Path × List Char, fs.key f.1 = fs.key p → fs.key f.1.dropLast = fs.key p.dropLast := by
      intro f hf
      unfold Fs.key at hf ⊢
      split
      · rw [if_pos (by assumption), if_pos (by assumption)] at hf
        rw [List.map_dropLast, List.map_dropLast, hf]
      · rw [if_neg (by assumption), if_neg (by assumption)] at hf
        rw [hf]
    have e : (fs.files.filter ((fun f : Path × List Char => (fs.key dir).isPrefixOf (fs.key f.1.dropLast)) ∘
        fun f => if fs.key f.1 = fs.key p then (f.1, c) else f)) =
        fs.files.filter fun f => (fs.key dir).isPrefixOf (fs.key f.1.dropLast) := by
      apply List.filter_congr
      intro f _
      simp only [Function.comp]
      split <;> rfl
    rw [e]
    conv_rhs => rw [← List.map_id (fs.files.filter _)]
    apply List.map_congr_left
    intro f hf
    rw [List.mem_filter] at hf
    rw [if_neg]
    · rfl
    · intro hh
      rw [hk f hh, h] at hf
      exact absurd hf.2 (by decide)
  · rw [List.filter_append]
    simp [h]

/-! ### The operations of writing -/

/-- the contents after writing the examples `ex` -/
def puts (P : Pickle) (fs : Fs) (ex : List (List Char × Examples)) : Fs :=
  ex.foldl (fun fs f => fs.put (target f.1) (P.dump f.2)) fs

theorem puts_cons (P : Pickle) (fs : Fs) (f : List Char × Examples) (ex : List (List Char × Examples)) :
    puts P fs (f :: ex) = puts P (fs.put (target f.1) (P.dump f.2)) ex := rfl

theorem puts_append (P : Pickle) (fs : Fs) (a b : List (List Char × Examples)) :
    puts P fs (a ++ b) = puts P (puts P fs a) b := by
  unfold puts; rw [List.foldl_append]

theorem puts_ci (P : Pickle) (ex : List (List Char × Examples)) : ∀ fs : Fs, (puts P fs ex).ci = fs.ci := by
  induction ex with
  | nil => intro fs; rfl
  | cons f ex ih => intro fs; rw [puts_cons, ih, put_ci]

theorem puts_dirs (P : Pickle) (ex : List (List Char × Examples)) : ∀ fs : Fs, (puts P fs ex).dirs = fs.dirs := by
  induction ex with
  | nil => intro fs; rfl
  | cons f ex ih => intro fs; rw [puts_cons, ih, put_dirs]

theorem puts_key (P : Pickle) (ex : List (List Char × Examples)) (fs : Fs) : (puts P fs ex).key = fs.key :=
  key_of_ci (puts_ci ..)

theorem isDir_puts (P : Pickle) (ex : List (List Char × Examples)) (fs : Fs) : (puts P fs ex).isDir = fs.isDir := by
  funext q; unfold Fs.isDir; rw [puts_key, puts_dirs]

theorem target_eq (n : List Char) : writeDir ++ [pklName n] = target n := rfl

/-- the operations after the directory was made -/
def pairs (ex : List (List Char × Examples)) : List Step :=
  ex.flatMap fun f => [.create (target f.1), .dump (target f.1) f.2]

theorem writeSteps_eq (ex : List (List Char × Examples)) : writeSteps ex = .makedirs writeDir :: pairs ex := rfl

theorem run_ok {P : Pickle} {fs fs' : Fs} {s : Step} (h : fs.step P s = .ok fs') (l : List Step) :
    fs.run P (s :: l) = fs'.run P l := by
  rw [Fs.run.eq_2, h]

theorem run_error {P : Pickle} {fs : Fs} {s : Step} {e : Err} (h : fs.step P s = .error e) (l : List Step) :
    fs.run P (s :: l) = (fs, .error e) := by
  rw [Fs.run.eq_2, h]

theorem step_create (P : Pickle) (fs : Fs) (n : List Char) (hd : fs.isDir writeDir = true) (h : fs.isDir (target n) = false) :
    fs.step P (.create (target n)) = .ok (fs.put (target n) []) := by
  have hw : (target n).dropLast = writeDir := rfl
  simp [Fs.step, hw, hd, h]

theorem step_create_error (P : Pickle) (fs : Fs) (n : List Char)
    (h : fs.isDir writeDir = false ∨ fs.isDir (target n) = true) :
    fs.step P (.create (target n)) = .error .osError := by
  have hw : (target n).dropLast = writeDir := rfl
  rcases h with h | h <;> simp [Fs.step, hw, h]

theorem run_pairs_good (P : Pickle) (ex tail : _) : ∀ fs : Fs, fs.isDir writeDir = true →
    (∀ f ∈ ex, fs.isDir (target f.1) = false) → fs.run P (pairs ex ++ tail) = (puts P fs ex).run P tail := by
  induction ex with
  | nil => intro fs _ _; rfl
  | cons f ex ih =>
    intro fs hd hg
    have h1 := hg f (by simp)
    have e : pairs (f :: ex) ++ tail = .create (target f.1) :: .dump (target f.1) f.2 :: (pairs ex ++ tail) := rfl
    rw [e, run_ok (step_create P fs f.1 hd h1), run_ok (s := .dump _ _) rfl, put_put,
      ih _ (by rw [isDir_put]; exact hd) (by intro g hg'; rw [isDir_put]; exact hg g (by simp [hg']))]
    rfl

theorem run_pairs_bad (P : Pickle) (fs : Fs) (f : List Char × Examples) (ex : List (List Char × Examples))
    (h : fs.isDir writeDir = false ∨ fs.isDir (target f.1) = true) :
    fs.run P (pairs (f :: ex)) = (fs, .error .osError) :=
  run_error (step_create_error P fs f.1 h) _

/-- the last contents given to a path -/
def lastVal (P : Pickle) (fs : Fs) (ex : List (List Char × Examples)) (p : Path) : Option (List Char) :=
  ex.foldl (fun o f => if fs.key p = fs.key (target f.1) then some (P.dump f.2) else o) none

theorem foldl_or (P : Pickle) (fs : Fs) (p : Path) (ex : List (List Char × Examples)) : ∀ o : Option (List Char),
    ex.foldl (fun o f => if fs.key p = fs.key (target f.1) then some (P.dump f.2) else o) o =
      (lastVal P fs ex p).or o := by
  unfold lastVal
  induction ex with
  | nil => intro o; rfl
  | cons f ex ih =>
    intro o
    simp only [List.foldl_cons]
    split
    · rw [ih]
      cases List.foldl (fun o f => if fs.key p = fs.key (target f.1) then some (P.dump f.2) else o) none ex <;> rfl
    · exact ih o

theorem lastVal_cons (P : Pickle) (fs : Fs) (f : List Char × Examples) (ex : List (List Char × Examples)) (p : Path) :
    lastVal P fs (f :: ex) p =
      (lastVal P fs ex p).or (if fs.key p = fs.key (target f.1) then some (P.dump f.2) else none) := by
  conv_lhs => unfold lastVal
  rw [List.foldl_cons, foldl_or]

theorem lastVal_of_key {P : Pickle} {fs fs' : Fs} (h : fs'.ci = fs.ci) (ex : List (List Char × Examples)) (p : Path) :
    lastVal P fs' ex p = lastVal P fs ex p := by
  unfold lastVal; rw [key_of_ci h]

/-- Files that exist already are only given new contents. -/
theorem puts_existing (P : Pickle) (ex : List (List Char × Examples)) : ∀ fs : Fs,
    (∀ f ∈ ex, fs.isFile (target f.1) = true) →
    puts P fs ex = { fs with files := fs.files.map fun f => (f.1, (lastVal P fs ex f.1).getD f.2) } := by
  induction ex with
  | nil =>
    intro fs _
    have : (fun f : Path × List Char => (f.1, (lastVal P fs [] f.1).getD f.2)) = id := by
      funext f; rfl
    rw [this, List.map_id]; rfl
  | cons f ex ih =>
    intro fs h
    have hp : fs.put (target f.1) (P.dump f.2) =
        { fs with files := fs.files.map fun g => if fs.key g.1 = fs.key (target f.1) then (g.1, P.dump f.2) else g } := by
      unfold Fs.put
      rw [if_pos (h f (by simp))]
    have hf : ∀ g ∈ ex, (fs.put (target f.1) (P.dump f.2)).isFile (target g.1) = true := by
      intro g hg
      obtain ⟨e, he, hk⟩ := (isFile_iff ..).1 (h g (by simp [hg]))
      rw [isFile_iff, put_key, hp]
      exact ⟨_, List.mem_map.2 ⟨e, he, rfl⟩, by split <;> exact hk⟩
    rw [puts_cons, ih _ hf]
    have hl : ∀ p, lastVal P (fs.put (target f.1) (P.dump f.2)) ex p = lastVal P fs ex p :=
      lastVal_of_key (put_ci ..) ex
    simp only [hl]
    rw [hp]
    simp only [List.map_map, Fs.mk.injEq, true_and]
    apply List.map_congr_left
    intro g _
    simp only [Function.comp, lastVal_cons]
    by_cases hk : fs.key g.1 = fs.key (target f.1)
    · simp only [hk, if_true]
      cases lastVal P fs ex g.1 <;> rfl
    · simp only [hk, if_false, Option.or_none]

theorem isFile_put (fs : Fs) (p q : Path) (c : List Char) :
    (fs.put p c).isFile q = true ↔ fs.key p = fs.key q ∨ fs.isFile q = true := by
  have e : ∀ (fs : Fs) q, fs.isFile q = true ↔ ∃ c, fs.Has q c := by
    intro fs q
    rw [isFile_iff]
    unfold Fs.Has
    simp only [key_iff]
    constructor
    · rintro ⟨f, hf, h⟩; exact ⟨f.2, f.1, hf, h⟩
    · rintro ⟨c, p', hf, h⟩; exact ⟨_, hf, h⟩
  rw [e, e, key_iff]
  simp only [has_put]
  by_cases h : SamePath fs.ci p q
  · simp [h]
  · simp [h]

theorem isFile_puts (P : Pickle) (ex : List (List Char × Examples)) (q : Path) : ∀ fs : Fs,
    (puts P fs ex).isFile q = true ↔ (∃ f ∈ ex, fs.key (target f.1) = fs.key q) ∨ fs.isFile q = true := by
  induction ex with
  | nil => intro fs; simp [puts]
  | cons f ex ih =>
    intro fs
    rw [puts_cons, ih, isFile_put, put_key]
    simp only [List.mem_cons, exists_eq_or_imp]
    rw [← or_assoc]
    exact or_congr or_comm Iff.rfl

/-- After `ex` was written, files with these names have the last contents. -/
theorem puts_vals (P : Pickle) (ex : List (List Char × Examples)) : ∀ fs : Fs, ∀ f ∈ (puts P fs ex).files,
    (lastVal P fs ex f.1).getD f.2 = f.2 := by
  induction ex with
  | nil => intro fs f _; rfl
  | cons e ex ih =>
    intro fs f hf
    rw [puts_cons] at hf
    have h1 := ih _ f hf
    rw [lastVal_of_key (put_ci ..)] at h1
    rw [lastVal_cons]
    cases hl : lastVal P fs ex f.1 with
    | some v => rw [hl] at h1; exact h1
    | none =>
      simp only [Option.none_or]
      split
      · next hk =>
        -- the contents were given by the first entry and not changed later
        have key : ∀ (ex : List (List Char × Examples)) (gs : Fs), gs.ci = fs.ci → lastVal P fs ex f.1 = none →
            f ∈ (puts P gs ex).files → f ∈ gs.files := by
          intro ex
          induction ex with
          | nil => intro gs _ _ h; exact h
          | cons g ex ih2 =>
            intro gs hci hn h
            rw [lastVal_cons] at hn
            have hn1 : lastVal P fs ex f.1 = none := by
              cases hx : lastVal P fs ex f.1 with
              | none => rfl
              | some v => rw [hx] at hn; cases hn
            have hn2 : ¬ fs.key f.1 = fs.key (target g.1) := by
              intro hh
              rw [hn1, if_pos hh] at hn
              cases hn
            rw [puts_cons] at h
            have h3 := ih2 _ ((put_ci ..).trans hci) hn1 h
            unfold Fs.put at h3
            rw [key_of_ci hci] at h3
            split at h3
            · obtain ⟨x, hx, hxx⟩ := List.mem_map.1 h3
              split at hxx
              · next hkx =>
                subst hxx
                exact absurd hkx hn2
              · subst hxx; exact hx
            · rcases List.mem_append.1 h3 with h4 | h4
              · exact h4
              · rw [List.mem_singleton.1 h4] at hn2
                exact absurd rfl hn2
        have h2 := key ex _ (put_ci ..) hl hf
        unfold Fs.put at h2
        split at h2
        · obtain ⟨x, hx, hxx⟩ := List.mem_map.1 h2
          split at hxx
          · subst hxx; rfl
          · next hkx => subst hxx; exact absurd hk hkx
        · next hnf =>
          rcases List.mem_append.1 h2 with h4 | h4
          · exact absurd ((isFile_iff ..).2 ⟨f, h4, hk⟩) hnf
          · rw [List.mem_singleton.1 h4]; rfl
      · rfl

theorem puts_again (P : Pickle) (fs : Fs) (ex : List (List Char × Examples)) :
    puts P (puts P fs ex) ex = puts P fs ex := by
  rw [puts_existing P ex (puts P fs ex) fun f hf => (isFile_puts ..).2 (Or.inl ⟨f, hf, rfl⟩)]
  have : (puts P fs ex).files.map (fun f => (f.1, (lastVal P (puts P fs ex) ex f.1).getD f.2)) = (puts P fs ex).files := by
    conv_rhs => rw [← List.map_id (puts P fs ex).files]
    apply List.map_congr_left
    intro f hf
    rw [lastVal_of_key (puts_ci ..), puts_vals P ex fs f hf]; rfl
  rw [this]

/-- Writing again after a crash in the middle of the file `p`. -/
theorem puts_over (P : Pickle) (fs : Fs) (ex : List (List Char × Examples)) (p : Path) (x y : List Char) :
    (puts P ((puts P fs ex).put p x) ex).put p y = (puts P fs ex).put p y := by
  have hfile : ∀ f ∈ ex, ((puts P fs ex).put p x).isFile (target f.1) = true := fun f hf =>
    (isFile_put ..).2 (Or.inr ((isFile_puts ..).2 (Or.inl ⟨f, hf, rfl⟩)))
  rw [← put_put (puts P fs ex) p x y]
  have hpf : ((puts P fs ex).put p x).isFile p = true := (isFile_put ..).2 (Or.inl rfl)
  have hpf2 : (puts P ((puts P fs ex).put p x) ex).isFile p = true := (isFile_puts ..).2 (Or.inr hpf)
  rw [put_of_isFile hpf, put_of_isFile hpf2, puts_key, puts_existing P ex _ hfile]
  simp only [List.map_map, Fs.mk.injEq, true_and]
  apply List.map_congr_left
  intro f hf
  simp only [Function.comp]
  split
  · rfl
  · next hk =>
    have hv : (lastVal P ((puts P fs ex).put p x) ex f.1).getD f.2 = f.2 := by
      rw [lastVal_of_key (put_ci ..), lastVal_of_key (puts_ci ..)]
      refine puts_vals P ex fs f ?_
      unfold Fs.put at hf
      rw [put_key] at hk
      split at hf
      · obtain ⟨e, he, hee⟩ := List.mem_map.1 hf
        split at hee
        · next hke => subst hee; exact absurd hke hk
        · subst hee; exact he
      · rcases List.mem_append.1 hf with h4 | h4
        · exact h4
        · rw [List.mem_singleton.1 h4] at hk
          exact absurd rfl hk
    rw [hv]

/-! ### Making the directory -/

theorem step_makedirs (P : Pickle) (fs g : Fs) (h : fs.step P (.makedirs writeDir) = .ok g) :
    g.files = fs.files ∧ g.ci = fs.ci ∧ ((g.isDir writeDir = false ∧ g = fs) ∨
      (g.isDir writeDir = true ∧ ∀ q, fs.isDir q = true → g.isDir q = true)) := by
  simp only [Fs.step] at h
  split at h
  · next hd =>
    cases h
    refine ⟨rfl, rfl, ?_⟩
    cases hx : fs.isDir writeDir
    · exact Or.inl ⟨rfl, rfl⟩
    · exact Or.inr ⟨rfl, fun q hq => hq⟩
  · split at h
    · cases h
    · next hd _ =>
      cases h
      refine ⟨rfl, rfl, Or.inr ⟨?_, ?_⟩⟩
      · unfold Fs.isDir
        simp only [List.any_append, Bool.or_eq_true, List.any_eq_true]
        refine Or.inr ⟨writeDir, ?_, ?_⟩
        · rw [List.mem_filter]
          refine ⟨by decide, ?_⟩
          simp only [Bool.or_eq_true, not_or, Bool.not_eq_true] at hd
          rw [Bool.not_eq_true']
          exact hd.1
        · simp
      · intro q hq
        unfold Fs.isDir at hq ⊢
        rw [List.any_append, Bool.or_eq_true]
        exact Or.inl hq

theorem makedirs_again (P : Pickle) (fs : Fs) (h : fs.isDir writeDir = true) :
    fs.step P (.makedirs writeDir) = .ok fs := by
  simp [Fs.step, h]

/-! ### Crashes -/

/-- the state after `k` operations and `m` characters of the next contents -/
def crashState (P : Pickle) (fs : Fs) (l : List Step) (k m : ℕ) : Fs :=
  let r := fs.run P (l.take k)
  match r.2, l[k]? with
  | .ok _, some (.dump p l) => r.1.put p ((P.dump l).take m)
  | _, _ => r.1

theorem crash_pairs (P : Pickle) (m : ℕ) (ex : List (List Char × Examples)) : ∀ (g : Fs) (k : ℕ), g.isDir writeDir = true →
    ∃ ex1 ex2, ex = ex1 ++ ex2 ∧ (∀ f ∈ ex1, g.isDir (target f.1) = false) ∧
      (crashState P g (pairs ex) k m = puts P g ex1 ∨
        ∃ f ex3 x, ex2 = f :: ex3 ∧ g.isDir (target f.1) = false ∧ x <+: P.dump f.2 ∧
          crashState P g (pairs ex) k m = (puts P g ex1).put (target f.1) x) := by
  induction ex with
  | nil =>
    intro g k _
    refine ⟨[], [], rfl, by simp, Or.inl ?_⟩
    simp [crashState, pairs, Fs.run, puts]
  | cons f ex ih =>
    intro g k hd
    have e : pairs (f :: ex) = .create (target f.1) :: .dump (target f.1) f.2 :: pairs ex := rfl
    cases hb : g.isDir (target f.1) with
    | true =>
      refine ⟨[], f :: ex, rfl, by simp, Or.inl ?_⟩
      cases k with
      | zero => rfl
      | succ k =>
        unfold crashState
        rw [e, List.take_succ_cons, run_error (step_create_error P g f.1 (Or.inr hb))]
        rfl
    | false =>
      match k with
      | 0 => exact ⟨[], f :: ex, rfl, by simp, Or.inl rfl⟩
      | 1 =>
        refine ⟨[], f :: ex, rfl, by simp, Or.inr ⟨f, ex, (P.dump f.2).take m, rfl, hb, List.take_prefix .., ?_⟩⟩
        unfold crashState
        rw [e, List.take_succ_cons, run_ok (step_create P g f.1 hd hb)]
        show (g.put _ _).put _ _ = _
        rw [put_put]
        rfl
      | k + 2 =>
        obtain ⟨ex1, ex2, rfl, hg, hc⟩ := ih (g.put (target f.1) (P.dump f.2)) k (by rw [isDir_put]; exact hd)
        have hs : crashState P g (pairs (f :: (ex1 ++ ex2))) (k + 2) m =
            crashState P (g.put (target f.1) (P.dump f.2)) (pairs (ex1 ++ ex2)) k m := by
          unfold crashState
          rw [e, List.take_succ_cons, List.take_succ_cons, run_ok (step_create P g f.1 hd hb),
            run_ok (s := .dump _ _) rfl, put_put]
          rfl
        rw [hs]
        rw [isDir_put] at hg hc
        exact ⟨f :: ex1, ex2, rfl, by
          intro f' hf'
          rcases List.mem_cons.1 hf' with rfl | hf'
          · exact hb
          · exact hg f' hf', hc⟩

/-- The states a crash can leave: nothing was done, or some first files were written completely, and possibly a beginning
of the next one. -/
theorem crash_form (P : Pickle) (fs : Fs) (ex : List (List Char × Examples)) (k m : ℕ) :
    crashState P fs (writeSteps ex) k m = fs ∨ ∃ g ex1 ex2, fs.step P (.makedirs writeDir) = .ok g ∧
      g.isDir writeDir = true ∧ ex = ex1 ++ ex2 ∧ (∀ f ∈ ex1, g.isDir (target f.1) = false) ∧
      (crashState P fs (writeSteps ex) k m = puts P g ex1 ∨
        ∃ f ex3 x, ex2 = f :: ex3 ∧ g.isDir (target f.1) = false ∧ x <+: P.dump f.2 ∧
          crashState P fs (writeSteps ex) k m = (puts P g ex1).put (target f.1) x) := by
  cases k with
  | zero => exact Or.inl rfl
  | succ k =>
    cases hm : fs.step P (.makedirs writeDir) with
    | error e =>
      left
      unfold crashState
      rw [writeSteps_eq, List.take_succ_cons, run_error hm]
    | ok g =>
      have hs : crashState P fs (writeSteps ex) (k + 1) m = crashState P g (pairs ex) k m := by
        unfold crashState
        rw [writeSteps_eq, List.take_succ_cons, run_ok hm]
        rfl
      rw [hs]
      obtain ⟨_, _, ⟨hd, rfl⟩ | ⟨hd, _⟩⟩ := step_makedirs P fs g hm
      · left
        cases ex with
        | nil => simp [crashState, pairs, Fs.run]
        | cons f ex =>
          cases k with
          | zero => rfl
          | succ k =>
            have e : pairs (f :: ex) = .create (target f.1) :: .dump (target f.1) f.2 :: pairs ex := rfl
            unfold crashState
            rw [e, List.take_succ_cons, run_error (step_create_error P g f.1 (Or.inl hd))]
      · right
        obtain ⟨ex1, ex2, h1, h2, h3⟩ := crash_pairs P m ex g k hd
        exact ⟨g, ex1, ex2, rfl, hd, h1, h2, h3⟩

/-- Running all operations again after a crash. -/
theorem run_crash (P : Pickle) (fs : Fs) (ex : List (List Char × Examples)) (k m : ℕ) :
    (crashState P fs (writeSteps ex) k m).run P (writeSteps ex) = fs.run P (writeSteps ex) := by
  rcases crash_form P fs ex k m with h | ⟨g, ex1, ex2, hm, hd, rfl, hg, h⟩
  · rw [h]
  · have hr : ∀ (C : Fs), C.isDir = g.isDir → C.run P (writeSteps (ex1 ++ ex2)) = (puts P C ex1).run P (pairs ex2) := by
      intro C hC
      have e : pairs (ex1 ++ ex2) = pairs ex1 ++ pairs ex2 := by simp [pairs]
      rw [writeSteps_eq, run_ok (makedirs_again P C (by rw [hC]; exact hd)), e]
      exact run_pairs_good P ex1 (pairs ex2) C (by rw [hC]; exact hd) (by rw [hC]; exact hg)
    have hf : fs.run P (writeSteps (ex1 ++ ex2)) = (puts P g ex1).run P (pairs ex2) := by
      have e : pairs (ex1 ++ ex2) = pairs ex1 ++ pairs ex2 := by simp [pairs]
      rw [writeSteps_eq, run_ok hm, e]
      exact run_pairs_good P ex1 (pairs ex2) g hd hg
    rw [hf]
    rcases h with h | ⟨f, ex3, x, rfl, hgf, _, h⟩
    · rw [h, hr _ (isDir_puts ..), puts_again]
    · rw [h, hr _ (by rw [isDir_put, isDir_puts])]
      have e : pairs (f :: ex3) = pairs [f] ++ pairs ex3 := by simp [pairs]
      rw [e, run_pairs_good P [f] (pairs ex3) _ (by rw [isDir_puts, isDir_put, isDir_puts]; exact hd) (by
          intro f' hf'
          rw [List.mem_singleton.1 hf', isDir_puts, isDir_put, isDir_puts]
          exact hgf),
        run_pairs_good P [f] (pairs ex3) _ (by rw [isDir_puts]; exact hd) (by
          intro f' hf'
          rw [List.mem_singleton.1 hf', isDir_puts]
          exact hgf)]
      show Fs.run P ((puts P ((puts P g ex1).put (target f.1) x) ex1).put (target f.1) (P.dump f.2)) _ =
        Fs.run P ((puts P g ex1).put (target f.1) (P.dump f.2)) _
      rw [puts_over]

theorem walk_target (fs : Fs) (dir : Path) (n : List Char) (c : List Char)
    (h : (fs.key dir).isPrefixOf (fs.key writeDir) = false) : (fs.put (target n) c).walk dir = fs.walk dir :=
  walk_put fs (target n) dir c h

theorem walk_puts (P : Pickle) (dir : Path) (ex : List (List Char × Examples)) : ∀ (fs : Fs),
    (fs.key dir).isPrefixOf (fs.key writeDir) = false → (puts P fs ex).walk dir = fs.walk dir := by
  induction ex with
  | nil => intro fs _; rfl
  | cons f ex ih =>
    intro fs h
    rw [puts_cons, ih _ (by rw [put_key]; exact h), walk_target fs dir _ _ h]

/-- Directories other than the one written to are not affected. -/
theorem walk_crash (P : Pickle) (fs : Fs) (ex : List (List Char × Examples)) (k m : ℕ) (dir : Path)
    (h : (fs.key dir).isPrefixOf (fs.key writeDir) = false) :
    (crashState P fs (writeSteps ex) k m).walk dir = fs.walk dir := by
  rcases crash_form P fs ex k m with hc | ⟨g, ex1, ex2, hm, hd, rfl, hg, hc⟩
  · rw [hc]
  · obtain ⟨hf, hci, _⟩ := step_makedirs P fs g hm
    have hk := key_of_ci hci
    have hw : g.walk dir = fs.walk dir := by
      unfold Fs.walk; rw [hf, hk]
    rcases hc with hc | ⟨f, ex3, x, rfl, hgf, _, hc⟩
    · rw [hc, walk_puts P dir ex1 g (by rw [hk]; exact h), hw]
    · rw [hc, walk_target _ _ _ _ (by rw [puts_key, hk]; exact h), walk_puts P dir ex1 g (by rw [hk]; exact h), hw]

theorem prefix_source (fs : Fs) : (fs.key sourceDir).isPrefixOf (fs.key writeDir) = false := by
  unfold Fs.key
  cases fs.ci <;> decide

theorem prefix_hid (fs : Fs) : (fs.key readHidDir).isPrefixOf (fs.key writeDir) = false := by
  unfold Fs.key
  cases fs.ci <;> decide

theorem prefix_met (fs : Fs) (h : fs.ci = false) : (fs.key readMetDir).isPrefixOf (fs.key writeDir) = false := by
  unfold Fs.key
  rw [h]; decide

theorem crash_eq (S : SympyEnv) (P : Pickle) (st : PSt) (fs : Fs) (k m : ℕ) (ex : List (List Char × Examples))
    (h : S.preformatDir st fs = .ok ex) : S.crash P st fs k m = crashState P fs (writeSteps ex) k m := by
  unfold SympyEnv.crash
  rw [h]; rfl

/-- A run without a crash is the special case of a crash after the last operation. -/
theorem write_eq_crash (S : SympyEnv) (P : Pickle) (st : PSt) (fs : Fs) : ∃ k, (S.write P st fs).1 = S.crash P st fs k 0 := by
  unfold SympyEnv.write SympyEnv.crash
  split
  · exact ⟨0, rfl⟩
  · next ex _ =>
    refine ⟨(writeSteps ex).length, ?_⟩
    simp

/-! ### C81 -/

/-- What `examples_preformat_uni` gives does not depend on the written files. -/
theorem preformat_crash (S : SympyEnv) (P : Pickle) (st : PSt) (fs : Fs) (k m : ℕ) :
    S.preformatDir st (S.crash P st fs k m) = S.preformatDir st fs := by
  cases h : S.preformatDir st fs with
  | error e =>
    unfold SympyEnv.crash
    rw [h]; exact h
  | ok ex =>
    rw [crash_eq S P st fs k m ex h, ← h]
    unfold SympyEnv.preformatDir
    rw [walk_crash P fs ex k m sourceDir (prefix_source fs)]

/-- **C81**: when the program is run again after a crash at any point, the file system and the outcome are the same as if
there had been no crash. -/
theorem C81_restart (S : SympyEnv) (P : Pickle) (st : PSt) (fs : Fs) (k m : ℕ) :
    S.write P st (S.crash P st fs k m) = S.write P st fs := by
  conv_lhs => unfold SympyEnv.write
  rw [preformat_crash]
  unfold SympyEnv.write
  cases h : S.preformatDir st fs with
  | error e =>
    unfold SympyEnv.crash
    rw [h]
  | ok ex =>
    simp only
    rw [crash_eq S P st fs k m ex h, run_crash]

theorem has_puts (P : Pickle) (q : Path) (d : List Char) (ex : List (List Char × Examples)) : ∀ fs : Fs,
    (puts P fs ex).Has q d →
      (fs.Has q d ∧ ∀ f ∈ ex, ¬ SamePath fs.ci (target f.1) q) ∨ ∃ f ∈ ex, SamePath fs.ci (target f.1) q ∧ d = P.dump f.2 := by
  induction ex with
  | nil => intro fs h; exact Or.inl ⟨h, by simp⟩
  | cons f ex ih =>
    intro fs h
    rcases ih _ h with ⟨h1, h2⟩ | ⟨f', hf', h1, h2⟩
    · rw [put_ci] at h2
      rcases (has_put ..).1 h1 with ⟨h3, h4⟩ | ⟨h3, h4⟩
      · exact Or.inr ⟨f, by simp, h3, h4⟩
      · refine Or.inl ⟨h4, ?_⟩
        intro f' hf'
        rcases List.mem_cons.1 hf' with rfl | hf'
        · exact h3
        · exact h2 f' hf'
    · rw [put_ci] at h1
      exact Or.inr ⟨f', by simp [hf'], h1, h2⟩

theorem has_puts_other (P : Pickle) (q : Path) (d : List Char) (ex : List (List Char × Examples)) : ∀ fs : Fs,
    (∀ f ∈ ex, ¬ SamePath fs.ci (target f.1) q) → ((puts P fs ex).Has q d ↔ fs.Has q d) := by
  induction ex with
  | nil => intro fs _; rfl
  | cons f ex ih =>
    intro fs h
    rw [puts_cons, ih _ (by rw [put_ci]; exact fun f' hf' => h f' (by simp [hf'])), has_put]
    have := h f (by simp)
    tauto

/-- **C81**: a crash at any point leaves every file except one as it was, or with the complete examples that were to be
stored in it; the exception is a stored file with the beginning of its contents. Files that no examples are stored in are
never changed, and nothing is changed if reading or converting the examples raises an exception. -/
theorem C81_crash (S : SympyEnv) (P : Pickle) (st : PSt) (fs : Fs) (k m : ℕ) :
    ((∃ e, S.preformatDir st fs = .error e) → S.crash P st fs k m = fs) ∧
    ∀ ex, S.preformatDir st fs = .ok ex →
      (∀ q d, (∀ f ∈ ex, ¬ SamePath fs.ci (target f.1) q) → ((S.crash P st fs k m).Has q d ↔ fs.Has q d)) ∧
      ∃ p : Path, ∀ q d, (S.crash P st fs k m).Has q d →
        fs.Has q d ∨ (∃ f ∈ ex, SamePath fs.ci (target f.1) q ∧ d = P.dump f.2) ∨
        (SamePath fs.ci p q ∧ ∃ f ∈ ex, target f.1 = p ∧ d <+: P.dump f.2) := by
  refine ⟨?_, ?_⟩
  · rintro ⟨e, he⟩
    unfold SympyEnv.crash
    rw [he]
  · intro ex hex
    rw [crash_eq S P st fs k m ex hex]
    rcases crash_form P fs ex k m with hc | ⟨g, ex1, ex2, hm, hd, rfl, hg, hc⟩
    · rw [hc]
      exact ⟨fun q d _ => Iff.rfl, [], fun q d h => Or.inl h⟩
    · obtain ⟨hf, hci, _⟩ := step_makedirs P fs g hm
      have hgh : ∀ q d, g.Has q d ↔ fs.Has q d := by
        intro q d; unfold Fs.Has; rw [hf, hci]
      rcases hc with hc | ⟨f, ex3, x, rfl, hgf, hx, hc⟩
      · rw [hc]
        refine ⟨?_, [], ?_⟩
        · intro q d hq
          rw [has_puts_other P q d ex1 g (by rw [hci]; exact fun f hf => hq f (by simp [hf])), hgh]
        · intro q d h
          rcases has_puts P q d ex1 g h with ⟨h1, _⟩ | ⟨f, hf, h1, h2⟩
          · exact Or.inl ((hgh q d).1 h1)
          · rw [hci] at h1
            exact Or.inr (Or.inl ⟨f, by simp [hf], h1, h2⟩)
      · rw [hc]
        refine ⟨?_, target f.1, ?_⟩
        · intro q d hq
          rw [has_put, puts_ci, hci]
          have h1 := hq f (by simp)
          rw [has_puts_other P q d ex1 g (by rw [hci]; exact fun f hf => hq f (by simp [hf])), hgh]
          tauto
        · intro q d h
          rcases (has_put ..).1 h with ⟨h1, h2⟩ | ⟨_, h⟩
          · rw [puts_ci, hci] at h1
            exact Or.inr (Or.inr ⟨h1, f, by simp, rfl, h2 ▸ hx⟩)
          · rcases has_puts P q d ex1 g h with ⟨h1, _⟩ | ⟨f', hf', h1, h2⟩
            · exact Or.inl ((hgh q d).1 h1)
            · rw [hci] at h1
              exact Or.inr (Or.inl ⟨f', by simp [hf'], h1, h2⟩)

/-! ### C80 -/

/-- **C80**, violated on every system that distinguishes upper and lower case letters, whatever the source files, the
examples and the stored files are: `write_sympy_parseable_examples`, completed or not, changes nothing of what
`unpickle_dirs` reads and `check_examples` checks. -/
theorem C80_violated (S : SympyEnv) (P : Pickle) (st : PSt) (fs : Fs) (hci : fs.ci = false)
    (solver : List SPoly → List SPoly → List SPoly → List SPoly → Except Err Bool) :
    unpickleDirs P (S.write P st fs).1 = unpickleDirs P fs ∧
    checkStored P solver (S.write P st fs).1 = checkStored P solver fs := by
  obtain ⟨k, hk⟩ := write_eq_crash S P st fs
  rw [hk]
  cases h : S.preformatDir st fs with
  | error e =>
    have : S.crash P st fs k 0 = fs := by unfold SympyEnv.crash; rw [h]
    rw [this]
    exact ⟨rfl, rfl⟩
  | ok ex =>
    rw [crash_eq S P st fs k 0 ex h]
    have h1 := walk_crash P fs ex k 0 readMetDir (prefix_met fs hci)
    have h2 := walk_crash P fs ex k 0 readHidDir (prefix_hid fs)
    unfold unpickleDirs unpickleFromDir checkStored unpickleGen
    rw [h1, h2]
    exact ⟨rfl, rfl⟩

theorem run_ok_form (P : Pickle) (fs fs' : Fs) (ex : List (List Char × Examples)) (h : fs.run P (writeSteps ex) = (fs', .ok ())) :
    ∃ g, g.files = fs.files ∧ g.ci = fs.ci ∧ fs' = puts P g ex := by
  cases hm : fs.step P (.makedirs writeDir) with
  | error e =>
    rw [writeSteps_eq, run_error hm] at h
    cases h
  | ok g =>
    obtain ⟨h1, h2, h3⟩ := step_makedirs P fs g hm
    rw [writeSteps_eq, run_ok hm] at h
    refine ⟨g, h1, h2, ?_⟩
    have h4 : g.isDir writeDir = false ∨ g.isDir writeDir = true := by
      cases g.isDir writeDir <;> simp
    clear h3
    rcases h4 with hd | hd
    · cases ex with
      | nil => cases h; rfl
      | cons f ex =>
        rw [run_pairs_bad P g f ex (Or.inl hd)] at h
        cases h
    · clear hm h1 h2
      induction ex generalizing g with
      | nil => cases h; rfl
      | cons f ex ih =>
        cases hb : g.isDir (target f.1) with
        | true =>
          rw [run_pairs_bad P g f ex (Or.inr hb)] at h
          cases h
        | false =>
          have e : pairs (f :: ex) = pairs [f] ++ pairs ex := by simp [pairs]
          rw [e, run_pairs_good P [f] (pairs ex) g hd (by
            intro f' hf'; rw [List.mem_singleton.1 hf']; exact hb)] at h
          have hp : puts P g [f] = g.put (target f.1) (P.dump f.2) := rfl
          rw [hp] at h
          rw [puts_cons]
          exact ih _ h (by rw [isDir_put]; exact hd)

theorem has_puts_distinct (P : Pickle) (ex : List (List Char × Examples)) : ∀ fs : Fs,
    ex.Pairwise (fun a b => ¬ SamePath fs.ci (target a.1) (target b.1)) →
    ∀ f ∈ ex, ∀ d, (puts P fs ex).Has (target f.1) d ↔ d = P.dump f.2 := by
  induction ex with
  | nil => intro fs _ f hf; simp at hf
  | cons f ex ih =>
    intro fs hp f' hf' d
    rw [List.pairwise_cons] at hp
    rw [puts_cons]
    rcases List.mem_cons.1 hf' with rfl | hf'
    · rw [has_puts_other P _ d ex _ (by
        rw [put_ci]
        intro g hg hh
        exact hp.1 g hg ((key_iff ..).1 ((key_iff fs ..).2 hh).symm)), has_put]
      have : SamePath fs.ci (target f'.1) (target f'.1) := (key_iff ..).1 rfl
      tauto
    · exact ih _ (by rw [put_ci]; exact hp.2) f' hf' d

theorem dictSet_nodup {α β : Type} [DecidableEq α] (d : List (α × β)) (k : α) (v : β) (h : (d.map Prod.fst).Nodup) :
    ((dictSet d k v).map Prod.fst).Nodup := by
  unfold dictSet
  split
  · have e : (d.map fun e => if e.1 = k then (k, v) else e).map Prod.fst = d.map Prod.fst := by
      rw [List.map_map]
      apply List.map_congr_left
      intro e _
      simp only [Function.comp]
      split
      · next h => exact h.symm
      · rfl
    rw [e]; exact h
  · next hn =>
    rw [List.map_append, List.nodup_append]
    refine ⟨h, by simp, ?_⟩
    intro a ha b hb hab
    simp only [List.map_cons, List.map_nil, List.mem_singleton] at hb
    subst hb hab
    obtain ⟨e, he, hee⟩ := List.mem_map.1 ha
    exact hn (List.any_eq_true.2 ⟨e, he, by simpa using hee⟩)

theorem parseFiles_nodup : ∀ (files : List (List Char × List Char)) (st st' : PSt) (ret ret' : List (List Char × List Sequent)),
    parseFiles st files ret = .ok (st', ret') → (ret.map Prod.fst).Nodup → (ret'.map Prod.fst).Nodup := by
  intro files
  induction files with
  | nil => intro st st' ret ret' h hn; cases h; exact hn
  | cons f files ih =>
    intro st st' ret ret' h hn
    obtain ⟨name, text⟩ := f
    unfold parseFiles at h
    split at h
    · cases h
    · exact ih _ _ _ _ h (dictSet_nodup _ _ _ hn)

theorem preformatUni_names (S : SympyEnv) : ∀ (files : List (List Char × List Sequent)) (ex : List (List Char × Examples)),
    S.preformatUni files = .ok ex → ex.map Prod.fst = files.map Prod.fst := by
  intro files
  induction files with
  | nil => intro ex h; cases h; rfl
  | cons f files ih =>
    intro ex h
    unfold SympyEnv.preformatUni at h ih
    rw [List.mapM_cons] at h
    cases h1 : f.2.mapM S.example1 with
    | error e => rw [h1] at h; cases h
    | ok l =>
      rw [h1] at h
      simp only [bind, Except.bind, pure, Except.pure] at h
      split at h
      · cases h
      · next v hv =>
        cases h
        rw [List.map_cons, List.map_cons]
        rw [ih v hv]

/-- The names of the converted files are those of the files below the source directory, each once. -/
theorem preformatDir_names (S : SympyEnv) (st : PSt) (fs : Fs) (ex : List (List Char × Examples))
    (h : S.preformatDir st fs = .ok ex) : (ex.map Prod.fst).Nodup ∧
      ∀ n, n ∈ ex.map Prod.fst ↔ ∃ f ∈ fs.walk sourceDir, f.1.getLastD [] = n := by
  unfold SympyEnv.preformatDir at h
  cases h1 : parseFiles st ((fs.walk sourceDir).map fun f => (baseName f.1, f.2)) [] with
  | error e => rw [h1] at h; cases h
  | ok r =>
    rw [h1] at h
    have h2 := preformatUni_names S r.2 ex h
    rw [h2]
    refine ⟨parseFiles_nodup _ _ _ _ _ h1 (by simp), ?_⟩
    intro n
    rw [(C78_files _ _ _ _ h1).1]
    simp [baseName]

theorem target_inj {a b : List Char} (h : target a = target b) : a = b := by
  unfold target at h
  simpa using h

/-- **C80**, what holds of writing: if it ends normally, then for each file below the source directory there is a file with
`.pkl` added to its name below `Examples/Metitarski`, which contains just its examples, and all other files are as before.
(On a system that ignores case, for names that differ not only in case.) -/
theorem C80_written (S : SympyEnv) (P : Pickle) (hP : P.OK) (st : PSt) (fs fs' : Fs) (h : S.write P st fs = (fs', .ok ())) :
    ∃ ex, S.preformatDir st fs = .ok ex ∧
      ((fs.ci = true → ex.Pairwise fun a b => a.1.map Char.toLower ≠ b.1.map Char.toLower) →
        ∀ f ∈ ex, ∃ c, (∀ d, fs'.Has (target f.1) d ↔ d = c) ∧ P.load c = .ok f.2) ∧
      ∀ q d, (∀ f ∈ ex, ¬ SamePath fs.ci (target f.1) q) → (fs'.Has q d ↔ fs.Has q d) := by
  unfold SympyEnv.write at h
  cases hex : S.preformatDir st fs with
  | error e => rw [hex] at h; cases h
  | ok ex =>
    rw [hex] at h
    obtain ⟨g, h1, h2, rfl⟩ := run_ok_form P fs fs' ex h
    have hgh : ∀ q d, g.Has q d ↔ fs.Has q d := by
      intro q d; unfold Fs.Has; rw [h1, h2]
    refine ⟨ex, rfl, ?_, ?_⟩
    · intro hci f hf
      refine ⟨_, has_puts_distinct P ex g ?_ f hf, hP _⟩
      rw [h2]
      cases hc : fs.ci with
      | true =>
        refine (hci hc).imp ?_
        intro a b hab hh
        apply hab
        unfold SamePath target at hh
        rw [if_pos rfl] at hh
        simp only [List.map_cons, List.map_nil, List.cons.injEq, true_and, and_true, List.map_append] at hh
        exact List.append_cancel_right hh
      | false =>
        have := (preformatDir_names S st fs ex hex).1
        rw [List.Nodup, List.pairwise_map] at this
        refine this.imp ?_
        intro a b hab hh
        unfold SamePath at hh
        rw [if_neg (by decide)] at hh
        exact hab (target_inj hh)
    · intro q d hq
      rw [has_puts_other P q d ex g (by rw [h2]; exact hq), hgh]

theorem prefix_iff (fs : Fs) (d p : Path) :
    (fs.key d).isPrefixOf (fs.key p) = true ↔ ∃ a b, p = a ++ b ∧ SamePath fs.ci a d := by
  rw [List.isPrefixOf_iff_prefix]
  unfold Fs.key SamePath
  cases fs.ci with
  | false =>
    simp only [Bool.false_eq_true, if_false]
    exact ⟨fun ⟨b, e⟩ => ⟨d, b, e.symm, rfl⟩, fun ⟨a, b, e, h⟩ => ⟨b, by rw [e, h]⟩⟩
  | true =>
    simp only [if_true]
    constructor
    · rintro ⟨b, e⟩
      obtain ⟨a, b', rfl, h1, _⟩ := List.map_eq_append_iff.1 e.symm
      exact ⟨a, b', rfl, h1⟩
    · rintro ⟨a, b, rfl, h⟩
      rw [List.map_append, h]
      exact List.prefix_append _ _

/-- **C80**, which files are converted: those at any depth below `../GRF/Examples/MetiTarski`, each name once. -/
theorem C80_sources (S : SympyEnv) (st : PSt) (fs : Fs) (ex : List (List Char × Examples))
    (h : S.preformatDir st fs = .ok ex) : (ex.map Prod.fst).Nodup ∧
      ∀ n, n ∈ ex.map Prod.fst ↔ ∃ f ∈ fs.files, f.1.getLastD [] = n ∧ ∃ a b, f.1.dropLast = a ++ b ∧
        SamePath fs.ci a ["..".toList, "GRF".toList, "Examples".toList, "MetiTarski".toList] := by
  obtain ⟨h1, h2⟩ := preformatDir_names S st fs ex h
  refine ⟨h1, fun n => ?_⟩
  rw [h2]
  unfold Fs.walk
  simp only [List.mem_filter, prefix_iff]
  unfold sourceDir
  exact ⟨fun ⟨f, ⟨h1, h2⟩, h3⟩ => ⟨f, h1, h3, h2⟩, fun ⟨f, h1, h3, h2⟩ => ⟨f, ⟨h1, h2⟩, h3⟩⟩

theorem puts_fresh (P : Pickle) (ex : List (List Char × Examples)) : ∀ fs : Fs,
    ex.Pairwise (fun a b => fs.key (target a.1) ≠ fs.key (target b.1)) → (∀ f ∈ ex, fs.isFile (target f.1) = false) →
    puts P fs ex = { fs with files := fs.files ++ ex.map fun f => (target f.1, P.dump f.2) } := by
  induction ex with
  | nil => intro fs _ _; simp [puts]
  | cons f ex ih =>
    intro fs hp hf
    rw [List.pairwise_cons] at hp
    have h1 : fs.put (target f.1) (P.dump f.2) = { fs with files := fs.files ++ [(target f.1, P.dump f.2)] } := by
      unfold Fs.put
      rw [if_neg (by rw [hf f (by simp)]; decide)]
    rw [puts_cons, ih _ (by rw [put_key]; exact hp.2) ?_, h1]
    · simp
    · intro g hg
      rw [← Bool.not_eq_true, isFile_put]
      rintro (h | h)
      · exact hp.1 g hg h
      · rw [hf g (by simp [hg])] at h
        cases h

theorem unpickle_fold (P : Pickle) (hP : P.OK) (ex : List (List Char × Examples)) :
    ∀ ret : List (List Char × Examples), ((ret ++ ex.map fun f => (f.1 ++ ".pkl".toList, f.2)).map Prod.fst).Nodup →
    (ex.map fun f => (target f.1, P.dump f.2)).foldlM (fun ret f => do
      let c ← P.load f.2
      return dictSet ret (baseName f.1) c) ret = (.ok (ret ++ ex.map fun f => (f.1 ++ ".pkl".toList, f.2)) : Except Err _) := by
  induction ex with
  | nil => intro ret _; simp [pure, Except.pure]
  | cons f ex ih =>
    intro ret hn
    rw [List.map_cons, List.foldlM_cons, hP]
    have hb : baseName (target f.1) = f.1 ++ ".pkl".toList := rfl
    have hd : dictSet ret (baseName (target f.1)) f.2 = ret ++ [(f.1 ++ ".pkl".toList, f.2)] := by
      unfold dictSet
      rw [if_neg, hb]
      rw [hb, List.any_eq_true]
      rintro ⟨e, he, hee⟩
      rw [List.map_append, List.nodup_append] at hn
      exact hn.2.2 e.1 (List.mem_map_of_mem he) (f.1 ++ ".pkl".toList) (by simp) (by simpa using hee)
    have := ih (ret ++ [(f.1 ++ ".pkl".toList, f.2)]) (by simpa using hn)
    simp only [bind, Except.bind, pure, Except.pure] at this ⊢
    rw [hd, this]
    simp

theorem set_first {α β : Type} [DecidableEq α] {a b : α} (h : ¬ b = a) {x y v : β} :
    ([(a, x), (b, v)].map fun e => if e.1 = a then (e.1, y) else e) = [(a, y), (b, v)] := by
  simp [h]

/-- What holds instead of **C80**: on a system that does not distinguish upper and lower case letters, if nothing was stored
before and the names of the source files differ not only in case, then after writing `unpickle_dirs` gives the examples of
each source file, under its name with `.pkl` added, besides the files in `Examples/HidingProblems`. Missing: systems that
distinguish case, and the names of the files. -/
theorem C80_partial (S : SympyEnv) (P : Pickle) (hP : P.OK) (st : PSt) (fs fs' : Fs) (hci : fs.ci = true)
    (hfresh : ∀ f ∈ fs.files, ¬ (["examples".toList, "metitarski".toList] : Path) <+: f.1.map fun n => n.map Char.toLower)
    (h : S.write P st fs = (fs', .ok ())) (ex : List (List Char × Examples)) (hex : S.preformatDir st fs = .ok ex)
    (hn : ex.Pairwise fun a b => a.1.map Char.toLower ≠ b.1.map Char.toLower)
    (r : List (List Char × List (List Char × Examples))) (hr : unpickleDirs P fs = .ok r) :
    r.lookup "Metitarski".toList = some [] ∧
    unpickleDirs P fs' = .ok (r.map fun e =>
      if e.1 = "Metitarski".toList then (e.1, ex.map fun f => (f.1 ++ ".pkl".toList, f.2)) else e) := by
  unfold SympyEnv.write at h
  rw [hex] at h
  obtain ⟨g, h1, h2, rfl⟩ := run_ok_form P fs fs' ex h
  have hk := key_of_ci h2
  have hkey : ∀ p, fs.key p = p.map fun n => n.map Char.toLower := by
    intro p; unfold Fs.key; rw [if_pos hci]
  have hpw : ex.Pairwise (fun a b => g.key (target a.1) ≠ g.key (target b.1)) := by
    refine hn.imp ?_
    intro a b hab hh
    apply hab
    rw [hk, hkey, hkey] at hh
    unfold target at hh
    simp only [List.map_cons, List.map_nil, List.cons.injEq, true_and, and_true, List.map_append] at hh
    exact List.append_cancel_right hh
  have hnf : ∀ f ∈ ex, g.isFile (target f.1) = false := by
    intro f _
    rw [← Bool.not_eq_true, isFile_iff]
    rintro ⟨e, he, hee⟩
    rw [hk, hkey, hkey] at hee
    rw [h1] at he
    refine hfresh e he ?_
    rw [hee]
    exact ⟨[(f.1 ++ ".pkl".toList).map Char.toLower], rfl⟩
  have hw0 : fs.walk readMetDir = [] := by
    unfold Fs.walk
    rw [List.filter_eq_nil_iff]
    intro f hf hh
    rw [hkey, hkey, List.isPrefixOf_iff_prefix] at hh
    refine hfresh f hf ?_
    have h0 : (readMetDir.map fun n => n.map Char.toLower) = (["examples".toList, "metitarski".toList] : Path) := by decide
    rw [← h0]
    exact List.IsPrefix.trans hh ((List.dropLast_prefix f.1).map _)
  have hwm : (puts P g ex).walk readMetDir = ex.map fun f => (target f.1, P.dump f.2) := by
    rw [puts_fresh P ex g hpw hnf]
    unfold Fs.walk at hw0 ⊢
    have hk' : (Fs.mk g.ci g.dirs (g.files ++ ex.map fun f => (target f.1, P.dump f.2))).key = fs.key := key_of_ci h2
    rw [hk']
    simp only [List.filter_append, h1, hw0, List.nil_append]
    rw [List.filter_eq_self]
    intro f hf
    obtain ⟨e, _, rfl⟩ := List.mem_map.1 hf
    have hw : (target e.1).dropLast = writeDir := rfl
    simp only [hw, hkey]
    decide
  have hwh : (puts P g ex).walk readHidDir = fs.walk readHidDir := by
    rw [walk_puts P readHidDir ex g (prefix_hid g)]
    unfold Fs.walk
    rw [hk, h1]
  have hnd : ((([] : List (List Char × Examples)) ++ ex.map fun f => (f.1 ++ ".pkl".toList, f.2)).map Prod.fst).Nodup := by
    rw [List.nil_append, List.map_map, List.Nodup, List.pairwise_map]
    refine hn.imp ?_
    intro a b hab hh
    apply hab
    rw [List.append_cancel_right hh]
  have hne : ¬ "HidingProblems".toList = "Metitarski".toList := by decide
  unfold unpickleDirs unpickleFromDir at hr ⊢
  rw [hw0] at hr
  rw [hwm, hwh, unpickle_fold P hP ex [] hnd]
  rw [List.foldlM_nil] at hr
  simp only [bind, Except.bind, pure, Except.pure, List.nil_append] at hr ⊢
  split at hr
  · cases hr
  · next v hv =>
    cases hr
    refine ⟨rfl, ?_⟩
    rw [set_first hne]

/-! ### C82 -/

/-- **C82**, violated: a stored file that cannot be loaded makes `check_examples` fail although it is the fourth, which is
never checked. -/
theorem C82_violated (P : Pickle) (solver : List SPoly → List SPoly → List SPoly → List SPoly → Except Err Bool) (fs : Fs)
    (c1 c2 c3 c4 : List Char) (rest : List (List Char)) (e : Err) (res : List (ResultKey × Bool))
    (hfs : unpickleGen fs = c1 :: c2 :: c3 :: c4 :: rest) (h4 : P.load c4 = .error e)
    (h123 : checkFiles P solver 0 [c1, c2, c3] [] = .ok res) : checkStored P solver fs = .error e := by
  have : ∀ (cs : List (List Char)) (i : ℕ) (r r' : List (ResultKey × Bool)), i + cs.length = 3 →
      checkFiles P solver i cs r = .ok r' → checkFiles P solver i (cs ++ c4 :: rest) r = .error e := by
    intro cs
    induction cs with
    | nil =>
      intro i r r' _ _
      simp only [List.nil_append, checkFiles, h4]
      rfl
    | cons c cs ih =>
      intro i r r' hi h
      rw [List.length_cons] at hi
      rw [List.cons_append]
      unfold checkFiles at h ⊢
      simp only [bind, Except.bind] at h ⊢
      split at h
      · cases h
      · rw [if_neg (by omega)] at h ⊢
        split at h
        · cases h
        · exact ih _ _ _ (by omega) h
  unfold checkStored
  rw [hfs]
  rw [show c1 :: c2 :: c3 :: c4 :: rest = [c1, c2, c3] ++ c4 :: rest from rfl, this [c1, c2, c3] 0 [] res rfl h123]
  rfl

/-- What holds instead of **C82**: only the first four stored files matter, those below `Examples/MetiTarski` first; and if
these can be loaded, the outcome is that of checking the examples of the first three. Missing: the fourth file must not
matter. -/
theorem C82_partial (P : Pickle) (solver : List SPoly → List SPoly → List SPoly → List SPoly → Except Err Bool) (fs : Fs) :
    (∀ fs' : Fs, (unpickleGen fs').take 4 = (unpickleGen fs).take 4 → checkStored P solver fs' = checkStored P solver fs) ∧
    ∀ l : List (String × Examples), ((unpickleGen fs).take 4).mapM P.load = .ok (l.map Prod.snd) →
      checkStored P solver fs = checkExamples solver l := by
  have key : ∀ (cs cs' : List (List Char)) (i : ℕ) (r : List (ResultKey × Bool)), cs.take (4 - i) = cs'.take (4 - i) →
      i ≤ 3 → checkFiles P solver i cs r = checkFiles P solver i cs' r := by
    intro cs
    induction cs with
    | nil =>
      intro cs' i r h hi
      cases cs' with
      | nil => rfl
      | cons c cs' =>
        obtain ⟨j, hj⟩ : ∃ j, 4 - i = j + 1 := ⟨3 - i, by omega⟩
        rw [hj] at h
        simp at h
    | cons c cs ih =>
      intro cs' i r h hi
      obtain ⟨j, hj⟩ : ∃ j, 4 - i = j + 1 := ⟨3 - i, by omega⟩
      cases cs' with
      | nil =>
        rw [hj] at h
        simp at h
      | cons c' cs' =>
        rw [hj, List.take_succ_cons, List.take_succ_cons] at h
        simp only [List.cons.injEq] at h
        obtain ⟨rfl, h⟩ := h
        unfold checkFiles
        simp only [bind, Except.bind]
        split
        · rfl
        · by_cases h3 : i > 2
          · rw [if_pos h3, if_pos h3]
          · rw [if_neg h3, if_neg h3]
            split
            · rfl
            · exact ih cs' (i + 1) _ (by rw [show 4 - (i + 1) = j by omega]; exact h) (by omega)
  refine ⟨?_, ?_⟩
  · intro fs' h
    unfold checkStored
    rw [key _ _ 0 [] h (by omega)]
  · intro l hl
    have key2 : ∀ (cs : List (List Char)) (l : List (String × Examples)) (i : ℕ) (r : List (ResultKey × Bool)), i ≤ 3 →
        (cs.take (4 - i)).mapM P.load = .ok (l.map Prod.snd) →
        checkFiles P solver i cs r = (l.take (3 - i)).foldlM (fun res f =>
          f.2.foldlM (fun res ex => do
            let v ← checkExample solver ex.1 ex.2
            .ok (if v then res else dictSet res .builtinFile v)) res) r := by
      intro cs
      induction cs with
      | nil =>
        intro l i r hi h
        cases l with
        | nil => simp [checkFiles, pure, Except.pure]
        | cons f l =>
          rw [List.take_nil, List.mapM_nil] at h
          cases h
      | cons c cs ih =>
        intro l i r hi h
        obtain ⟨j, hj⟩ : ∃ j, 4 - i = j + 1 := ⟨3 - i, by omega⟩
        rw [hj, List.take_succ_cons, List.mapM_cons] at h
        cases hc : P.load c with
        | error e => rw [hc] at h; cases h
        | ok x =>
          rw [hc] at h
          cases hm : (cs.take j).mapM P.load with
          | error e => rw [hm] at h; cases h
          | ok xs =>
            rw [hm] at h
            cases l with
            | nil => cases h
            | cons f l =>
              simp only [bind, Except.bind, pure, Except.pure, List.map_cons, Except.ok.injEq, List.cons.injEq] at h
              obtain ⟨rfl, rfl⟩ := h
              unfold checkFiles
              rw [hc]
              simp only [bind, Except.bind]
              by_cases h3 : i > 2
              · rw [if_pos h3, show 3 - i = 0 by omega, List.take_zero]; rfl
              · rw [if_neg h3]
                obtain ⟨j', hj'⟩ : ∃ j', 3 - i = j' + 1 := ⟨2 - i, by omega⟩
                rw [hj', List.take_succ_cons, List.foldlM_cons]
                simp only [bind, Except.bind]
                split
                · rfl
                · next v he =>
                  have := ih l (i + 1) v (by omega) (by rw [show 4 - (i + 1) = j by omega]; exact hm)
                  rw [show 3 - (i + 1) = j' by omega] at this
                  exact this
    unfold checkStored checkExamples
    rw [key2 _ l 0 [] (by omega) hl]

/-- **C82**, which files these are: those below `Examples/MetiTarski` come before those below `Examples/HidingProblems`. If
there are four files of the first kind, those of the second kind have no influence. -/
theorem C82_order (P : Pickle) (solver : List SPoly → List SPoly → List SPoly → List SPoly → Except Err Bool) (fs fs' : Fs)
    (hci : fs.ci = fs'.ci) (below : Path × List Char → Prop)
    (hb : ∀ f, below f ↔ ∃ a b, f.1.dropLast = a ++ b ∧ SamePath fs.ci a ["Examples".toList, "MetiTarski".toList])
    [DecidablePred below] (h4 : 4 ≤ (fs.files.filter fun f => below f).length)
    (hf : (fs'.files.filter fun f => below f) = fs.files.filter fun f => below f) :
    checkStored P solver fs' = checkStored P solver fs := by
  have hw : ∀ g : Fs, g.ci = fs.ci → g.walk readMetDir = g.files.filter fun f => below f := by
    intro g hg
    unfold Fs.walk
    apply List.filter_congr
    intro f _
    rw [Bool.eq_iff_iff, prefix_iff, decide_eq_true_iff, hb, hg]
    rfl
  apply (C82_partial P solver fs).1 fs'
  unfold unpickleGen
  rw [List.map_append, List.map_append, hw fs rfl, hw fs' hci.symm, hf]
  rw [List.take_append_of_le_length (by simpa using h4), List.take_append_of_le_length (by simpa using h4)]

/-! ### Concrete cases -/

/-- One source file, with the sequent `x < 3 ⊢ x * x <= 9`, which is not valid. -/
def oneFile (ci : Bool) : Fs :=
  ⟨ci, [sourceDir], [(sourceDir ++ ["a.trace".toList], oneVariableText)]⟩

/-- the examples in it -/
def oneExamples : Examples :=
  [([.rel ⟨.lt, .expr [(.rat 1, 1), (.rat (-3), 0)], .number (.rat 0)⟩],
    [.rel ⟨.le, .expr [(.rat 1, 2), (.rat (-9), 0)], .number (.rat 0)⟩])]

instance : DecidableEq (List Char × Examples) := instDecidableEqProd

theorem oneFile_read (ci : Bool) : sampleEnv.preformatDir ⟨[], 0⟩ (oneFile ci) = .ok [("a.trace".toList, oneExamples)] := by
  have h : (sampleEnv.preformatDir ⟨[], 0⟩ (oneFile ci)).toOption = some [("a.trace".toList, oneExamples)] := by
    cases ci <;> decide +kernel
  cases hx : sampleEnv.preformatDir ⟨[], 0⟩ (oneFile ci) with
  | error e => rw [hx] at h; cases h
  | ok ex =>
    rw [hx] at h
    cases h
    rfl

deriving instance Encodable for PyCoef
deriving instance Encodable for SPoly
deriving instance Encodable for RelKind
deriving instance Encodable for Rel
deriving instance Encodable for PyRel

/-- a faithful way to store examples -/
def tally : Pickle :=
  ⟨fun l => List.replicate (Encodable.encode l + 1) 'x', fun c =>
    match c with
    | [] => .error .unpickle
    | _ :: c =>
      match (Encodable.decode c.length : Option Examples) with
      | some l => .ok l
      | none => .error .unpickle⟩

theorem tally_ok : tally.OK := by
  intro l
  simp [tally, List.replicate_succ]

theorem oneFile_write (ci : Bool) (P : Pickle) : ∃ fs', sampleEnv.write P ⟨[], 0⟩ (oneFile ci) = (fs', .ok ()) := by
  unfold SympyEnv.write
  rw [oneFile_read]
  have hm : ∃ g, (oneFile ci).step P (.makedirs writeDir) = .ok g := by
    cases ci <;> exact ⟨_, rfl⟩
  obtain ⟨g, hg⟩ := hm
  refine ⟨puts P g [("a.trace".toList, oneExamples)], ?_⟩
  have hgg : g.isDir writeDir = true ∧ g.isDir (target "a.trace".toList) = false := by
    cases ci <;> (cases hg; decide +kernel)
  simp only
  have e : writeSteps [("a.trace".toList, oneExamples)] = .makedirs writeDir :: (pairs [("a.trace".toList, oneExamples)] ++ []) := rfl
  rw [e, run_ok hg, run_pairs_good P _ _ g hgg.1 (by intro f hf; rw [List.mem_singleton.1 hf]; exact hgg.2)]
  rfl

-- C80: a sequent is written; where case matters it is not found again (and `check_examples` prints nothing), otherwise it is
example : (∃ r, unpickleDirs tally (sampleEnv.write tally ⟨[], 0⟩ (oneFile false)).1 = .ok r ∧
      r.lookup "Metitarski".toList = some []) ∧
    (∀ solver, checkStored tally solver (sampleEnv.write tally ⟨[], 0⟩ (oneFile false)).1 = .ok []) ∧
    ∃ r, unpickleDirs tally (sampleEnv.write tally ⟨[], 0⟩ (oneFile true)).1 = .ok r ∧
      r.lookup "Metitarski".toList = some [("a.trace.pkl".toList, oneExamples)] := by
  have hw : ∀ ci, (oneFile ci).walk readMetDir = [] ∧ (oneFile ci).walk readHidDir = [] := by
    intro ci; cases ci <;> decide +kernel
  have hu : ∀ ci, unpickleDirs tally (oneFile ci) = .ok [("Metitarski".toList, []), ("HidingProblems".toList, [])] := by
    intro ci
    unfold unpickleDirs unpickleFromDir
    rw [(hw ci).1, (hw ci).2]; rfl
  refine ⟨⟨_, (C80_violated sampleEnv tally ⟨[], 0⟩ (oneFile false) rfl (fun _ _ _ _ => .ok true)).1.trans (hu false), rfl⟩, ?_, ?_⟩
  · intro solver
    rw [(C80_violated sampleEnv tally ⟨[], 0⟩ (oneFile false) rfl solver).2]
    unfold checkStored unpickleGen
    rw [(hw false).1, (hw false).2]; rfl
  · obtain ⟨fs', h⟩ := oneFile_write true tally
    have h1 := C80_partial sampleEnv tally tally_ok ⟨[], 0⟩ (oneFile true) fs' rfl (by decide +kernel) h _ (oneFile_read true)
      (by simp) _ (hu true)
    rw [h]
    exact ⟨_, h1.2, rfl⟩

-- C82_order: four files below `Examples/MetiTarski`, one of them deeper, and one or no hiding problem
example : ∀ l : List (Path × List Char), l = [] ∨ l = [(["Examples".toList, "HidingProblems".toList, "h".toList], [])] →
    ∀ ci, 4 ≤ ((⟨ci, [], l ++ [(["Examples".toList, "MetiTarski".toList, "a".toList], []),
      (["Examples".toList, "MetiTarski".toList, "b".toList], []), (["Examples".toList, "MetiTarski".toList, "c".toList], []),
      (["Examples".toList, "MetiTarski".toList, "deep".toList, "d".toList], [])]⟩ : Fs).walk readMetDir).length := by
  rintro l (rfl | rfl) ci <;> cases ci <;> decide +kernel

-- C80_sources: one file is found
example (ci : Bool) : ∃ ex, sampleEnv.preformatDir ⟨[], 0⟩ (oneFile ci) = .ok ex ∧ ex.map Prod.fst = ["a.trace".toList] :=
  ⟨_, oneFile_read ci, rfl⟩

-- C80_written, C81: the hypotheses are met, also in the middle of the file
example (k m : ℕ) : ∃ fs', sampleEnv.write tally ⟨[], 0⟩ (sampleEnv.crash tally ⟨[], 0⟩ (oneFile false) k m) = (fs', .ok ()) ∧
    ∃ c, (∀ d, fs'.Has (target "a.trace".toList) d ↔ d = c) ∧ tally.load c = .ok oneExamples := by
  obtain ⟨fs', h⟩ := oneFile_write false tally
  refine ⟨fs', (C81_restart ..).trans h, ?_⟩
  obtain ⟨ex, hex, h1, _⟩ := C80_written sampleEnv tally tally_ok ⟨[], 0⟩ (oneFile false) fs' h
  rw [oneFile_read] at hex
  cases hex
  exact h1 (by intro hh; cases hh) _ (List.mem_singleton.2 rfl)

-- a crash in the middle of the file leaves one that cannot be loaded
example : ((sampleEnv.crash tally ⟨[], 0⟩ (oneFile true) 2 0).Has (target "a.trace".toList) []) ∧
    (unpickleDirs tally (sampleEnv.crash tally ⟨[], 0⟩ (oneFile true) 2 0)).toOption = none := by
  have hm : ∃ g, (oneFile true).step tally (.makedirs writeDir) = .ok g := ⟨_, rfl⟩
  obtain ⟨g, hg⟩ := hm
  have hgg : g.isDir writeDir = true ∧ g.isDir (target "a.trace".toList) = false ∧ g.ci = true ∧
      g.files = [(sourceDir ++ ["a.trace".toList], oneVariableText)] := by
    cases hg; decide +kernel
  have hC : sampleEnv.crash tally ⟨[], 0⟩ (oneFile true) 2 0 = g.put (target "a.trace".toList) [] := by
    rw [crash_eq _ _ _ _ _ _ _ (oneFile_read true)]
    unfold crashState
    have e : (writeSteps [("a.trace".toList, oneExamples)]).take 2 = [.makedirs writeDir, .create (target "a.trace".toList)] := rfl
    rw [e, run_ok hg, run_ok (step_create tally g _ hgg.1 hgg.2.1)]
    show (g.put (target "a.trace".toList) []).put (target "a.trace".toList) [] = _
    rw [put_put]
  rw [hC]
  refine ⟨(has_put ..).2 (Or.inl ⟨(key_iff g ..).1 rfl, rfl⟩), ?_⟩
  have hw : (g.put (target "a.trace".toList) []).walk readMetDir = [(target "a.trace".toList, [])] := by
    obtain ⟨ci, dirs, files⟩ := g
    obtain ⟨_, _, h1, h2⟩ := hgg
    simp only at h1 h2
    subst h1 h2
    rfl
  unfold unpickleDirs unpickleFromDir
  rw [hw]
  rfl

-- C82: three stored files without examples, and a fourth that is not a stored object
example (solver : List SPoly → List SPoly → List SPoly → List SPoly → Except Err Bool) :
    checkStored tally solver ⟨false, [], (["1", "2", "3"].map fun n => (readMetDir ++ [n.toList], tally.dump [])) ++
      [(readMetDir ++ ["4".toList], [])]⟩ = .error .unpickle := by
  refine C82_violated tally solver _ (tally.dump []) (tally.dump []) (tally.dump []) [] [] .unpickle [] rfl rfl ?_
  simp [checkFiles, tally_ok [], bind, Except.bind, pure, Except.pure]

end Verif.Vts
