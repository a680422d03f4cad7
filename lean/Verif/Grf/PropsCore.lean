import Verif.Grf.PropsCad
import Verif.Grf.PropsLoop

/-!
# C57: soundness of the sampling core in one variable
-/

set_option linter.unusedSectionVars false

namespace Verif.Grf

open Verif.Alg

variable {K : Type} [Field K] [LinearOrder K] [IsStrictOrderedRing K]

/-! ### Samples in every sector -/

/-- Isolating intervals for a set. -/
structure Isolates (Z : Set K) (l : List (ℚ × ℚ)) : Prop where
  cover : ∀ z ∈ Z, ∃ I ∈ l, (I.1 : K) ≤ z ∧ z ≤ I.2
  has : ∀ I ∈ l, ∃ z ∈ Z, (I.1 : K) ≤ z ∧ z ≤ I.2
  uniq : ∀ I ∈ l, ∀ z ∈ Z, ∀ z' ∈ Z, (I.1 : K) ≤ z → z ≤ I.2 → (I.1 : K) ≤ z' → z' ≤ I.2 → z = z'
  sep : l.Pairwise fun I J => I.2 ≤ J.1 ∨ J.2 ≤ I.1

theorem ivlLe_iff {a b : ℚ × ℚ} : ivlLe a b = true ↔ a.1 < b.1 ∨ a.1 = b.1 ∧ a.2 ≤ b.2 := by
  simp [ivlLe]

theorem Isolates.sorted {Z : Set K} {l : List (ℚ × ℚ)} (h : Isolates Z l) :
    (∀ I, I ∈ l.insertionSort (fun a b => ivlLe a b = true) ↔ I ∈ l) ∧
    (l.insertionSort fun a b => ivlLe a b = true).Pairwise fun I J => I.2 ≤ J.1 := by
  have i1 : IsTrans (ℚ × ℚ) fun a b => ivlLe a b = true := ⟨fun a b c h1 h2 => by
    rw [ivlLe_iff] at *
    rcases h1 with h1 | ⟨h1, h1'⟩ <;> rcases h2 with h2 | ⟨h2, h2'⟩
    · exact Or.inl (h1.trans h2)
    · exact Or.inl (h2 ▸ h1)
    · exact Or.inl (h1 ▸ h2)
    · exact Or.inr ⟨h1.trans h2, h1'.trans h2'⟩⟩
  have i2 : Std.Total fun a b : ℚ × ℚ => ivlLe a b = true := ⟨fun a b => by
    rw [ivlLe_iff, ivlLe_iff]
    rcases lt_trichotomy a.1 b.1 with h | h | h
    · exact Or.inl (Or.inl h)
    · rcases le_total a.2 b.2 with h' | h'
      · exact Or.inl (Or.inr ⟨h, h'⟩)
      · exact Or.inr (Or.inr ⟨h.symm, h'⟩)
    · exact Or.inr (Or.inl h)⟩
  refine ⟨fun I => List.mem_insertionSort _, ?_⟩
  have hle : ∀ I ∈ l, I.1 ≤ I.2 := by
    intro I hI
    obtain ⟨z, _, h1, h2⟩ := h.has I hI
    exact_mod_cast h1.trans h2
  have hp := List.pairwise_insertionSort (fun a b : ℚ × ℚ => ivlLe a b = true) l
  have hs := (List.Perm.pairwise_iff (R := fun I J : ℚ × ℚ => I.2 ≤ J.1 ∨ J.2 ≤ I.1)
    (fun h => Or.symm h) (List.perm_insertionSort (fun a b : ℚ × ℚ => ivlLe a b = true) l)).2 h.sep
  refine ((hp.and hs).and (List.pairwise_iff_forall_sublist.2 fun {I J} hIJ => ?_)).imp
    (R := fun I J : ℚ × ℚ => ((ivlLe I J = true ∧ (I.2 ≤ J.1 ∨ J.2 ≤ I.1)) ∧ (I.1 ≤ I.2 ∧ J.1 ≤ J.2))) ?_
  · exact ⟨hle I ((List.mem_insertionSort _).1 (hIJ.subset (by simp))),
      hle J ((List.mem_insertionSort _).1 (hIJ.subset (by simp)))⟩
  · rintro I J ⟨⟨h1, h2⟩, h3, h4⟩
    rcases h2 with h2 | h2
    · exact h2
    · rcases ivlLe_iff.1 h1 with h1 | ⟨h1, h1'⟩ <;> linarith

theorem gap_lemma {Z : Set K} {x : K} (hx : x ∉ Z) : ∀ (l : List (ℚ × ℚ)) (I : ℚ × ℚ) (i : ℕ),
    ((I :: l).Pairwise fun I J => I.2 ≤ J.1) →
    (∀ J ∈ I :: l, ∃ z ∈ Z, (J.1 : K) ≤ z ∧ z ≤ J.2) →
    (∀ J ∈ I :: l, ∀ z ∈ Z, ∀ z' ∈ Z, (J.1 : K) ≤ z → z ≤ J.2 → (J.1 : K) ≤ z' → z' ≤ J.2 → z = z') →
    (∃ z ∈ Z, (I.1 : K) ≤ z ∧ z ≤ I.2 ∧ z < x) →
    (∀ J ∈ I :: l, ∀ z ∈ Z, (J.1 : K) ≤ z → z ≤ J.2 → z < x) ∨
    ∃ g ∈ gaps i (I :: l), g.2.1 ≤ g.2.2 ∧ (g.2.1 = g.2.2 → (g.2.1 : K) ∉ Z) ∧
      ∀ J ∈ I :: l, ∀ z ∈ Z, (J.1 : K) ≤ z → z ≤ J.2 → (z ≤ (g.2.1 : K) ∧ z < x) ∨ ((g.2.2 : K) ≤ z ∧ x < z)
  | [], I, i, hp, hh, hu, ⟨z₀, hz₀, a1, a2, a3⟩ => by
    left
    intro J hJ z hz h1 h2
    rw [List.mem_singleton] at hJ
    subst hJ
    rw [hu J (by simp) z hz z₀ hz₀ h1 h2 a1 a2]
    exact a3
  | J :: l, I, i, hp, hh, hu, ⟨z₀, hz₀, a1, a2, a3⟩ => by
    obtain ⟨z₁, hz₁, b1, b2⟩ := hh J (by simp)
    rw [List.pairwise_cons] at hp
    have hIJ : (I.2 : K) ≤ J.1 := by exact_mod_cast hp.1 J (by simp)
    have hI : ∀ z ∈ Z, (I.1 : K) ≤ z → z ≤ I.2 → z = z₀ := fun z hz h1 h2 =>
      hu I (by simp) z hz z₀ hz₀ h1 h2 a1 a2
    have hJ : ∀ z ∈ Z, (J.1 : K) ≤ z → z ≤ J.2 → z = z₁ := fun z hz h1 h2 =>
      hu J (by simp) z hz z₁ hz₁ h1 h2 b1 b2
    rcases lt_trichotomy z₁ x with h | h | h
    · rcases gap_lemma hx l J (i + 1) hp.2 (fun K' hK => hh K' (by simp at hK ⊢; tauto))
        (fun K' hK => hu K' (by simp at hK ⊢; tauto)) ⟨z₁, hz₁, b1, b2, h⟩ with hall | ⟨g, hg, g1, g2, g3⟩
      · left
        intro K' hK z hz h1 h2
        rcases List.mem_cons.1 hK with rfl | hK
        · rw [hI z hz h1 h2]; exact a3
        · exact hall K' hK z hz h1 h2
      · right
        refine ⟨g, List.mem_cons_of_mem _ hg, g1, g2, ?_⟩
        intro K' hK z hz h1 h2
        rcases List.mem_cons.1 hK with rfl | hK
        · left
          refine ⟨?_, by rw [hI z hz h1 h2]; exact a3⟩
          rcases g3 J (by simp) z₁ hz₁ b1 b2 with h' | h'
          · exact h2.trans (hIJ.trans (b1.trans h'.1))
          · exact absurd h'.2 (not_lt.2 h.le)
        · exact g3 K' hK z hz h1 h2
    · exact absurd (h ▸ hz₁) hx
    · right
      refine ⟨(i, I.2, J.1), by simp [gaps], by exact_mod_cast hIJ, ?_, ?_⟩
      · intro he ha
        simp only at he ha
        have e1 := hI _ ha (a1.trans a2) le_rfl
        have e2 := hJ _ ha (by rw [he]) (by rw [he]; exact b1.trans b2)
        rw [e1] at e2
        rw [← e2] at h
        exact absurd h (not_lt.2 a3.le)
      · intro K' hK z hz h1 h2
        rcases List.mem_cons.1 hK with rfl | hK
        · exact Or.inl ⟨h2, by rw [hI z hz h1 h2]; exact a3⟩
        · right
          rcases List.mem_cons.1 hK with rfl | hK
          · exact ⟨h1, by rw [hJ z hz h1 h2]; exact h⟩
          · have hJK : (J.2 : K) ≤ K'.1 := by exact_mod_cast (List.pairwise_cons.1 hp.2).1 K' hK
            exact ⟨(b1.trans b2).trans (hJK.trans h1), lt_of_lt_of_le h (b2.trans (hJK.trans h1))⟩

theorem rel_getLast {α : Type} {R : α → α → Prop} : ∀ {l : List α} {a b : α}, l.Pairwise R → l.getLast? = some a →
    b ∈ l → b = a ∨ R b a
  | [], _, _, _, h, _ => by simp at h
  | [c], a, b, _, h, hb => by simp at h hb; left; rw [hb, h]
  | c :: d :: l, a, b, hp, h, hb => by
    rw [List.getLast?_cons_cons] at h
    rw [List.pairwise_cons] at hp
    rcases List.mem_cons.1 hb with rfl | hb
    · exact Or.inr (hp.1 a (List.mem_of_getLast? h))
    · exact rel_getLast hp.2 h hb

/-- The sample points chosen for isolating intervals meet every sector. -/
theorem sector_sample {Z : Set K} {ivls : List (ℚ × ℚ)} (hiso : Isolates Z ivls) (hs : ivls.Pairwise fun I J => I.2 ≤ J.1)
    (hne : ivls ≠ []) (u : Bool → ℕ → ℕ → ℚ → ℚ → ℚ)
    (hu : ∀ b i j l r, l < r → l < u b i j l r ∧ u b i j l r < r) (numSps : ℕ) (hn : 1 ≤ numSps) {x : K} (hx : x ∉ Z) :
    ∃ s ∈ sectorRoots u numSps ivls, ∀ z ∈ Z, z ≠ (s : K) ∧ (z < x ↔ z < (s : K)) := by
  cases ivls with
  | nil => simp at hne
  | cons f l =>
    obtain ⟨e, he⟩ : ∃ e, (f :: l).getLast? = some e := ⟨_, List.getLast?_eq_some_getLast hne⟩
    have hsec : sectorRoots u numSps (f :: l) = ([((⌊f.1 - 1⌋ : ℤ) : ℚ), ((⌈e.2 + 1⌉ : ℤ) : ℚ)] ++
      ((gaps 0 (f :: l)).flatMap fun g => kRandomSps (u true g.1) g.2.1 g.2.2 numSps) ++
      ((f :: l).zipIdx.flatMap fun a => kRandomSps (u false a.2) a.1.1 a.1.2 1)).insertionSort (· ≤ ·) := by
      unfold sectorRoots
      rw [he]
    rw [hsec]
    simp only [List.mem_insertionSort, List.mem_append]
    obtain ⟨z₀, hz₀, a1, a2⟩ := hiso.has f (by simp)
    rcases lt_trichotomy z₀ x with h | h | h
    · rcases gap_lemma hx l f 0 hs hiso.has hiso.uniq ⟨z₀, hz₀, a1, a2, h⟩ with hall | ⟨g, hg, g1, g2, g3⟩
      · refine ⟨((⌈e.2 + 1⌉ : ℤ) : ℚ), Or.inl (Or.inl (List.mem_cons_of_mem _ (List.mem_singleton_self _))), ?_⟩
        intro z hz
        obtain ⟨J, hJ, b1, b2⟩ := hiso.cover z hz
        have hJe : J.2 ≤ e.2 := by
          rcases rel_getLast hs he hJ with rfl | h'
          · exact le_rfl
          · obtain ⟨z', _, c1, c2⟩ := hiso.has e (List.mem_of_getLast? he)
            have : e.1 ≤ e.2 := by exact_mod_cast c1.trans c2
            exact h'.trans this
        have hlt : z < (((⌈e.2 + 1⌉ : ℤ) : ℚ) : K) := by
          have h1 : J.2 < ((⌈e.2 + 1⌉ : ℤ) : ℚ) := lt_of_lt_of_le (by linarith) (Int.le_ceil _)
          exact lt_of_le_of_lt b2 (by exact_mod_cast h1)
        exact ⟨hlt.ne, iff_of_true (hall J hJ z hz b1 b2) hlt⟩
      · obtain ⟨s, hs1, hs2⟩ : ∃ s ∈ kRandomSps (u true g.1) g.2.1 g.2.2 numSps,
            g.2.1 ≤ s ∧ s ≤ g.2.2 ∧ ((s = g.2.1 ∨ s = g.2.2) → s = g.2.1 ∧ s = g.2.2) := by
          unfold kRandomSps
          by_cases h' : g.2.1 = g.2.2
          · rw [if_pos h']
            exact ⟨g.2.1, by simp, le_rfl, h'.le, fun _ => ⟨rfl, h'⟩⟩
          · rw [if_neg h']
            have := hu true g.1 0 _ _ (lt_of_le_of_ne g1 h')
            refine ⟨u true g.1 0 g.2.1 g.2.2, List.mem_map.2 ⟨0, List.mem_range.2 hn, rfl⟩, this.1.le, this.2.le, ?_⟩
            rintro (h'' | h'')
            · exact absurd h'' this.1.ne'
            · exact absurd h'' this.2.ne
        refine ⟨s, Or.inl (Or.inr (List.mem_flatMap.2 ⟨g, hg, hs1⟩)), ?_⟩
        have c1 : (g.2.1 : K) ≤ s := by exact_mod_cast hs2.1
        have c2 : (s : K) ≤ g.2.2 := by exact_mod_cast hs2.2.1
        have hsZ : (s : K) ∉ Z := by
          intro hsZ
          obtain ⟨J, hJ, b1, b2⟩ := hiso.cover _ hsZ
          have : s = g.2.1 ∨ s = g.2.2 := by
            rcases g3 J hJ _ hsZ b1 b2 with ⟨h', _⟩ | ⟨h', _⟩
            · left; exact le_antisymm (by exact_mod_cast h') hs2.1
            · right; exact le_antisymm hs2.2.1 (by exact_mod_cast h')
          obtain ⟨h1, h2⟩ := hs2.2.2 this
          exact g2 (h1.symm.trans h2) (h1 ▸ hsZ)
        intro z hz
        have hzs : z ≠ (s : K) := fun h' => hsZ (h' ▸ hz)
        refine ⟨hzs, ?_⟩
        obtain ⟨J, hJ, b1, b2⟩ := hiso.cover z hz
        rcases g3 J hJ z hz b1 b2 with ⟨h1, h2⟩ | ⟨h1, h2⟩
        · exact iff_of_true h2 (lt_of_le_of_ne (h1.trans c1) hzs)
        · exact iff_of_false (not_lt.2 h2.le) (not_lt.2 (c2.trans h1))
    · exact absurd (h ▸ hz₀) hx
    · refine ⟨((⌊f.1 - 1⌋ : ℤ) : ℚ), Or.inl (Or.inl List.mem_cons_self), ?_⟩
      intro z hz
      obtain ⟨J, hJ, b1, b2⟩ := hiso.cover z hz
      have hz₀z : z₀ ≤ z ∧ (f.1 : K) ≤ z := by
        rcases List.mem_cons.1 hJ with rfl | hJ
        · rw [hiso.uniq J (by simp) z hz z₀ hz₀ b1 b2 a1 a2]; exact ⟨le_rfl, a1⟩
        · have : (f.2 : K) ≤ J.1 := by exact_mod_cast (List.pairwise_cons.1 hs).1 J hJ
          exact ⟨a2.trans (this.trans b1), (a1.trans a2).trans (this.trans b1)⟩
      have hlt : (((⌊f.1 - 1⌋ : ℤ) : ℚ) : K) < z := by
        have h1 : ((⌊f.1 - 1⌋ : ℤ) : ℚ) < f.1 := lt_of_le_of_lt (Int.floor_le _) (by linarith)
        exact lt_of_lt_of_le (by exact_mod_cast h1) hz₀z.2
      exact ⟨hlt.ne', iff_of_false (not_lt.2 (h.le.trans hz₀z.1)) (not_lt.2 hlt.le)⟩

theorem sg_same [PolyIVT K] {p : MPoly} {x s : K} (hx : val p x ≠ 0)
    (h : ∀ z, val p z = 0 → z ≠ s ∧ (z < x ↔ z < s)) : sg (val p x) = sg (val p s) := by
  rw [← eval_toPoly, ← eval_toPoly]
  rcases le_total x s with hxs | hxs
  · apply sg_eq_of_no_root hxs
    intro c h1 h2 h3
    rw [eval_toPoly] at h3
    obtain ⟨e1, e2⟩ := h c h3
    have := e2.2 (lt_of_le_of_ne h2 e1)
    exact absurd h1 (not_le.2 this)
  · symm
    apply sg_eq_of_no_root hxs
    intro c h1 h2 h3
    rw [eval_toPoly] at h3
    obtain ⟨e1, e2⟩ := h c h3
    have hcx : c ≠ x := fun h' => hx (h' ▸ h3)
    have := e2.1 (lt_of_le_of_ne h2 hcx)
    exact absurd h1 (not_le.2 this)

/-! ### C57 -/

/-- A constant, or a nonzero polynomial in `x0` without zero terms. -/
def Poly1 (p : MPoly) : Prop := p.isConstant = true ∨ (InVar 0 p ∧ NoZeroTerms p)

theorem val_constant {p : MPoly} (h : p.isConstant = true) (x y : K) : val p x = val p y := by
  have h0 : ∀ (m : Mono), Mono.deg m = 0 → ∀ (ρ : ℕ → K) (i : ℕ), Mono.evalFrom ρ i m = 1 := by
    intro m
    induction m with
    | nil => intro _ ρ i; rfl
    | cons e m ih =>
      intro hm ρ i
      have : e = 0 ∧ Mono.deg m = 0 := by simpa [Mono.deg] using hm
      rw [Mono.evalFrom, this.1, ih this.2]; simp
  unfold val
  induction p with
  | nil => rfl
  | cons t p ih =>
    unfold MPoly.isConstant at h
    rw [List.all_cons, Bool.and_eq_true] at h
    have ht : t.1.deg = 0 := by simpa using h.1
    rw [MPoly.eval_cons, MPoly.eval_cons, h0 _ ht, h0 _ ht, ih h.2]

theorem purePolyBase_var {p : MPoly} {v : ℕ} (hp : InVar v p) : InVar v (purePolyBase p) := by
  unfold purePolyBase
  split
  · split
    · next w hw =>
      have : w = v := hp.1 w (by rw [hw]; simp)
      subst this
      refine ⟨?_, 1, ?_⟩
      · intro u hu
        rw [MPoly.mem_vars] at hu
        obtain ⟨t, ht, hpos⟩ := hu
        simp only [MPoly.var, List.mem_singleton] at ht
        subst ht
        by_contra hne
        rcases lt_or_gt_of_ne hne with h | h
        · simp [Mono.exp, List.getD_eq_getElem?_getD, List.getElem?_append, h] at hpos
        · have : ¬ u < w := by omega
          simp [Mono.exp, List.getD_eq_getElem?_getD, List.getElem?_append, this] at hpos
          have h2 : u - w ≠ 0 := by omega
          obtain ⟨k, hk⟩ := Nat.exists_eq_succ_of_ne_zero h2
          rw [hk] at hpos
          simp at hpos
      · rw [val, MPoly.eval_var]; norm_num
    · exact hp
  · exact hp

/-- No polynomial has a rational root, or all roots are rational. -/
def NotMixed (K : Type) [Field K] [LinearOrder K] (U : MPoly → Prop) : Prop :=
  (∀ p, U p → p.isConstant = false → ∀ a : ℚ, val p a ≠ 0) ∨
  ∀ p, U p → p.isConstant = false → ∀ z : K, val p z = 0 → ∃ a : ℚ, z = a

/-- The random choices are strictly between the end points. -/
def UniformOK (E : CadEnv) : Prop :=
  ∀ tag b i j l r, l < r → l < E.uniform tag b i j l r ∧ E.uniform tag b i j l r < r

theorem isolates_iso (E : CadEnv) (hE : RootsOK K E) (v : ℕ) (ps : List MPoly) (hps : ∀ p ∈ ps, InVar v p)
    (hmix : (∀ p ∈ ps, ∀ a : ℚ, val p a ≠ 0) ∨ ∀ p ∈ ps, ∀ z : K, val p z = 0 → ∃ a : ℚ, z = a) :
    Isolates {z : K | ∃ p ∈ ps, val p z = 0} ((isoRootIntvls E ps).map Prod.fst) := by
  have hcov := C38_partial E hE v ps hps (fun p hp => hmix.imp (fun h => h p hp) fun h => h p hp)
  have hcover : ∀ z ∈ {z : K | ∃ p ∈ ps, val p z = 0}, ∃ I ∈ (isoRootIntvls E ps).map Prod.fst,
      (I.1 : K) ≤ z ∧ z ≤ I.2 := by
    rintro z ⟨p, hp, hz⟩
    obtain ⟨I, hI, h⟩ := hcov p hp z hz
    exact ⟨I.1, List.mem_map.2 ⟨I, hI, rfl⟩, h⟩
  by_cases hne : ps = []
  · subst hne
    refine ⟨hcover, ?_, ?_, ?_⟩ <;> simp [isoRootIntvls]
  have hin : InVar v ((ps.filter fun p => decide (E.roots p = [])).foldl MPoly.mul (MPoly.const 1)) :=
    InVar.foldl (fun q hq => hps q (List.mem_filter.1 hq).1) (InVar.one v)
  have hprod : ∀ z : K, val ((ps.filter fun p => decide (E.roots p = [])).foldl MPoly.mul (MPoly.const 1)) z = 0 →
      ∃ p ∈ ps, E.roots p = [] ∧ val p z = 0 := by
    intro z hz
    rw [val_foldl, val_one, one_mul, List.prod_eq_zero_iff] at hz
    obtain ⟨p, hp, h⟩ := List.mem_map.1 hz
    obtain ⟨h1, h2⟩ := List.mem_filter.1 hp
    exact ⟨p, h1, by simpa using h2, h⟩
  rcases hmix with hmix | hmix
  · -- no rational roots
    have hr : ∀ p ∈ ps, E.roots p = [] := by
      intro p hp
      by_contra hr
      obtain ⟨⟨a, m⟩, hm⟩ := List.exists_mem_of_ne_nil _ hr
      exact hmix p hp a ((hE.roots p (hps p hp).univ a).1 ⟨m, hm⟩)
    have hprod' : ∀ z : K, (∃ p ∈ ps, val p z = 0) →
        val ((ps.filter fun p => decide (E.roots p = [])).foldl MPoly.mul (MPoly.const 1)) z = 0 := by
      rintro z ⟨p, hp, hz⟩
      rw [val_foldl, val_one, one_mul]
      exact List.prod_eq_zero (List.mem_map.2 ⟨p, List.mem_filter.2 ⟨hp, by simp [hr p hp]⟩, hz⟩)
    have hlist : isoRootIntvls E ps =
        if (ps.filter fun p => decide (E.roots p = [])).foldl MPoly.mul (MPoly.const 1) ≠ MPoly.const 1 then
          E.rri ((ps.filter fun p => decide (E.roots p = [])).foldl MPoly.mul (MPoly.const 1)) else [] := by
      unfold isoRootIntvls
      rw [if_neg hne]
      have : (ps.flatMap fun p => (E.roots p).map fun r => (((r.1, r.1), r.2) : (ℚ × ℚ) × ℕ)) = [] := by
        rw [List.flatMap_eq_nil_iff]
        intro p hp
        rw [hr p hp]; rfl
      rw [this, List.append_nil]
    refine ⟨hcover, ?_, ?_, ?_⟩
    · rintro I hI
      obtain ⟨I, hI', rfl⟩ := List.mem_map.1 hI
      clear hI
      have hI := hI'
      rw [hlist] at hI
      split at hI
      · obtain ⟨z, hz, h⟩ := hE.has _ hin.univ I hI
        obtain ⟨p, hp, _, hpz⟩ := hprod z hz
        exact ⟨z, ⟨p, hp, hpz⟩, h⟩
      · simp at hI
    · rintro I hI z hz z' hz'
      obtain ⟨I, hI', rfl⟩ := List.mem_map.1 hI
      clear hI
      have hI := hI'
      rw [hlist] at hI
      split at hI
      · exact hE.uniq _ hin.univ I hI z z' (hprod' z hz) (hprod' z' hz')
      · simp at hI
    · rw [List.pairwise_map, hlist]
      split
      · exact hE.sep _ hin.univ
      · simp
  · -- only rational roots
    have hrri : (if (ps.filter fun p => decide (E.roots p = [])).foldl MPoly.mul (MPoly.const 1) ≠ MPoly.const 1 then
          E.rri ((ps.filter fun p => decide (E.roots p = [])).foldl MPoly.mul (MPoly.const 1)) else []) = [] := by
      split
      · rw [List.eq_nil_iff_forall_not_mem]
        intro I hI
        obtain ⟨z, hz, h⟩ := hE.has _ hin.univ I hI
        obtain ⟨p, hp, hr, hpz⟩ := hprod z hz
        obtain ⟨a, rfl⟩ := hmix p hp z hpz
        rw [val_cast] at hpz
        obtain ⟨m, hm⟩ := (hE.roots p (hps p hp).univ a).2 (by exact_mod_cast hpz)
        rw [hr] at hm
        simp at hm
      · rfl
    have hlist : isoRootIntvls E ps = ps.flatMap fun p => (E.roots p).map fun r => ((r.1, r.1), r.2) := by
      unfold isoRootIntvls
      rw [if_neg hne]
      show (if _ then _ else _) ++ _ = _
      rw [hrri, List.nil_append]
    have hdeg : ∀ I ∈ (isoRootIntvls E ps).map Prod.fst, I.1 = I.2 ∧ ∃ p ∈ ps, val p I.1 = 0 := by
      rintro I hI
      obtain ⟨I, hI', rfl⟩ := List.mem_map.1 hI
      clear hI
      have hI := hI'
      rw [hlist, List.mem_flatMap] at hI
      obtain ⟨p, hp, hI⟩ := hI
      obtain ⟨r, hr, rfl⟩ := List.mem_map.1 hI
      exact ⟨rfl, p, hp, (hE.roots p (hps p hp).univ r.1).1 ⟨r.2, hr⟩⟩
    refine ⟨hcover, ?_, ?_, ?_⟩
    · intro I hI
      obtain ⟨h1, p, hp, h2⟩ := hdeg I hI
      refine ⟨(I.1 : K), ⟨p, hp, ?_⟩, le_rfl, by rw [h1]⟩
      rw [val_cast, h2]; simp
    · intro I hI z _ z' _ h1 h2 h3 h4
      obtain ⟨h5, _⟩ := hdeg I hI
      rw [← h5] at h2 h4
      rw [le_antisymm h2 h1, le_antisymm h4 h3]
    · apply List.pairwise_of_forall_mem_list
      intro I hI J hJ
      obtain ⟨h1, _⟩ := hdeg I hI
      obtain ⟨h2, _⟩ := hdeg J hJ
      rw [← h1, ← h2]
      exact le_total _ _

/-- The sample points chosen for polynomials in one variable meet every sector. -/
theorem sectors_met (E : CadEnv) (hE : RootsOK K E) (hu : UniformOK E) (v : ℕ) (ps : List MPoly)
    (hps : ∀ p ∈ ps, InVar v p)
    (hmix : (∀ p ∈ ps, ∀ a : ℚ, val p a ≠ 0) ∨ ∀ p ∈ ps, ∀ z : K, val p z = 0 → ∃ a : ℚ, z = a) (tag : List ℚ)
    (numSps : ℕ) (hn : 1 ≤ numSps) (ambient : List Atom) (w : ℕ) {x : K} (hx : ∀ p ∈ ps, val p x ≠ 0) :
    ∃ s ∈ sectorSps E tag (isoRootIntvls E ps) numSps ambient w,
      ∀ z : K, (∃ p ∈ ps, val p z = 0) → z ≠ (s : K) ∧ (z < x ↔ z < (s : K)) := by
  have hiso := isolates_iso E hE v ps hps hmix
  have hxZ : x ∉ {z : K | ∃ p ∈ ps, val p z = 0} := by
    rintro ⟨q, hq, hqx⟩
    exact hx q hq hqx
  unfold sectorSps
  by_cases h0 : isoRootIntvls E ps = []
  · rw [if_pos h0]
    obtain ⟨s, hs⟩ : ∃ s, s ∈ sectorNoRoots ambient w := by
      unfold sectorNoRoots
      split
      · exact ⟨0, by simp⟩
      · split
        · exact ⟨-1, by simp⟩
        · split
          · exact ⟨1, by simp⟩
          · exact ⟨0, by simp⟩
    refine ⟨s, hs, fun z hz => ?_⟩
    obtain ⟨I, hI, _⟩ := hiso.cover z hz
    rw [h0] at hI
    simp at hI
  · rw [if_neg h0]
    obtain ⟨h1, h2⟩ := hiso.sorted
    have hiso' : Isolates {z : K | ∃ p ∈ ps, val p z = 0}
        (((isoRootIntvls E ps).map Prod.fst).insertionSort fun a b => ivlLe a b = true) := by
      refine ⟨?_, ?_, ?_, h2.imp fun h => Or.inl h⟩
      · intro z hz
        obtain ⟨I, hI, h⟩ := hiso.cover z hz
        exact ⟨I, (h1 I).2 hI, h⟩
      · intro I hI; exact hiso.has I ((h1 I).1 hI)
      · intro I hI; exact hiso.uniq I ((h1 I).1 hI)
    refine sector_sample hiso' h2 ?_ (E.uniform tag) (fun b i j l r h => hu tag b i j l r h) numSps hn hxZ
    intro hnil
    have := congrArg List.length hnil
    rw [List.length_insertionSort, List.length_map] at this
    exact h0 (List.length_eq_zero_iff.1 this)

/-- In one variable, the sample points meet every sector of the installed polynomials. -/
theorem univariate_samples [PolyIVT K] (S : Sage ℚ) (E : CadEnv) (hE : RootsOK K E) (hu : UniformOK E) (top : List MPoly)
    (htop : ∀ p ∈ top, Poly1 p) (hmix : NotMixed K fun p => p ∈ top) (goal : Option Goal) (numSps : ℕ)
    (ambient : List Atom) :
    ∃ ds, samplePtDicts S E 1 top goal numSps ambient = .ok ds ∧
      ∀ x : K, (∀ p ∈ top, p.isConstant = false → val p x ≠ 0) →
        ∃ s : ℚ, [(0, s)] ∈ ds ∧ ∀ p ∈ top, sg (val p x) = sg (val p (s : K)) := by
  have hord : projOrd (filterProjSet top) (List.range 1) = [0] := rfl
  refine ⟨((sectorSps E [] (isoRootIntvls E (filterProjSet top)) 1 ambient 0).map fun x => [x]).map (spDict [0]), ?_, ?_⟩
  · unfold samplePtDicts
    simp only [hord]
    rfl
  intro x hx
  have hf : ∀ q ∈ filterProjSet top, ∃ p ∈ top, p.isConstant = false ∧ q = purePolyBase p := by
    intro q hq
    rw [filterProjSet, List.mem_dedup, List.mem_map] at hq
    obtain ⟨p, hp, rfl⟩ := hq
    obtain ⟨h1, h2⟩ := List.mem_filter.1 hp
    exact ⟨p, h1, by simpa using h2, rfl⟩
  have hin : ∀ p ∈ top, p.isConstant = false → InVar 0 p ∧ NoZeroTerms p := fun p hp hc =>
    (htop p hp).resolve_left (by simp [hc])
  have hz : ∀ p ∈ top, p.isConstant = false → ∀ {L : Type} [Field L] [LinearOrder L] [IsStrictOrderedRing L] (z : L),
      val (purePolyBase p) z = 0 ↔ val p z = 0 := fun p hp hc _ _ _ _ z => purePolyBase_zero (hin p hp hc).2 hc _
  have hps : ∀ q ∈ filterProjSet top, InVar 0 q := by
    intro q hq
    obtain ⟨p, hp, hc, rfl⟩ := hf q hq
    exact purePolyBase_var (hin p hp hc).1
  obtain ⟨s, hs, hsep⟩ := sectors_met E hE hu 0 (filterProjSet top) hps (by
    rcases hmix with h | h
    · left
      intro q hq a
      obtain ⟨p, hp, hc, rfl⟩ := hf q hq
      rw [ne_eq, hz p hp hc]
      exact h p hp hc a
    · right
      intro q hq z hqz
      obtain ⟨p, hp, hc, rfl⟩ := hf q hq
      exact h p hp hc z ((hz p hp hc z).1 hqz)) [] 1 le_rfl ambient 0 (x := x) (by
    intro q hq hqx
    obtain ⟨p, hp, hc, rfl⟩ := hf q hq
    exact hx p hp hc ((hz p hp hc x).1 hqx))
  refine ⟨s, List.mem_map.2 ⟨[s], List.mem_map.2 ⟨s, hs, rfl⟩, rfl⟩, ?_⟩
  intro p hp
  by_cases hc : p.isConstant = true
  · rw [val_constant hc x (s : K)]
  · have hc : p.isConstant = false := by simpa using hc
    apply sg_same (hx p hp hc)
    intro z hpz
    apply hsep z
    refine ⟨purePolyBase p, ?_, (hz p hp hc z).2 hpz⟩
    rw [filterProjSet, List.mem_dedup, List.mem_map]
    exact ⟨p, List.mem_filter.2 ⟨hp, by simp [hc]⟩, rfl⟩

theorem rel_of_sg {op : Op} {a b : K} (h : sg a = sg b) : rel op a 0 ↔ rel op b 0 := by
  obtain ⟨h1, h2⟩ := sg_eq_sg_iff.1 h
  have h3 : a = 0 ↔ b = 0 := by rw [← sg_eq_zero_iff, h, sg_eq_zero_iff]
  cases op
  · exact h2
  · exact h1
  · exact not_lt.symm.trans ((not_congr h2).trans not_lt)
  · exact not_lt.symm.trans ((not_congr h1).trans not_lt)
  · exact h3
  · exact not_congr h3

/-- Strict sequents in one variable. -/
structure StrictGoal (g : Goal) : Prop where
  main : g.main.op = .le ∨ g.main.op = .ge ∨ g.main.op = .eq
  hyps : ∀ h ∈ g.hyps, h.op = .lt ∨ h.op = .gt ∨ h.op = .ne
  fresh : ∀ h ∈ g.main :: g.hyps, Fresh h
  one : ∀ h ∈ g.main :: g.hyps, Poly1 h.poly ∧ ∀ w ∈ h.poly.vars, w = 0

/-- The core is sound for strict sequents in one variable. -/
theorem core_sound [PolyIVT K] (S : Sage ℚ) (E : CadEnv) (hE : RootsOK K E) (hu : UniformOK E) (g : Goal)
    (hg : StrictGoal g) (top : List MPoly) (hsub : ∀ h ∈ g.main :: g.hyps, h.poly ∈ top) (htop : ∀ p ∈ top, Poly1 p)
    (hmix : NotMixed K fun p => p ∈ top) (goal : Option Goal) (numSps : ℕ) (ambient : List Atom)
    (ds : List (Dict ℚ)) (hds : samplePtDicts S E 1 top goal numSps ambient = .ok ds)
    (htrue : ∀ d ∈ ds, g.evalOnDict S d = .ok true) :
    ∀ ρ : ℕ → K, (∀ h ∈ g.hyps, h.holds ρ) → g.main.holds ρ := by
  intro ρ hρ
  by_contra hmain
  have hval : ∀ h ∈ g.main :: g.hyps, ∀ {L : Type} [Field L] [LinearOrder L] [IsStrictOrderedRing L] (σ : ℕ → L),
      h.holds σ ↔ rel h.op (val h.poly (σ 0)) 0 := by
    intro h hh L _ _ _ σ
    unfold Atom.holds
    rw [val_eq (hg.one h hh).2 σ]
  -- all polynomials of the sequent are nonzero at the point
  have hnz : ∀ h ∈ g.main :: g.hyps, val h.poly (ρ 0) ≠ 0 := by
    intro h hh h0
    rcases List.mem_cons.1 hh with rfl | hh'
    · apply hmain
      rw [hval _ hh, h0]
      rcases hg.main with h | h | h <;> rw [h] <;> simp [rel]
    · have := hρ h hh'
      rw [hval h hh, h0] at this
      rcases hg.hyps h hh' with h | h | h <;> rw [h] at this <;> simp [rel] at this
  classical
  -- a nearby point where no polynomial is zero
  obtain ⟨b, hb1, hb2⟩ := exists_gap_right
    ((top.flatMap fun p => (toPoly K p).roots.toList).toFinset) (ρ 0)
  have hroot : ∀ p ∈ top, p.isConstant = false → ∀ z : K, val p z = 0 → ρ 0 < z → b < z := by
    intro p hp hc z hz
    apply hb2
    rw [List.mem_toFinset, List.mem_flatMap]
    refine ⟨p, hp, ?_⟩
    rw [Multiset.mem_toList, Polynomial.mem_roots, Polynomial.IsRoot.def, eval_toPoly]
    · exact hz
    · intro h0
      have := ((htop p hp).resolve_left (by simp [hc])).1.2
      obtain ⟨a, ha⟩ := this
      apply ha
      have h1 : val p ((a : ℚ) : K) = 0 := by rw [← eval_toPoly, h0]; simp
      rw [val_cast] at h1
      exact_mod_cast h1
  have hsame : ∀ h ∈ g.main :: g.hyps, sg (val h.poly (ρ 0)) = sg (val h.poly b) := by
    intro h hh
    by_cases hc : h.poly.isConstant = true
    · rw [val_constant hc (ρ 0) b]
    · have hc : h.poly.isConstant = false := by simpa using hc
      rw [← eval_toPoly, ← eval_toPoly]
      apply sg_eq_of_no_root hb1.le
      intro c h1 h2 h3
      rw [eval_toPoly] at h3
      rcases h1.lt_or_eq with h1 | h1
      · exact absurd (hroot _ (hsub h hh) hc c h3 h1) (not_lt.2 h2)
      · exact hnz h hh (h1 ▸ h3)
  obtain ⟨ds', hds', hsam⟩ := univariate_samples (K := K) S E hE hu top htop hmix goal numSps ambient
  rw [hds] at hds'
  cases hds'
  obtain ⟨s, hs, hsg⟩ := hsam b fun p hp hc h0 => absurd (hroot p hp hc b h0 hb1) (lt_irrefl _)
  have hgs := (C51_partial S).2.2 g [(0, s)] (hg.fresh _ (by simp)) (fun h hh => hg.fresh h (by simp [hh]))
    (htrue _ hs) (fun _ => s) (by
      intro i y hy
      rw [List.lookup_cons] at hy
      split at hy
      · cases hy; rfl
      · cases hy)
  have hiff : ∀ h ∈ g.main :: g.hyps, (h.holds (fun _ : ℕ => s) ↔ h.holds ρ) := by
    intro h hh
    rw [hval h hh, hval h hh]
    rw [rel_of_sg ((hsame h hh).trans (hsg _ (hsub h hh))), val_cast]
    have hc : ∀ (op : Op) (a : ℚ), rel op a 0 ↔ rel op (a : K) 0 := by
      intro op a
      cases op <;> simp [rel]
    exact hc _ _
  apply hmain
  rw [← hiff _ (by simp)]
  exact hgs fun h hh => (hiff h (by simp [hh])).2 (hρ h hh)

theorem check_true (C : Core ℚ) (n fuel : ℕ) (st : State) (ds : List (Dict ℚ)) (h : C.samples n st = .ok ds)
    (ht : ∀ d ∈ ds, st.goal.evalOnDict C.toSage d = .ok true) : check C (fuel + 1) n st = .ok ([], st) := by
  have hall : ∀ ds : List (Dict ℚ), (∀ d ∈ ds, st.goal.evalOnDict C.toSage d = .ok true) →
      allBads C n st ds = .ok (true, []) := by
    intro ds
    induction ds with
    | nil => intro _; rfl
    | cons d ds ih =>
      intro h
      unfold allBads
      rw [ih fun x hx => h x (by simp [hx])]
      unfold badSubsets
      simp only [bind, Except.bind]
      rw [h d (by simp)]
      rfl
  unfold check round
  rw [h]
  simp only [bind, Except.bind]
  rw [hall ds ht]
  rfl

theorem eval_main_true (S : Sage ℚ) (p : MPoly) (op : Op) (hp : ∀ w ∈ p.vars, w = 0) (s : ℚ)
    (h : rel op (val p s) 0) : (⟨⟨p, op, [0]⟩, [], []⟩ : Goal).evalOnDict S [(0, s)] = .ok true := by
  have hcov : Covers [(0, s)] (⟨p, op, [0]⟩ : Atom) := by
    refine ⟨by simp, by simp, fun v hv => ?_⟩
    rw [hp v hv]; simp
  unfold Goal.evalOnDict
  simp only [bind, Except.bind]
  rw [evalOnDict_covered S hcov]
  have : Op.test op (MPoly.eval (ptOf [(0, s)]) p) = true := by
    rw [test_iff, val_eq hp]
    exact h
  simp only [this]
  rfl

theorem sqrt_two_rat (s : ℚ) : s ^ 2 - 2 ≠ 0 := by
  intro h2
  apply irrational_sqrt_two
  refine ⟨|s|, ?_⟩
  have : (2 : ℝ) = (s : ℝ) ^ 2 := by
    have h' : s ^ 2 = 2 := by linarith
    exact_mod_cast h'.symm
  rw [this, Real.sqrt_sq_eq_abs]
  push_cast
  rfl

/-- **C57** is violated: the program reports the sequent `⊢ x0^2 != 2` as proved (whatever Sage's functions and
the random choices are) since all sample points are rational, but it is false at the square root of 2. -/
theorem C57_violated (S : Sage ℚ) (E : CadEnv) (numSps : ℕ) (more) (solve) (fuel : ℕ) :
    ∃ main : Atom, mkAtom ((MPoly.var 0).mul (MPoly.var 0)) "!=" (MPoly.const 2) = .ok main ∧
      check (cadCore S E 1 numSps (fun _ _ => []) more solve) (fuel + 1) 0 ⟨[], ⟨main, [], []⟩, []⟩ =
        .ok ([], ⟨[], ⟨main, [], []⟩, []⟩) ∧
      ∃ ρ : ℕ → ℝ, ¬ main.holds ρ := by
  refine ⟨⟨[([], -2), ([2], 1)], .ne, [0]⟩, by decide +kernel, ?_, fun _ => Real.sqrt 2, ?_⟩
  · have hsam : (cadCore S E 1 numSps (fun _ _ => []) more solve).samples 0
        ⟨[], ⟨⟨[([], -2), ([2], 1)], .ne, [0]⟩, [], []⟩, []⟩ =
        .ok (((sectorSps E [] (isoRootIntvls E (filterProjSet [[([], -2), ([2], 1)]])) 1 [] 0).map fun x => [x]).map
          (spDict [0])) := rfl
    refine check_true _ _ _ _ _ hsam ?_
    intro d hd
    obtain ⟨c, hc, rfl⟩ := List.mem_map.1 hd
    obtain ⟨s, _, rfl⟩ := List.mem_map.1 hc
    refine eval_main_true S _ _ (by decide +kernel) s ?_
    show val _ s ≠ 0
    have : val [([], -2), ([2], 1)] s = s ^ 2 - 2 := by
      simp [val, MPoly.eval, Mono.evalFrom]; ring
    rw [this]
    exact sqrt_two_rat s
  · show ¬ (MPoly.eval _ [([], -2), ([2], 1)] ≠ 0)
    have : Real.sqrt 2 ^ 2 = 2 := Real.sq_sqrt (by norm_num)
    simp [MPoly.eval, Mono.evalFrom, this]

theorem mem_gaps : ∀ {l : List (ℚ × ℚ)} {i : ℕ} {g : ℕ × ℚ × ℚ}, g ∈ gaps i l → ∃ I ∈ l, ∃ J ∈ l, g.2 = (I.2, J.1)
  | [], _, _, h => by simp [gaps] at h
  | [_], _, _, h => by simp [gaps] at h
  | a :: b :: l, i, g, h => by
    rw [gaps] at h
    rcases List.mem_cons.1 h with rfl | h
    · exact ⟨a, by simp, b, by simp, rfl⟩
    · obtain ⟨I, hI, J, hJ, he⟩ := mem_gaps h
      exact ⟨I, List.mem_cons_of_mem _ hI, J, List.mem_cons_of_mem _ hJ, he⟩

/-- **C57** is also violated for sequents with only strict relations to falsify, and with the right functions of Sage:
`⊢ x0^4 - 2*x0^2 <= 0` is reported as proved although it is false at 2: the polynomial has the rational root 0, and then
its other roots are not isolated (see C38_violated); the sample points are -1, 0 and 1. -/
theorem C57_violated_strict (S : Sage ℚ) (E : CadEnv) (hE : RootsOK ℝ E) (numSps : ℕ) (more) (solve) (fuel : ℕ) :
    ∃ main : Atom, mkAtom [([4], 1), ([2], -2)] "<=" (MPoly.const 0) = .ok main ∧
      check (cadCore S E 1 numSps (fun _ _ => []) more solve) (fuel + 1) 0 ⟨[], ⟨main, [], []⟩, []⟩ =
        .ok ([], ⟨[], ⟨main, [], []⟩, []⟩) ∧
      ∃ ρ : ℕ → ℚ, ¬ main.holds ρ := by
  have hval : ∀ s : ℚ, val [([2], -2), ([4], 1)] s = s ^ 4 - 2 * s ^ 2 := by
    intro s; simp [val, MPoly.eval, Mono.evalFrom]; ring
  have hU : Univ [([2], -2), ([4], 1)] := ⟨⟨0, by decide +kernel⟩, 1, by rw [hval]; norm_num⟩
  have h0 : ∀ a : ℚ, (∃ m, (a, m) ∈ E.roots [([2], -2), ([4], 1)]) → a = 0 := by
    intro a ha
    have h := (hE.roots _ hU a).1 ha
    rw [hval] at h
    have h2 : a ^ 2 * (a ^ 2 - 2) = 0 := by linear_combination h
    rcases mul_eq_zero.1 h2 with h | h
    · exact pow_eq_zero_iff (two_ne_zero) |>.1 h
    · exact absurd h (sqrt_two_rat a)
  have hne : E.roots [([2], -2), ([4], 1)] ≠ [] := by
    obtain ⟨m, hm⟩ := (hE.roots _ hU 0).2 (by rw [hval]; norm_num)
    exact List.ne_nil_of_mem hm
  refine ⟨⟨[([2], -2), ([4], 1)], .le, [0]⟩, by decide +kernel, ?_, fun _ => 2, ?_⟩
  · have hsam : (cadCore S E 1 numSps (fun _ _ => []) more solve).samples 0
        ⟨[], ⟨⟨[([2], -2), ([4], 1)], .le, [0]⟩, [], []⟩, []⟩ =
        .ok (((sectorSps E [] (isoRootIntvls E (filterProjSet [[([2], -2), ([4], 1)]])) 1 [] 0).map fun x => [x]).map
          (spDict [0])) := rfl
    refine check_true _ _ _ _ _ hsam ?_
    intro d hd
    obtain ⟨c, hc, rfl⟩ := List.mem_map.1 hd
    obtain ⟨s, hs, rfl⟩ := List.mem_map.1 hc
    refine eval_main_true S _ _ (by decide +kernel) s ?_
    show val _ s ≤ 0
    have hf : filterProjSet [[([2], -2), ([4], 1)]] = [[([2], -2), ([4], 1)]] := by decide +kernel
    have hiso : isoRootIntvls E [[([2], -2), ([4], 1)]] =
        (E.roots [([2], -2), ([4], 1)]).map fun r => ((r.1, r.1), r.2) := by
      unfold isoRootIntvls
      simp [hne]
    rw [hf, hiso] at hs
    unfold sectorSps at hs
    rw [if_neg (by simpa using hne)] at hs
    have hI : ∀ I ∈ (((E.roots [([2], -2), ([4], 1)]).map fun r => (((r.1, r.1), r.2) : (ℚ × ℚ) × ℕ)).map
        Prod.fst).insertionSort (fun a b => ivlLe a b = true), I = (0, 0) := by
      intro I hI
      rw [List.mem_insertionSort] at hI
      obtain ⟨I, hI', rfl⟩ := List.mem_map.1 hI
      obtain ⟨r, hr, rfl⟩ := List.mem_map.1 hI'
      have := h0 r.1 ⟨r.2, hr⟩
      simp [this]
    have hs3 : s = -1 ∨ s = 1 ∨ s = 0 := by
      generalize (((E.roots [([2], -2), ([4], 1)]).map fun r => (((r.1, r.1), r.2) : (ℚ × ℚ) × ℕ)).map
        Prod.fst).insertionSort (fun a b => ivlLe a b = true) = ivls at hs hI
      unfold sectorRoots at hs
      split at hs
      · next f l e he =>
        rw [List.mem_insertionSort] at hs
        have hf0 := hI f (by simp)
        have he0 := hI e (List.mem_of_getLast? he)
        rcases List.mem_append.1 hs with hs | hs
        · rcases List.mem_append.1 hs with hs | hs
          · rw [hf0, he0] at hs
            norm_num at hs
            tauto
          · obtain ⟨g, hg, hs⟩ := List.mem_flatMap.1 hs
            obtain ⟨I, hI1, J, hJ1, he⟩ := mem_gaps hg
            rw [hI I hI1, hI J hJ1] at he
            rw [show g.2.1 = 0 by rw [he], show g.2.2 = 0 by rw [he]] at hs
            simp [kRandomSps] at hs
            tauto
        · obtain ⟨a, ha, hs⟩ := List.mem_flatMap.1 hs
          have := hI a.1 (List.fst_mem_of_mem_zipIdx ha)
          rw [this] at hs
          simp [kRandomSps] at hs
          tauto
      · simp at hs
    rw [hval]
    rcases hs3 with rfl | rfl | rfl <;> norm_num
  · show ¬ (MPoly.eval _ [([2], -2), ([4], 1)] ≤ 0)
    simp [MPoly.eval, Mono.evalFrom]
    norm_num

/-- Sequents that only have strict relations to falsify, in the variable `x0`. -/
structure StrictSequent (hyps : List Atom) (main : Atom) : Prop where
  mainOp : main.op = .le ∨ main.op = .ge ∨ main.op = .eq
  hypOps : ∀ h ∈ hyps, h.op = .lt ∨ h.op = .gt ∨ h.op = .ne
  fresh : ∀ h ∈ main :: hyps, Fresh h
  one : ∀ h ∈ main :: hyps, Poly1 h.poly ∧ ∀ w ∈ h.poly.vars, w = 0

/-- What holds instead of **C57**: in one variable, if the hypotheses are relations `<`, `>`, `!=` and the goal is a
relation `<=`, `>=`, `=`, and if either no polynomial has a rational root or all roots are rational, then a sequent
reported as proved is valid (over the reals, and over every ordered field where polynomials have the intermediate value
property): the promoted hypotheses imply the goal. Sage's root isolation is assumed to be right, and random numbers are
assumed to be strictly between the end points. Nothing is assumed of the solver, the local search and Gröbner bases. -/
theorem C57_partial [PolyIVT K] (S : Sage ℚ) (E : CadEnv) (hE : RootsOK K E) (hu : UniformOK E) (numSps : ℕ)
    (extra : ℕ → State → List MPoly) (more) (solve) (hyps : List Atom) (main : Atom) (hseq : StrictSequent hyps main)
    (U : MPoly → Prop) (hU : NotMixed K U) (hin : ∀ h ∈ main :: hyps, U h.poly)
    (hextra : ∀ n st, ∀ p ∈ extra n st, U p ∧ Poly1 p) (fuel : ℕ) (ids : List ℕ) (ret : List (List ℕ)) (st' : State)
    (h : check (cadCore S E 1 numSps extra more solve) fuel 0 ⟨hyps, ⟨main, [], []⟩, ids⟩ = .ok (ret, st')) :
    ∃ ps : List Atom, (ps ++ st'.hyps).Perm hyps ∧ ps = st'.goal.hyps ∧
      ∀ ρ : ℕ → K, (∀ a ∈ ps, a.holds ρ) → main.holds ρ := by
  obtain ⟨k, ret', hr, hlast⟩ := check_rounds _ fuel 0 _ st' ret h
  obtain ⟨ds, hds, htrue⟩ := round_none hlast
  have inv : ∀ (n k : ℕ) (st st' : State), Rounds (cadCore S E 1 numSps extra more solve) n st k st' →
      st.goal.gb = [] → (∀ a ∈ st.hyps, a.op ≠ .eq) → st'.goal.gb = [] ∧ st'.goal.main = st.goal.main ∧
      ∃ ps, st'.goal.hyps = st.goal.hyps ++ ps ∧ (ps ++ st'.hyps).Perm st.hyps := by
    intro n k st st' h
    induction h with
    | refl n st => exact fun h1 _ => ⟨h1, rfl, [], by simp⟩
    | step n k st st₁ st' bads h hs ih =>
      intro h1 h2
      obtain ⟨i, hi⟩ := round_some h
      obtain ⟨a, g, ha, hg, rfl⟩ := promote_ok hi
      have hop : a.op ≠ .eq := h2 a (List.mem_of_getElem? ha)
      have hg' : g = { st.goal with hyps := st.goal.hyps ++ [a] } := by
        unfold Goal.addHyp Goal.simplify Goal.simplifyNew at hg
        rw [if_neg hop, if_neg (by simp [h1])] at hg
        cases hg
        rfl
      subst hg'
      obtain ⟨e1, e2, ps, e3, e4⟩ := ih h1 (by
        intro b hb
        apply h2
        rcases List.mem_append.1 hb with hb | hb
        · exact List.mem_of_mem_take hb
        · exact List.mem_of_mem_drop hb)
      refine ⟨e1, e2, a :: ps, by rw [e3]; simp, ?_⟩
      exact (List.Perm.cons a e4).trans (take_drop_perm ha)
  obtain ⟨e1, e2, ps, e3, e4⟩ := inv 0 k _ st' hr rfl (by
    intro a ha
    rcases hseq.hypOps a ha with h | h | h <;> rw [h] <;> decide)
  simp only [List.nil_append] at e3
  have hps : ∀ a ∈ ps, a ∈ hyps := fun a ha => e4.subset (by simp [ha])
  refine ⟨ps, e4, e3.symm, ?_⟩
  have hmem : ∀ a ∈ st'.goal.main :: st'.goal.hyps, a ∈ main :: hyps := by
    intro a ha
    rw [e2, e3] at ha
    rcases List.mem_cons.1 ha with rfl | ha
    · simp
    · exact List.mem_cons_of_mem _ (hps a ha)
  have hg : StrictGoal st'.goal := by
    refine ⟨by rw [e2]; exact hseq.mainOp, ?_, fun a ha => hseq.fresh a (hmem a ha), fun a ha => hseq.one a (hmem a ha)⟩
    intro a ha
    rw [e3] at ha
    exact hseq.hypOps a (hps a ha)
  have htop : ∀ p ∈ extra (0 + k) st' ++ st'.goal.main.poly :: st'.goal.hyps.map Atom.poly, U p ∧ Poly1 p := by
    intro p hp
    rcases List.mem_append.1 hp with hp | hp
    · exact hextra _ _ p hp
    · have : ∃ a ∈ st'.goal.main :: st'.goal.hyps, p = a.poly := by
        rcases List.mem_cons.1 hp with rfl | hp
        · exact ⟨_, by simp, rfl⟩
        · obtain ⟨a, ha, rfl⟩ := List.mem_map.1 hp
          exact ⟨a, by simp [ha], rfl⟩
      obtain ⟨a, ha, rfl⟩ := this
      exact ⟨hin a (hmem a ha), (hseq.one a (hmem a ha)).1⟩
  have hvalid := core_sound (K := K) S E hE hu st'.goal hg _ (by
      intro a ha
      apply List.mem_append.2 (Or.inr _)
      rcases List.mem_cons.1 ha with rfl | ha
      · simp
      · exact List.mem_cons_of_mem _ (List.mem_map.2 ⟨a, ha, rfl⟩)) (fun p hp => (htop p hp).2)
    (hU.imp (fun h p hp => h p (htop p hp).1) fun h p hp => h p (htop p hp).1) _ numSps st'.hyps ds hds htrue
  intro ρ hρ
  have := hvalid ρ (by rw [e3]; exact hρ)
  rwa [e2] at this

/-- `x0 - 1 > 0` and `x0 >= 0` -/
def exHyp : Atom := ⟨[([], -1), ([1], 1)], .gt, [0]⟩
/-- the goal of the example -/
def exMain : Atom := ⟨[([1], 1)], .ge, [0]⟩

theorem rootsOK_uniform : ∃ E : CadEnv, RootsOK ℝ E ∧ UniformOK E ∧ E.roots [([1], 1)] = [(0, 1)] ∧
    E.roots [([], -1), ([1], 1)] = [(1, 1)] ∧ E.uniform = fun _ _ _ _ l r => (l + r) / 2 := by
  obtain ⟨E, hE⟩ := rootsOK_exists
  refine ⟨⟨fun p => if p = [([1], 1)] then [(0, 1)] else if p = [([], -1), ([1], 1)] then [(1, 1)] else E.roots p,
    E.rri, fun _ _ _ _ l r => (l + r) / 2, E.res, E.disc⟩, ⟨?_, hE.cover, hE.has, hE.uniq, hE.sep⟩, ?_, ?_, ?_, rfl⟩
  · intro p hp a
    simp only
    split
    · next h =>
      subst h
      have : val [([1], 1)] a = a := by simp [val, MPoly.eval, Mono.evalFrom]
      rw [this]; simp
    · split
      · next h =>
        subst h
        have : val [([], -1), ([1], 1)] a = a - 1 := by simp [val, MPoly.eval, Mono.evalFrom]; ring
        rw [this, sub_eq_zero]; simp
      · exact hE.roots p hp a
  · intro tag b i j l r h
    constructor <;> simp only <;> linarith
  · simp
  · simp

theorem samples_one (S : Sage ℚ) (E : CadEnv) (top : List MPoly) (goal : Option Goal) (numSps : ℕ) (ambient : List Atom) :
    samplePtDicts S E 1 top goal numSps ambient =
      .ok (((sectorSps E [] (isoRootIntvls E (filterProjSet top)) 1 ambient 0).map fun x => [x]).map (spDict [0])) := rfl

/-- A sequent that is proved after one promotion, with assumptions as in C57_partial. -/
example : ∃ E : CadEnv, RootsOK ℝ E ∧ UniformOK E ∧ StrictSequent [exHyp] exMain ∧
    NotMixed ℝ (fun p => p = exHyp.poly ∨ p = exMain.poly) ∧
    ∃ ret st', check (cadCore testSage E 1 1 (fun _ _ => []) (fun _ _ _ => .ok []) fun _ _ _ => some [0]) 2 0
      ⟨[exHyp], ⟨exMain, [], []⟩, [0]⟩ = .ok (ret, st') ∧ st'.goal.hyps = [exHyp] := by
  obtain ⟨E, h1, h2, h3, h4, h5⟩ := rootsOK_uniform
  have v1 : ∀ {K : Type} [Field K] [LinearOrder K] [IsStrictOrderedRing K] (x : K), val [([1], 1)] x = x := by
    intro K _ _ _ x; simp [val, MPoly.eval, Mono.evalFrom]
  have v2 : ∀ {K : Type} [Field K] [LinearOrder K] [IsStrictOrderedRing K] (x : K),
      val [([], -1), ([1], 1)] x = x - 1 := by
    intro K _ _ _ x; simp [val, MPoly.eval, Mono.evalFrom]; ring
  refine ⟨E, h1, h2, ⟨by decide, by decide, ?_, ?_⟩, ?_, ?_⟩
  · intro h hh
    rcases List.mem_cons.1 hh with rfl | hh
    · unfold Fresh; decide +kernel
    · rw [List.mem_singleton] at hh; subst hh; unfold Fresh; decide +kernel
  · intro h hh
    rcases List.mem_cons.1 hh with rfl | hh
    · refine ⟨Or.inr ⟨⟨by decide +kernel, 1, ?_⟩, ?_⟩, by decide +kernel⟩
      · show val [([1], 1)] (1 : ℚ) ≠ 0
        rw [v1]; norm_num
      · unfold NoZeroTerms; decide +kernel
    · rw [List.mem_singleton] at hh; subst hh
      refine ⟨Or.inr ⟨⟨by decide +kernel, 2, ?_⟩, ?_⟩, by decide +kernel⟩
      · show val [([], -1), ([1], 1)] (2 : ℚ) ≠ 0
        rw [v2]; norm_num
      · unfold NoZeroTerms; decide +kernel
  · right
    rintro p (rfl | rfl) _ z hz
    · have hz : val [([], -1), ([1], 1)] z = 0 := hz
      rw [v2] at hz
      exact ⟨1, by push_cast; linarith⟩
    · have hz : val [([1], 1)] z = 0 := hz
      rw [v1] at hz
      exact ⟨0, by push_cast; exact hz⟩
  · have i1 : isoRootIntvls E [[([1], 1)]] = [((0, 0), 1)] := by
      unfold isoRootIntvls; simp [h3]
    have i2 : isoRootIntvls E [[([1], 1)], [([], -1), ([1], 1)]] = [((0, 0), 1), ((1, 1), 1)] := by
      unfold isoRootIntvls; simp [h3, h4]
    have s1 : (cadCore testSage E 1 1 (fun _ _ => []) (fun _ _ _ => .ok []) fun _ _ _ => some [0]).samples 0
        ⟨[exHyp], ⟨exMain, [], []⟩, [0]⟩ = .ok [[(0, -1)], [(0, 0)], [(0, 1)]] := by
      show samplePtDicts testSage E 1 [[([1], 1)]] _ 1 _ = _
      have hf : filterProjSet [[([1], 1)]] = [[([1], 1)]] := by decide +kernel
      rw [samples_one, hf, i1]
      unfold sectorSps
      rw [h5]
      decide +kernel
    have s2 : (cadCore testSage E 1 1 (fun _ _ => []) (fun _ _ _ => .ok []) fun _ _ _ => some [0]).samples 1
        ⟨[], ⟨exMain, [exHyp], []⟩, []⟩ = .ok [[(0, -1)], [(0, 0)], [(0, 1/2)], [(0, 1)], [(0, 2)]] := by
      show samplePtDicts testSage E 1 [[([1], 1)], [([], -1), ([1], 1)]] _ 1 _ = _
      have hf : filterProjSet [[([1], 1)], [([], -1), ([1], 1)]] = [[([1], 1)], [([], -1), ([1], 1)]] := by decide +kernel
      rw [samples_one, hf, i2]
      unfold sectorSps
      rw [h5]
      decide +kernel
    refine ⟨[], ⟨[], ⟨exMain, [exHyp], []⟩, []⟩, ?_, rfl⟩
    have a1 : allBads (cadCore testSage E 1 1 (fun _ _ => []) (fun _ _ _ => .ok []) fun _ _ _ => some [0]) 0
        ⟨[exHyp], ⟨exMain, [], []⟩, [0]⟩ [[(0, -1)], [(0, 0)], [(0, 1)]] = .ok (false, []) := by
      change allBads { (testSage : Sage ℚ) with
        samples := fun _ _ => .ok [], more := fun _ _ _ => .ok [], solve := fun _ _ _ => some [0] } 0
        ⟨[exHyp], ⟨exMain, [], []⟩, [0]⟩ [[(0, -1)], [(0, 0)], [(0, 1)]] = .ok (false, [])
      decide +kernel
    have r1 : round (cadCore testSage E 1 1 (fun _ _ => []) (fun _ _ _ => .ok []) fun _ _ _ => some [0]) 0
        ⟨[exHyp], ⟨exMain, [], []⟩, [0]⟩ = .ok ([], some ⟨[], ⟨exMain, [exHyp], []⟩, []⟩) := by
      unfold round
      rw [s1]
      simp only [bind, Except.bind]
      rw [a1]
      have hs : sortCand ⟨[exHyp], ⟨exMain, [], []⟩, [0]⟩ [0] = [0] := List.mergeSort_singleton _
      have hg : goodHyps (cadCore testSage E 1 1 (fun _ _ => []) (fun _ _ _ => .ok []) fun _ _ _ => some [0])
        ⟨[exHyp], ⟨exMain, [], []⟩, [0]⟩ [] = .ok [0] := rfl
      simp only [hg, hs]
      rfl
    unfold check
    rw [r1]
    simp only [bind, Except.bind]
    rw [check_true _ 1 0 _ _ s2]
    intro d hd
    change Goal.evalOnDict testSage ⟨exMain, [exHyp], []⟩ d = _
    revert d
    decide +kernel

end Verif.Grf
