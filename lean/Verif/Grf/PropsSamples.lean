import Verif.Grf.PropsCells

/-!
# C114: the number of sample points selected in a cell

`RCF_GD_Decide(num_vars, num_sps)` (`grf.sage:753`) says how many sample points are to be selected in each
full-dimensional cell (comments at `grf.sage:497`, `grf.sage:562`).
-/

set_option linter.unusedSectionVars false

namespace Verif.Grf

/-! ### In the base phase the number has no effect -/

/-- **C114**, one variable: the number of sample points per cell that was asked for has no effect at all. -/
theorem C114_no_effect (S : Sage ℚ) (E : CadEnv) (top : List MPoly) (goal : Option Goal) (ambient : List Atom)
    (numSps numSps' : ℕ) :
    samplePtDicts S E 1 top goal numSps ambient = samplePtDicts S E 1 top goal numSps' ambient := by
  unfold samplePtDicts
  simp only [Nat.sub_self, projSets]
  cases projOrd (filterProjSet top) (List.range 1) <;> rfl

theorem perm_zero_one {l : List (ℚ × ℕ)} (hn : (l.map Prod.fst).Nodup) (h : ∀ a : ℚ, (∃ m, (a, m) ∈ l) ↔ a = 0 ∨ a = 1) :
    (l.map Prod.fst).Perm [0, 1] := by
  rw [List.perm_ext_iff_of_nodup hn (by decide)]
  intro a
  simp only [List.mem_map, Prod.exists, exists_and_right, exists_eq_right, h a, List.mem_cons, List.not_mem_nil, or_false]

/-- **C114** is violated: the decider of one variable is asked for `num_sps` sample points per cell, the goal contains the
polynomial `x0^2 - x0`. In each of its three cells there is exactly one sample point, whatever `num_sps` is. -/
theorem C114_violated (S : Sage ℚ) (E : CadEnv) (hE : RootsOK ℝ E) (hc : CountOK E) (hu : UniformOK E) (goal : Option Goal)
    (numSps : ℕ) : ∃ ds, samplePtDicts S E 1 [[([2], 1), ([1], -1)]] goal numSps [] = .ok ds ∧
      (ds.filter fun d => decide (ptOf d 0 < 0)).length = 1 ∧
      (ds.filter fun d => decide (0 < ptOf d 0 ∧ ptOf d 0 < 1)).length = 1 ∧
      (ds.filter fun d => decide (1 < ptOf d 0)).length = 1 := by
  have hf : filterProjSet [[([2], 1), ([1], -1)]] = [[([2], 1), ([1], -1)]] := by decide +kernel
  have ho : projOrd [[([2], 1), ([1], -1)]] (List.range 1) = [0] := by decide +kernel
  have hval : ∀ a : ℚ, val [([2], 1), ([1], -1)] a = a ^ 2 - a := by
    intro a; simp [val, MPoly.eval, Mono.evalFrom]; ring
  have hU : Univ [([2], 1), ([1], -1)] := ⟨⟨0, by decide +kernel⟩, 2, by rw [hval]; norm_num⟩
  have hr : ∀ a : ℚ, (∃ m, (a, m) ∈ E.roots [([2], 1), ([1], -1)]) ↔ a = 0 ∨ a = 1 := by
    intro a
    rw [hE.roots _ hU a, hval]
    constructor
    · intro h
      have : a * (a - 1) = 0 := by linarith [h]
      rcases mul_eq_zero.1 this with h | h
      · exact Or.inl h
      · exact Or.inr (by linarith)
    · rintro (rfl | rfl) <;> norm_num
  have hperm := perm_zero_one (hc.roots _ hU) hr
  have hne : E.roots [([2], 1), ([1], -1)] ≠ [] := by
    intro h0
    rw [h0] at hperm
    exact absurd hperm.length_eq (by simp)
  have hiso : (isoRootIntvls E [[([2], 1), ([1], -1)]]).map Prod.fst =
      ((E.roots [([2], 1), ([1], -1)]).map Prod.fst).map fun a => (a, a) := by
    unfold isoRootIntvls
    simp [hne, Function.comp_def]
  have hsort : ((isoRootIntvls E [[([2], 1), ([1], -1)]]).map Prod.fst).insertionSort (fun a b => ivlLe a b = true) =
      [(0, 0), (1, 1)] := by
    rw [hiso]
    have h2 : ∀ l : List ℚ, l.Perm [0, 1] → l = [0, 1] ∨ l = [1, 0] := by
      intro l hl
      match l, hl with
      | [a, b], hl =>
        have hm := hl.mem_iff (a := a)
        have hm2 := hl.mem_iff (a := b)
        have hnd := hl.nodup_iff.2 (by decide)
        simp at hm hm2 hnd
        rcases hm with rfl | rfl <;> rcases hm2 with rfl | rfl <;> simp_all
      | [], hl => exact absurd hl.length_eq (by simp)
      | [_], hl => exact absurd hl.length_eq (by simp)
      | _ :: _ :: _ :: _, hl => exact absurd hl.length_eq (by simp)
    rcases h2 _ hperm with h | h <;> rw [h] <;> decide +kernel
  have hne' : isoRootIntvls E [[([2], 1), ([1], -1)]] ≠ [] := by
    intro h0
    rw [h0] at hsort
    exact absurd hsort (by simp)
  have hu' := hu [] true 0 0 0 1 (by norm_num)
  generalize hw : E.uniform [] true 0 0 0 1 = w at hu'
  have hsec : sectorSps E [] (isoRootIntvls E [[([2], 1), ([1], -1)]]) 1 [] 0 = [-1, 0, w, 1, 2] := by
    unfold sectorSps
    rw [if_neg hne', hsort]
    unfold sectorRoots
    simp only [List.getLast?_cons_cons, List.getLast?_singleton, gaps, List.flatMap_cons, List.flatMap_nil, kRandomSps,
      List.zipIdx_cons, List.zipIdx_nil]
    have h1 : ¬ w ≤ 0 := not_le.2 hu'.1
    have h2 : ¬ 2 ≤ w := not_le.2 (by linarith [hu'.2])
    norm_num [hw, h1, hu'.2.le, h2]
  refine ⟨[-1, 0, w, 1, 2].map fun x => [(0, x)], ?_, ?_⟩
  · unfold samplePtDicts
    simp only [hf, ho, Nat.sub_self, projSets, hsec]
    rfl
  · have h1 : ¬ w < 0 := not_lt.2 hu'.1.le
    have h2 : ¬ 1 < w := not_lt.2 hu'.2.le
    have hpt : ∀ x : ℚ, ptOf [(0, x)] 0 = x := fun x => rfl
    simp only [List.map_cons, List.map_nil, List.filter_cons, hpt, List.filter_nil]
    norm_num [h1, h2, hu'.1, hu'.2]

/-! ### In the other phases: bounded and unbounded sectors -/

theorem kRandomSps_mem {u : ℕ → ℚ → ℚ → ℚ} (hu : ∀ j l r, l < r → l < u j l r ∧ u j l r < r) {l r : ℚ} (hlr : l ≤ r) {k : ℕ}
    {x : ℚ} (hx : x ∈ kRandomSps u l r k) : l ≤ x ∧ x ≤ r := by
  unfold kRandomSps at hx
  split at hx
  · next h =>
    rw [List.mem_singleton] at hx
    subst hx
    exact ⟨le_rfl, h.le⟩
  · next h =>
    obtain ⟨j, _, rfl⟩ := List.mem_map.1 hx
    have := hu j l r (lt_of_le_of_ne hlr h)
    exact ⟨this.1.le, this.2.le⟩

theorem gaps_append : ∀ (l : List (ℚ × ℚ)) (a b : ℚ × ℚ) (l' : List (ℚ × ℚ)) (i : ℕ),
    gaps i (l ++ a :: b :: l') = gaps i (l ++ [a]) ++ (i + l.length, a.2, b.1) :: gaps (i + l.length + 1) (b :: l')
  | [], a, b, l', i => by simp [gaps]
  | [c], a, b, l', i => by simp [gaps]
  | c :: d :: l, a, b, l', i => by
    have := gaps_append (d :: l) a b l' (i + 1)
    simp only [List.cons_append, gaps, List.length_cons] at this ⊢
    rw [this]
    simp only [Nat.add_comm, Nat.add_left_comm]

theorem gaps_pair : ∀ {l : List (ℚ × ℚ)} {i : ℕ} {g : ℕ × ℚ × ℚ}, l.Pairwise (fun I J => I.2 ≤ J.1) → g ∈ gaps i l →
    g.2.1 ≤ g.2.2 ∧ (∃ I ∈ l, g.2.1 = I.2) ∧ ∃ J ∈ l, g.2.2 = J.1
  | [], i, g, _, hg => by simp [gaps] at hg
  | [_], i, g, _, hg => by simp [gaps] at hg
  | a :: b :: l, i, g, hp, hg => by
    rw [gaps, List.mem_cons] at hg
    rcases hg with rfl | hg
    · exact ⟨(List.pairwise_cons.1 hp).1 b (by simp), ⟨a, by simp, rfl⟩, b, by simp, rfl⟩
    · obtain ⟨h1, ⟨I, hI, h2⟩, J, hJ, h3⟩ := gaps_pair (List.pairwise_cons.1 hp).2 hg
      exact ⟨h1, ⟨I, List.mem_cons_of_mem _ hI, h2⟩, J, List.mem_cons_of_mem _ hJ, h3⟩

theorem countP_flatMap_zero {α β : Type} {p : β → Bool} {f : α → List β} {l : List α}
    (h : ∀ a ∈ l, ∀ b ∈ f a, ¬ p b = true) : (l.flatMap f).countP p = 0 := by
  rw [List.countP_eq_zero]
  intro b hb
  obtain ⟨a, ha, hb⟩ := List.mem_flatMap.1 hb
  exact h a ha b hb

/-- The number of points in a gap between consecutive intervals. -/
theorem sectorRoots_gap {u : Bool → ℕ → ℕ → ℚ → ℚ → ℚ} (hu : ∀ b i j l r, l < r → l < u b i j l r ∧ u b i j l r < r)
    (numSps : ℕ) (l : List (ℚ × ℚ)) (a b : ℚ × ℚ) (l' : List (ℚ × ℚ))
    (hp : (l ++ a :: b :: l').Pairwise fun I J => I.2 ≤ J.1) (hle : ∀ I ∈ l ++ a :: b :: l', I.1 ≤ I.2) (hab : a.2 < b.1) :
    (sectorRoots u numSps (l ++ a :: b :: l')).countP (fun x => decide (a.2 < x ∧ x < b.1)) = numSps := by
  -- where the other intervals are
  have hleft : ∀ I ∈ l ++ [a], I.2 ≤ a.2 := by
    intro I hI
    rcases List.mem_append.1 hI with hI | hI
    · exact ((List.pairwise_append.1 hp).2.2 I hI a (by simp)).trans (hle a (by simp))
    · rw [List.mem_singleton] at hI; rw [hI]
  have hp' := (List.pairwise_cons.1 (List.pairwise_append.1 hp).2.1).2
  have hright : ∀ I ∈ b :: l', b.1 ≤ I.1 := by
    intro I hI
    rcases List.mem_cons.1 hI with rfl | hI
    · exact le_rfl
    · exact (hle b (by simp)).trans ((List.pairwise_cons.1 hp').1 I hI)
  have hpl : (l ++ [a]).Pairwise fun I J => I.2 ≤ J.1 := by
    refine hp.sublist ?_
    rw [show l ++ a :: b :: l' = (l ++ [a]) ++ (b :: l') by simp]
    exact List.sublist_append_left _ _
  have hmem : ∀ I ∈ l ++ a :: b :: l', I ∈ l ++ [a] ∨ I ∈ b :: l' := by
    intro I hI
    simpa [or_assoc] using hI
  have hlast : ∃ e, (l ++ a :: b :: l').getLast? = some e ∧ e ∈ b :: l' := by
    refine ⟨(b :: l').getLast (by simp), ?_, List.getLast_mem _⟩
    rw [show l ++ a :: b :: l' = (l ++ [a]) ++ (b :: l') by simp, List.getLast?_append_of_ne_nil _ (by simp),
      List.getLast?_eq_getLast_of_ne_nil]
  have hfirst : ∃ f t, l ++ a :: b :: l' = f :: t ∧ f ∈ l ++ [a] := by
    cases l with
    | nil => exact ⟨a, b :: l', rfl, by simp⟩
    | cons c l => exact ⟨c, l ++ a :: b :: l', rfl, by simp⟩
  obtain ⟨e, he, heb⟩ := hlast
  obtain ⟨f, t, hft, hfa⟩ := hfirst
  have hsec : sectorRoots u numSps (l ++ a :: b :: l') = ([((⌊f.1 - 1⌋ : ℤ) : ℚ), ((⌈e.2 + 1⌉ : ℤ) : ℚ)] ++
      ((gaps 0 (l ++ a :: b :: l')).flatMap fun g => kRandomSps (u true g.1) g.2.1 g.2.2 numSps) ++
      ((l ++ a :: b :: l').zipIdx.flatMap fun a => kRandomSps (u false a.2) a.1.1 a.1.2 1)).insertionSort (· ≤ ·) := by
    rw [hft] at he ⊢
    unfold sectorRoots
    rw [he]
  have hfl : f.1 ≤ f.2 := hle f (by rw [hft]; simp)
  have hel : e.1 ≤ e.2 := hle e (by simp only [List.mem_append, List.mem_cons] at heb ⊢; tauto)
  have hfa' := hleft f hfa
  have heb' := hright e heb
  rw [hsec, (List.perm_insertionSort _ _).countP_eq, List.countP_append, List.countP_append, gaps_append, List.flatMap_append,
    List.flatMap_cons, List.countP_append, List.countP_append]
  have h1 : List.countP (fun x => decide (a.2 < x ∧ x < b.1)) [((⌊f.1 - 1⌋ : ℤ) : ℚ), ((⌈e.2 + 1⌉ : ℤ) : ℚ)] = 0 := by
    have hfloor := Int.floor_le (f.1 - 1)
    have hceil := Int.le_ceil (e.2 + 1)
    rw [List.countP_eq_zero]
    intro x hx
    simp only [List.mem_cons, List.not_mem_nil, or_false] at hx
    rcases hx with rfl | rfl
    · have : ¬ a.2 < ((⌊f.1 - 1⌋ : ℤ) : ℚ) := by linarith
      simp only [this, false_and, decide_false, Bool.false_eq_true, not_false_eq_true]
    · have : ¬ ((⌈e.2 + 1⌉ : ℤ) : ℚ) < b.1 := by linarith
      simp only [this, and_false, decide_false, Bool.false_eq_true, not_false_eq_true]
  have h2 : List.countP (fun x => decide (a.2 < x ∧ x < b.1))
      ((gaps 0 (l ++ [a])).flatMap fun g => kRandomSps (u true g.1) g.2.1 g.2.2 numSps) = 0 := by
    refine countP_flatMap_zero fun g hg x hx => ?_
    obtain ⟨h1, _, J, hJ, h3⟩ := gaps_pair hpl hg
    have hx := (kRandomSps_mem (hu true g.1) h1 hx).2
    have := hleft J hJ
    have hJl := hle J (by simp only [List.mem_append, List.mem_cons] at hJ ⊢; tauto)
    have : ¬ a.2 < x := by rw [h3] at hx; linarith
    simp [this]
  have h3 : List.countP (fun x => decide (a.2 < x ∧ x < b.1))
      ((gaps (0 + l.length + 1) (b :: l')).flatMap fun g => kRandomSps (u true g.1) g.2.1 g.2.2 numSps) = 0 := by
    refine countP_flatMap_zero fun g hg x hx => ?_
    obtain ⟨h1, ⟨I, hI, h3⟩, _⟩ := gaps_pair hp' hg
    have hx := (kRandomSps_mem (hu true g.1) h1 hx).1
    have := hright I hI
    have hIl := hle I (by simp only [List.mem_append, List.mem_cons] at hI ⊢; tauto)
    have : ¬ x < b.1 := by rw [h3] at hx; linarith
    simp [this]
  have h4 : List.countP (fun x => decide (a.2 < x ∧ x < b.1))
      ((l ++ a :: b :: l').zipIdx.flatMap fun a => kRandomSps (u false a.2) a.1.1 a.1.2 1) = 0 := by
    refine countP_flatMap_zero fun c hc x hx => ?_
    have hc := List.fst_mem_of_mem_zipIdx hc
    have hx := kRandomSps_mem (hu false c.2) (hle _ hc) hx
    rcases hmem _ hc with h | h
    · have := hleft _ h
      have : ¬ a.2 < x := by linarith
      simp [this]
    · have := hright _ h
      have : ¬ x < b.1 := by linarith
      simp [this]
  have h5 : List.countP (fun x => decide (a.2 < x ∧ x < b.1)) (kRandomSps (u true (0 + l.length)) a.2 b.1 numSps) = numSps := by
    unfold kRandomSps
    rw [if_neg hab.ne, List.countP_eq_length.2, List.length_map, List.length_range]
    intro x hx
    obtain ⟨j, _, rfl⟩ := List.mem_map.1 hx
    simpa using hu true (0 + l.length) j a.2 b.1 hab
  rw [h1, h2, h3, h4, h5]
  omega

/-- The number of points before all intervals. -/
theorem sectorRoots_outer {u : Bool → ℕ → ℕ → ℚ → ℚ → ℚ} (hu : ∀ b i j l r, l < r → l < u b i j l r ∧ u b i j l r < r)
    (numSps : ℕ) (l : List (ℚ × ℚ)) (hne : l ≠ []) (hp : l.Pairwise fun I J => I.2 ≤ J.1) (hle : ∀ I ∈ l, I.1 ≤ I.2) :
    (sectorRoots u numSps l).countP (fun x => decide (∀ I ∈ l, x < I.1)) = 1 ∧
    (sectorRoots u numSps l).countP (fun x => decide (∀ I ∈ l, I.2 < x)) = 1 := by
  obtain ⟨f, t, rfl⟩ := List.exists_cons_of_ne_nil hne
  have hlast := List.getLast?_eq_getLast_of_ne_nil hne
  set e := (f :: t).getLast hne with he
  have hem : e ∈ f :: t := List.getLast_mem _
  have hf : ∀ I ∈ f :: t, f.1 ≤ I.1 := by
    intro I hI
    rcases List.mem_cons.1 hI with rfl | hI
    · exact le_rfl
    · exact (hle f (by simp)).trans ((List.pairwise_cons.1 hp).1 I hI)
  have hel : ∀ I ∈ f :: t, I.2 ≤ e.2 := by
    intro I hI
    have hd := List.dropLast_append_getLast hne
    rw [← hd] at hI hp
    rcases List.mem_append.1 hI with hI | hI
    · exact ((List.pairwise_append.1 hp).2.2 I hI e (by simp [he])).trans (hle e hem)
    · rw [List.mem_singleton] at hI; rw [hI]
  have hfl := hle f (by simp)
  have hee := hle e hem
  have hfloor := Int.floor_le (f.1 - 1)
  have hceil := Int.le_ceil (e.2 + 1)
  have hef := hel f (by simp)
  have hmid : ∀ x ∈ ((gaps 0 (f :: t)).flatMap fun g => kRandomSps (u true g.1) g.2.1 g.2.2 numSps) ++
      ((f :: t).zipIdx.flatMap fun a => kRandomSps (u false a.2) a.1.1 a.1.2 1), f.1 ≤ x ∧ x ≤ e.2 := by
    intro x hx
    rcases List.mem_append.1 hx with hx | hx
    · obtain ⟨g, hg, hx⟩ := List.mem_flatMap.1 hx
      obtain ⟨h1, ⟨I, hI, h2⟩, J, hJ, h3⟩ := gaps_pair hp hg
      have hx := kRandomSps_mem (hu true g.1) h1 hx
      have := hf I hI
      have := hel J hJ
      have := hle I hI
      have := hle J hJ
      rw [h2, h3] at hx
      constructor <;> linarith
    · obtain ⟨c, hc, hx⟩ := List.mem_flatMap.1 hx
      have hc := List.fst_mem_of_mem_zipIdx hc
      have hx := kRandomSps_mem (hu false c.2) (hle _ hc) hx
      have := hf _ hc
      have := hel _ hc
      constructor <;> linarith
  have hsec : sectorRoots u numSps (f :: t) = ([((⌊f.1 - 1⌋ : ℤ) : ℚ), ((⌈e.2 + 1⌉ : ℤ) : ℚ)] ++
      (((gaps 0 (f :: t)).flatMap fun g => kRandomSps (u true g.1) g.2.1 g.2.2 numSps) ++
      ((f :: t).zipIdx.flatMap fun a => kRandomSps (u false a.2) a.1.1 a.1.2 1))).insertionSort (· ≤ ·) := by
    unfold sectorRoots
    rw [hlast]
    simp only [List.append_assoc]
  rw [hsec, (List.perm_insertionSort _ _).countP_eq, (List.perm_insertionSort _ _).countP_eq]
  generalize ((gaps 0 (f :: t)).flatMap fun g => kRandomSps (u true g.1) g.2.1 g.2.2 numSps) ++
      ((f :: t).zipIdx.flatMap fun a => kRandomSps (u false a.2) a.1.1 a.1.2 1) = m at hmid
  rw [List.countP_append, List.countP_append]
  constructor
  · rw [(List.countP_eq_zero (l := m)).2, List.countP_cons_of_pos, List.countP_cons_of_neg]
    · rfl
    · simp only [decide_eq_true_eq]
      intro h
      linarith [h f (by simp)]
    · simp only [decide_eq_true_eq]
      intro I hI
      linarith [hf I hI]
    · intro x hx
      simp only [decide_eq_true_eq]
      intro h
      linarith [h f (by simp), (hmid x hx).1]
  · rw [(List.countP_eq_zero (l := m)).2, List.countP_cons_of_neg, List.countP_cons_of_pos]
    · rfl
    · simp only [decide_eq_true_eq]
      intro I hI
      linarith [hel I hI]
    · simp only [decide_eq_true_eq]
      intro h
      linarith [h e hem]
    · intro x hx
      simp only [decide_eq_true_eq]
      intro h
      linarith [h e hem, (hmid x hx).2]

/-- Two neighbours in a list of intervals are consecutive elements when it is sorted. -/
theorem neighbours_split : ∀ {l : List (ℚ × ℚ)}, l.Pairwise (fun I J => I.2 ≤ J.1) → (∀ I ∈ l, I.1 ≤ I.2) → ∀ {r s : ℚ}, r < s →
    (∃ I ∈ l, I.2 = r) → (∃ J ∈ l, J.1 = s) → (∀ X ∈ l, ¬ (r < X.2 ∧ X.1 < s)) →
    ∃ l₁ a b l₂, l = l₁ ++ a :: b :: l₂ ∧ a.2 = r ∧ b.1 = s
  | [], _, _, r, s, _, ⟨I, hI, _⟩, _, _ => by simp at hI
  | [c], _, hle, r, s, hrs, ⟨I, hI, h1⟩, ⟨J, hJ, h2⟩, _ => by
    simp only [List.mem_singleton] at hI hJ
    subst hI hJ
    linarith [hle J (by simp)]
  | c :: d :: l, hp, hle, r, s, hrs, ⟨I, hI, h1⟩, ⟨J, hJ, h2⟩, hno => by
    obtain ⟨hc, hp'⟩ := List.pairwise_cons.1 hp
    have hcd := hc d (by simp)
    have hcl := hle c (by simp)
    have hdl := hle d (by simp)
    have hJl : J ∈ d :: l := by
      rcases List.mem_cons.1 hJ with rfl | h
      · rcases List.mem_cons.1 hI with rfl | h
        · linarith
        · have := hc I h
          have := hle I (List.mem_cons_of_mem _ h)
          linarith
      · exact h
    by_cases hd : d.2 ≤ r
    · have hIl : ∃ I ∈ d :: l, I.2 = r := by
        rcases List.mem_cons.1 hI with rfl | h
        · exact ⟨d, by simp, le_antisymm hd (by linarith)⟩
        · exact ⟨I, h, h1⟩
      obtain ⟨l₁, a, b, l₂, he, h⟩ := neighbours_split hp' (fun X hX => hle X (List.mem_cons_of_mem _ hX)) hrs hIl
        ⟨J, hJl, h2⟩ fun X hX => hno X (List.mem_cons_of_mem _ hX)
      exact ⟨c :: l₁, a, b, l₂, by rw [he]; rfl, h⟩
    · have hds : ¬ d.1 < s := fun h => hno d (by simp) ⟨lt_of_not_ge hd, h⟩
      have hdJ : d.1 = s := by
        rcases List.mem_cons.1 hJl with rfl | h
        · exact h2
        · have := (List.pairwise_cons.1 hp').1 J h
          linarith
      refine ⟨[], c, d, l, rfl, ?_, hdJ⟩
      rcases List.mem_cons.1 hI with rfl | h
      · exact h1
      · rcases List.mem_cons.1 h with rfl | h
        · exact absurd h1.le hd
        · have := (List.pairwise_cons.1 hp').1 I h
          have := hle I (by simp [h])
          linarith

/-- **C114**, what holds in the levels above the base: let the polynomials over a cell have only rational roots, or no
rational roots, and let Sage isolate the roots rightly. Between two neighbouring isolating intervals which do not touch there
are exactly `num_sps` sample points. (Missing: in the unbounded sectors there is only one, and if the intervals touch,
also.) -/
theorem C114_partial {K : Type} [Field K] [LinearOrder K] [IsStrictOrderedRing K] (E : CadEnv) (hE : RootsOK K E)
    (hu : UniformOK E) (v : ℕ) (ps : List MPoly) (hps : ∀ p ∈ ps, InVar v p)
    (hmix : (∀ p ∈ ps, ∀ a : ℚ, val p a ≠ 0) ∨ ∀ p ∈ ps, ∀ z : K, val p z = 0 → ∃ a : ℚ, z = a)
    (cell : List ℚ) (numSps : ℕ) (ambient : List Atom) (I J : (ℚ × ℚ) × ℕ) (hI : I ∈ isoRootIntvls E ps)
    (hJ : J ∈ isoRootIntvls E ps) (hIJ : I.1.2 < J.1.1)
    (hno : ∀ X ∈ isoRootIntvls E ps, X.1.2 ≤ I.1.2 ∨ J.1.1 ≤ X.1.1) :
    ((sectorSps E cell (isoRootIntvls E ps) numSps ambient v).filter fun x => decide (I.1.2 < x ∧ x < J.1.1)).length =
      numSps := by
  have hiso := isolates_iso E hE v ps hps hmix
  obtain ⟨hmem, hp⟩ := hiso.sorted
  have hle : ∀ X ∈ ((isoRootIntvls E ps).map Prod.fst).insertionSort (fun a b => ivlLe a b = true), X.1 ≤ X.2 := by
    intro X hX
    obtain ⟨z, _, h1, h2⟩ := hiso.has X ((hmem X).1 hX)
    exact_mod_cast h1.trans h2
  obtain ⟨l₁, a, b, l₂, he, ha, hb⟩ := neighbours_split hp hle hIJ
    ⟨I.1, (hmem _).2 (List.mem_map.2 ⟨I, hI, rfl⟩), rfl⟩ ⟨J.1, (hmem _).2 (List.mem_map.2 ⟨J, hJ, rfl⟩), rfl⟩ (by
      intro X hX
      obtain ⟨Y, hY, rfl⟩ := List.mem_map.1 ((hmem X).1 hX)
      rintro ⟨h1, h2⟩
      rcases hno Y hY with h | h <;> linarith)
  rw [← List.countP_eq_length_filter]
  unfold sectorSps
  rw [if_neg (List.ne_nil_of_mem hI), he, ← ha, ← hb]
  rw [he] at hp hle
  exact sectorRoots_gap (hu cell) numSps l₁ a b l₂ hp hle (by rw [ha, hb]; exact hIJ)

/-- **C114**: in the two unbounded sectors there is always exactly one sample point, in all levels. -/
theorem C114_unbounded {K : Type} [Field K] [LinearOrder K] [IsStrictOrderedRing K] (E : CadEnv) (hE : RootsOK K E)
    (hu : UniformOK E) (v : ℕ) (ps : List MPoly) (hps : ∀ p ∈ ps, InVar v p)
    (hmix : (∀ p ∈ ps, ∀ a : ℚ, val p a ≠ 0) ∨ ∀ p ∈ ps, ∀ z : K, val p z = 0 → ∃ a : ℚ, z = a)
    (cell : List ℚ) (numSps : ℕ) (ambient : List Atom) (hne : isoRootIntvls E ps ≠ []) :
    ((sectorSps E cell (isoRootIntvls E ps) numSps ambient v).filter fun x =>
      decide (∀ I ∈ isoRootIntvls E ps, x < I.1.1)).length = 1 ∧
    ((sectorSps E cell (isoRootIntvls E ps) numSps ambient v).filter fun x =>
      decide (∀ I ∈ isoRootIntvls E ps, I.1.2 < x)).length = 1 := by
  have hiso := isolates_iso E hE v ps hps hmix
  obtain ⟨hmem, hp⟩ := hiso.sorted
  have hle : ∀ X ∈ ((isoRootIntvls E ps).map Prod.fst).insertionSort (fun a b => ivlLe a b = true), X.1 ≤ X.2 := by
    intro X hX
    obtain ⟨z, _, h1, h2⟩ := hiso.has X ((hmem X).1 hX)
    exact_mod_cast h1.trans h2
  have hall : ∀ P : ℚ × ℚ → Prop, (∀ I ∈ isoRootIntvls E ps, P I.1) ↔
      ∀ X ∈ ((isoRootIntvls E ps).map Prod.fst).insertionSort (fun a b => ivlLe a b = true), P X := by
    intro P
    constructor
    · intro h X hX
      obtain ⟨Y, hY, rfl⟩ := List.mem_map.1 ((hmem X).1 hX)
      exact h Y hY
    · intro h I hI
      exact h _ ((hmem _).2 (List.mem_map.2 ⟨I, hI, rfl⟩))
  have h := sectorRoots_outer (hu cell) numSps _ (by
    obtain ⟨I, hI⟩ := List.exists_mem_of_ne_nil _ hne
    exact List.ne_nil_of_mem ((hmem I.1).2 (List.mem_map.2 ⟨I, hI, rfl⟩))) hp hle
  rw [← List.countP_eq_length_filter, ← List.countP_eq_length_filter]
  unfold sectorSps
  rw [if_neg hne]
  refine ⟨h.1 ▸ List.countP_congr fun x _ => ?_, h.2 ▸ List.countP_congr fun x _ => ?_⟩
  · simp only [decide_eq_true_eq]
    exact hall fun I => x < I.1
  · simp only [decide_eq_true_eq]
    exact hall fun I => I.2 < x

/-! ### More sample points -/

theorem kRandomSps_mono {u : ℕ → ℚ → ℚ → ℚ} {l r : ℚ} {k k' : ℕ} (h : k ≤ k') : kRandomSps u l r k ⊆ kRandomSps u l r k' := by
  unfold kRandomSps
  split
  · exact List.Subset.refl _
  · exact List.map_subset _ fun i hi => List.mem_range.2 (lt_of_lt_of_le (List.mem_range.1 hi) h)

theorem sectorSps_mono (E : CadEnv) (tag : List ℚ) (roots : List ((ℚ × ℚ) × ℕ)) {k k' : ℕ} (h : k ≤ k') (ambient : List Atom)
    (v : ℕ) : sectorSps E tag roots k ambient v ⊆ sectorSps E tag roots k' ambient v := by
  unfold sectorSps
  split
  · exact List.Subset.refl _
  · unfold sectorRoots
    split
    · intro x hx
      rw [List.mem_insertionSort] at hx ⊢
      rcases List.mem_append.1 hx with hx | hx
      · rcases List.mem_append.1 hx with hx | hx
        · exact List.mem_append_left _ (List.mem_append_left _ hx)
        · obtain ⟨g, hg, hx⟩ := List.mem_flatMap.1 hx
          exact List.mem_append_left _ (List.mem_append_right _ (List.mem_flatMap.2 ⟨g, hg, kRandomSps_mono h hx⟩))
      · exact List.mem_append_right _ hx
    · exact List.Subset.refl _

theorem liftAll_mono {S : Sage ℚ} {E : CadEnv} {goal : Option Goal} {ord : List ℕ} {k k' : ℕ} (hk : k ≤ k')
    {ambient : List Atom} : ∀ {sets : List (List MPoly)} {cells cells' out out' : List (List ℚ)}, cells ⊆ cells' →
    liftAll S E goal ord k ambient sets cells = .ok out → liftAll S E goal ord k' ambient sets cells' = .ok out' → out ⊆ out'
  | [], cells, cells', out, out', hc, h, h' => by cases h; cases h'; exact hc
  | next :: sets, cells, cells', out, out', hc, h, h' => by
    unfold liftAll at h h'
    simp only [bind, Except.bind] at h h'
    cases h1 : liftLevel S E goal ord next k ambient cells with
    | error e => rw [h1] at h; cases h
    | ok r =>
      cases h2 : liftLevel S E goal ord next k' ambient cells' with
      | error e => rw [h2] at h'; cases h'
      | ok r' =>
        rw [h1] at h
        rw [h2] at h'
        refine liftAll_mono hk ?_ h h'
        intro s hs
        obtain ⟨g, hg, c, hcc, hf, hs⟩ := (liftLevel_mem h1 s).1 hs
        refine (liftLevel_mem h2 s).2 ⟨g, hg, c, hc hcc, hf, ?_⟩
        unfold stackExt at hs ⊢
        exact List.map_subset _ (sectorSps_mono E _ _ hk _ _) hs

/-- **C114**: when more sample points per cell are asked for (and the random numbers are the same), no sample point is lost,
in any number of variables. -/
theorem C114_more (S : Sage ℚ) (E : CadEnv) (n : ℕ) (top : List MPoly) (goal : Option Goal) (k k' : ℕ) (hk : k ≤ k')
    (ambient : List Atom) (ds ds' : List (List (ℕ × ℚ))) (h : samplePtDicts S E n top goal k ambient = .ok ds)
    (h' : samplePtDicts S E n top goal k' ambient = .ok ds') : ds ⊆ ds' := by
  obtain ⟨v, rest, base, sets, cells, h1, h2, h3, rfl⟩ := samplePtDicts_ok h
  obtain ⟨v', rest', base', sets', cells', h1', h2', h3', rfl⟩ := samplePtDicts_ok h'
  rw [h1] at h1'
  cases h1'
  rw [h2] at h2'
  cases h2'
  exact List.map_subset _ (liftAll_mono hk (List.Subset.refl _) h3 h3')

theorem stackUnion_exists (S : Sage ℚ) (E : CadEnv) (g : Goal) {ord : List ℕ} (ho : ord ≠ []) (next : List MPoly) (k : ℕ)
    (ambient : List Atom) : ∀ cells : List (List ℚ), (∀ c ∈ cells, c ≠ []) →
    ∃ out, stackUnion S E (some g) ord next k ambient cells = .ok out
  | [], _ => ⟨[], rfl⟩
  | c :: cells, h => by
    obtain ⟨r, hr⟩ := stackUnion_exists S E g ho next k ambient cells fun c' hc' => h c' (by simp [hc'])
    obtain ⟨b, hb⟩ := goal_noerr S (d := spDict ord c) (by
      have := h c (by simp)
      unfold spDict
      obtain ⟨o, os, rfl⟩ := List.exists_cons_of_ne_nil ho
      obtain ⟨x, xs, rfl⟩ := List.exists_cons_of_ne_nil this
      simp) g
    unfold stackUnion
    simp only [bind, Except.bind, stackOverCell, hb, hr]
    cases b <;> exact ⟨_, rfl⟩

theorem liftAll_exists (S : Sage ℚ) (E : CadEnv) (g : Goal) {ord : List ℕ} (ho : ord ≠ []) (k : ℕ) (ambient : List Atom) :
    ∀ (sets : List (List MPoly)) (cells : List (List ℚ)), (∀ c ∈ cells, c ≠ []) →
    ∃ out, liftAll S E (some g) ord k ambient sets cells = .ok out
  | [], cells, _ => ⟨cells, rfl⟩
  | next :: sets, cells, h => by
    obtain ⟨r, hr⟩ := stackUnion_exists S E g ho next k ambient cells h
    have h1 : liftLevel S E (some g) ord next k ambient cells = .ok (r.insertionSort fun a b => ptLe a b = true) := by
      unfold liftLevel
      simp only [bind, Except.bind, hr]
    obtain ⟨out, hout⟩ := liftAll_exists S E g ho k ambient sets _ (by
      intro c hc
      obtain ⟨_, _, c', _, _, h3⟩ := (liftLevel_mem h1 c).1 hc
      obtain ⟨x, rfl⟩ := stackExt_length h3
      simp)
    refine ⟨out, ?_⟩
    unfold liftAll
    simp only [bind, Except.bind, h1, hout]

/-- **C114**: asking for more sample points per cell makes a report that the right-hand side is true more reliable: if a round
reports this with `k'` sample points per cell, the check also does with `k ≤ k'`, for the same random numbers. -/
theorem C114_verdict (S : Sage ℚ) (E : CadEnv) (n : ℕ) (k k' : ℕ) (hk : k ≤ k') (extra : ℕ → State → List MPoly) (more) (solve)
    (m fuel : ℕ) (st : State) (ret : List (List ℕ)) (h : round (cadCore S E n k' extra more solve) m st = .ok (ret, none)) :
    check (cadCore S E n k extra more solve) (fuel + 1) m st = .ok ([], st) := by
  obtain ⟨ds', hds', ht⟩ := round_none h
  have hds' : samplePtDicts S E n (extra m st ++ st.goal.main.poly :: st.goal.hyps.map Atom.poly) (some st.goal) k' st.hyps =
    .ok ds' := hds'
  obtain ⟨v, rest, base, sets, cells', h1, h2, h3, _⟩ := samplePtDicts_ok hds'
  obtain ⟨cells, h4⟩ := liftAll_exists S E st.goal (ord := v :: rest) (by simp) k st.hyps sets
    ((sectorSps E [] (isoRootIntvls E base) 1 st.hyps v).map fun x => [x]) (by
      intro c hc
      obtain ⟨x, _, rfl⟩ := List.mem_map.1 hc
      simp)
  have hds : samplePtDicts S E n (extra m st ++ st.goal.main.poly :: st.goal.hyps.map Atom.poly) (some st.goal) k st.hyps =
      .ok (cells.map (spDict (v :: rest))) := by
    unfold samplePtDicts
    simp only [h1, h2, bind, Except.bind, h4]
  exact check_true _ _ _ _ _ hds fun d hd => ht d (C114_more S E n _ _ k k' hk _ _ _ hds hds' hd)

/-! ### Examples -/

theorem ex2_uniform : UniformOK ex2Env := by
  intro tag b i j l r h
  constructor <;> simp only [ex2Env] <;> linarith

/-- There are right functions of Sage for C114_violated, and `num_sps` is 5. -/
example : ∃ ds, samplePtDicts testSage ex2Env 1 [[([2], 1), ([1], -1)]] none 5 [] = .ok ds ∧
    (ds.filter fun d => decide (0 < ptOf d 0 ∧ ptOf d 0 < 1)).length = 1 := by
  obtain ⟨ds, h, _, h2, _⟩ := C114_violated testSage ex2Env ex2_roots ex2_count ex2_uniform none 5
  exact ⟨ds, h, h2⟩

/-- A case of C114_partial and C114_unbounded: two isolating intervals, three sample points between them. -/
example (E : CadEnv) (hE : RootsOK ℝ E) (hu : UniformOK E) (cell : List ℚ) (ambient : List Atom) :
    ((sectorSps E cell (isoRootIntvls E [[([2], 1), ([1], -1)]]) 3 ambient 0).filter
      fun x => decide (0 < x ∧ x < 1)).length = 3 := by
  have hval : ∀ (K : Type) [Field K] (a : K), val [([2], 1), ([1], -1)] a = a ^ 2 - a := by
    intro K _ a; simp [val, MPoly.eval, Mono.evalFrom]; ring
  have hU : Univ [([2], 1), ([1], -1)] := ⟨⟨0, by decide +kernel⟩, 2, by rw [hval]; norm_num⟩
  have hroots : ∀ z : ℝ, val [([2], 1), ([1], -1)] z = 0 → z = 0 ∨ z = 1 := by
    intro z hz
    rw [hval] at hz
    have : z * (z - 1) = 0 := by linarith
    rcases mul_eq_zero.1 this with h | h
    · exact Or.inl h
    · exact Or.inr (by linarith)
  obtain ⟨m₀, h0⟩ := (hE.roots _ hU 0).2 (by rw [hval]; norm_num)
  obtain ⟨m₁, h1⟩ := (hE.roots _ hU 1).2 (by rw [hval]; norm_num)
  have hiso : isoRootIntvls E [[([2], 1), ([1], -1)]] = (E.roots [([2], 1), ([1], -1)]).map fun r => ((r.1, r.1), r.2) := by
    unfold isoRootIntvls
    simp [List.ne_nil_of_mem h0]
  refine C114_partial E hE hu 0 [[([2], 1), ([1], -1)]] ?_ (Or.inr ?_) cell 3 ambient ((0, 0), m₀) ((1, 1), m₁) ?_ ?_
    (by norm_num) ?_
  · intro p hp
    rw [List.mem_singleton] at hp
    subst hp
    exact ⟨by decide +kernel, 2, by rw [hval]; norm_num⟩
  · intro p hp z hz
    rw [List.mem_singleton] at hp
    subst hp
    rcases hroots z hz with rfl | rfl
    · exact ⟨0, by simp⟩
    · exact ⟨1, by simp⟩
  · rw [hiso]
    exact List.mem_map.2 ⟨_, h0, rfl⟩
  · rw [hiso]
    exact List.mem_map.2 ⟨_, h1, rfl⟩
  · intro X hX
    rw [hiso] at hX
    obtain ⟨r, hr, rfl⟩ := List.mem_map.1 hX
    have := (hE.roots _ hU r.1).1 ⟨r.2, hr⟩
    rw [hval] at this
    have : r.1 * (r.1 - 1) = 0 := by linarith
    rcases mul_eq_zero.1 this with h | h
    · exact Or.inl h.le
    · exact Or.inr (show (1 : ℚ) ≤ r.1 by linarith)

/-- The second round of the example of C72 with two sample points per cell reports that the right-hand side is true. -/
example : ∃ ret, round (cadCore testSage ex2Env 2 2 (fun _ _ => []) (fun _ _ _ => .ok []) fun _ _ _ => some [0]) 0
    ⟨[], ⟨ex2Main, [ex2Hyp], []⟩, []⟩ = .ok (ret, none) := by
  refine ⟨[], ok_of_toOption (by decide +kernel)⟩

end Verif.Grf
