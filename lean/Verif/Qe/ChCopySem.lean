import Verif.Qe.ChCopy

/-!
# `copy_table`: meaning
-/

set_option linter.unusedSectionVars false

open Polynomial Verif.Alg

namespace Verif.Qe

variable {R : Type} [CommRing R] [DecidableEq R]
variable {K : Type u} [Field K] [LinearOrder K] [IsStrictOrderedRing K] [PolyIVT K]

/-- The table shows the signs at the parameter values `φ`. -/
structure TSem (φ : R →+* K) (T : Table R) (rows : List (List R)) (gs : List (ℚ × ℚ)) : Prop where
  bot : ∀ q ∈ rows, sgBot (P φ q) = cv T q 0
  seg : ∃ xs, SegSem φ T rows (fun _ => True) gs xs

theorem SegSem.above {φ : R →+* K} {T : Table R} {rows : List (List R)} {L : K → Prop}
    {gs : List (ℚ × ℚ)} {xs : List K} (h : SegSem φ T rows L gs xs) :
    LowerCut L → ∀ x ∈ xs, L x := by
  induction h with
  | last => intro _ x hx; simp at hx
  | cons L g e gs x xs hx hg he h ih =>
    intro hL y hy
    rcases List.mem_cons.1 hy with rfl | hy
    · exact hx
    · exact hL.up x y hx (ih (lowerCut_gt x) y hy)

theorem SegSem.first {φ : R →+* K} {T : Table R} {rows : List (List R)} {L : K → Prop} {g e : ℚ}
    {gs : List (ℚ × ℚ)} {xs : List K} (h : SegSem φ T rows L ((g, e) :: gs) xs) (hL : LowerCut L) :
    ∃ z, L z ∧ (∀ x ∈ xs, z < x) ∧ ∀ y, L y → y ≤ z → ∀ q ∈ rows, sg ((P φ q).eval y) = cv T q g := by
  cases h with
  | last _ _ _ hg he =>
    obtain ⟨z, hz⟩ := hL.ne
    exact ⟨z, hz, by simp, fun y hy _ q hq => hg q hq y hy⟩
  | cons _ _ _ _ x xs hx hg he h =>
    obtain ⟨z, hz, hzx⟩ := hL.low x hx
    refine ⟨z, hz, ?_, fun y hy hyz q hq => hg q hq y hy (lt_of_le_of_lt hyz hzx)⟩
    intro y hy
    rcases List.mem_cons.1 hy with rfl | hy
    · exact hzx
    · exact hzx.trans (h.above (lowerCut_gt x) y hy)

theorem sg_eq_of_no_root {p : K[X]} {S : K → Prop} {y z : K} (hy : S y) (hz : S z)
    (hS : ∀ a b w, S a → S b → a ≤ w → w ≤ b → S w) (h : ∀ w, S w → p.eval w ≠ 0) :
    sg (p.eval y) = sg (p.eval z) := by
  by_contra hne
  rcases le_total y z with hyz | hyz
  · obtain ⟨c, c1, c2, hc⟩ := exists_root_of_sg_ne hyz hne
    exact h c (hS y z c hy hz c1 c2) hc
  · obtain ⟨c, c1, c2, hc⟩ := exists_root_of_sg_ne hyz fun h => hne h.symm
    exact h c (hS z y c hz hy c1 c2) hc

theorem condSeg_sem {φ : R →+* K} {T T' : Table R} {rows needed : List (List R)} {sel : ℚ → Bool}
    {t : List R → ℚ → ℤ}
    (htop : ∀ q ∈ needed, ∀ i, (∀ r ∈ rows, sgTop (P φ r) = cv T r i) → sgTop (P φ q) = t q i)
    (hval : ∀ q ∈ needed, ∀ i x, (∀ r ∈ rows, sg ((P φ r).eval x) = cv T r i) →
      sg ((P φ q).eval x) = t q i)
    (hroot : ∀ q ∈ needed, P φ q ≠ 0 → ∀ i x, (∀ r ∈ rows, sg ((P φ r).eval x) = cv T r i) →
      sel i = false → (P φ q).eval x ≠ 0)
    {L : K → Prop} {gs : List (ℚ × ℚ)} {xs : List K} (h : SegSem φ T rows L gs xs) :
    (∀ g ∈ segGaps gs, sel g = false) →
    ∀ (L0 : K → Prop) (g : ℚ) (z0 : K), LowerCut L0 → (∀ y, L y → L0 y) → L0 z0 →
    (∀ q ∈ needed, P φ q ≠ 0 → ∀ y, L0 y → ¬ L y → (P φ q).eval y ≠ 0) → (∀ x ∈ xs, z0 < x) →
    (∀ q ∈ needed, sg ((P φ q).eval z0) = cv T' q g) →
    (∀ q ∈ needed, ∀ i ∈ (segCols (condSeg sel g gs)).tail, cv T' q i = t q i) →
    ∃ xs', SegSem φ T' needed L0 (condSeg sel g gs) xs' ∧
      ∀ y ∈ (segEnds (condSeg sel g gs)).zip xs', y ∈ (segEnds gs).zip xs := by
  have hconst : ∀ (S : K → Prop) (q : List R) (y z : K), S y → S z →
      (∀ a b w, S a → S b → a ≤ w → w ≤ b → S w) →
      (P φ q ≠ 0 → ∀ w, S w → (P φ q).eval w ≠ 0) → sg ((P φ q).eval y) = sg ((P φ q).eval z) := by
    intro S q y z hy hz hS hr
    by_cases h0 : P φ q = 0
    · rw [h0]; simp
    · exact sg_eq_of_no_root hy hz hS (hr h0)
  have hup : ∀ {M : K → Prop}, LowerCut M → ∀ a w, M a → a ≤ w → M w := by
    intro M hM a w ha haw
    rcases haw.eq_or_lt with rfl | h
    · exact ha
    · exact hM.up a w ha h
  induction h with
  | last L g1 e hg he =>
    intro hgap L0 g z0 hL0 hLL hz0 hnr _ hgz htv
    refine ⟨[], .last L0 g e ?_ ?_, by simp⟩
    · intro q hq y hy
      rw [← hgz q hq]
      refine hconst L0 q y z0 hy hz0 (fun a b w ha _ haw _ => hup hL0 a w ha haw) ?_
      intro h0 w hw
      by_cases hLw : L w
      · exact hroot q hq h0 g1 w (fun r hr => hg r hr w hLw) (hgap g1 (by simp [segGaps]))
      · exact hnr q hq h0 w hw hLw
    · intro q hq
      rw [htop q hq e he, htv q hq e (by simp [condSeg, segCols])]
  | cons L g1 e gs x xs hx hg he h ih =>
    intro hgap L0 g z0 hL0 hLL hz0 hnr hzx hgz htv
    obtain ⟨⟨g2, e2⟩, gs2, rfl⟩ := h.ne_nil
    have hgap2 : ∀ g ∈ segGaps ((g2, e2) :: gs2), sel g = false := fun g' hg' =>
      hgap g' (by rw [segGaps]; exact List.mem_cons_of_mem _ hg')
    have hnr1 : ∀ q ∈ needed, P φ q ≠ 0 → ∀ w, L0 w → w < x → (P φ q).eval w ≠ 0 := by
      intro q hq h0 w hw hwx
      by_cases hLw : L w
      · exact hroot q hq h0 g1 w (fun r hr => hg r hr w hLw hwx) (hgap g1 (by simp [segGaps]))
      · exact hnr q hq h0 w hw hLw
    rw [condSeg] at htv ⊢
    by_cases hs : sel e = true
    · rw [if_pos hs] at htv ⊢
      obtain ⟨z, hz1, hz2, hz3⟩ := h.first (lowerCut_gt x)
      have hg2mem : g2 ∈ (segCols ((g, e) :: condSeg sel g2 ((g2, e2) :: gs2))).tail := by
        obtain ⟨e', r, _, hr⟩ := condSeg_head sel ((g2, e2) :: gs2) (by simp)
        rw [hr]; simp [segCols]
      obtain ⟨xs', hxs', hpair⟩ := ih hgap2 (fun y => x < y) g2 z (lowerCut_gt x) (fun _ h => h) hz1
        (fun q hq h0 y h1 h2 => absurd h1 h2) hz2 (by
          intro q hq
          rw [htv q hq g2 hg2mem]
          exact hval q hq g2 z fun r hr => hz3 z hz1 le_rfl r hr) (by
          intro q hq i hi
          refine htv q hq i ?_
          show i ∈ e :: segCols (condSeg sel g2 ((g2, e2) :: gs2))
          exact List.mem_cons_of_mem _ (List.mem_of_mem_tail hi))
      refine ⟨x :: xs', .cons L0 g e _ x xs' (hLL x hx) ?_ ?_ hxs', ?_⟩
      · intro q hq y hy hyx
        rw [← hgz q hq]
        refine hconst (fun w => L0 w ∧ w < x) q y z0 ⟨hy, hyx⟩ ⟨hz0, hzx x (by simp)⟩ ?_ ?_
        · intro a b w ha hb haw hwb
          exact ⟨hup hL0 a w ha.1 haw, lt_of_le_of_lt hwb hb.2⟩
        · intro h0 w hw; exact hnr1 q hq h0 w hw.1 hw.2
      · intro q hq
        rw [hval q hq e x he, htv q hq e (by simp [segCols])]
      · intro y hy
        rcases List.mem_cons.1 hy with rfl | hy
        · simp [segEnds]
        · exact List.mem_cons_of_mem _ (hpair y hy)
    · rw [if_neg hs] at htv ⊢
      have hnr2 : ∀ q ∈ needed, P φ q ≠ 0 → ∀ y, L0 y → ¬ x < y → (P φ q).eval y ≠ 0 := by
        intro q hq h0 y hy hny
        rcases lt_trichotomy y x with h' | h' | h'
        · exact hnr1 q hq h0 y hy h'
        · subst h'
          exact hroot q hq h0 e y he (by simpa using hs)
        · exact absurd h' hny
      obtain ⟨xs', hxs', hpair⟩ := ih hgap2 L0 g z0 hL0 (fun y hy => hL0.up x y (hLL x hx) hy) hz0 hnr2
        (fun y hy => hzx y (by simp [hy])) hgz htv
      exact ⟨xs', hxs', fun y hy => List.mem_cons_of_mem _ (hpair y hy)⟩

theorem copyTable_sem' {A : MAlg R} {c : Ctx R} {T T' : Table R} {rows needed : List (List R)}
    {gs : List (ℚ × ℚ)} {b : ℚ} {φ : R →+* K} (hT : TShape A c T rows gs) (hsbot : ∀ q ∈ rows, sgBot (P φ q) = cv T q 0)
    {xs : List K} (hxs : SegSem φ T rows (fun _ => True) gs xs)
    (hpos : ∀ p ∈ needed, 0 < deg p → p ∈ rows)
    (hconst : ∀ p ∈ needed, deg p = 0 → cval A c p = some (sg (φ (p.headD 0))))
    (hT' : ∀ p ∈ needed, cv T' p b = tv A c T p 0 ∧
      ∀ i, i = 0 ∨ i ∈ (segCols (condSeg (selOf T rows needed) b gs)).tail →
          cv T' p i = tv A c T p i) :
    (∀ q ∈ needed, sgBot (P φ q) = cv T' q 0) ∧
    ∃ xs', SegSem φ T' needed (fun _ => True) (condSeg (selOf T rows needed) b gs) xs' ∧
      ∀ y ∈ (segEnds (condSeg (selOf T rows needed) b gs)).zip xs', y ∈ (segEnds gs).zip xs := by
  have hbot : ∀ q ∈ needed, sgBot (P φ q) = tv A c T q 0 := by
    intro q hq
    unfold tv
    by_cases hd : 0 < deg q
    · rw [if_pos hd]; exact hsbot q (hpos q hq hd)
    · rw [if_neg hd, hconst q hq (by omega), P_const φ (by omega), sgBot_C]; rfl
  refine ⟨?_, ?_⟩
  · intro q hq
    rw [(hT' q hq).2 0 (Or.inl rfl)]; exact hbot q hq
  · obtain ⟨⟨g1, e1⟩, gs1, rfl⟩ := hxs.ne_nil
    obtain ⟨z, _, hz2, hz3⟩ := hxs.first lowerCut_univ
    have hval : ∀ q ∈ needed, ∀ i x, (∀ r ∈ rows, sg ((P φ r).eval x) = cv T r i) →
        sg ((P φ q).eval x) = tv A c T q i := by
      intro q hq i x hr
      unfold tv
      by_cases hd : 0 < deg q
      · rw [if_pos hd]; exact hr q (hpos q hq hd)
      · rw [if_neg hd, hconst q hq (by omega), P_const φ (by omega), eval_C]; rfl
    refine condSeg_sem (t := tv A c T) (sel := selOf T rows needed) ?_ hval ?_ hxs
      (hT.selOf_gap needed) (fun _ => True) b z lowerCut_univ
      (fun _ _ => trivial) trivial (fun q hq h0 y _ h => absurd trivial h) hz2 ?_
      (fun q hq i hi => (hT' q hq).2 i (Or.inr hi))
    · intro q hq i hr
      unfold tv
      by_cases hd : 0 < deg q
      · rw [if_pos hd]; exact hr q (hpos q hq hd)
      · rw [if_neg hd, hconst q hq (by omega), P_const φ (by omega), sgTop_C]; rfl
    · intro q hq h0 i x hr hs
      by_cases hd : 0 < deg q
      · have hqr := hpos q hq hd
        intro hx
        have h1 : cv T q i = 0 := by rw [← hr q hqr, hx, sg_zero]
        have h2 : cv T q 0 ≠ 0 := by
          rw [← hsbot q hqr]
          exact fun h => h0 (sgBot_eq_zero.1 h)
        rw [Bool.eq_false_iff] at hs
        exact hs (selOf_iff.2 ⟨q, hq, hqr, h2, h1⟩)
      · rw [P_const φ (by omega)] at h0 ⊢
        rw [eval_C]
        exact fun h => h0 (by rw [h, C_0])
    · intro q hq
      rw [(hT' q hq).1, ← hbot q hq]
      by_cases hd : 0 < deg q
      · have hqr := hpos q hq hd
        obtain ⟨M, hM⟩ := sgBot_spec (P φ q)
        have h1 := hM (min M z - 1) (by have := min_le_left M z; linarith)
        have h2 := hz3 (min M z - 1) trivial (by have := min_le_right M z; linarith) q hqr
        rw [← h1, h2, hz3 z trivial le_rfl q hqr]
      · rw [P_const φ (by omega), eval_C, sgBot_C]


theorem copyTable_sem {A : MAlg R} {c : Ctx R} {T T' : Table R} {rows needed : List (List R)}
    {gs : List (ℚ × ℚ)} {b : ℚ} {φ : R →+* K} (hT : TShape A c T rows gs) (hsem : TSem φ T rows gs)
    (hpos : ∀ p ∈ needed, 0 < deg p → p ∈ rows)
    (hconst : ∀ p ∈ needed, deg p = 0 → cval A c p = some (sg (φ (p.headD 0))))
    (hT' : ∀ p ∈ needed, cv T' p b = tv A c T p 0 ∧
      ∀ i, i = 0 ∨ i ∈ (segCols (condSeg (selOf T rows needed) b gs)).tail →
          cv T' p i = tv A c T p i) :
    TSem φ T' needed (condSeg (selOf T rows needed) b gs) := by
  obtain ⟨xs, hxs⟩ := hsem.seg
  obtain ⟨h1, xs', h2, _⟩ := copyTable_sem' hT hsem.bot hxs hpos hconst hT'
  exact ⟨h1, xs', h2⟩

end Verif.Qe
