import Verif.Qe.RealFull

/-!
# `real_full`: result
-/

set_option linter.unusedSectionVars false

open Polynomial Verif.Alg

namespace Verif.Qe

universe u

variable {R : Type} [CommRing R] [DecidableEq R]

theorem realExtendAll_ok (A : MAlg R) (frag : List (List R)) : ∀ (ds : List (Diagram R ℚ)),
    (∀ d ∈ ds, realExtend A d frag = .error .diagramExc ∨ ∃ D, realExtend A d frag = .ok D) →
    ∃ ext, realExtendAll A frag ds = .ok ext ∧
      ∀ D, D ∈ ext ↔ ∃ d ∈ ds, realExtend A d frag = .ok D := by
  intro ds
  induction ds with
  | nil => intro _; exact ⟨[], rfl, by simp⟩
  | cons d ds ih =>
    intro h
    obtain ⟨ext, h1, h2⟩ := ih fun x hx => h x (by simp [hx])
    rcases h d (by simp) with h0 | ⟨D, h0⟩
    · refine ⟨ext, ?_, ?_⟩
      · unfold realExtendAll; rw [h0]; exact h1
      · intro D
        rw [h2]
        constructor
        · rintro ⟨x, hx, hD⟩; exact ⟨x, by simp [hx], hD⟩
        · rintro ⟨x, hx, hD⟩
          rcases List.mem_cons.1 hx with rfl | hx
          · rw [h0] at hD; simp at hD
          · exact ⟨x, hx, hD⟩
    · refine ⟨D :: ext, ?_, ?_⟩
      · unfold realExtendAll; rw [h0, h1]; rfl
      · intro D'
        rw [List.mem_cons, h2]
        constructor
        · rintro (rfl | ⟨x, hx, hD⟩)
          · exact ⟨d, by simp, h0⟩
          · exact ⟨x, by simp [hx], hD⟩
        · rintro ⟨x, hx, hD⟩
          rcases List.mem_cons.1 hx with rfl | hx
          · rw [h0] at hD; cases hD; exact Or.inl rfl
          · exact Or.inr ⟨x, hx, hD⟩

theorem realExtendAll_sub (A : MAlg R) (frag : List (List R)) : ∀ (ds ext : List (Diagram R ℚ)),
    realExtendAll A frag ds = .ok ext →
    ∃ sub, List.Sublist sub ds ∧ List.Forall₂ (fun d D => realExtend A d frag = .ok D) sub ext := by
  intro ds
  induction ds with
  | nil => intro ext h; unfold realExtendAll at h; cases h; exact ⟨[], List.Sublist.refl _, .nil⟩
  | cons d ds ih =>
    intro ext h
    unfold realExtendAll at h
    cases hd : realExtend A d frag with
    | ok D =>
      rw [hd] at h
      simp only [bind, Except.bind] at h
      split at h
      · cases h
      · next rest hrest =>
        cases h
        obtain ⟨sub, h1, h2⟩ := ih rest hrest
        exact ⟨d :: sub, h1.cons_cons d, .cons hd h2⟩
    | error e =>
      rw [hd] at h
      cases e
      case diagramExc =>
        obtain ⟨sub, h1, h2⟩ := ih ext h
        exact ⟨sub, h1.cons d, h2⟩
      all_goals cases h

/-- Two different initial diagrams differ in the sign of a coefficient. -/
theorem rFull_pairwise : ∀ (vs V : List (List R)) (ds : List (Diagram R ℚ)), vs.Nodup → (∀ c ∈ V, c ∉ vs) →
    (ds.Pairwise fun d d' => ∃ c ∈ V, cv d c 0 ≠ cv d' c 0) →
    (rFullAssignment ds vs).Pairwise fun d d' => ∃ c, (c ∈ V ∨ c ∈ vs) ∧ cv d c 0 ≠ cv d' c 0 := by
  intro vs
  induction vs with
  | nil =>
    intro V ds _ _ h
    unfold rFullAssignment
    exact h.imp fun ⟨c, h1, h2⟩ => ⟨c, Or.inl h1, h2⟩
  | cons c vs ih =>
    intro V ds hn hV h
    rw [List.nodup_cons] at hn
    unfold rFullAssignment
    have hcv : ∀ (d : Diagram R ℚ) (s : ℤ) (q : List R), cv (write3 d c s) q 0 = if q = c then s else cv d q 0 := by
      intro d s q
      unfold write3
      rw [cv_dWrite, cv_dWrite, cv_dWrite]
      by_cases hq : q = c
      · simp [hq]
      · simp [hq]
    refine (ih (c :: V) _ hn.2 ?_ ?_).imp ?_
    · intro x hx
      rcases List.mem_cons.1 hx with rfl | hx
      · exact hn.1
      · exact fun h' => hV x hx (List.mem_cons_of_mem _ h')
    · rw [List.pairwise_flatMap]
      refine ⟨fun d _ => ?_, h.imp ?_⟩
      · simp only [List.pairwise_cons, List.mem_cons, List.not_mem_nil, or_false]
        refine ⟨?_, ?_, by simp, List.Pairwise.nil⟩
        · rintro d' (rfl | rfl) <;> exact ⟨c, by simp, by simp [hcv]⟩
        · rintro d' rfl; exact ⟨c, by simp, by simp [hcv]⟩
      · rintro d d' ⟨x, hx, hne⟩ e he e' he'
        have hxc : x ≠ c := by rintro rfl; exact hV _ hx List.mem_cons_self
        refine ⟨x, List.mem_cons_of_mem _ hx, ?_⟩
        have aux : ∀ {d e : Diagram R ℚ}, e ∈ [write3 d c (-1), write3 d c 0, write3 d c 1] → cv e x 0 = cv d x 0 := by
          intro d e he
          simp only [List.mem_cons, List.not_mem_nil, or_false] at he
          rcases he with rfl | rfl | rfl <;> rw [hcv, if_neg hxc]
        rw [aux he, aux he']
        exact hne
    · rintro d d' ⟨x, hx, hne⟩
      refine ⟨x, ?_, hne⟩
      rcases hx with hx | hx
      · rcases List.mem_cons.1 hx with rfl | hx
        · exact Or.inr List.mem_cons_self
        · exact Or.inl hx
      · exact Or.inr (List.mem_cons_of_mem _ hx)

theorem rFull_length : ∀ (vs : List (List R)) (ds : List (Diagram R ℚ)),
    (rFullAssignment ds vs).length = ds.length * 3 ^ vs.length := by
  intro vs
  induction vs with
  | nil => intro ds; unfold rFullAssignment; simp
  | cons c vs ih =>
    intro ds
    unfold rFullAssignment
    rw [ih, List.length_flatMap]
    simp only [List.length_cons, List.length_nil, List.map_const', List.sum_replicate, smul_eq_mul]
    rw [pow_succ]
    ring

theorem pairwise_of_forall₂ {A : MAlg R} {frag vf : List (List R)} {sub ext : List (Diagram R ℚ)}
    (h : List.Forall₂ (fun d D => realExtend A d frag = .ok D) sub ext)
    (hp : sub.Pairwise fun d d' => ∃ c ∈ vf, cv d c 0 ≠ cv d' c 0)
    (hval : ∀ d ∈ sub, ∀ D, realExtend A d frag = .ok D → ∀ c ∈ vf, cv D c 0 = cv d c 0) :
    ext.Pairwise fun D D' => ∃ c ∈ vf, cv D c 0 ≠ cv D' c 0 := by
  induction h with
  | nil => exact List.Pairwise.nil
  | @cons d D sub ext hdD hrest ih =>
    rw [List.pairwise_cons] at hp ⊢
    refine ⟨fun D' hD' => ?_, ih hp.2 fun x hx => hval x (List.mem_cons_of_mem _ hx)⟩
    obtain ⟨d', hd', e'⟩ := forall₂_mem_right hrest D' hD'
    obtain ⟨c, hc, hne⟩ := hp.1 d' hd'
    refine ⟨c, hc, ?_⟩
    rw [hval d List.mem_cons_self D hdD c hc, hval d' (List.mem_cons_of_mem _ hd') D' e' c hc]
    exact hne

theorem sign3_apart {a b : ℤ} (ha : Sign3 a) (hb : Sign3 b) (h : a ≠ b) :
    ¬ ((a = -1 ↔ b = -1) ∧ (a = 0 ↔ b = 0) ∧ (a ≠ 0 ∧ a ≠ -1 ↔ b ≠ 0 ∧ b ≠ -1)) := by
  unfold Sign3 at ha hb
  omega

/-- some column satisfies the constraints -/
def rGood (ls es gs : List (List R)) (D : Diagram R ℚ) : Bool :=
  decide ((((ck D []).filter fun c => decide (∀ q ∈ es, cv D q c = 0)).filter
    (fun c => decide (∀ q ∈ ls, cv D q c = -1))).filter
    (fun c => decide (∀ q ∈ gs, cv D q c = 1)) ≠ [])

theorem rGood_iff (ls es gs : List (List R)) (D : Diagram R ℚ) : rGood ls es gs D = true ↔
    ∃ c ∈ ck D [], (∀ q ∈ ls, cv D q c = -1) ∧ (∀ q ∈ es, cv D q c = 0) ∧ ∀ q ∈ gs, cv D q c = 1 := by
  unfold rGood
  rw [decide_eq_true_eq]
  constructor
  · intro h
    obtain ⟨c, hc⟩ := List.exists_mem_of_ne_nil _ h
    simp only [List.mem_filter, decide_eq_true_eq] at hc
    exact ⟨c, hc.1.1.1, hc.1.2, hc.1.1.2, hc.2⟩
  · rintro ⟨c, h1, h2, h3, h4⟩
    apply List.ne_nil_of_mem (a := c)
    simp only [List.mem_filter, decide_eq_true_eq]
    exact ⟨⟨⟨h1, h3⟩, h2⟩, h4⟩

theorem rSem_good {K : Type u} [Field K] [LinearOrder K] [IsStrictOrderedRing K] [PolyIVT K]
    {φ : R →+* K} {S : List (List R)} {D : Diagram R ℚ} {segs : List (ℚ × ℚ)} (hs : RShape D segs)
    (hk : ∀ q, q ∈ keys D ↔ q ∈ S) (hsem : RSem φ D segs) {ls es gs : List (List R)}
    (hl : ∀ q ∈ ls, q ∈ S) (he : ∀ q ∈ es, q ∈ S) (hg : ∀ q ∈ gs, q ∈ S) :
    rGood ls es gs D = true ↔ ∃ x, (∀ q ∈ ls, (P φ q).eval x < 0) ∧ (∀ q ∈ es, (P φ q).eval x = 0) ∧
      ∀ q ∈ gs, 0 < (P φ q).eval x := by
  rw [rGood_iff]
  have h := hsem.cols hs fun q v => (q ∈ ls → v = -1) ∧ (q ∈ es → v = 0) ∧ (q ∈ gs → v = 1)
  have hneg : ∀ x : K, sg x = -1 ↔ x < 0 := by
    intro x
    rcases sg_cases x with ⟨h, e⟩ | ⟨h, e⟩ | ⟨h, e⟩ <;> rw [e]
    · simp [h]
    · simp [h]
    · simp [h.le]
  have hpos : ∀ x : K, sg x = 1 ↔ 0 < x := by
    intro x
    rcases sg_cases x with ⟨h, e⟩ | ⟨h, e⟩ | ⟨h, e⟩ <;> rw [e]
    · simp [h.le]
    · simp [h]
    · simp [h]
  constructor
  · rintro ⟨c, hc, h1, h2, h3⟩
    obtain ⟨x, hx⟩ := h.1 ⟨c, hc, fun q _ => ⟨h1 q, h2 q, h3 q⟩⟩
    refine ⟨x, ?_, ?_, ?_⟩
    · intro q hq; exact (hneg _).1 ((hx q ((hk q).2 (hl q hq))).1 hq)
    · intro q hq; exact sg_eq_zero_iff.1 ((hx q ((hk q).2 (he q hq))).2.1 hq)
    · intro q hq; exact (hpos _).1 ((hx q ((hk q).2 (hg q hq))).2.2 hq)
  · rintro ⟨x, h1, h2, h3⟩
    obtain ⟨c, hc, hq⟩ := h.2 ⟨x, fun q _ => ⟨fun h => (hneg _).2 (h1 q h),
      fun h => sg_eq_zero_iff.2 (h2 q h), fun h => (hpos _).2 (h3 q h)⟩⟩
    exact ⟨c, hc, fun q h => (hq q ((hk q).2 (hl q h))).1 h,
      fun q h => (hq q ((hk q).2 (he q h))).2.1 h, fun q h => (hq q ((hk q).2 (hg q h))).2.2 h⟩

/-- The initial diagrams of `real_full`. -/
theorem rBase_of_mem (A : MAlg R) (hsign : ∀ c, Sign3 (A.sign c)) {S : List (List R)}
    {d : Diagram R ℚ} {f : List R → ℤ} (hf : ∀ c ∈ varFragOf A S, Sign3 (f c))
    (hW : Written (rAssignmentAllZero A ((S.filter fun p => isConst p).filter fun p => !hasVariable A p)) d
      (fun q i => q ∈ varFragOf A S ∧ Is3 i) (fun q _ => f q)) :
    RBase A S d ∧ ∀ c ∈ varFragOf A S, cv d c 0 = f c := by
  set vf := varFragOf A S with hvf
  set sf := ((S.filter fun p => isConst p).filter fun p => !hasVariable A p) with hsf
  have hsfmem : ∀ q, q ∈ sf ↔ q ∈ S ∧ isConst q = true ∧ hasVariable A q = false := by
    intro q
    rw [hsf]
    simp only [List.mem_filter, Bool.not_eq_true']
    tauto
  have hvfmem := mem_varFragOf A S
  rw [← hvf] at hvfmem
  have hsca := rAssignmentAllZero_spec A sf
  have hkeysnil : ∀ q : List R, q ∉ keys ([] : Diagram R ℚ) := by simp [keys]
  have hcknil : ∀ (q : List R) (i : ℚ), i ∉ ck ([] : Diagram R ℚ) q := fun q i h =>
    hkeysnil q (mem_keys_of_ck h)
  have hndnil : ∀ q : List R, (ck ([] : Diagram R ℚ) q).Nodup := by simp [ck, dRow, dGet]
  have hz : Is3 0 := Or.inl rfl
  have hk : ∀ q, q ∈ keys d ↔ q ∈ S ∧ isConst q = true := by
    intro q
    rw [hW.keys, hsca.keys]
    constructor
    · rintro ((h | ⟨i, h, _⟩) | ⟨i, h, _⟩)
      · exact absurd h (hkeysnil q)
      · exact ⟨((hsfmem q).1 h).1, ((hsfmem q).1 h).2.1⟩
      · exact ⟨((hvfmem q).1 h).1, ((hvfmem q).1 h).2.1⟩
    · rintro ⟨h1, h2⟩
      by_cases h3 : hasVariable A q = true
      · exact Or.inr ⟨0, (hvfmem q).2 ⟨h1, h2, h3⟩, hz⟩
      · exact Or.inl (Or.inr ⟨0, (hsfmem q).2 ⟨h1, h2, by simpa using h3⟩, hz⟩)
  have hscav : ∀ q, q ∈ S → isConst q = true → hasVariable A q = false → ∀ i, Is3 i →
      cv d q i = A.sign (q.headD 0) := by
    intro q h1 h2 h3 i hi
    rw [hW.old q i (by rintro ⟨h, _⟩; rw [((hvfmem q).1 h).2.2] at h3; simp at h3),
      hsca.val q i ⟨(hsfmem q).2 ⟨h1, h2, h3⟩, hi⟩]
    simp [rScaVal, h3]
  have hall : ∀ q ∈ keys d, ∃ v, Sign3 v ∧ ∀ i, Is3 i → cv d q i = v := by
    intro q hq
    obtain ⟨h1, h2⟩ := (hk q).1 hq
    by_cases h3 : hasVariable A q = true
    · have hq' := (hvfmem q).2 ⟨h1, h2, h3⟩
      exact ⟨f q, hf q hq', fun i hi => hW.val q i ⟨hq', hi⟩⟩
    · exact ⟨_, hsign _, hscav q h1 h2 (by simpa using h3)⟩
  refine ⟨⟨hk, ?_, hW.nodup (hsca.nodup hndnil), ?_, fun q h1 h2 h3 => hscav q h1 h2 h3 0 hz, ?_⟩, ?_⟩
  · intro q hq i
    rw [hk] at hq
    rw [hW.ck, hsca.ck]
    constructor
    · rintro ((h | ⟨_, h⟩) | ⟨_, h⟩)
      · exact absurd h (hcknil q i)
      · exact h
      · exact h
    · intro hi
      by_cases h3 : hasVariable A q = true
      · exact Or.inr ⟨(hvfmem q).2 ⟨hq.1, hq.2, h3⟩, hi⟩
      · exact Or.inl (Or.inr ⟨(hsfmem q).2 ⟨hq.1, hq.2, by simpa using h3⟩, hi⟩)
  · intro q hq i hi
    obtain ⟨v, _, h⟩ := hall q hq
    rw [h i hi, h 0 hz]
  · intro q hq
    obtain ⟨v, hv, h⟩ := hall q hq
    rw [h 0 hz]; exact hv
  · intro c hc
    exact hW.val c 0 ⟨hc, hz⟩

theorem realFull_spec [IsDomain R] (A : MAlg R) (hsign : ∀ c, Sign3 (A.sign c))
    (ls es gs : List (List R)) (hc : ∀ p ∈ ls ++ es ++ gs, Canon p) :
    ∃ (N : ℕ) (S : List (List R)) (ret0 : List (List (List R) × List (List R) × List (List R))),
      (∀ fuel ≥ N, muchnikSeq A fuel [[]] (ls ++ es ++ gs) = .ok S ∧
        realFull A fuel ls es gs = .ok ⟨ret0.filter fun c => (c.2.1 ++ c.1 ++ c.2.2).length ≠ 0,
          decide (ret0.length > 0)⟩) ∧ SeqInv S [] ∧ (∀ p ∈ ls ++ es ++ gs, p ∈ S) ∧
      (∀ z ∈ ret0, ∀ c, c ∈ z.2.1 ++ z.1 ++ z.2.2 ↔ c ∈ varFragOf A S) ∧
      (ret0.length ≤ 3 ^ (varFragOf A S).length ∧ ret0.Pairwise fun z z' => ∃ c ∈ varFragOf A S,
        ¬ ((c ∈ z.1 ↔ c ∈ z'.1) ∧ (c ∈ z.2.1 ↔ c ∈ z'.2.1) ∧ (c ∈ z.2.2 ↔ c ∈ z'.2.2))) ∧
      ∀ {K : Type u} [Field K] [LinearOrder K] [IsStrictOrderedRing K] [PolyIVT K] (φ : R →+* K),
        RValOK A φ →
        ((∃ z ∈ ret0, (∀ c ∈ z.1, φ (c.headD 0) < 0) ∧ (∀ c ∈ z.2.1, φ (c.headD 0) = 0) ∧
          ∀ c ∈ z.2.2, 0 < φ (c.headD 0)) ↔
          ∃ x, (∀ q ∈ ls, (P φ q).eval x < 0) ∧ (∀ q ∈ es, (P φ q).eval x = 0) ∧
            ∀ q ∈ gs, 0 < (P φ q).eval x) := by
  obtain ⟨N, S, hseq, hS, hin⟩ := muchnikSeq_total A (ls ++ es ++ gs) hc
  set vf := varFragOf A S with hvf
  set sf := ((S.filter fun p => isConst p).filter fun p => !hasVariable A p) with hsf
  set ds := rFullAssignment [rAssignmentAllZero A sf] vf with hds
  have hvfmem := mem_varFragOf A S
  rw [← hvf] at hvfmem
  have hdsbase : ∀ d ∈ ds, RBase A S d := by
    intro d hd
    obtain ⟨d0, hd0, f, hf, hW⟩ := rFull_sound _ _ d hd
    rw [List.mem_singleton] at hd0
    subst hd0
    exact (rBase_of_mem A hsign hf hW).1
  have hext : ∀ d ∈ ds, (realExtend A d (S.filter fun p => !isConst p) = .error .diagramExc ∧
      ∀ {K : Type u} [Field K] [LinearOrder K] [IsStrictOrderedRing K] [PolyIVT K] (φ : R →+* K),
        ¬ RSem φ d [(1/2, 1)]) ∨
      ∃ D g, realExtend A d (S.filter fun p => !isConst p) = .ok D ∧ RShape D g ∧
      (∀ q, q ∈ keys D ↔ q ∈ S) ∧ (∀ q ∈ keys d, cv D q 0 = cv d q 0) ∧
      ∀ {K : Type u} [Field K] [LinearOrder K] [IsStrictOrderedRing K] [PolyIVT K] (φ : R →+* K),
        RSem φ d [(1/2, 1)] → RSem φ D g := by
    intro d hd
    exact realExtend_spec A hS (S.filter fun p => !isConst p) [] (by simp) d [(1/2, 1)]
      ((hdsbase d hd).shape hS.zero) (by
        intro q; rw [(hdsbase d hd).keys]; simp)
  obtain ⟨ext, hext1, hext2⟩ := realExtendAll_ok A (S.filter fun p => !isConst p) ds (by
    intro d hd
    rcases hext d hd with ⟨h, _⟩ | ⟨D, _, h, _⟩
    · exact Or.inl h
    · exact Or.inr ⟨D, h⟩)
  have hext3 : ∀ d ∈ ds, ∀ D, realExtend A d (S.filter fun p => !isConst p) = .ok D →
      ∃ g, RShape D g ∧ (∀ q, q ∈ keys D ↔ q ∈ S) ∧ (∀ q ∈ keys d, cv D q 0 = cv d q 0) ∧
      ∀ {K : Type u} [Field K] [LinearOrder K] [IsStrictOrderedRing K] [PolyIVT K] (φ : R →+* K),
        RSem φ d [(1/2, 1)] → RSem φ D g := by
    intro d hd D hD
    rcases hext d hd with ⟨h, _⟩ | ⟨D', g, h, h2⟩
    · rw [hD] at h; simp at h
    · rw [hD] at h; cases h
      exact ⟨g, h2⟩
  have hextshape : ∀ D ∈ ext, ∃ g, RShape D g ∧ ∀ q, q ∈ keys D ↔ q ∈ S := by
    intro D hD
    obtain ⟨d, hd, h⟩ := (hext2 D).1 hD
    obtain ⟨g, h2, h3, _⟩ := hext3 d hd D h
    exact ⟨g, h2, h3⟩
  have hlS : ∀ q ∈ ls, q ∈ S := fun q hq => hin q (by simp [hq])
  have heS : ∀ q ∈ es, q ∈ S := fun q hq => hin q (by simp [hq])
  have hgS : ∀ q ∈ gs, q ∈ S := fun q hq => hin q (by simp [hq])
  set good := ext.filter (rGood ls es gs) with hgood
  have hgood1 : (ext.filterM fun D => do
      let cols ← filterCols D 0 es ((dRow D []).map Prod.fst)
      let cols ← filterCols D (-1) ls cols
      let cols ← filterCols D 1 gs cols
      .ok (decide (cols.length > 0)) : Except QErr (List (Diagram R ℚ))) = .ok good := by
    apply filterM_ok
    intro D hD
    obtain ⟨g, hs, hk⟩ := hextshape D hD
    have hckall : ∀ q ∈ S, ∀ c ∈ ck D [], c ∈ ck D q := by
      intro q hq c hc
      exact (hs.ck q ((hk q).2 hq) c).2 ((hs.ck [] hs.zero c).1 hc)
    have e1 := filterCols_ok D 0 es (ck D []) fun q hq => hckall q (heS q hq)
    have e2 := filterCols_ok D (-1) ls
      ((ck D []).filter fun c => decide (∀ q ∈ es, cv D q c = 0)) (by
        intro q hq c hc
        exact hckall q (hlS q hq) c (List.mem_filter.1 hc).1)
    have e3 := filterCols_ok D 1 gs
      (((ck D []).filter fun c => decide (∀ q ∈ es, cv D q c = 0)).filter
        fun c => decide (∀ q ∈ ls, cv D q c = -1)) (by
        intro q hq c hc
        exact hckall q (hgS q hq) c (List.mem_filter.1 (List.mem_filter.1 hc).1).1)
    have e1' : filterCols D 0 es ((dRow D []).map Prod.fst) = _ := e1
    simp only [e1']
    show (do
      let cols ← filterCols D (-1) ls ((ck D []).filter fun c => decide (∀ q ∈ es, cv D q c = 0))
      let cols ← filterCols D 1 gs cols
      .ok (decide (cols.length > 0)) : Except QErr Bool) = _
    rw [e2]
    show (do
      let cols ← filterCols D 1 gs (((ck D []).filter fun c => decide (∀ q ∈ es, cv D q c = 0)).filter
        fun c => decide (∀ q ∈ ls, cv D q c = -1))
      .ok (decide (cols.length > 0)) : Except QErr Bool) = _
    rw [e3]
    show Except.ok _ = Except.ok _
    congr 1
    unfold rGood
    rw [decide_eq_decide, gt_iff_lt, List.length_pos_iff]
  have hgoodmem : ∀ D, D ∈ good ↔ D ∈ ext ∧ rGood ls es gs D = true := by
    intro D; rw [hgood, List.mem_filter]
  set conj : Diagram R ℚ → List (List R) × List (List R) × List (List R) := fun D =>
    (vf.filter fun c => decide (cv D c 0 = -1), vf.filter fun c => decide (cv D c 0 = 0),
      vf.filter fun c => decide (cv D c 0 ≠ 0 ∧ cv D c 0 ≠ -1)) with hconj
  have hret : (good.mapM fun D => do
      let vals ← vf.mapM fun c => do
        let v ← dRead D c 0
        .ok (c, v)
      .ok ((vals.filter fun cv => cv.2 = -1).map Prod.fst,
        (vals.filter fun cv => cv.2 = 0).map Prod.fst,
        (vals.filter fun cv => cv.2 ≠ 0 ∧ cv.2 ≠ -1).map Prod.fst) : Except QErr _) =
        .ok (good.map conj) := by
    apply mapM_eq_map
    intro D hD
    obtain ⟨n, hs, hk⟩ := hextshape D ((hgoodmem D).1 hD).1
    rw [mapM_eq_map _ (fun c => (c, cv D c 0)) vf (by
      intro c hc
      rw [dRead_ok ((hs.ck c ((hk c).2 ((hvfmem c).1 hc).1) 0).2 (Or.inl rfl))]
      rfl)]
    show Except.ok _ = Except.ok _
    congr 1
    rw [hconj]
    simp only [List.filter_map, List.map_map]
    rw [show (Prod.fst ∘ fun c => (c, cv D c 0)) = (id : List R → List R) from rfl, List.map_id,
      List.map_id, List.map_id]
    rfl
  have hvfnd : vf.Nodup := by
    rw [hvf]; unfold varFragOf
    exact (hS.nodup.filter _).filter _
  obtain ⟨sub, hsub1, hsub2⟩ := realExtendAll_sub A _ _ _ hext1
  have hrows : (good.map conj).length ≤ 3 ^ vf.length ∧ (good.map conj).Pairwise fun z z' => ∃ c ∈ vf,
      ¬ ((c ∈ z.1 ↔ c ∈ z'.1) ∧ (c ∈ z.2.1 ↔ c ∈ z'.2.1) ∧ (c ∈ z.2.2 ↔ c ∈ z'.2.2)) := by
    constructor
    · rw [List.length_map]
      refine (List.length_filter_le _ _).trans ?_
      rw [← hsub2.length_eq]
      refine hsub1.length_le.trans ?_
      rw [hds, rFull_length]
      simp
    · have h1 : ext.Pairwise fun D D' => ∃ c ∈ vf, cv D c 0 ≠ cv D' c 0 := by
        have h2 := (rFull_pairwise vf [] [rAssignmentAllZero A sf] hvfnd (by simp) (by simp)).sublist hsub1
        have hval : ∀ d ∈ sub, ∀ D, realExtend A d (S.filter fun p => !isConst p) = .ok D → ∀ c ∈ vf, cv D c 0 = cv d c 0 := by
          intro d hd D hD c hc
          obtain ⟨g, _, _, h4, _⟩ := hext3 d (hsub1.subset hd) D hD
          have h := (hvfmem c).1 hc
          exact h4 c (((hdsbase d (hsub1.subset hd)).keys c).2 ⟨h.1, h.2.1⟩)
        refine pairwise_of_forall₂ hsub2 (h2.imp ?_) hval
        rintro d d' ⟨c, hc, hne⟩
        exact ⟨c, hc.resolve_left (by simp), hne⟩
      have hval : ∀ D ∈ good, ∀ c ∈ vf, Sign3 (cv D c 0) := by
        intro D hD c hc
        obtain ⟨d, hd, h⟩ := (hext2 D).1 ((hgoodmem D).1 hD).1
        obtain ⟨g, _, _, h4, _⟩ := hext3 d hd D h
        have h := (hvfmem c).1 hc
        have hkd := ((hdsbase d hd).keys c).2 ⟨h.1, h.2.1⟩
        rw [h4 c hkd]
        exact (hdsbase d hd).val c hkd
      rw [List.pairwise_map]
      refine ((h1.sublist List.filter_sublist).imp_of_mem ?_)
      rintro D D' hD hD' ⟨c, hc, hne⟩
      refine ⟨c, hc, ?_⟩
      rw [hconj]
      simp only [List.mem_filter, hc, true_and, decide_eq_true_eq]
      exact sign3_apart (hval D hD c hc) (hval D' hD' c hc) hne
  refine ⟨N, S, good.map conj, ?_, hS, hin, ?_, hrows, ?_⟩
  · intro fuel hfuel
    refine ⟨hseq fuel hfuel, ?_⟩
    unfold realFull
    rw [hseq fuel hfuel]
    show (do
      let ext ← realExtendAll A (S.filter fun p => !isConst p) ds
      let good ← ext.filterM fun D => do
        let cols ← filterCols D 0 es ((dRow D []).map Prod.fst)
        let cols ← filterCols D (-1) ls cols
        let cols ← filterCols D 1 gs cols
        .ok (decide (cols.length > 0))
      let ret ← good.mapM fun D => do
        let vals ← vf.mapM fun c => do
          let v ← dRead D c 0
          .ok (c, v)
        .ok ((vals.filter fun cv => cv.2 = -1).map Prod.fst,
          (vals.filter fun cv => cv.2 = 0).map Prod.fst,
          (vals.filter fun cv => cv.2 ≠ 0 ∧ cv.2 ≠ -1).map Prod.fst)
      .ok ⟨ret.filter fun c => (c.2.1 ++ c.1 ++ c.2.2).length ≠ 0, decide (good.length > 0)⟩ :
        Except QErr (QOut _)) = _
    rw [hext1]
    show (do
      let good ← ext.filterM fun D => do
        let cols ← filterCols D 0 es ((dRow D []).map Prod.fst)
        let cols ← filterCols D (-1) ls cols
        let cols ← filterCols D 1 gs cols
        .ok (decide (cols.length > 0))
      let ret ← good.mapM fun D => do
        let vals ← vf.mapM fun c => do
          let v ← dRead D c 0
          .ok (c, v)
        .ok ((vals.filter fun cv => cv.2 = -1).map Prod.fst,
          (vals.filter fun cv => cv.2 = 0).map Prod.fst,
          (vals.filter fun cv => cv.2 ≠ 0 ∧ cv.2 ≠ -1).map Prod.fst)
      .ok ⟨ret.filter fun c => (c.2.1 ++ c.1 ++ c.2.2).length ≠ 0, decide (good.length > 0)⟩ :
        Except QErr (QOut _)) = _
    rw [hgood1]
    show (do
      let ret ← good.mapM fun D => do
        let vals ← vf.mapM fun c => do
          let v ← dRead D c 0
          .ok (c, v)
        .ok ((vals.filter fun cv => cv.2 = -1).map Prod.fst,
          (vals.filter fun cv => cv.2 = 0).map Prod.fst,
          (vals.filter fun cv => cv.2 ≠ 0 ∧ cv.2 ≠ -1).map Prod.fst)
      .ok ⟨ret.filter fun c => (c.2.1 ++ c.1 ++ c.2.2).length ≠ 0, decide (good.length > 0)⟩ :
        Except QErr (QOut _)) = _
    rw [hret]
    show Except.ok _ = Except.ok _
    rw [List.length_map]
  · intro z hz c
    rw [List.mem_map] at hz
    obtain ⟨D, _, rfl⟩ := hz
    rw [hconj]
    simp only [List.mem_append, List.mem_filter, decide_eq_true_eq]
    tauto
  · intro K _ _ _ _ φ hφ
    have hmatch : ∀ d ∈ ds, ∀ D, realExtend A d (S.filter fun p => !isConst p) = .ok D →
        (∀ c ∈ vf, cv d c 0 = sg (φ (c.headD 0))) →
        (rGood ls es gs D = true ↔
          ∃ x, (∀ q ∈ ls, (P φ q).eval x < 0) ∧ (∀ q ∈ es, (P φ q).eval x = 0) ∧
            ∀ q ∈ gs, 0 < (P φ q).eval x) := by
      intro d hd D hD hm
      obtain ⟨g, h2, h3, _, h5⟩ := hext3 d hd D hD
      have hsem := (hdsbase d hd).sem hS φ hφ (fun q h1 h2 h3 => hm q ((hvfmem q).2 ⟨h1, h2, h3⟩))
      exact rSem_good h2 h3 (h5 φ hsem) hlS heS hgS
    have hcv : ∀ d ∈ ds, ∀ D, realExtend A d (S.filter fun p => !isConst p) = .ok D →
        ∀ c ∈ vf, cv D c 0 = cv d c 0 ∧ Sign3 (cv d c 0) := by
      intro d hd D hD c hc
      obtain ⟨g, _, _, h4, _⟩ := hext3 d hd D hD
      have h := (hvfmem c).1 hc
      have hkd := ((hdsbase d hd).keys c).2 ⟨h.1, h.2.1⟩
      exact ⟨h4 c hkd, (hdsbase d hd).val c hkd⟩
    constructor
    · rintro ⟨z, hz, hneg, hzero, hpos⟩
      rw [List.mem_map] at hz
      obtain ⟨D, hD, rfl⟩ := hz
      obtain ⟨hDext, hDgood⟩ := (hgoodmem D).1 hD
      obtain ⟨d, hd, hdD⟩ := (hext2 D).1 hDext
      refine (hmatch d hd D hdD ?_).1 hDgood
      intro c hc
      obtain ⟨h1, h2⟩ := hcv d hd D hdD c hc
      rw [← h1] at h2 ⊢
      rcases h2 with h | h | h
      · rw [h, sg_neg' (hneg c (List.mem_filter.2 ⟨hc, decide_eq_true h⟩))]
      · rw [h, hzero c (List.mem_filter.2 ⟨hc, decide_eq_true h⟩), sg_zero]
      · rw [h, sg_pos (hpos c (List.mem_filter.2 ⟨hc, decide_eq_true (by rw [h]; decide)⟩))]
    · intro hx
      obtain ⟨d, hd, hW⟩ := rFull_complete (fun c => sg (φ (c.headD 0))) vf
        [rAssignmentAllZero A sf] (rAssignmentAllZero A sf) (List.mem_singleton_self _)
        (fun c _ => sign3_sg _)
      have hm : ∀ c ∈ vf, cv d c 0 = sg (φ (c.headD 0)) :=
        (rBase_of_mem A hsign (fun c _ => sign3_sg (φ (c.headD 0))) hW).2
      have hsem := (hdsbase d hd).sem hS φ hφ (fun q h1 h2 h3 => hm q ((hvfmem q).2 ⟨h1, h2, h3⟩))
      obtain ⟨D, hdD⟩ : ∃ D, realExtend A d (S.filter fun p => !isConst p) = .ok D := by
        rcases hext d hd with ⟨_, h⟩ | ⟨D, _, h, _⟩
        · exact absurd hsem (h φ)
        · exact ⟨D, h⟩
      have hDext := (hext2 D).2 ⟨d, hd, hdD⟩
      have hgoodD := (hmatch d hd D hdD hm).2 hx
      refine ⟨conj D, List.mem_map.2 ⟨D, (hgoodmem D).2 ⟨hDext, hgoodD⟩, rfl⟩, ?_, ?_, ?_⟩
      · intro z hz
        rw [hconj] at hz
        simp only [List.mem_filter, decide_eq_true_eq] at hz
        rw [(hcv d hd D hdD z hz.1).1, hm z hz.1] at hz
        rcases sg_cases (φ (z.headD 0)) with ⟨h, e⟩ | ⟨h, e⟩ | ⟨h, e⟩
        · exact h
        · rw [e] at hz; exact absurd hz.2 (by decide)
        · rw [e] at hz; exact absurd hz.2 (by decide)
      · intro z hz
        rw [hconj] at hz
        simp only [List.mem_filter, decide_eq_true_eq] at hz
        rw [(hcv d hd D hdD z hz.1).1, hm z hz.1] at hz
        exact sg_eq_zero_iff.1 hz.2
      · intro z hz
        rw [hconj] at hz
        simp only [List.mem_filter, decide_eq_true_eq] at hz
        rw [(hcv d hd D hdD z hz.1).1, hm z hz.1] at hz
        rcases sg_cases (φ (z.headD 0)) with ⟨h, e⟩ | ⟨h, e⟩ | ⟨h, e⟩
        · rw [e] at hz; exact absurd rfl hz.2.2
        · rw [e] at hz; exact absurd rfl hz.2.1
        · exact h

end Verif.Qe
