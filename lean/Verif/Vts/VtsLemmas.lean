import Verif.Vts.SignLemmas

/-! Helper lemmas: root descriptions (Thom), evaluation next to a root, `internal_vts`. -/

set_option linter.unusedSectionVars false

open Polynomial Verif.Alg

namespace Verif.Vts

variable {R : Type} [CommRing R] [LinearOrder R] {K : Type} [Field K] [LinearOrder K]
  [IsStrictOrderedRing K]

/-! ### Descriptions -/

/-- what one group of roots contributes -/
structure GroupOK (φ : R →+* K) (D : List R → Prop) (n : ℕ) (univ sub : List K) (ds : List (DDS R K)) : Prop where
  perm : (ds.map DDS.point).Perm sub
  ok : ∀ d ∈ ds, DDSOK φ univ d ∧ (∀ e ∈ d.recorded, e.1.length < n) ∧
    d.recorded.length + 1 ≤ univ.length
  der : ∀ d ∈ ds, ∀ e ∈ d.recorded, D e.1

theorem mem_iff_of_groupOK {φ : R →+* K} {D : List R → Prop} {n : ℕ} {univ sub : List K}
    {ds : List (DDS R K)} (h : GroupOK φ D n univ sub ds) (x : K) : x ∈ sub ↔ ∃ d ∈ ds, d.point = x := by
  rw [← h.perm.mem_iff, List.mem_map]

theorem group_spec {φ : R →+* K} {D : List R → Prop} {roots : List K} (der : List R) (hD : D der)
    (hder : der = [] ∨ Normalized der) (s : ℤ) (sub : List K)
    (hsub : sub = roots.filter fun r => decide (sgAt φ der r = s))
    (f : Except Err (List (DDS R K)))
    (hf : ∃ ds, f = .ok ds ∧ GroupOK φ D der.length sub sub ds) :
    ∃ ds, (if sub.length = 0 then Except.ok [] else do
          let ds ← f
          if sub.length = roots.length then pure ds
          else ds.mapM fun d => d.add der s) = .ok ds ∧
      GroupOK φ D (der.length + 1) roots sub ds := by
  obtain ⟨ds, hf1, hf2⟩ := hf
  by_cases h0 : sub.length = 0
  · rw [if_pos h0]
    rw [List.length_eq_zero_iff] at h0
    exact ⟨[], rfl, ⟨by simp [h0], by simp, by simp⟩⟩
  rw [if_neg h0, hf1]
  simp only [bind, Except.bind]
  by_cases hl : sub.length = roots.length
  · rw [if_pos hl]
    have heq : sub = roots := by
      rw [hsub]; exact List.Sublist.eq_of_length List.filter_sublist (by rw [← hsub, hl])
    refine ⟨ds, rfl, hf2.perm, ?_, hf2.der⟩
    intro d hd
    obtain ⟨h1, h2, h3⟩ := hf2.ok d hd
    rw [heq] at h1 h3
    exact ⟨h1, fun e he => by have := h2 e he; omega, h3⟩
  · rw [if_neg hl]
    have hlt : sub.length < roots.length := by
      have : sub.length ≤ roots.length := by rw [hsub]; exact List.length_filter_le _ _
      omega
    have hdn : Normalized der := by
      refine hder.resolve_left ?_
      rintro rfl
      have hz : ∀ r, sgAt φ ([] : List R) r = 0 := fun r => by simp [sgAt]
      by_cases hs : s = 0
      · apply hl
        rw [hsub, List.filter_eq_self.2]
        intro r _; simp [hz, hs]
      · apply h0
        rw [hsub, List.length_eq_zero_iff, List.filter_eq_nil_iff]
        intro r _; simp [hz]; exact fun h => hs h.symm
    have hadd : ∀ d ∈ ds, d.add der s = .ok { d with recorded := d.recorded ++ [(der, s)] } := by
      intro d hd
      unfold DDS.add
      rw [if_neg]
      intro hm
      obtain ⟨e, he, hee⟩ := List.mem_map.1 hm
      have := (hf2.ok d hd).2.1 e he
      rw [hee] at this; omega
    refine ⟨_, mapM_ok ds hadd, ?_, ?_, ?_⟩
    · rw [List.map_map]
      exact hf2.perm
    · intro d hd
      obtain ⟨d0, hd0, rfl⟩ := List.mem_map.1 hd
      obtain ⟨h1, h2, h3⟩ := hf2.ok d0 hd0
      have hsp : d0.point ∈ roots ∧ sgAt φ der d0.point = s := by
        have := h1.mem
        rw [hsub, List.mem_filter, decide_eq_true_eq] at this
        exact this
      refine ⟨⟨hsp.1, ?_, ?_, ?_, ?_⟩, ?_, ?_⟩
      · simp only [List.map_append, List.map_cons, List.map_nil]
        rw [List.nodup_append]
        refine ⟨h1.nodup, by simp, ?_⟩
        intro a ha b hb hab
        simp at hb
        obtain ⟨e, he, hee⟩ := List.mem_map.1 ha
        have := h2 e he
        rw [hee, hab, hb] at this; omega
      · intro e he
        rcases List.mem_append.1 he with he | he
        · exact h1.norm e he
        · simp at he; rw [he]; exact hdn
      · intro e he
        rcases List.mem_append.1 he with he | he
        · exact h1.sign e he
        · simp at he; rw [he]; exact hsp.2.symm
      · intro x hx hall
        apply h1.unique x
        · rw [hsub, List.mem_filter, decide_eq_true_eq]
          exact ⟨hx, hall (der, s) (by simp)⟩
        · intro e he
          exact hall e (by simp [he])
      · intro e he
        rcases List.mem_append.1 he with he | he
        · have := h2 e he; omega
        · simp at he; rw [he]; simp
      · simp only [List.length_append, List.length_singleton]; omega
    · intro d hd e he
      obtain ⟨d0, hd0, rfl⟩ := List.mem_map.1 hd
      rcases List.mem_append.1 he with he | he
      · exact hf2.der d0 hd0 e he
      · simp at he; rw [he]; exact hD

theorem sgAt_pos_iff (φ : R →+* K) (q : List R) (x : K) :
    sgAt φ q x = 1 ↔ 0 < (denote φ q).eval x := sg_eq_one_iff

theorem sgAt_neg_iff (φ : R →+* K) (q : List R) (x : K) :
    sgAt φ q x = -1 ↔ (denote φ q).eval x < 0 := sg_eq_neg_one_iff

theorem sgAt_zero_iff (φ : R →+* K) (q : List R) (x : K) :
    sgAt φ q x = 0 ↔ (denote φ q).eval x = 0 := sg_eq_zero_iff

theorem length_three (roots : List K) (σ : K → ℤ) (h : ∀ x, σ x = 0 ∨ σ x = 1 ∨ σ x = -1) :
    (roots.filter (fun r => decide (σ r = 0)) ++ roots.filter (fun r => decide (σ r = 1)) ++
      roots.filter (fun r => decide (σ r = -1))).Perm roots := by
  induction roots with
  | nil => simp
  | cons r rs ih =>
    rcases h r with hr | hr | hr
    · simpa [List.filter_cons, hr] using ih
    · simp only [List.filter_cons, hr]
      simp only [one_ne_zero, decide_false, Bool.false_eq_true, if_false, decide_true, if_true]
      simp only [List.append_assoc, List.cons_append] at ih ⊢
      exact List.perm_middle.trans (ih.cons r)
    · simp only [List.filter_cons, hr]
      simp only [decide_true, if_true]
      simp only [List.append_assoc] at ih ⊢
      norm_num
      rw [← List.append_assoc]
      refine List.perm_middle.trans ?_
      rw [List.append_assoc]
      exact ih.cons r

/-- Specification of `get_discri_der_signs`; `p0` is the origin, `q` its `k`-th derivative. -/
theorem getDiscriDerSigns_spec [PolyIVT K] {φ : R →+* K} (hφ : StrictMono φ) {p0 : K[X]}
    (hp0 : p0 ≠ 0) (q : List R) (k : ℕ) (hqk : denote φ q = Polynomial.derivative^[k] p0)
    (hq : q = [] ∨ Normalized q) (roots : List K) (hn : roots.Nodup)
    (hroot : ∀ a ∈ roots, p0.eval a = 0)
    (hagree : ∀ a ∈ roots, ∀ b ∈ roots, ∀ i ≤ k,
      sg ((Polynomial.derivative^[i] p0).eval a) = sg ((Polynomial.derivative^[i] p0).eval b)) :
    ∃ ds, getDiscriDerSigns φ roots q = .ok ds ∧
      GroupOK φ (fun q => ∃ k, 1 ≤ k ∧ denote φ q = Polynomial.derivative^[k] p0)
        q.length roots roots ds := by
  induction hlen : q.length using Nat.strong_induction_on generalizing q k roots with
  | _ n ih =>
    unfold getDiscriDerSigns
    split
    · exact ⟨[], rfl, by simp, by simp, by simp⟩
    · rename_i r
      refine ⟨_, rfl, by simp, ?_, by simp⟩
      intro d hd
      simp at hd; subst hd
      exact ⟨⟨by simp, by simp, by simp, by simp, by simp⟩, by simp, by simp⟩
    · rename_i r1 r2 rs
      by_cases hqe : q = []
      · exfalso
        -- Thom's lemma
        have hz : ∀ i, k ≤ i → Polynomial.derivative^[i] p0 = 0 := by
          intro i hi
          obtain ⟨j, rfl⟩ := Nat.exists_eq_add_of_le hi
          rw [add_comm, Function.iterate_add_apply, ← hqk, hqe]
          simp
        have hall : ∀ i, sg ((Polynomial.derivative^[i] p0).eval r1)
            = sg ((Polynomial.derivative^[i] p0).eval r2) := by
          intro i
          by_cases hi : i ≤ k
          · exact hagree r1 (by simp) r2 (by simp) i hi
          · rw [hz i (by omega)]; simp
        have hne : r1 ≠ r2 := by
          intro h; subst h; simp at hn
        have h1 := hroot r1 (by simp)
        have h2 := hroot r2 (by simp)
        rcases lt_or_gt_of_ne hne with h | h
        · have := (thom hp0 h hall).1
          rw [h1] at this; simp at this
        · have := (thom hp0 h (fun i => (hall i).symm)).1
          rw [h2] at this; simp at this
      · rw [dif_neg hqe]
        have hqn := hq.resolve_left hqe
        have hpos := List.length_pos_iff.2 hqe
        have hdl := length_derivative q
        set roots := r1 :: r2 :: rs with hroots
        have hder := normalized_derivative hφ.injective hqn
        have hz : (roots.filter fun r => !(decide (evaluatePoly φ (derivative q) r > 0)) &&
            !(decide (evaluatePoly φ (derivative q) r < 0)))
            = roots.filter fun r => decide (sgAt φ (derivative q) r = 0) := by
          apply List.filter_congr
          intro r _
          rw [evaluatePoly_eq, ← decide_not, ← decide_not, ← Bool.decide_and, decide_eq_decide,
            sgAt_zero_iff]
          constructor
          · rintro ⟨h1, h2⟩; exact le_antisymm (not_lt.1 h1) (not_lt.1 h2)
          · intro h; rw [h]; simp
        have hp : (roots.filter fun r => decide (evaluatePoly φ (derivative q) r > 0))
            = roots.filter fun r => decide (sgAt φ (derivative q) r = 1) := by
          apply List.filter_congr
          intro r _
          rw [evaluatePoly_eq, decide_eq_decide, sgAt_pos_iff]
        have hng : (roots.filter fun r => !(decide (evaluatePoly φ (derivative q) r > 0)) &&
            decide (evaluatePoly φ (derivative q) r < 0))
            = roots.filter fun r => decide (sgAt φ (derivative q) r = -1) := by
          apply List.filter_congr
          intro r _
          rw [evaluatePoly_eq, ← decide_not, ← Bool.decide_and, decide_eq_decide, sgAt_neg_iff]
          constructor
          · rintro ⟨h1, h2⟩; exact h2
          · intro h; exact ⟨not_lt.2 h.le, h⟩
        have hsubIH : ∀ s : ℤ, ∃ ds, getDiscriDerSigns φ
            (roots.filter fun r => decide (sgAt φ (derivative q) r = s)) (derivative q) = .ok ds ∧
            GroupOK φ (fun q => ∃ k, 1 ≤ k ∧ denote φ q = Polynomial.derivative^[k] p0)
              (derivative q).length
              (roots.filter fun r => decide (sgAt φ (derivative q) r = s))
              (roots.filter fun r => decide (sgAt φ (derivative q) r = s)) ds := by
          intro s
          refine ih _ (by rw [← hlen, hdl]; omega) (derivative q) (k + 1) ?_ hder _ (hn.filter _)
            ?_ ?_ rfl
          · rw [denote_derivative, hqk, Function.iterate_succ_apply']
          · intro a ha; exact hroot a (List.mem_of_mem_filter ha)
          · intro a ha b hb i hi
            rw [List.mem_filter, decide_eq_true_eq] at ha hb
            rcases hi.lt_or_eq with hi | rfl
            · exact hagree a ha.1 b hb.1 i (by omega)
            · have : Polynomial.derivative^[k + 1] p0 = denote φ (derivative q) := by
                rw [denote_derivative, hqk, Function.iterate_succ_apply']
              rw [this]
              exact ha.2.trans hb.2.symm
        simp only [hz, hp, hng]
        have hD : ∃ j, 1 ≤ j ∧ denote φ (derivative q) = Polynomial.derivative^[j] p0 :=
          ⟨k + 1, by omega, by rw [denote_derivative, hqk, Function.iterate_succ_apply']⟩
        obtain ⟨zs, ez, gz⟩ := group_spec (derivative q) hD hder 0 _ rfl _ (hsubIH 0)
        obtain ⟨ps, ep, gp⟩ := group_spec (derivative q) hD hder 1 _ rfl _ (hsubIH 1)
        obtain ⟨ns, en, gn⟩ := group_spec (derivative q) hD hder (-1) _ rfl _ (hsubIH (-1))
        refine ⟨zs ++ ps ++ ns, ?_, ?_, ?_, ?_⟩
        · rw [ez, ep, en]; rfl
        · simp only [List.map_append]
          refine ((gz.perm.append gp.perm).append gn.perm).trans ?_
          exact length_three roots _ fun x => sgAt_cases φ _ x
        · have e : (derivative q).length + 1 = n := by omega
          rw [e] at gz gp gn
          intro d hd
          simp only [List.mem_append] at hd
          rcases hd with (hd | hd) | hd
          · exact gz.ok d hd
          · exact gp.ok d hd
          · exact gn.ok d hd
        · intro d hd
          simp only [List.mem_append] at hd
          rcases hd with (hd | hd) | hd
          · exact gz.der d hd
          · exact gp.der d hd
          · exact gn.der d hd

/-- Top level call. -/
theorem getDiscriDerSigns_top [PolyIVT K] {φ : R →+* K} (hφ : StrictMono φ) (p : List R)
    (hp : Normalized p) (roots : List K) (hn : roots.Nodup)
    (hroot : ∀ x, x ∈ roots ↔ (denote φ p).eval x = 0) :
    ∃ ds, getDiscriDerSigns φ roots p = .ok ds ∧ (ds.map DDS.point).Perm roots ∧
      ∀ d ∈ ds, DDSOK φ roots d ∧ d.recorded.length + 1 ≤ roots.length ∧
        ∀ e ∈ d.recorded, ∃ k, 1 ≤ k ∧ denote φ e.1 = Polynomial.derivative^[k] (denote φ p) := by
  obtain ⟨ds, h1, h2⟩ := getDiscriDerSigns_spec hφ (denote_ne_zero hφ.injective hp) p 0 rfl
    (Or.inr hp) roots hn (fun a ha => (hroot a).1 ha) (fun a ha b hb i hi => by
      have : i = 0 := by omega
      subst this
      simp [(hroot a).1 ha, (hroot b).1 hb])
  exact ⟨ds, h1, h2.perm, fun d hd => ⟨(h2.ok d hd).1, (h2.ok d hd).2.2, h2.der d hd⟩⟩

/-! ### The sign immediately to the right -/

/-- `s` is the sign of `q` on an interval immediately to the right of `x` -/
def RightSign (φ : R →+* K) (q : List R) (x : K) (s : ℤ) : Prop :=
  ∃ b, x < b ∧ ∀ y, x < y → y < b → sgAt φ q y = s

theorem rightSign_of_ne [PolyIVT K] {φ : R →+* K} {q : List R} {x : K}
    (h : (denote φ q).eval x ≠ 0) : RightSign φ q x (sgAt φ q x) := by
  classical
  have h0 : denote φ q ≠ 0 := by intro h0; rw [h0] at h; simp at h
  obtain ⟨b, hb, hgap⟩ := exists_gap_right (denote φ q).roots.toFinset x
  refine ⟨b, hb, fun y h1 h2 => ?_⟩
  symm
  apply sg_eq_of_no_root h1.le
  intro c hc1 hc2 hc
  rcases hc1.eq_or_lt with rfl | hc1
  · exact h hc
  · have := hgap c (by simp [h0, hc]) hc1
    exact absurd this (not_lt.2 (hc2.trans h2.le))

theorem rightSign_of_derivative [PolyIVT K] {φ : R →+* K} {q : List R} {x : K} {s : ℤ}
    (h0 : (denote φ q).eval x = 0) (h : RightSign φ (derivative q) x s) : RightSign φ q x s := by
  obtain ⟨b, hb, hs⟩ := h
  refine ⟨b, hb, fun y h1 h2 => ?_⟩
  obtain ⟨c, c1, c2, c3⟩ := mvt (denote φ q) h1
  rw [h0, sub_zero] at c3
  rw [sgAt, c3, sg_mul, sg_pos (show 0 < y - x by linarith), mul_one, ← denote_derivative]
  exact hs c c1 (c2.trans h2)

theorem rightSign_unique [PolyIVT K] {φ : R →+* K} {q : List R} {x : K} {s t : ℤ}
    (hs : RightSign φ q x s) (ht : RightSign φ q x t) : s = t := by
  obtain ⟨b, hb, h1⟩ := hs
  obtain ⟨c, hc, h2⟩ := ht
  have hlt : x < min b c := lt_min hb hc
  have e1 : x < (x + min b c) / 2 := by linarith
  have e2 : (x + min b c) / 2 < min b c := by linarith
  rw [← h1 _ e1 (e2.trans_le (min_le_left _ _)), ← h2 _ e1 (e2.trans_le (min_le_right _ _))]

theorem eClose_spec [PolyIVT K] {E : Env R K} {φ : R →+* K} (hE : EnvOK E φ)
    {origin : List R} (ho : Normalized origin) {rs : List K} (hrs : rs.Nodup)
    (hmem : ∀ x, x ∈ rs ↔ (denote φ origin).eval x = 0) {d : DDS R K} (hd : DDSOK φ rs d)
    (goal : List R) (hg : goal = [] ∨ Normalized goal) :
    (d.recorded.length ≤ 4 ∨ goal = [] →
      ∃ s, eCloseEvaluateSingle E origin d goal = .ok s ∧ RightSign φ goal d.point s) ∧
    (4 < d.recorded.length → goal ≠ [] →
      eCloseEvaluateSingle E origin d goal = .error .moreThan5) := by
  have hroot := (hmem _).1 hd.mem
  have holen := two_le_length_of_root hE.mono ho hroot
  induction hlen : goal.length using Nat.strong_induction_on generalizing goal with
  | _ n ih =>
    rw [eCloseEvaluateSingle]
    by_cases hge : goal = []
    · rw [dif_pos hge, hge]
      exact ⟨fun _ => ⟨0, rfl, d.point + 1, by linarith, by simp [sgAt]⟩, fun _ h => absurd rfl h⟩
    have hgn := hg.resolve_left hge
    have hpos := List.length_pos_iff.2 hge
    have hdl := length_derivative goal
    rw [dif_neg hge, evaluateSingle_spec hE ho hrs hmem hd goal hgn]
    have ih' := ih (derivative goal).length (by omega) (derivative goal)
      (normalized_derivative hE.mono.injective hgn) rfl
    constructor
    · rintro (h4 | h4)
      swap
      · exact absurd h4 hge
      rw [if_pos (Or.inr h4)]
      simp only [bind, Except.bind]
      by_cases h0 : sgAt φ goal d.point = 0
      · rw [if_neg (by simpa using h0)]
        obtain ⟨s, h1, h2⟩ := ih'.1 (Or.inl h4)
        exact ⟨s, h1, rightSign_of_derivative ((sgAt_zero_iff _ _ _).1 h0) h2⟩
      · rw [if_pos h0]
        exact ⟨_, rfl, rightSign_of_ne (fun h => h0 ((sgAt_zero_iff _ _ _).2 h))⟩
    · intro h4 _
      by_cases hgo : goal = origin
      · rw [if_pos (Or.inl hgo)]
        have h0 : sgAt φ goal d.point = 0 := by rw [hgo, sgAt_zero_iff]; exact hroot
        simp only [bind, Except.bind]
        rw [if_neg (by simpa using h0)]
        apply ih'.2 h4
        intro h
        rw [h] at hdl; simp at hdl
        rw [hgo] at hdl; omega
      · rw [if_neg (by push Not; exact ⟨hgo, h4⟩)]; rfl

/-! ### The lookup table -/

theorem restrictTo_apply (s : List ℤ) (l : List (List R)) (d : Lookup R) (p : List R) :
    restrictTo s l d p = if p ∈ l then (d p).map fun old => old.filter (fun z => decide (z ∈ s))
      else d p := by
  unfold restrictTo
  induction l generalizing d with
  | nil => simp
  | cons a l ih =>
    simp only [List.foldl_cons]
    rw [ih]
    by_cases hpa : p = a
    · subst hpa
      simp only [Function.update_self, List.mem_cons, true_or, if_true]
      split
      · cases d p <;> simp
      · rfl
    · simp [hpa]

theorem initLookup_apply (l : List (List R)) (d : Lookup R) (p : List R) :
    l.foldl (fun d p => Function.update d p (some [-1, 0, 1])) d p
      = if p ∈ l then some [-1, 0, 1] else d p := by
  induction l generalizing d with
  | nil => simp
  | cons a l ih =>
    simp only [List.foldl_cons]
    rw [ih]
    by_cases hpa : p = a
    · subst hpa; simp
    · simp [hpa]

/-- the sign `s` of `p` is compatible with the constraint lists -/
def Allowed (le lt eq ne : List (List R)) (p : List R) (s : ℤ) : Prop :=
  (p ∈ le → s ≤ 0) ∧ (p ∈ lt → s < 0) ∧ (p ∈ eq → s = 0) ∧ (p ∈ ne → s ≠ 0)

theorem signAllowed_spec (le lt eq ne : List (List R)) (p : List R)
    (hp : p ∈ le ++ lt ++ eq ++ ne) (s : ℤ) (hs : s = 0 ∨ s = 1 ∨ s = -1) :
    ∃ b, signAllowed (signConditionsLookup le lt eq ne) p s = .ok b ∧
      (b = true ↔ Allowed le lt eq ne p s) := by
  have hl : ∃ l, signConditionsLookup le lt eq ne p = some l ∧
      (s ∈ l ↔ Allowed le lt eq ne p s) := by
    unfold signConditionsLookup Allowed
    simp only [restrictTo_apply, initLookup_apply, if_pos hp]
    by_cases h1 : p ∈ le <;> by_cases h2 : p ∈ lt <;> by_cases h3 : p ∈ eq <;>
      by_cases h4 : p ∈ ne <;> simp only [h1, h2, h3, h4, if_true, if_false, Option.map_some] <;>
      refine ⟨_, rfl, ?_⟩ <;> rcases hs with rfl | rfl | rfl <;> decide
  obtain ⟨l, h1, h2⟩ := hl
  refine ⟨decide (s ∈ l), ?_, by simpa using h2⟩
  rw [signAllowed, h1]

/-! ### Loops -/

theorem firstTrue_true {α : Type} {f : α → Except Err Bool} {l : List α}
    (h : firstTrue f l = .ok true) : ∃ a ∈ l, f a = .ok true := by
  induction l with
  | nil => simp [firstTrue] at h
  | cons a l ih =>
    rw [firstTrue] at h
    cases hf : f a with
    | error e => rw [hf] at h; simp [bind, Except.bind] at h
    | ok b =>
      rw [hf] at h
      cases b with
      | true => exact ⟨a, by simp, hf⟩
      | false =>
        simp only [bind, Except.bind] at h
        obtain ⟨a', h1, h2⟩ := ih h
        exact ⟨a', by simp [h1], h2⟩

theorem firstTrue_false {α : Type} {f : α → Except Err Bool} {l : List α}
    (h : firstTrue f l = .ok false) : ∀ a ∈ l, f a = .ok false := by
  induction l with
  | nil => simp
  | cons a l ih =>
    rw [firstTrue] at h
    cases hf : f a with
    | error e => rw [hf] at h; simp [bind, Except.bind] at h
    | ok b =>
      rw [hf] at h
      cases b with
      | true => simp [bind, Except.bind, pure, Except.pure] at h
      | false =>
        simp only [bind, Except.bind] at h
        intro a' ha'
        rcases List.mem_cons.1 ha' with rfl | ha'
        · exact hf
        · exact ih h a' ha'

theorem firstTrue_error {α : Type} {f : α → Except Err Bool} {l : List α} {e : Err}
    (h : firstTrue f l = .error e) : ∃ a ∈ l, f a = .error e := by
  induction l with
  | nil => simp [firstTrue] at h
  | cons a l ih =>
    rw [firstTrue] at h
    cases hf : f a with
    | error e' => rw [hf] at h; simp [bind, Except.bind] at h; subst h; exact ⟨a, by simp, hf⟩
    | ok b =>
      rw [hf] at h
      cases b with
      | true => simp [bind, Except.bind, pure, Except.pure] at h
      | false =>
        simp only [bind, Except.bind] at h
        obtain ⟨a', h1, h2⟩ := ih h
        exact ⟨a', by simp [h1], h2⟩

/-- shared analysis of the constraint loops -/
theorem evaluateAll_spec (le lt eq ne : List (List R)) (eval : List R → Except Err ℤ)
    (l : List (List R)) (hl : ∀ p ∈ l, p ∈ le ++ lt ++ eq ++ ne)
    (hs : ∀ p ∈ l, ∀ s, eval p = .ok s → s = 0 ∨ s = 1 ∨ s = -1) :
    (evaluateAll eval (signConditionsLookup le lt eq ne) l = .ok true →
      ∀ p ∈ l, ∃ s, eval p = .ok s ∧ Allowed le lt eq ne p s) ∧
    (evaluateAll eval (signConditionsLookup le lt eq ne) l = .ok false →
      ∃ p ∈ l, ∃ s, eval p = .ok s ∧ ¬ Allowed le lt eq ne p s) ∧
    (∀ e, evaluateAll eval (signConditionsLookup le lt eq ne) l = .error e →
      ∃ p ∈ l, eval p = .error e) := by
  induction l with
  | nil => simp [evaluateAll]
  | cons a l ih =>
    obtain ⟨i1, i2, i3⟩ := ih (fun p hp => hl p (List.mem_cons_of_mem _ hp))
      (fun p hp => hs p (List.mem_cons_of_mem _ hp))
    rw [evaluateAll]
    cases hev : eval a with
    | error e => simp [bind, Except.bind, hev]
    | ok s =>
      obtain ⟨b, h1, h2⟩ := signAllowed_spec le lt eq ne a (hl a (by simp)) s
        (hs a (by simp) s hev)
      simp only [bind, Except.bind, h1]
      cases b with
      | false =>
        simp only [Bool.not_false, if_true]
        refine ⟨by simp [pure, Except.pure], fun _ => ⟨a, by simp, s, hev, ?_⟩, ?_⟩
        · intro h; simpa using h2.2 h
        · simp [pure, Except.pure]
      | true =>
        simp only [Bool.not_true, Bool.false_eq_true, if_false]
        refine ⟨?_, ?_, ?_⟩
        · intro h p hp
          rcases List.mem_cons.1 hp with rfl | hp
          · exact ⟨s, hev, h2.1 rfl⟩
          · exact i1 h p hp
        · intro h
          obtain ⟨p, hp, h⟩ := i2 h
          exact ⟨p, by simp [hp], h⟩
        · intro e h
          obtain ⟨p, hp, h⟩ := i3 e h
          exact ⟨p, by simp [hp], h⟩

theorem checkMinusInfinity_spec (le lt eq ne : List (List R)) {φ : R →+* K} (hφ : StrictMono φ)
    (l : List (List R)) (hl : ∀ p ∈ l, p ∈ le ++ lt ++ eq ++ ne) (hn : ∀ p ∈ l, Normalized p) :
    ∃ b, checkMinusInfinity (signConditionsLookup le lt eq ne) l = .ok b ∧
      (b = true ↔ ∀ p ∈ l, Allowed le lt eq ne p (sgBot (denote φ p))) := by
  induction l with
  | nil => exact ⟨true, rfl, by simp⟩
  | cons a l ih =>
    obtain ⟨b, i1, i2⟩ := ih (fun p hp => hl p (List.mem_cons_of_mem _ hp))
      (fun p hp => hn p (List.mem_cons_of_mem _ hp))
    have ha := hn a (by simp)
    have hsg : signFunc (a.getD (a.length - 1) 0 * (-1) ^ ((a.length - 1) % 2))
        = sgBot (denote φ a) := by
      rw [signFunc, ← sg_map hφ, sgBot, leadingCoeff_denote hφ.injective ha,
        natDegree_denote hφ.injective ha,
        map_mul, sg_mul, map_pow, map_neg, map_one, sg_pow, sg_neg, sg_one]
      congr 1
      conv_rhs => rw [← Nat.div_add_mod (a.length - 1) 2, pow_add, pow_mul]
      simp
    have hsc : sgBot (denote φ a) = 0 ∨ sgBot (denote φ a) = 1 ∨ sgBot (denote φ a) = -1 := by
      rw [← hsg, signFunc]
      split
      · simp
      · split <;> simp
    obtain ⟨b', h1, h2⟩ := signAllowed_spec le lt eq ne a (hl a (by simp)) _ hsc
    rw [checkMinusInfinity, lastE, getLast?_eq_getD (normalized_ne_nil ha)]
    simp only [bind, Except.bind, hsg, h1]
    cases b' with
    | false =>
      refine ⟨false, by simp [pure, Except.pure], ?_⟩
      simp only [Bool.false_eq_true, false_iff]
      intro h
      simpa using h2.2 (h a (by simp))
    | true =>
      refine ⟨b, by simpa using i1, ?_⟩
      rw [i2]
      simp only [List.mem_cons, forall_eq_or_imp]
      exact ⟨fun h => ⟨h2.1 rfl, h⟩, fun h => h.2⟩

/-! ### `internal_vts` -/

section Vts
variable [PolyIVT K] {E : Env R K} {φ : R →+* K} (hE : EnvOK E φ) (le lt eq ne : List (List R))

/-- solution predicate through signs -/
def SolvesAt (φ : R →+* K) (le lt eq ne : List (List R)) (x : K) : Prop :=
  ∀ p ∈ le ++ lt ++ eq ++ ne, Allowed le lt eq ne p (sgAt φ p x)

theorem sg_nonpos_iff (v : K) : sg v ≤ 0 ↔ v ≤ 0 := by
  rcases sg_cases v with ⟨h, e⟩ | ⟨h, e⟩ | ⟨h, e⟩ <;> rw [e] <;> constructor <;> intro h' <;>
    first | omega | linarith

theorem sg_lt_zero_iff (v : K) : sg v < 0 ↔ v < 0 := by
  rcases sg_cases v with ⟨h, e⟩ | ⟨h, e⟩ | ⟨h, e⟩ <;> rw [e] <;> constructor <;> intro h' <;>
    first | omega | linarith

theorem satisfiable_iff : Satisfiable φ le lt eq ne ↔ ∃ x, SolvesAt φ le lt eq ne x := by
  unfold Satisfiable SolvesAt Allowed
  constructor
  · rintro ⟨x, h1, h2, h3, h4⟩
    refine ⟨x, fun p hp => ⟨fun h => ?_, fun h => ?_, fun h => ?_, fun h => ?_⟩⟩
    · exact (sg_nonpos_iff _).2 (h1 p h)
    · exact (sg_lt_zero_iff _).2 (h2 p h)
    · exact sg_eq_zero_iff.2 (h3 p h)
    · exact fun h' => h4 p h (sg_eq_zero_iff.1 h')
  · rintro ⟨x, h⟩
    refine ⟨x, fun p hp => ?_, fun p hp => ?_, fun p hp => ?_, fun p hp => ?_⟩
    · exact (sg_nonpos_iff _).1 ((h p (by simp [hp])).1 hp)
    · exact (sg_lt_zero_iff _).1 ((h p (by simp [hp])).2.1 hp)
    · exact sg_eq_zero_iff.1 ((h p (by simp [hp])).2.2.1 hp)
    · exact fun h' => (h p (by simp [hp])).2.2.2 hp (sg_eq_zero_iff.2 h')

/-- every point close enough on the right of `x` solves the system -/
def SolvesRight (φ : R →+* K) (le lt eq ne : List (List R)) (x : K) : Prop :=
  ∀ p ∈ le ++ lt ++ eq ++ ne, ∃ s, RightSign φ p x s ∧ Allowed le lt eq ne p s

theorem solvesAt_of_right {x : K} (h : SolvesRight φ le lt eq ne x) :
    ∃ y, SolvesAt φ le lt eq ne y := by
  unfold SolvesRight at h
  unfold SolvesAt
  generalize le ++ lt ++ eq ++ ne = L at h ⊢
  have : ∃ b, x < b ∧ ∀ y, x < y → y < b → ∀ p ∈ L, Allowed le lt eq ne p (sgAt φ p y) := by
    induction L with
    | nil => exact ⟨x + 1, by linarith, by simp⟩
    | cons a L ih =>
      obtain ⟨b, hb, h1⟩ := ih fun p hp => h p (List.mem_cons_of_mem _ hp)
      obtain ⟨s, ⟨c, hc, h2⟩, h3⟩ := h a (by simp)
      refine ⟨min b c, lt_min hb hc, fun y hy1 hy2 p hp => ?_⟩
      rcases List.mem_cons.1 hp with rfl | hp
      · rw [h2 y hy1 (hy2.trans_le (min_le_right _ _))]; exact h3
      · exact h1 y hy1 (hy2.trans_le (min_le_left _ _)) p hp
  obtain ⟨b, hb, h⟩ := this
  exact ⟨(x + b) / 2, h _ (by linarith) (by linarith)⟩

include hE

/-- One iteration of the first loop. -/
theorem tryRoots_exact (hn : ∀ p ∈ le ++ lt ++ eq ++ ne, Normalized p) (poly : List R)
    (hp : Normalized poly) :
    (tryRoots E (evaluateSingle E) (signConditionsLookup le lt eq ne) (le ++ lt ++ eq ++ ne) poly
      = .ok true → ∃ x, (denote φ poly).eval x = 0 ∧ SolvesAt φ le lt eq ne x) ∧
    (tryRoots E (evaluateSingle E) (signConditionsLookup le lt eq ne) (le ++ lt ++ eq ++ ne) poly
      = .ok false → ∀ x, (denote φ poly).eval x = 0 → ¬ SolvesAt φ le lt eq ne x) ∧
    (∀ e, tryRoots E (evaluateSingle E) (signConditionsLookup le lt eq ne)
      (le ++ lt ++ eq ++ ne) poly = .error e → e = .moreThan5 ∧
        5 < (denote φ poly).roots.toFinset.card) := by
  classical
  obtain ⟨rs, hr1, hr2, hr3⟩ := hE.roots poly (denote_ne_zero hE.mono.injective hp)
  obtain ⟨ds, hd1, hd2, hd3⟩ := getDiscriDerSigns_top hE.mono poly hp rs hr2 hr3
  have hφE : E.φ = φ := funext hE.φ_eq
  have hcard : (denote φ poly).roots.toFinset.card = rs.length := by
    rw [← List.toFinset_card_of_nodup hr2]
    congr 1; ext x; simp [hr3, denote_ne_zero hE.mono.injective hp]
  unfold tryRoots
  rw [hr1]
  simp only [bind, Except.bind]
  rw [hφE, hd1]
  simp only
  have hev : ∀ d ∈ ds, ∀ p ∈ le ++ lt ++ eq ++ ne, evaluateSingle E poly d p =
      if p = poly ∨ d.recorded.length ≤ 4 then .ok (sgAt φ p d.point)
      else .error .moreThan5 := fun d hd p hpm =>
    evaluateSingle_spec hE hp hr2 hr3 (hd3 d hd).1 p (hn p hpm)
  have hev' : ∀ d ∈ ds, ∀ p ∈ le ++ lt ++ eq ++ ne, ∀ s, evaluateSingle E poly d p = .ok s →
      s = sgAt φ p d.point := by
    intro d hd p hpm s h
    rw [hev d hd p hpm] at h
    split at h
    · simpa using h.symm
    · simp at h
  have hsp := fun d (hd : d ∈ ds) => evaluateAll_spec le lt eq ne (evaluateSingle E poly d)
    (le ++ lt ++ eq ++ ne) (fun p hp => hp) (fun p hp s h => by
      rw [hev' d hd p hp s h]; exact sgAt_cases φ p _)
  refine ⟨?_, ?_, ?_⟩
  · intro h
    obtain ⟨d, hd, h⟩ := firstTrue_true h
    refine ⟨d.point, (hr3 _).1 (hd3 d hd).1.mem, fun p hpm => ?_⟩
    obtain ⟨s, h1, h2⟩ := (hsp d hd).1 h p hpm
    rwa [hev' d hd p hpm s h1] at h2
  · intro h x hx hsol
    have hxrs := (hr3 x).2 hx
    rw [← hd2.mem_iff, List.mem_map] at hxrs
    obtain ⟨d, hd, rfl⟩ := hxrs
    obtain ⟨p, hpm, s, h1, h2⟩ := (hsp d hd).2.1 (firstTrue_false h d hd)
    rw [hev' d hd p hpm s h1] at h2
    exact h2 (hsol p hpm)
  · intro e h
    obtain ⟨d, hd, h⟩ := firstTrue_error h
    obtain ⟨p, hpm, h1⟩ := (hsp d hd).2.2 e h
    rw [hev d hd p hpm] at h1
    split at h1
    · simp at h1
    · rename_i hno
      simp only [Except.error.injEq] at h1
      push Not at hno
      have := (hd3 d hd).2.1
      refine ⟨h1.symm, ?_⟩
      rw [hcard]; omega

/-- One iteration of the second loop. -/
theorem tryRoots_eClose (hn : ∀ p ∈ le ++ lt ++ eq ++ ne, Normalized p) (poly : List R)
    (hp : Normalized poly) :
    (tryRoots E (eCloseEvaluateSingle E) (signConditionsLookup le lt eq ne)
      (le ++ lt ++ eq ++ ne) poly
      = .ok true → ∃ x, (denote φ poly).eval x = 0 ∧ SolvesRight φ le lt eq ne x) ∧
    (tryRoots E (eCloseEvaluateSingle E) (signConditionsLookup le lt eq ne)
      (le ++ lt ++ eq ++ ne) poly
      = .ok false → ∀ x, (denote φ poly).eval x = 0 → ¬ SolvesRight φ le lt eq ne x) ∧
    (∀ e, tryRoots E (eCloseEvaluateSingle E) (signConditionsLookup le lt eq ne)
      (le ++ lt ++ eq ++ ne) poly = .error e → e = .moreThan5 ∧
        5 < (denote φ poly).roots.toFinset.card) := by
  classical
  obtain ⟨rs, hr1, hr2, hr3⟩ := hE.roots poly (denote_ne_zero hE.mono.injective hp)
  obtain ⟨ds, hd1, hd2, hd3⟩ := getDiscriDerSigns_top hE.mono poly hp rs hr2 hr3
  have hφE : E.φ = φ := funext hE.φ_eq
  have hcard : (denote φ poly).roots.toFinset.card = rs.length := by
    rw [← List.toFinset_card_of_nodup hr2]
    congr 1; ext x; simp [hr3, denote_ne_zero hE.mono.injective hp]
  unfold tryRoots
  rw [hr1]
  simp only [bind, Except.bind]
  rw [hφE, hd1]
  simp only
  have hev : ∀ d ∈ ds, ∀ p ∈ le ++ lt ++ eq ++ ne, _ := fun d hd p hpm =>
    eClose_spec hE hp hr2 hr3 (hd3 d hd).1 p (Or.inr (hn p hpm))
  have hev' : ∀ d ∈ ds, ∀ p ∈ le ++ lt ++ eq ++ ne, ∀ s, eCloseEvaluateSingle E poly d p = .ok s →
      RightSign φ p d.point s := by
    intro d hd p hpm s h
    by_cases h4 : d.recorded.length ≤ 4
    · obtain ⟨s', h1, h2⟩ := (hev d hd p hpm).1 (Or.inl h4)
      rw [h] at h1
      simp only [Except.ok.injEq] at h1
      rwa [h1]
    · have := (hev d hd p hpm).2 (by omega) (normalized_ne_nil (hn p hpm))
      rw [h] at this; simp at this
  have hsp := fun d (hd : d ∈ ds) => evaluateAll_spec le lt eq ne (eCloseEvaluateSingle E poly d)
    (le ++ lt ++ eq ++ ne) (fun p hp => hp) (fun p hp s h => by
      obtain ⟨b, hb, h1⟩ := hev' d hd p hp s h
      rw [← h1 ((d.point + b) / 2) (by linarith) (by linarith)]
      exact sgAt_cases φ p _)
  refine ⟨?_, ?_, ?_⟩
  · intro h
    obtain ⟨d, hd, h⟩ := firstTrue_true h
    refine ⟨d.point, (hr3 _).1 (hd3 d hd).1.mem, fun p hpm => ?_⟩
    obtain ⟨s, h1, h2⟩ := (hsp d hd).1 h p hpm
    exact ⟨s, hev' d hd p hpm s h1, h2⟩
  · intro h x hx hsol
    have hxrs := (hr3 x).2 hx
    rw [← hd2.mem_iff, List.mem_map] at hxrs
    obtain ⟨d, hd, rfl⟩ := hxrs
    obtain ⟨p, hpm, s, h1, h2⟩ := (hsp d hd).2.1 (firstTrue_false h d hd)
    obtain ⟨s', h3, h4⟩ := hsol p hpm
    rw [rightSign_unique (hev' d hd p hpm s h1) h3] at h2
    exact h2 h4
  · intro e h
    obtain ⟨d, hd, h⟩ := firstTrue_error h
    obtain ⟨p, hpm, h1⟩ := (hsp d hd).2.2 e h
    by_cases h4 : d.recorded.length ≤ 4
    · obtain ⟨s', h2, _⟩ := (hev d hd p hpm).1 (Or.inl h4)
      rw [h1] at h2; simp at h2
    · have := (hev d hd p hpm).2 (by omega) (normalized_ne_nil (hn p hpm))
      rw [h1] at this
      simp only [Except.error.injEq] at this
      have h5 := (hd3 d hd).2.1
      refine ⟨this, ?_⟩
      rw [hcard]; omega

omit hE in
/-- The geometric heart of completeness. -/
theorem solution_cases (hn : ∀ p ∈ le ++ lt ++ eq ++ ne, denote φ p ≠ 0) {x : K}
    (hx : SolvesAt φ le lt eq ne x) :
    (∃ p ∈ le ++ eq, ∃ y, (denote φ p).eval y = 0 ∧ SolvesAt φ le lt eq ne y) ∨
    (∃ p ∈ lt ++ ne, ∃ y, (denote φ p).eval y = 0 ∧ SolvesRight φ le lt eq ne y) ∨
    (∀ p ∈ le ++ lt ++ eq ++ ne, Allowed le lt eq ne p (sgBot (denote φ p))) := by
  classical
  set L := le ++ lt ++ eq ++ ne with hL
  -- `x` is a root of one of the exact polynomials
  by_cases hxr : ∃ p ∈ le ++ eq, (denote φ p).eval x = 0
  · obtain ⟨p, hp, h⟩ := hxr
    exact Or.inl ⟨p, hp, x, h, hx⟩
  push Not at hxr
  -- hence of none at all
  have hxne : ∀ p ∈ L, (denote φ p).eval x ≠ 0 := by
    intro p hp h0
    have hs := hx p hp
    rw [(sgAt_zero_iff φ p x).2 h0] at hs
    rw [hL] at hp
    simp only [List.mem_append] at hp
    rcases hp with ((hp | hp) | hp) | hp
    · exact hxr p (by simp [hp]) h0
    · exact absurd (hs.2.1 hp) (by norm_num)
    · exact hxr p (by simp [hp]) h0
    · exact hs.2.2.2 hp rfl
  let s : Finset K := (L.toFinset.biUnion fun p => (denote φ p).roots.toFinset).filter (· < x)
  have hs : ∀ y, y ∈ s ↔ y < x ∧ ∃ p ∈ L, (denote φ p).eval y = 0 := by
    intro y
    simp only [s, Finset.mem_filter, Finset.mem_biUnion, List.mem_toFinset, Multiset.mem_toFinset]
    constructor
    · rintro ⟨⟨p, hp, h⟩, hy⟩
      exact ⟨hy, p, hp, (mem_roots (hn p hp)).1 h⟩
    · rintro ⟨hy, p, hp, h⟩
      exact ⟨⟨p, hp, (mem_roots (hn p hp)).2 h⟩, hy⟩
  by_cases hne : s.Nonempty
  · set r := s.max' hne with hr
    obtain ⟨hrx, p0, hp0, hr0⟩ := (hs r).1 (s.max'_mem hne)
    have hmax : ∀ y, y < x → (∃ p ∈ L, (denote φ p).eval y = 0) → y ≤ r := fun y h1 h2 =>
      s.le_max' y ((hs y).2 ⟨h1, h2⟩)
    clear_value r
    -- constant signs on `(r, x]`
    have hconst : ∀ p ∈ L, ∀ y, r < y → y ≤ x → sgAt φ p y = sgAt φ p x := by
      intro p hp y h1 h2
      apply sg_eq_of_no_root h2
      intro c hc1 hc2 hc
      rcases hc2.eq_or_lt with rfl | hc2
      · exact hxne p hp hc
      · have := hmax c hc2 ⟨p, hp, hc⟩
        linarith
    have hright : SolvesRight φ le lt eq ne r := by
      intro p hp
      exact ⟨sgAt φ p x, ⟨x, hrx, fun y h1 h2 => hconst p hp y h1 h2.le⟩, hx p hp⟩
    by_cases hstrict : ∃ p ∈ lt ++ ne, (denote φ p).eval r = 0
    · obtain ⟨p, hp, h⟩ := hstrict
      exact Or.inr (Or.inl ⟨p, hp, r, h, hright⟩)
    · push Not at hstrict
      left
      have hp0' : p0 ∈ le ++ eq := by
        rw [hL] at hp0
        simp only [List.mem_append] at hp0 ⊢
        rcases hp0 with ((hp | hp) | hp) | hp
        · exact Or.inl hp
        · exact absurd hr0 (hstrict p0 (by simp [hp]))
        · exact Or.inr hp
        · exact absurd hr0 (hstrict p0 (by simp [hp]))
      refine ⟨p0, hp0', r, hr0, fun p hp => ?_⟩
      by_cases hpr : (denote φ p).eval r = 0
      · rw [(sgAt_zero_iff φ p r).2 hpr]
        refine ⟨fun _ => le_rfl, fun h => ?_, fun _ => rfl, fun h => ?_⟩
        · exact absurd hpr (hstrict p (by simp [h]))
        · exact absurd hpr (hstrict p (by simp [h]))
      · have : sgAt φ p r = sgAt φ p x := by
          apply sg_eq_of_no_root hrx.le
          intro c hc1 hc2 hc
          rcases hc1.eq_or_lt with rfl | hc1
          · exact hpr hc
          rcases hc2.eq_or_lt with rfl | hc2
          · exact hxne p hp hc
          · have := hmax c hc2 ⟨p, hp, hc⟩
            linarith
        rw [this]; exact hx p hp
  · refine Or.inr (Or.inr fun p hp => ?_)
    have : sgAt φ p x = sgBot (denote φ p) := by
      apply sg_eq_sgBot
      intro c hc h0
      rcases hc.eq_or_lt with rfl | hc
      · exact hxne p hp h0
      · exact hne ⟨c, (hs c).2 ⟨hc, p, hp, h0⟩⟩
    rw [← this]; exact hx p hp

omit hE in
theorem solution_of_bot (h : ∀ p ∈ le ++ lt ++ eq ++ ne, Allowed le lt eq ne p (sgBot (denote φ p))) :
    ∃ x, SolvesAt φ le lt eq ne x := by
  unfold SolvesAt
  generalize le ++ lt ++ eq ++ ne = L at h ⊢
  have : ∃ M, ∀ y, y < M → ∀ p ∈ L, sgAt φ p y = sgBot (denote φ p) := by
    clear h
    induction L with
    | nil => exact ⟨0, by simp⟩
    | cons a L ih =>
      obtain ⟨M, hM⟩ := ih
      obtain ⟨N, hN⟩ := sgBot_spec (denote φ a)
      refine ⟨min M N, fun y hy p hp => ?_⟩
      rcases List.mem_cons.1 hp with rfl | hp
      · exact hN y (hy.trans_le (min_le_right _ _))
      · exact hM y (hy.trans_le (min_le_left _ _)) p hp
  obtain ⟨M, hM⟩ := this
  refine ⟨M - 1, fun p hp => ?_⟩
  rw [hM (M - 1) (by linarith) p hp]
  exact h p hp

/-- Main statement about `internal_vts`. -/
theorem internalVts_spec (hn : ∀ p ∈ le ++ lt ++ eq ++ ne, Normalized p) :
    (∀ b, internalVts E le lt eq ne = .ok b → (b = true ↔ Satisfiable φ le lt eq ne)) ∧
    (∀ e, internalVts E le lt eq ne = .error e → e = .moreThan5 ∧
      ∃ p ∈ le ++ lt ++ eq ++ ne, 5 < (denote φ p).roots.toFinset.card) := by
  have hL1 : ∀ p ∈ le ++ eq, p ∈ le ++ lt ++ eq ++ ne := by
    intro p hp; simp at hp ⊢; tauto
  have hL2 : ∀ p ∈ lt ++ ne, p ∈ le ++ lt ++ eq ++ ne := by
    intro p hp; simp at hp ⊢; tauto
  have h1 := fun p (hp : p ∈ le ++ eq) => tryRoots_exact hE le lt eq ne hn p (hn p (hL1 p hp))
  have h2 := fun p (hp : p ∈ lt ++ ne) => tryRoots_eClose hE le lt eq ne hn p (hn p (hL2 p hp))
  obtain ⟨b3, h3, h3'⟩ := checkMinusInfinity_spec le lt eq ne hE.mono (le ++ lt ++ eq ++ ne)
    (fun p hp => hp) hn
  have hn0 : ∀ p ∈ le ++ lt ++ eq ++ ne, denote φ p ≠ 0 := fun p hp =>
    denote_ne_zero hE.mono.injective (hn p hp)
  rw [satisfiable_iff]
  unfold internalVts
  cases hf1 : firstTrue (tryRoots E (evaluateSingle E) (signConditionsLookup le lt eq ne)
      (le ++ lt ++ eq ++ ne)) (le ++ eq) with
  | error e =>
    simp only [bind, Except.bind, hf1]
    refine ⟨by simp, fun e' he' => ?_⟩
    simp only [Except.error.injEq] at he'
    subst he'
    obtain ⟨p, hp, h⟩ := firstTrue_error hf1
    obtain ⟨h5, h6⟩ := (h1 p hp).2.2 e h
    exact ⟨h5, p, hL1 p hp, h6⟩
  | ok b1 =>
    simp only [bind, Except.bind, hf1]
    cases b1 with
    | true =>
      simp only [if_true, pure, Except.pure]
      refine ⟨fun b hb => ?_, by simp⟩
      simp only [Except.ok.injEq] at hb
      subst hb
      simp only [true_iff]
      obtain ⟨p, hp, h⟩ := firstTrue_true hf1
      obtain ⟨x, _, hx⟩ := (h1 p hp).1 h
      exact ⟨x, hx⟩
    | false =>
      simp only [Bool.false_eq_true, if_false]
      have hno1 : ∀ p ∈ le ++ eq, ∀ x, (denote φ p).eval x = 0 → ¬ SolvesAt φ le lt eq ne x :=
        fun p hp => (h1 p hp).2.1 (firstTrue_false hf1 p hp)
      cases hf2 : firstTrue (tryRoots E (eCloseEvaluateSingle E) (signConditionsLookup le lt eq ne)
          (le ++ lt ++ eq ++ ne)) (lt ++ ne) with
      | error e =>
        refine ⟨by simp, fun e' he' => ?_⟩
        simp only [Except.error.injEq] at he'
        subst he'
        obtain ⟨p, hp, h⟩ := firstTrue_error hf2
        obtain ⟨h5, h6⟩ := (h2 p hp).2.2 e h
        exact ⟨h5, p, hL2 p hp, h6⟩
      | ok b2 =>
        cases b2 with
        | true =>
          simp only [if_true, pure, Except.pure]
          refine ⟨fun b hb => ?_, by simp⟩
          simp only [Except.ok.injEq] at hb
          subst hb
          simp only [true_iff]
          obtain ⟨p, hp, h⟩ := firstTrue_true hf2
          obtain ⟨x, _, hx⟩ := (h2 p hp).1 h
          exact solvesAt_of_right le lt eq ne hx
        | false =>
          simp only [Bool.false_eq_true, if_false, h3]
          have hno2 : ∀ p ∈ lt ++ ne, ∀ x, (denote φ p).eval x = 0 →
              ¬ SolvesRight φ le lt eq ne x :=
            fun p hp => (h2 p hp).2.1 (firstTrue_false hf2 p hp)
          refine ⟨fun b hb => ?_, by simp⟩
          simp only [Except.ok.injEq] at hb
          subst hb
          rw [h3']
          constructor
          · exact solution_of_bot le lt eq ne
          · rintro ⟨x, hx⟩
            rcases solution_cases le lt eq ne hn0 hx with ⟨p, hp, y, hy1, hy2⟩ | ⟨p, hp, y, hy1, hy2⟩ | h
            · exact absurd hy2 (hno1 p hp y hy1)
            · exact absurd hy2 (hno2 p hp y hy1)
            · exact h

end Vts

end Verif.Vts
