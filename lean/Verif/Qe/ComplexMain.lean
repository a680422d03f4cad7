import Verif.Qe.ComplexFull

/-!
# `complex_full`: result
-/

set_option linter.unusedSectionVars false

open Polynomial

namespace Verif.Qe

variable {R : Type} [CommRing R] [DecidableEq R]

theorem mapM_eq_map {ε α β : Type} (f : α → Except ε β) (g : α → β) (l : List α)
    (h : ∀ a ∈ l, f a = .ok (g a)) : l.mapM f = .ok (l.map g) := by
  induction l with
  | nil => rfl
  | cons a l ih =>
    rw [List.mapM_cons, h a (by simp), ih fun x hx => h x (by simp [hx])]
    rfl

theorem exists_generic {K : Type*} [Field K] [Infinite K] (l : List K[X]) (h : ∀ p ∈ l, p ≠ 0) :
    ∃ x, ∀ p ∈ l, p.eval x ≠ 0 := by
  have hprod : l.prod ≠ 0 := by
    intro h0
    rw [List.prod_eq_zero_iff] at h0
    exact h 0 h0 rfl
  by_contra hcon
  push Not at hcon
  apply hprod
  apply Polynomial.funext
  intro x
  obtain ⟨p, hp, hx⟩ := hcon x
  rw [eval_zero, eval_list_prod, List.prod_eq_zero_iff, List.mem_map]
  exact ⟨p, hp, hx⟩

/-- the columns of a diagram that satisfy the constraints -/
def cGood (eqs neqs : List (List R)) (D : Diagram R ℕ) : Bool :=
  decide (((ck D []).filter fun c => decide (∀ q ∈ eqs, cv D q c = 0)).filter
    (fun c => decide (∀ q ∈ neqs, cv D q c = 1)) ≠ [])

theorem cGood_iff (eqs neqs : List (List R)) (D : Diagram R ℕ) : cGood eqs neqs D = true ↔
    ∃ c ∈ ck D [], (∀ q ∈ eqs, cv D q c = 0) ∧ ∀ q ∈ neqs, cv D q c = 1 := by
  unfold cGood
  rw [decide_eq_true_eq, List.ne_nil_iff_exists_mem]
  simp only [List.mem_filter, decide_eq_true_eq]
  constructor
  · rintro ⟨c, ⟨h1, h2⟩, h3⟩; exact ⟨c, h1, h2, h3⟩
  · rintro ⟨c, h1, h2, h3⟩; exact ⟨c, ⟨h1, h2⟩, h3⟩
where
  List.ne_nil_iff_exists_mem {α : Type} {l : List α} : l ≠ [] ↔ ∃ a, a ∈ l :=
    ⟨List.exists_mem_of_ne_nil l, by rintro ⟨a, ha⟩ rfl; simp at ha⟩

theorem cSem_good {K : Type*} [Field K] [CharZero K] [IsAlgClosed K] {φ : R →+* K} {S : List (List R)}
    {D : Diagram R ℕ} {n : ℕ} {r : ℕ → K} (hs : CShape D n) (hk : ∀ q, q ∈ keys D ↔ q ∈ S)
    (hsem : CSem φ D n r) {eqs neqs : List (List R)} (he : ∀ q ∈ eqs, q ∈ S) (hne : ∀ q ∈ neqs, q ∈ S) :
    cGood eqs neqs D = true ↔
      ∃ x, (∀ q ∈ eqs, (P φ q).eval x = 0) ∧ ∀ q ∈ neqs, (P φ q).eval x ≠ 0 := by
  classical
  rw [cGood_iff]
  have h1 : ∀ q ∈ S, ∀ i < n, (cv D q i = 1 ↔ cv D q i ≠ 0) := by
    intro q hq i hi
    rcases hsem.val01 q ((hk q).2 hq) i hi with h | h <;> simp [h]
  have hcol : ∀ q ∈ S, ∀ i, 1 ≤ i → i < n → (cv D q i = 0 ↔ (P φ q).eval (r i) = 0) :=
    fun q hq => hsem.col q ((hk q).2 hq)
  have hcol0 : ∀ q ∈ S, (cv D q 0 = 0 ↔ P φ q = 0) := fun q hq => hsem.col0 q ((hk q).2 hq)
  have : Infinite K := Infinite.of_injective (fun n : ℕ => (n : K)) Nat.cast_injective
  constructor
  · rintro ⟨c, hc, h2, h3⟩
    have hcn := (hs.ck [] hs.zero c).1 hc
    by_cases hc0 : c = 0
    · subst hc0
      obtain ⟨x, hx⟩ := exists_generic ((neqs.map (P φ))) (by
        intro p hp
        rw [List.mem_map] at hp
        obtain ⟨q, hq, rfl⟩ := hp
        intro h0
        have := (hcol0 q (hne q hq)).2 h0
        rw [h3 q hq] at this
        exact absurd this (by decide))
      refine ⟨x, ?_, ?_⟩
      · intro q hq
        rw [(hcol0 q (he q hq)).1 (h2 q hq), eval_zero]
      · intro q hq
        exact hx _ (List.mem_map.2 ⟨q, hq, rfl⟩)
    · refine ⟨r c, ?_, ?_⟩
      · intro q hq
        exact (hcol q (he q hq) c (by omega) hcn).1 (h2 q hq)
      · intro q hq h0
        have := (hcol q (hne q hq) c (by omega) hcn).2 h0
        rw [h3 q hq] at this
        exact absurd this (by decide)
  · rintro ⟨x, h2, h3⟩
    by_cases hx : ∃ q ∈ S, P φ q ≠ 0 ∧ (P φ q).eval x = 0
    · obtain ⟨q0, hq0, h4, h5⟩ := hx
      obtain ⟨i, hi1, hin, rfl⟩ := hsem.roots q0 ((hk q0).2 hq0) h4 x h5
      refine ⟨i, (hs.ck [] hs.zero i).2 hin, ?_, ?_⟩
      · intro q hq; exact (hcol q (he q hq) i hi1 hin).2 (h2 q hq)
      · intro q hq
        rw [h1 q (hne q hq) i hin, Ne, hcol q (hne q hq) i hi1 hin]
        exact h3 q hq
    · push Not at hx
      refine ⟨0, (hs.ck [] hs.zero 0).2 hs.n_pos, ?_, ?_⟩
      · intro q hq
        rw [hcol0 q (he q hq)]
        by_contra h0
        exact hx q (he q hq) h0 (h2 q hq)
      · intro q hq
        rw [h1 q (hne q hq) 0 hs.n_pos, Ne, hcol0 q (hne q hq)]
        intro h0
        apply h3 q hq
        rw [h0, eval_zero]

/-- the polynomials whose vanishing is decided by the parameters -/
def varFragOf (A : MAlg R) (S : List (List R)) : List (List R) :=
  (S.filter fun p => isConst p).filter fun p => hasVariable A p

theorem mem_varFragOf (A : MAlg R) (S : List (List R)) (q : List R) :
    q ∈ varFragOf A S ↔ q ∈ S ∧ isConst q = true ∧ hasVariable A q = true := by
  unfold varFragOf
  simp only [List.mem_filter]
  tauto

theorem forall₂_mem_right {α β : Type} {r : α → β → Prop} {l : List α} {m : List β}
    (h : List.Forall₂ r l m) : ∀ b ∈ m, ∃ a ∈ l, r a b := by
  induction h with
  | nil => simp
  | cons h1 _ ih =>
    intro b hb
    rcases List.mem_cons.1 hb with rfl | hb
    · exact ⟨_, by simp, h1⟩
    · obtain ⟨a, ha, h⟩ := ih b hb
      exact ⟨a, by simp [ha], h⟩

theorem forall₂_mem_left {α β : Type} {r : α → β → Prop} {l : List α} {m : List β}
    (h : List.Forall₂ r l m) : ∀ a ∈ l, ∃ b ∈ m, r a b := by
  induction h with
  | nil => simp
  | cons h1 _ ih =>
    intro a ha
    rcases List.mem_cons.1 ha with rfl | ha
    · exact ⟨_, by simp, h1⟩
    · obtain ⟨b, hb, h⟩ := ih a ha
      exact ⟨b, by simp [hb], h⟩

/-- Two different initial diagrams differ in whether a coefficient is zero. -/
theorem cFull_pairwise : ∀ (vs V : List (List R)) (ds : List (Diagram R ℕ)), vs.Nodup → (∀ c ∈ V, c ∉ vs) →
    (ds.Pairwise fun d d' => ∃ c ∈ V, cv d c 0 ≠ cv d' c 0) →
    (cFullAssignment ds vs).Pairwise fun d d' => ∃ c, (c ∈ V ∨ c ∈ vs) ∧ cv d c 0 ≠ cv d' c 0 := by
  intro vs
  induction vs with
  | nil =>
    intro V ds _ _ h
    unfold cFullAssignment
    exact h.imp fun ⟨c, h1, h2⟩ => ⟨c, Or.inl h1, h2⟩
  | cons c vs ih =>
    intro V ds hn hV h
    rw [List.nodup_cons] at hn
    unfold cFullAssignment
    have hcv : ∀ (d : Diagram R ℕ) (s : ℤ) (q : List R), cv (dWrite d c 0 s) q 0 = if q = c then s else cv d q 0 := by
      intro d s q
      rw [cv_dWrite]
      by_cases hq : q = c
      · simp [hq]
      · simp [hq]
    refine (ih (c :: V) _ hn.2 ?_ ?_).imp ?_
    · intro x hx
      rcases List.mem_cons.1 hx with rfl | hx
      · exact hn.1
      · exact fun h' => hV x hx (List.mem_cons_of_mem _ h')
    · rw [List.pairwise_flatMap]
      refine ⟨fun d _ => ?_, h.imp ?_⟩
      · simp only [List.pairwise_cons, List.mem_cons, List.not_mem_nil, or_false]
        refine ⟨?_, by simp, List.Pairwise.nil⟩
        rintro d' rfl; exact ⟨c, by simp, by simp [hcv]⟩
      · rintro d d' ⟨x, hx, hne⟩ e he e' he'
        have hxc : x ≠ c := by rintro rfl; exact hV _ hx List.mem_cons_self
        refine ⟨x, List.mem_cons_of_mem _ hx, ?_⟩
        have aux : ∀ {d e : Diagram R ℕ}, e ∈ [dWrite d c 0 0, dWrite d c 0 1] → cv e x 0 = cv d x 0 := by
          intro d e he
          simp only [List.mem_cons, List.not_mem_nil, or_false] at he
          rcases he with rfl | rfl <;> rw [hcv, if_neg hxc]
        rw [aux he, aux he']
        exact hne
    · rintro d d' ⟨x, hx, hne⟩
      refine ⟨x, ?_, hne⟩
      rcases hx with hx | hx
      · rcases List.mem_cons.1 hx with rfl | hx
        · exact Or.inr List.mem_cons_self
        · exact Or.inl hx
      · exact Or.inr (List.mem_cons_of_mem _ hx)

theorem cFull_length : ∀ (vs : List (List R)) (ds : List (Diagram R ℕ)),
    (cFullAssignment ds vs).length = ds.length * 2 ^ vs.length := by
  intro vs
  induction vs with
  | nil => intro ds; unfold cFullAssignment; simp
  | cons c vs ih =>
    intro ds
    unfold cFullAssignment
    rw [ih, List.length_flatMap]
    simp only [List.length_cons, List.length_nil, List.map_const', List.sum_replicate, smul_eq_mul]
    rw [pow_succ]
    ring

theorem pairwise_of_forall₂_complex {A : MAlg R} {frag vf : List (List R)} {sub ext : List (Diagram R ℕ)}
    (h : List.Forall₂ (fun d D => complexExtend A d frag = .ok D) sub ext)
    (hp : sub.Pairwise fun d d' => ∃ c ∈ vf, cv d c 0 ≠ cv d' c 0)
    (hval : ∀ d ∈ sub, ∀ D, complexExtend A d frag = .ok D → ∀ c ∈ vf, cv D c 0 = cv d c 0) :
    ext.Pairwise fun D D' => ∃ c ∈ vf, cv D c 0 ≠ cv D' c 0 := by
  induction h with
  | nil => exact List.Pairwise.nil
  | @cons d D sub ext hdD hrest ih =>
    rw [List.pairwise_cons] at hp ⊢
    refine ⟨fun D' hD' => ?_, ih hp.2 fun x hx => hval x (List.mem_cons_of_mem _ hx)⟩
    obtain ⟨d', hd', e'⟩ := forall₂_mem_right hrest D' hD'
    obtain ⟨c, hc, hne⟩ := hp.1 d' hd'
    refine ⟨c, hc, ?_⟩
    rw [hval d List.mem_cons_self D hdD c hc, hval d' (List.mem_cons_of_mem _ hd') D' e' c hc]
    exact hne

theorem complexFull_spec [IsDomain R] (A : MAlg R) (eqs neqs : List (List R))
    (hc : ∀ p ∈ eqs ++ neqs, Canon p) :
    ∃ (N : ℕ) (S : List (List R)) (ret0 : List (List (List R) × List (List R))), (∀ fuel ≥ N, muchnikSeq A fuel [[]] (eqs ++ neqs) = .ok S ∧
        complexFull A fuel eqs neqs = .ok ⟨ret0.filter fun zn => (zn.1 ++ zn.2).length ≠ 0,
          decide (ret0.length > 0)⟩) ∧ SeqInv S [] ∧ (∀ p ∈ eqs ++ neqs, p ∈ S) ∧
      (∀ zn ∈ ret0, ∀ c, c ∈ zn.1 ++ zn.2 ↔ c ∈ varFragOf A S) ∧
      (ret0.length ≤ 2 ^ (varFragOf A S).length ∧ ret0.Pairwise fun z z' => ∃ c ∈ varFragOf A S,
        ¬ ((c ∈ z.1 ↔ c ∈ z'.1) ∧ (c ∈ z.2 ↔ c ∈ z'.2))) ∧
      ∀ {K : Type u} [Field K] [CharZero K] [IsAlgClosed K] (φ : R →+* K), ValOK A φ →
        ((∃ zn ∈ ret0, (∀ z ∈ zn.1, φ (z.headD 0) = 0) ∧ ∀ z ∈ zn.2, φ (z.headD 0) ≠ 0) ↔
          ∃ x, (∀ q ∈ eqs, (P φ q).eval x = 0) ∧ ∀ q ∈ neqs, (P φ q).eval x ≠ 0) := by
  obtain ⟨N, S, hseq, hS, hin⟩ := muchnikSeq_total A (eqs ++ neqs) hc
  set vf := varFragOf A S with hvf
  set sf := ((S.filter fun p => isConst p).filter fun p => !hasVariable A p) with hsf
  set ds := cFullAssignment [cAssignmentAllZero A sf] vf with hds
  have hsfmem : ∀ q, q ∈ sf ↔ q ∈ S ∧ isConst q = true ∧ hasVariable A q = false := by
    intro q
    rw [hsf]
    simp only [List.mem_filter, Bool.not_eq_true']
    tauto
  have hvfmem := mem_varFragOf A S
  rw [← hvf] at hvfmem
  have hsca := cAssignmentAllZero_spec A sf
  have hkeysnil : ∀ q : List R, q ∉ keys ([] : Diagram R ℕ) := by simp [keys]
  have hcknil : ∀ (q : List R) (i : ℕ), i ∉ ck ([] : Diagram R ℕ) q := fun q i h =>
    hkeysnil q (mem_keys_of_ck h)
  have hndnil : ∀ q : List R, (ck ([] : Diagram R ℕ) q).Nodup := by simp [ck, dRow, dGet]
  have hbase : ∀ (d : Diagram R ℕ) (f : List R → ℕ → ℤ),
      Written (cAssignmentAllZero A sf) d (fun q i => q ∈ vf ∧ i = 0) f →
      (∀ c ∈ vf, cv d c 0 = 0 ∨ cv d c 0 = 1) → CBase A S d := by
    intro d f hW hv
    have hk : ∀ q, q ∈ keys d ↔ q ∈ S ∧ isConst q = true := by
      intro q
      rw [hW.keys, hsca.keys]
      constructor
      · rintro ((h | ⟨i, h, _⟩) | ⟨i, h, _⟩)
        · exact absurd h (hkeysnil q)
        · exact ⟨((hsfmem q).1 h).1, ((hsfmem q).1 h).2.1⟩
        · exact ⟨((hvfmem q).1 h).1, ((hvfmem q).1 h).2.1⟩
      · rintro ⟨h1, h2⟩
        by_cases h3 : hasVariable A q = true
        · exact Or.inr ⟨0, (hvfmem q).2 ⟨h1, h2, h3⟩, rfl⟩
        · exact Or.inl (Or.inr ⟨0, (hsfmem q).2 ⟨h1, h2, by simpa using h3⟩, rfl⟩)
    refine ⟨hk, ?_, hW.nodup (hsca.nodup hndnil), ?_, ?_⟩
    · intro q hq i
      rw [hk] at hq
      rw [hW.ck, hsca.ck]
      constructor
      · rintro ((h | ⟨_, h⟩) | ⟨_, h⟩)
        · exact absurd h (hcknil q i)
        · omega
        · omega
      · intro hi
        have hi0 : i = 0 := by omega
        by_cases h3 : hasVariable A q = true
        · exact Or.inr ⟨(hvfmem q).2 ⟨hq.1, hq.2, h3⟩, hi0⟩
        · exact Or.inl (Or.inr ⟨(hsfmem q).2 ⟨hq.1, hq.2, by simpa using h3⟩, hi0⟩)
    · intro q h1 h2 h3
      rw [hW.old q 0 (by rintro ⟨h, _⟩; rw [((hvfmem q).1 h).2.2] at h3; simp at h3),
        hsca.val q 0 ⟨(hsfmem q).2 ⟨h1, h2, h3⟩, rfl⟩]
      simp [scaVal, h3]
    · intro q h1 h2 h3
      exact hv q ((hvfmem q).2 ⟨h1, h2, h3⟩)
  have hdsbase : ∀ d ∈ ds, CBase A S d := by
    intro d hd
    obtain ⟨d0, hd0, hW, hv⟩ := cFull_sound _ _ d hd
    rw [List.mem_singleton] at hd0
    subst hd0
    exact hbase d _ hW hv
  have hext : ∀ d ∈ ds, ∃ D n, complexExtend A d (S.filter fun p => !isConst p) = .ok D ∧ CShape D n ∧
      (∀ q, q ∈ keys D ↔ q ∈ S) ∧ (∀ q ∈ keys d, cv D q 0 = cv d q 0) ∧
      ∀ {K : Type u} [Field K] [CharZero K] [IsAlgClosed K] (φ : R →+* K) (r : ℕ → K),
        CSem φ d 1 r → ∃ r', CSem φ D n r' := by
    intro d hd
    exact complexExtend_spec A hS _ [] (by simp) d 1 ((hdsbase d hd).shape hS.zero) (by
      intro q; rw [(hdsbase d hd).keys]; simp)
  obtain ⟨ext, hext1, hext2⟩ := mapM_ok (fun d => complexExtend A d (S.filter fun p => !isConst p)) ds
    (fun d hd => by obtain ⟨D, _, h, _⟩ := hext d hd; exact ⟨D, h⟩)
  have hextshape : ∀ D ∈ ext, ∃ n, CShape D n ∧ ∀ q, q ∈ keys D ↔ q ∈ S := by
    intro D hD
    obtain ⟨d, hd, h⟩ := forall₂_mem_right hext2 D hD
    obtain ⟨D', n, h1, h2, h3, _⟩ := hext d hd
    rw [h] at h1; cases h1
    exact ⟨n, h2, h3⟩
  have heS : ∀ q ∈ eqs, q ∈ S := fun q hq => hin q (by simp [hq])
  have hnS : ∀ q ∈ neqs, q ∈ S := fun q hq => hin q (by simp [hq])
  set good := ext.filter (cGood eqs neqs) with hgood
  have hgood1 : (ext.filterM fun D => do
      let cols ← filterCols D 0 eqs ((dRow D []).map Prod.fst)
      let cols ← filterCols D 1 neqs cols
      .ok (decide (cols.length > 0)) : Except QErr (List (Diagram R ℕ))) = .ok good := by
    apply filterM_ok
    intro D hD
    obtain ⟨n, hs, hk⟩ := hextshape D hD
    have hckall : ∀ q ∈ S, ∀ c ∈ ck D [], c ∈ ck D q := by
      intro q hq c hc
      exact (hs.ck q ((hk q).2 hq) c).2 ((hs.ck [] hs.zero c).1 hc)
    have e1 := filterCols_ok D 0 eqs (ck D []) fun q hq => hckall q (heS q hq)
    have e2 := filterCols_ok D 1 neqs
      ((ck D []).filter fun c => decide (∀ q ∈ eqs, cv D q c = 0)) (by
        intro q hq c hc
        exact hckall q (hnS q hq) c (List.mem_filter.1 hc).1)
    have e1' : filterCols D 0 eqs ((dRow D []).map Prod.fst) = _ := e1
    simp only [e1']
    show (do
      let cols ← filterCols D 1 neqs ((ck D []).filter fun c => decide (∀ q ∈ eqs, cv D q c = 0))
      .ok (decide (cols.length > 0)) : Except QErr Bool) = _
    rw [e2]
    show Except.ok _ = Except.ok _
    congr 1
    unfold cGood
    rw [decide_eq_decide, gt_iff_lt, List.length_pos_iff]
  have hgoodmem : ∀ D, D ∈ good ↔ D ∈ ext ∧ cGood eqs neqs D = true := by
    intro D; rw [hgood, List.mem_filter]
  set conj : Diagram R ℕ → List (List R) × List (List R) := fun D =>
    (vf.filter fun c => decide (cv D c 0 = 0), vf.filter fun c => decide (cv D c 0 ≠ 0)) with hconj
  have hret : (good.mapM fun D => do
      let vals ← vf.mapM fun c => do
        let v ← dRead D c 0
        .ok (c, v)
      .ok ((vals.filter fun cv => cv.2 = 0).map Prod.fst,
        (vals.filter fun cv => cv.2 ≠ 0).map Prod.fst) : Except QErr _) = .ok (good.map conj) := by
    apply mapM_eq_map
    intro D hD
    obtain ⟨n, hs, hk⟩ := hextshape D ((hgoodmem D).1 hD).1
    rw [mapM_eq_map _ (fun c => (c, cv D c 0)) vf (by
      intro c hc
      rw [dRead_ok ((hs.ck c ((hk c).2 ((hvfmem c).1 hc).1) 0).2 hs.n_pos)]
      rfl)]
    show Except.ok _ = Except.ok _
    congr 1
    rw [hconj]
    simp only [List.filter_map, List.map_map]
    congr 1
    · rw [show (Prod.fst ∘ fun c => (c, cv D c 0)) = (id : List R → List R) from rfl, List.map_id]; rfl
    · rw [show (Prod.fst ∘ fun c => (c, cv D c 0)) = (id : List R → List R) from rfl, List.map_id]; rfl
  have hvfnd : vf.Nodup := by
    rw [hvf]; unfold varFragOf
    exact (hS.nodup.filter _).filter _
  have hrows : (good.map conj).length ≤ 2 ^ vf.length ∧ (good.map conj).Pairwise fun z z' => ∃ c ∈ vf,
      ¬ ((c ∈ z.1 ↔ c ∈ z'.1) ∧ (c ∈ z.2 ↔ c ∈ z'.2)) := by
    have hcv : ∀ d ∈ ds, ∀ D, complexExtend A d (S.filter fun p => !isConst p) = .ok D →
        ∀ c ∈ vf, cv D c 0 = cv d c 0 := by
      intro d hd D hD c hc
      obtain ⟨D', n, h1, _, _, h4, _⟩ := hext d hd
      rw [hD] at h1; cases h1
      have h := (hvfmem c).1 hc
      exact h4 c (((hdsbase d hd).keys c).2 ⟨h.1, h.2.1⟩)
    constructor
    · rw [List.length_map]
      refine (List.length_filter_le _ _).trans ?_
      rw [← hext2.length_eq, hds, cFull_length]
      simp
    · have h1 : ext.Pairwise fun D D' => ∃ c ∈ vf, cv D c 0 ≠ cv D' c 0 := by
        refine pairwise_of_forall₂_complex hext2
          ((cFull_pairwise vf [] [cAssignmentAllZero A sf] hvfnd (by simp) (by simp)).imp ?_) hcv
        rintro d d' ⟨c, hc, hne⟩
        exact ⟨c, hc.resolve_left (by simp), hne⟩
      have hval : ∀ D ∈ good, ∀ c ∈ vf, cv D c 0 = 0 ∨ cv D c 0 = 1 := by
        intro D hD c hc
        obtain ⟨d, hd, h⟩ := forall₂_mem_right hext2 D ((hgoodmem D).1 hD).1
        rw [hcv d hd D h c hc]
        obtain ⟨d0, _, _, hv⟩ := cFull_sound _ _ d hd
        exact hv c hc
      rw [List.pairwise_map]
      refine ((h1.sublist List.filter_sublist).imp_of_mem ?_)
      rintro D D' hD hD' ⟨c, hc, hne⟩
      refine ⟨c, hc, ?_⟩
      rw [hconj]
      simp only [List.mem_filter, hc, true_and, decide_eq_true_eq]
      have e1 := hval D hD c hc
      have e2 := hval D' hD' c hc
      generalize cv D c 0 = a at *
      generalize cv D' c 0 = b at *
      omega
  refine ⟨N, S, good.map conj, ?_, hS, hin, ?_, hrows, ?_⟩
  · intro fuel hfuel
    refine ⟨hseq fuel hfuel, ?_⟩
    unfold complexFull
    rw [hseq fuel hfuel]
    show (do
      let ext ← ds.mapM fun d => complexExtend A d (S.filter fun p => !isConst p)
      let good ← ext.filterM fun D => do
        let cols ← filterCols D 0 eqs ((dRow D []).map Prod.fst)
        let cols ← filterCols D 1 neqs cols
        .ok (decide (cols.length > 0))
      let ret ← good.mapM fun D => do
        let vals ← vf.mapM fun c => do
          let v ← dRead D c 0
          .ok (c, v)
        .ok ((vals.filter fun cv => cv.2 = 0).map Prod.fst,
          (vals.filter fun cv => cv.2 ≠ 0).map Prod.fst)
      .ok ⟨ret.filter fun zn => (zn.1 ++ zn.2).length ≠ 0, decide (good.length > 0)⟩ :
        Except QErr (QOut _)) = _
    rw [hext1]
    show (do
      let good ← ext.filterM fun D => do
        let cols ← filterCols D 0 eqs ((dRow D []).map Prod.fst)
        let cols ← filterCols D 1 neqs cols
        .ok (decide (cols.length > 0))
      let ret ← good.mapM fun D => do
        let vals ← vf.mapM fun c => do
          let v ← dRead D c 0
          .ok (c, v)
        .ok ((vals.filter fun cv => cv.2 = 0).map Prod.fst,
          (vals.filter fun cv => cv.2 ≠ 0).map Prod.fst)
      .ok ⟨ret.filter fun zn => (zn.1 ++ zn.2).length ≠ 0, decide (good.length > 0)⟩ :
        Except QErr (QOut _)) = _
    rw [hgood1]
    show (do
      let ret ← good.mapM fun D => do
        let vals ← vf.mapM fun c => do
          let v ← dRead D c 0
          .ok (c, v)
        .ok ((vals.filter fun cv => cv.2 = 0).map Prod.fst,
          (vals.filter fun cv => cv.2 ≠ 0).map Prod.fst)
      .ok ⟨ret.filter fun zn => (zn.1 ++ zn.2).length ≠ 0, decide (good.length > 0)⟩ :
        Except QErr (QOut _)) = _
    rw [hret]
    show Except.ok _ = Except.ok _
    rw [List.length_map]
  · intro zn hzn c
    rw [List.mem_map] at hzn
    obtain ⟨D, _, rfl⟩ := hzn
    rw [hconj]
    simp only [List.mem_append, List.mem_filter, decide_eq_true_eq]
    tauto
  · intro K _ _ _ φ hφ
    -- a diagram in the list corresponds to an assignment; it matches `φ` iff its conjunction holds
    have hmatch : ∀ d ∈ ds, ∀ D, complexExtend A d (S.filter fun p => !isConst p) = .ok D →
        (∀ c ∈ vf, cv d c 0 = 0 ↔ φ (c.headD 0) = 0) →
        (cGood eqs neqs D = true ↔
          ∃ x, (∀ q ∈ eqs, (P φ q).eval x = 0) ∧ ∀ q ∈ neqs, (P φ q).eval x ≠ 0) := by
      intro d hd D hD hm
      obtain ⟨D', n, h1, h2, h3, _, h5⟩ := hext d hd
      rw [hD] at h1; cases h1
      have hsem := (hdsbase d hd).sem hS φ hφ (fun q h1 h2 h3 => hm q ((hvfmem q).2 ⟨h1, h2, h3⟩))
      obtain ⟨r', hr'⟩ := h5 φ _ hsem
      exact cSem_good h2 h3 hr' heS hnS
    have hcv : ∀ d ∈ ds, ∀ D, complexExtend A d (S.filter fun p => !isConst p) = .ok D →
        ∀ c ∈ vf, cv D c 0 = cv d c 0 := by
      intro d hd D hD c hc
      obtain ⟨D', n, h1, _, _, h4, _⟩ := hext d hd
      rw [hD] at h1; cases h1
      have h := (hvfmem c).1 hc
      exact h4 c (((hdsbase d hd).keys c).2 ⟨h.1, h.2.1⟩)
    constructor
    · rintro ⟨zn, hzn, hz, hnz⟩
      rw [List.mem_map] at hzn
      obtain ⟨D, hD, rfl⟩ := hzn
      obtain ⟨hDext, hDgood⟩ := (hgoodmem D).1 hD
      obtain ⟨d, hd, hdD⟩ := forall₂_mem_right hext2 D hDext
      refine (hmatch d hd D hdD ?_).1 hDgood
      intro c hc
      rw [← hcv d hd D hdD c hc]
      constructor
      · intro h
        exact hz c (List.mem_filter.2 ⟨hc, decide_eq_true h⟩)
      · intro h
        by_contra h'
        exact hnz c (List.mem_filter.2 ⟨hc, decide_eq_true h'⟩) h
    · intro hx
      classical
      obtain ⟨d, hd, hW⟩ := cFull_complete (fun c => if φ (c.headD 0) = 0 then 0 else 1) vf
        [cAssignmentAllZero A sf] (cAssignmentAllZero A sf) (List.mem_singleton_self _)
        (fun c _ => by by_cases h : φ (c.headD 0) = 0 <;> simp only [h, if_true, if_false, true_or, or_true])
      have hm : ∀ c ∈ vf, cv d c 0 = 0 ↔ φ (c.headD 0) = 0 := by
        intro c hc
        rw [hW.val c 0 ⟨hc, rfl⟩]
        show (if φ (c.headD 0) = 0 then (0 : ℤ) else 1) = 0 ↔ _
        by_cases h : φ (c.headD 0) = 0
        · rw [if_pos h]; exact ⟨fun _ => h, fun _ => rfl⟩
        · rw [if_neg h]; exact ⟨fun h' => absurd h' (by decide), fun h' => absurd h' h⟩
      obtain ⟨D, hDext, hdD⟩ := forall₂_mem_left hext2 d hd
      have hgoodD := (hmatch d hd D hdD hm).2 hx
      refine ⟨conj D, List.mem_map.2 ⟨D, (hgoodmem D).2 ⟨hDext, hgoodD⟩, rfl⟩, ?_, ?_⟩
      · intro z hz
        rw [hconj] at hz
        simp only [List.mem_filter, decide_eq_true_eq] at hz
        rw [hcv d hd D hdD z hz.1] at hz
        exact (hm z hz.1).1 hz.2
      · intro z hz
        rw [hconj] at hz
        simp only [List.mem_filter, decide_eq_true_eq] at hz
        rw [hcv d hd D hdD z hz.1] at hz
        exact fun h => hz.2 ((hm z hz.1).2 h)

/-- A coefficient with a parameter leads to a condition on the parameters. -/
theorem varFrag_ne_nil [IsDomain R] (A : MAlg R) (h0 : A.hasVar 0 = false)
    (hmul : ∀ (c : R) (n : ℕ), n ≠ 0 → A.hasVar c = true → A.hasVar (c * n) = true)
    {S : List (List R)} (hS : SeqInv S []) : ∀ (n : ℕ) (p : List R), p.length ≤ n → p ∈ S →
    (∃ c ∈ p, A.hasVar c = true) → varFragOf A S ≠ [] := by
  have hnone : ∀ {q : List R}, q ∈ S ∨ q ∈ ([] : List (List R)) → q ∈ S := by
    rintro q (h | h)
    · exact h
    · simp at h
  have hstrip : ∀ (l : List R) (c : R), c ∈ l → c ≠ 0 → c ∈ strip l := by
    intro l
    induction l with
    | nil => simp
    | cons a l ih =>
      intro c hc hc0
      unfold strip
      rcases List.mem_cons.1 hc with rfl | hc
      · split
        · rw [if_neg hc0]; simp
        · simp
      · have := ih c hc hc0
        split
        · rename_i h; rw [h] at this; simp at this
        · rename_i h; rw [h] at this
          exact List.mem_cons_of_mem _ this
  intro n
  induction n with
  | zero =>
    rintro p hp _ ⟨c, hc, _⟩
    rw [List.length_eq_zero_iff.1 (Nat.le_zero.1 hp)] at hc
    simp at hc
  | succ n ih =>
    rintro p hp hpS ⟨c, hc, hcv⟩
    have hc0 : c ≠ 0 := by rintro rfl; rw [h0] at hcv; simp at hcv
    have hpne : p ≠ [] := List.ne_nil_of_mem hc
    have hsplit := List.dropLast_append_getLast hpne
    rw [← hsplit, List.mem_append, List.mem_singleton] at hc
    rcases hc with hc | hc
    · refine ih (pTail p) ?_ (hnone (hS.tail p hpS)) ⟨c, hstrip _ c hc hc0, hcv⟩
      have := pTail_length p
      omega
    · have hlc : lc p = c := by
        unfold lc
        rw [List.getLastD_eq_getLast?, List.getLast?_eq_some_getLast hpne, hc]; rfl
      have hmem : lcRow p ∈ S := by
        rw [← iterate_derivative_lcRow (hS.canon p hpS)]
        generalize deg p = k
        induction k with
        | zero => exact hpS
        | succ k ih => rw [Function.iterate_succ_apply']; exact hnone (hS.der _ ih)
      have hv := hmul c (fac (deg p)) (by rw [fac_eq]; exact Nat.factorial_ne_zero _) hcv
      have hne0 : c * (fac (deg p) : R) ≠ 0 := by
        intro h; rw [h, h0] at hv; simp at hv
      have hrow : lcRow p = [c * (fac (deg p) : R)] := by
        unfold lcRow
        rw [hlc]
        simp [strip, hne0]
      apply List.ne_nil_of_mem (a := lcRow p)
      rw [mem_varFragOf]
      refine ⟨hmem, ?_, ?_⟩
      · rw [hrow]; rfl
      · rw [hrow]; exact hv

end Verif.Qe
