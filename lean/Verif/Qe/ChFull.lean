import Verif.Qe.ChMain
import Verif.Qe.RealMain

/-!
# `real_full` of `cohenhorm.py`
-/

set_option linter.unusedSectionVars false

open Polynomial Verif.Alg

namespace Verif.Qe

universe u

variable {R : Type} [CommRing R] [DecidableEq R]

section
variable {K : Type u} [Field K] [LinearOrder K] [IsStrictOrderedRing K] [PolyIVT K]

/-- The columns are the sign vectors of the points. -/
theorem TSem.cols {A : MAlg R} {c : Ctx R} {φ : R →+* K} {T : Table R} {rows : List (List R)}
    {gs : List (ℚ × ℚ)} (h : TSem φ T rows gs) (hs : TShape A c T rows gs) (s : List R → ℤ → Prop)
    {q0 : List R} (hq0 : q0 ∈ rows) :
    (∃ i ∈ ck T q0, ∀ q ∈ rows, s q (cv T q i)) ↔
      ∃ x, ∀ q ∈ rows, s q (sg ((P φ q).eval x)) := by
  obtain ⟨xs, hxs⟩ := h.seg
  constructor
  · rintro ⟨i, hi, hq⟩
    rcases (hs.ck q0 hq0 i).1 hi with rfl | hi
    · obtain ⟨M, hM⟩ := exists_bot φ rows
      refine ⟨M - 1, ?_⟩
      intro q hqk
      rw [hM q hqk _ (by linarith), h.bot q hqk]
      exact hq q hqk
    · obtain ⟨x, _, hx⟩ := hxs.pt_of_col lowerCut_univ i hi
      refine ⟨x, fun q hqk => ?_⟩
      rw [hx q hqk]; exact hq q hqk
  · rintro ⟨x, hx⟩
    obtain ⟨i, hi, h⟩ := hxs.col_of_pt x trivial
    refine ⟨i, (hs.ck q0 hq0 i).2 (Or.inr hi), fun q hqk => ?_⟩
    rw [← h q hqk]; exact hx q hqk

end

/-- some column satisfies the constraints -/
def CGood (ls es gs : List (List R)) (T : Table R) : Prop :=
  ∀ q0 ∈ keys T, ∃ i ∈ ck T q0, (∀ q ∈ ls, cv T q i = -1) ∧ (∀ q ∈ es, cv T q i = 0) ∧
    ∀ q ∈ gs, cv T q i = 1

theorem chGood_ok {A : MAlg R} {c : Ctx R} {T : Table R} {ls es gs : List (List R)} {segs : List (ℚ × ℚ)}
    (hne : ls ++ es ++ gs ≠ []) (hs : TShape A c T (ls ++ es ++ gs) segs) :
    ∃ b, chGood ls es gs T = .ok b ∧ (b = true ↔ CGood ls es gs T) := by
  cases T with
  | nil =>
    obtain ⟨q, hq⟩ := List.exists_mem_of_ne_nil _ hne
    have := (hs.keys q).2 hq
    simp [keys] at this
  | cons e T =>
    obtain ⟨q0, row⟩ := e
    have hrow : row.map Prod.fst = ck ((q0, row) :: T) q0 := by
      unfold ck dRow; simp [dGet]
    have hk0 : q0 ∈ keys ((q0, row) :: T) := by simp [keys]
    have hq0 : q0 ∈ ls ++ es ++ gs := (hs.keys q0).1 hk0
    have hck : ∀ q ∈ ls ++ es ++ gs, ∀ i ∈ ck ((q0, row) :: T) q0, i ∈ ck ((q0, row) :: T) q := by
      intro q hq i hi
      rw [hs.ck q hq, ← hs.ck q0 hq0]; exact hi
    unfold chGood
    simp only [bind, Except.bind]
    rw [hrow, filterCols_ok _ _ _ _ (fun q hq i hi => hck q (by simp [hq]) i hi)]
    simp only
    rw [filterCols_ok _ _ _ _ (fun q hq i hi => hck q (by simp [hq]) i (List.mem_filter.1 hi).1)]
    simp only
    rw [filterCols_ok _ _ _ _ (fun q hq i hi => hck q (by simp [hq]) i
      (List.mem_filter.1 (List.mem_filter.1 hi).1).1)]
    refine ⟨_, rfl, ?_⟩
    rw [decide_eq_true_eq]
    constructor
    · intro h
      obtain ⟨i, hi⟩ := List.exists_mem_of_length_pos h
      simp only [List.mem_filter, decide_eq_true_eq] at hi
      intro q1 hq1
      refine ⟨i, ?_, hi.1.1.2, hi.1.2, hi.2⟩
      exact hck q1 ((hs.keys q1).1 hq1) i hi.1.1.1
    · intro h
      obtain ⟨i, hi, h1, h2, h3⟩ := h q0 hk0
      apply List.length_pos_of_mem (a := i)
      simp only [List.mem_filter, decide_eq_true_eq]
      exact ⟨⟨⟨hi, h1⟩, h2⟩, h3⟩

section
variable {K : Type u} [Field K] [LinearOrder K] [IsStrictOrderedRing K] [PolyIVT K]

theorem sg_eq_neg_one {x : K} : sg x = -1 ↔ x < 0 := by
  rcases sg_cases x with ⟨h, e⟩ | ⟨h, e⟩ | ⟨h, e⟩ <;> rw [e]
  · simp [h]
  · simp [h]
  · simp [h.le]

theorem sg_eq_one {x : K} : sg x = 1 ↔ 0 < x := by
  rcases sg_cases x with ⟨h, e⟩ | ⟨h, e⟩ | ⟨h, e⟩ <;> rw [e]
  · simp [h.le]
  · simp [h]
  · simp [h]

theorem cGood_points {A : MAlg R} {c : Ctx R} {φ : R →+* K} {T : Table R} {ls es gs : List (List R)}
    {segs : List (ℚ × ℚ)} (hne : ls ++ es ++ gs ≠ []) (hs : TShape A c T (ls ++ es ++ gs) segs)
    (hsem : TSem φ T (ls ++ es ++ gs) segs) :
    CGood ls es gs T ↔ ∃ x, (∀ q ∈ ls, (P φ q).eval x < 0) ∧ (∀ q ∈ es, (P φ q).eval x = 0) ∧
      ∀ q ∈ gs, 0 < (P φ q).eval x := by
  constructor
  · intro h
    obtain ⟨q0, hq0⟩ := List.exists_mem_of_ne_nil _ hne
    obtain ⟨i, hi, h1, h2, h3⟩ := h q0 ((hs.keys q0).2 hq0)
    obtain ⟨x, hx⟩ := (hsem.cols hs
      (fun q v => (q ∈ ls → v = -1) ∧ (q ∈ es → v = 0) ∧ (q ∈ gs → v = 1)) hq0).1
      ⟨i, hi, fun q _ => ⟨h1 q, h2 q, h3 q⟩⟩
    refine ⟨x, fun q hq => ?_, fun q hq => ?_, fun q hq => ?_⟩
    · exact sg_eq_neg_one.1 ((hx q (by simp [hq])).1 hq)
    · exact sg_eq_zero_iff.1 ((hx q (by simp [hq])).2.1 hq)
    · exact sg_eq_one.1 ((hx q (by simp [hq])).2.2 hq)
  · rintro ⟨x, h1, h2, h3⟩ q0 hq0
    obtain ⟨i, hi, hq⟩ := (hsem.cols hs
      (fun q v => (q ∈ ls → v = -1) ∧ (q ∈ es → v = 0) ∧ (q ∈ gs → v = 1)) ((hs.keys q0).1 hq0)).2
      ⟨x, fun q _ => ⟨fun h => sg_eq_neg_one.2 (h1 q h), fun h => sg_eq_zero_iff.2 (h2 q h),
        fun h => sg_eq_one.2 (h3 q h)⟩⟩
    exact ⟨i, hi, fun q h => (hq q (by simp [h])).1 h, fun q h => (hq q (by simp [h])).2.1 h,
      fun q h => (hq q (by simp [h])).2.2 h⟩

end

theorem dGet_eq_of_nodup {α β : Type} [DecidableEq α] {d : List (α × β)} (hn : (d.map Prod.fst).Nodup)
    (k : α) (v : β) : (k, v) ∈ d ↔ dGet d k = some v := by
  induction d with
  | nil => simp [dGet]
  | cons e d ih =>
    obtain ⟨a, b⟩ := e
    rw [List.map_cons, List.nodup_cons] at hn
    by_cases h : a = k
    · subst h
      have : (a, v) ∉ d := fun h' => hn.1 (List.mem_map.2 ⟨_, h', rfl⟩)
      simp [dGet, this, eq_comm]
    · have : dGet ((a, b) :: d) k = dGet d k := by simp [dGet, h]
      rw [this, ← ih hn.2, List.mem_cons, Prod.mk.injEq]
      have : ¬ k = a := fun h' => h h'.symm
      simp [this]

/-- the conditions of a context -/
def conjOf (c : Ctx R) : List R × List R × List R :=
  ((c.filter fun e => e.2 = -1).map Prod.fst, (c.filter fun e => e.2 = 0).map Prod.fst,
    (c.filter fun e => e.2 = 1).map Prod.fst)

theorem conjOf_iff {K : Type u} [Field K] [LinearOrder K] [IsStrictOrderedRing K] [PolyIVT K] {A : MAlg R}
    {c : Ctx R} (hc : CtxOK A c) {φ : R →+* K} (hφ : RValOK A φ) :
    ((∀ k ∈ (conjOf c).1, φ k < 0) ∧ (∀ k ∈ (conjOf c).2.1, φ k = 0) ∧ ∀ k ∈ (conjOf c).2.2, 0 < φ k) ↔
      Realises A φ c := by
  have hm : ∀ (s : ℤ) (k : R), k ∈ (c.filter fun e => e.2 = s).map Prod.fst ↔ dGet c k = some s := by
    intro s k
    rw [← dGet_eq_of_nodup hc.nodup, List.mem_map]
    constructor
    · rintro ⟨⟨a, b⟩, h, rfl⟩
      rw [List.mem_filter, decide_eq_true_eq] at h
      obtain ⟨h, rfl⟩ := h
      exact h
    · intro h; exact ⟨(k, s), List.mem_filter.2 ⟨h, by simp⟩, rfl⟩
  unfold conjOf
  simp only [hm]
  constructor
  · rintro ⟨h1, h2, h3⟩
    refine ⟨hφ, fun k s hk => ?_⟩
    rcases hc.val k s hk with rfl | rfl | rfl
    · exact (sg_eq_neg_one.2 (h1 k hk)).symm
    · exact (sg_eq_zero_iff.2 (h2 k hk)).symm
    · exact (sg_eq_one.2 (h3 k hk)).symm
  · rintro h
    exact ⟨fun k hk => sg_eq_neg_one.1 (h.ctx k _ hk).symm, fun k hk => sg_eq_zero_iff.1 (h.ctx k _ hk).symm,
      fun k hk => sg_eq_one.1 (h.ctx k _ hk).symm⟩

theorem mem_conjOf {A : MAlg R} {c : Ctx R} (hc : CtxOK A c) {k : R}
    (hk : k ∈ (conjOf c).1 ++ (conjOf c).2.1 ++ (conjOf c).2.2) : A.hasVar k = true := by
  have : ∃ s, (k, s) ∈ c := by
    simp only [conjOf, List.mem_append, List.mem_map, List.mem_filter] at hk
    rcases hk with (⟨⟨a, b⟩, h, rfl⟩ | ⟨⟨a, b⟩, h, rfl⟩) | ⟨⟨a, b⟩, h, rfl⟩ <;> exact ⟨b, h.1⟩
  obtain ⟨s, hs⟩ := this
  exact hc.var k s ((dGet_eq_of_nodup hc.nodup k s).1 hs)

theorem ctxOK_nil (A : MAlg R) : CtxOK A [] := ⟨by simp [dGet], by simp [dGet], by simp⟩

theorem chFull_spec [IsDomain R] [CharZero R] {A : MAlg R} (hA : AlgOK A) (ls es gs : List (List R))
    (hne : ls ++ es ++ gs ≠ []) (hg : GoalOK A [] (ls ++ es ++ gs)) :
    ∃ N ret, (∀ fuel ≥ N, chFull A fuel ls es gs = .ok ret) ∧
      (∀ z ∈ ret, ∀ k ∈ z.1 ++ z.2.1 ++ z.2.2, A.hasVar k = true) ∧
      ∀ {K : Type u} [Field K] [LinearOrder K] [IsStrictOrderedRing K] [PolyIVT K] (φ : R →+* K),
        RValOK A φ →
        ((∃ z ∈ ret, (∀ k ∈ z.1, φ k < 0) ∧ (∀ k ∈ z.2.1, φ k = 0) ∧ ∀ k ∈ z.2.2, 0 < φ k) →
          ∃ x, (∀ q ∈ ls, (P φ q).eval x < 0) ∧ (∀ q ∈ es, (P φ q).eval x = 0) ∧
            ∀ q ∈ gs, 0 < (P φ q).eval x) ∧
        (NoLoss (ls ++ es ++ gs) → (∃ x, (∀ q ∈ ls, (P φ q).eval x < 0) ∧
            (∀ q ∈ es, (P φ q).eval x = 0) ∧ ∀ q ∈ gs, 0 < (P φ q).eval x) →
          ∃ z ∈ ret, (∀ k ∈ z.1, φ k < 0) ∧ (∀ k ∈ z.2.1, φ k = 0) ∧ ∀ k ∈ z.2.2, 0 < φ k) := by
  obtain ⟨N, out, h1, h2, _⟩ := realTable_spec (K := ℝ) hA (ctxOK_nil A) hg
  have hgood : ∀ x ∈ out, ∃ b, chGood ls es gs x.1 = .ok b ∧ (b = true ↔ CGood ls es gs x.1) := by
    intro x hx
    obtain ⟨segs, hs, _⟩ := h2 x hx
    exact chGood_ok hne hs
  classical
  refine ⟨N, ((out.filter fun x => decide (CGood ls es gs x.1)).map fun x => conjOf x.2), ?_, ?_, ?_⟩
  · intro fuel hf
    unfold chFull
    rw [h1 fuel hf]
    simp only [bind, Except.bind]
    rw [filterM_ok _ (fun x => decide (CGood ls es gs x.1)) out (by
      intro x hx
      obtain ⟨b, hb, hb'⟩ := hgood x hx
      rw [hb]
      congr 1
      rw [Bool.eq_iff_iff, hb', decide_eq_true_eq])]
    rfl
  · intro z hz
    obtain ⟨x, hx, rfl⟩ := List.mem_map.1 hz
    obtain ⟨_, _, _, hc, _⟩ := h2 x (List.mem_filter.1 hx).1
    intro k hk
    exact mem_conjOf hc hk
  · intro K _ _ _ _ φ hφ
    obtain ⟨N', out', h1', h2', h3'⟩ := realTable_spec (K := K) hA (ctxOK_nil A) hg
    have : out' = out := by
      have e1 := h1 (max N N') (le_max_left _ _)
      rw [h1' (max N N') (le_max_right _ _)] at e1
      cases e1; rfl
    subst this
    constructor
    · rintro ⟨z, hz, hh⟩
      obtain ⟨x, hx, rfl⟩ := List.mem_map.1 hz
      rw [List.mem_filter, decide_eq_true_eq] at hx
      obtain ⟨segs, hs, _, hc, hsem⟩ := h2' x hx.1
      exact (cGood_points hne hs (hsem φ ((conjOf_iff hc hφ).1 hh))).1 hx.2
    · intro hnl hx
      obtain ⟨x, hxo, hxr⟩ := h3' hne hnl φ ⟨hφ, by simp [dGet]⟩
      obtain ⟨segs, hs, _, hc, hsem⟩ := h2' x hxo
      have := (cGood_points hne hs (hsem φ hxr)).2 hx
      refine ⟨conjOf x.2, List.mem_map.2 ⟨x, List.mem_filter.2 ⟨hxo, by simpa using this⟩, rfl⟩, ?_⟩
      exact (conjOf_iff hc hφ).2 hxr

/-- The same when only the polynomial taken first has a known leading coefficient, or is a constant. -/
theorem chFull_first [IsDomain R] [CharZero R] {A : MAlg R} (hA : AlgOK A) (ls es gs : List (List R))
    (hne : ls ++ es ++ gs ≠ []) (hcans : ∀ q ∈ ls ++ es ++ gs, Canon q)
    {p : List R} {rest : List (List R)} (hds : degSet (ls ++ es ++ gs) = p :: rest)
    (hstop : 0 < deg p → A.hasVar (lc p) = false) :
    ∃ N ret, (∀ fuel ≥ N, chFull A fuel ls es gs = .ok ret) ∧
      (∀ z ∈ ret, ∀ k ∈ z.1 ++ z.2.1 ++ z.2.2, A.hasVar k = true) ∧
      ∀ {K : Type u} [Field K] [LinearOrder K] [IsStrictOrderedRing K] [PolyIVT K] (φ : R →+* K),
        RValOK A φ →
        ((∃ z ∈ ret, (∀ k ∈ z.1, φ k < 0) ∧ (∀ k ∈ z.2.1, φ k = 0) ∧ ∀ k ∈ z.2.2, 0 < φ k) →
          ∃ x, (∀ q ∈ ls, (P φ q).eval x < 0) ∧ (∀ q ∈ es, (P φ q).eval x = 0) ∧
            ∀ q ∈ gs, 0 < (P φ q).eval x) ∧
        (Enough φ p rest → (∃ x, (∀ q ∈ ls, (P φ q).eval x < 0) ∧
            (∀ q ∈ es, (P φ q).eval x = 0) ∧ ∀ q ∈ gs, 0 < (P φ q).eval x) →
          ∃ z ∈ ret, (∀ k ∈ z.1, φ k < 0) ∧ (∀ k ∈ z.2.1, φ k = 0) ∧ ∀ k ∈ z.2.2, 0 < φ k) := by
  obtain ⟨N, out, h1, h2, _⟩ := realTable_first (K := ℝ) hA (ctxOK_nil A) hcans hds
    fun h => Or.inl (hstop h)
  have hgood : ∀ x ∈ out, ∃ b, chGood ls es gs x.1 = .ok b ∧ (b = true ↔ CGood ls es gs x.1) := by
    intro x hx
    obtain ⟨segs, hs, _⟩ := h2 x hx
    exact chGood_ok hne hs
  classical
  refine ⟨N, ((out.filter fun x => decide (CGood ls es gs x.1)).map fun x => conjOf x.2), ?_, ?_, ?_⟩
  · intro fuel hf
    unfold chFull
    rw [h1 fuel hf]
    simp only [bind, Except.bind]
    rw [filterM_ok _ (fun x => decide (CGood ls es gs x.1)) out (by
      intro x hx
      obtain ⟨b, hb, hb'⟩ := hgood x hx
      rw [hb]
      congr 1
      rw [Bool.eq_iff_iff, hb', decide_eq_true_eq])]
    rfl
  · intro z hz
    obtain ⟨x, hx, rfl⟩ := List.mem_map.1 hz
    obtain ⟨_, _, _, hc, _⟩ := h2 x (List.mem_filter.1 hx).1
    intro k hk
    exact mem_conjOf hc hk
  · intro K _ _ _ _ φ hφ
    obtain ⟨N', out', h1', h2', h3'⟩ := realTable_first (K := K) hA (ctxOK_nil A) hcans hds
      fun h => Or.inl (hstop h)
    have : out' = out := by
      have e1 := h1 (max N N') (le_max_left _ _)
      rw [h1' (max N N') (le_max_right _ _)] at e1
      cases e1; rfl
    subst this
    constructor
    · rintro ⟨z, hz, hh⟩
      obtain ⟨x, hx, rfl⟩ := List.mem_map.1 hz
      rw [List.mem_filter, decide_eq_true_eq] at hx
      obtain ⟨segs, hs, _, hc, hsem⟩ := h2' x hx.1
      exact (cGood_points hne hs (hsem φ ((conjOf_iff hc hφ).1 hh))).1 hx.2
    · intro hnl hx
      obtain ⟨x, hxo, hxr⟩ := h3' φ ⟨hφ, by simp [dGet]⟩ hnl
      obtain ⟨segs, hs, _, hc, hsem⟩ := h2' x hxo
      have := (cGood_points hne hs (hsem φ hxr)).2 hx
      refine ⟨conjOf x.2, List.mem_map.2 ⟨x, List.mem_filter.2 ⟨hxo, by simpa using this⟩, rfl⟩, ?_⟩
      exact (conjOf_iff hc hφ).2 hxr

end Verif.Qe
