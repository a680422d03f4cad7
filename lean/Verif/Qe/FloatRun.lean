import Verif.Qe.FloatLemmas
import Verif.Qe.RealMain
import Verif.Qe.PropsClosure

/-!
# A run of `real_full` in which columns collide

The polynomials `1 - x`, `2 - x`, ... are added in this order. Each of them has its root in the last
interval, so that the columns of the roots are `1/2`, `3/4`, `7/8`, ...
-/

set_option linter.unusedSectionVars false

open Polynomial Verif.Alg

namespace Verif.Qe

variable {R : Type} [CommRing R] [DecidableEq R]

/-! ### The loop over the intervals -/

theorem gapM_unf (mid : ℚ → ℚ → ℚ) {p : List R} {rest : List (List R)} {D : Diagram R ℚ} {l g e : ℚ}
    (hck : ∀ q ∈ rest, 0 ∈ ck D q ∧ g ∈ ck D q) (hpl : l ∈ ck D p) (hpe : e ∈ ck D p)
    (hgap : ∀ q ∈ rest, cv D q 0 ≠ 0 → cv D q g ≠ 0) :
    realGapColM mid p rest D (l, g, e) =
      if cv D p l = 0 ∧ cv D p e = 0 then .error .diagramExc
      else if cv D p l = cv D p e ∨ cv D p l * cv D p e = 0 then
        .ok (dWrite D p g (sgnInt (cv D p l + cv D p e)))
      else rest.foldlM (fun D q => do
        let v ← dRead D q g
        let D := dWrite D q (mid g l) v
        let v ← dRead D q g
        .ok (dWrite D q (mid g e) v))
        (dWrite (dWrite (dWrite D p (mid g l) (cv D p l)) p g 0) p (mid g e) (cv D p e)) := by
  have hz := colZeros_ok D 0 g rest (fun q hq => ⟨(hck q hq).2, (hck q hq).1⟩)
  have hz' : rest.filter (fun q => decide (cv D q g = 0) && decide (cv D q 0 ≠ 0)) = [] := by
    rw [List.filter_eq_nil_iff]
    intro q hq
    simp only [Bool.and_eq_true, decide_eq_true_eq, not_and, not_not]
    intro h
    by_contra h0
    exact hgap q hq h0 h
  rw [hz'] at hz
  unfold realGapColM
  simp only [hz, dRead_ok hpl, dRead_ok hpe]
  rfl

theorem gapM_root (mid : ℚ → ℚ → ℚ) {p : List R} {rest : List (List R)} {D : Diagram R ℚ} {a e b : ℚ}
    (hck : ∀ q ∈ rest, 0 ∈ ck D q ∧ e ∈ ck D q) (hroot : ∃ q ∈ rest, cv D q e = 0 ∧ cv D q 0 ≠ 0) :
    realGapColM mid p rest D (a, e, b) = .ok D := by
  have hz := colZeros_ok D 0 e rest (fun q hq => ⟨(hck q hq).2, (hck q hq).1⟩)
  unfold realGapColM
  simp only [hz]
  show (if (rest.filter _).length ≠ 0 then _ else _) = _
  rw [if_pos]
  intro h
  rw [List.length_eq_zero_iff, List.filter_eq_nil_iff] at h
  obtain ⟨q, hq, h1, h2⟩ := hroot
  exact h q hq (by simp [h1, h2])

/-- No root before the last interval: the loop comes to the last interval. -/
theorem gapFoldM_last (mid : ℚ → ℚ → ℚ) {p : List R} {rest : List (List R)} (hp : p ∉ rest) {a : ℤ}
    (ha : a ≠ 0) {g e : ℚ} : ∀ (init : List (ℚ × ℚ)) (l : ℚ) (D : Diagram R ℚ), 0 ≤ l →
    SegChain l (init ++ [(g, e)]) →
    (∀ q ∈ rest, 0 ∈ ck D q ∧ ∀ i ∈ segCols (init ++ [(g, e)]), i ∈ ck D q) →
    (∀ i, i = l ∨ i ∈ segEnds (init ++ [(g, e)]) → i ∈ ck D p) → SegOK D rest (init ++ [(g, e)]) →
    cv D p l = a → (∀ i ∈ segEnds init, cv D p i = a) →
    ∃ D', (triples (l :: segCols (init ++ [(g, e)]))).foldlM (realGapColM mid p rest) D =
        realGapColM mid p rest D' (segLast l init, g, e) ∧
      Written D D' (fun q i => q = p ∧ i ∈ segGaps init) (fun _ _ => sgnInt (a + a)) := by
  intro init
  induction init with
  | nil =>
    intro l D _ _ _ _ _ _ _
    refine ⟨D, ?_, (Written.refl D fun _ _ => 0).congr (by simp [segGaps]) (by simp [segGaps])⟩
    show ([(l, g, e)] : List (ℚ × ℚ × ℚ)).foldlM (realGapColM mid p rest) D =
      realGapColM mid p rest D (l, g, e)
    rw [List.foldlM_cons]
    cases realGapColM mid p rest D (l, g, e) <;> rfl
  | cons x init ih =>
    obtain ⟨g1, e1⟩ := x
    intro l D hl0 hchain hck hpck hok hpl hpe
    obtain ⟨c1, c2, c3⟩ := hchain
    obtain ⟨o1, o2, o3⟩ := hok
    have hqp : ∀ q ∈ rest, q ≠ p := by rintro q hq rfl; exact hp hq
    have hpe1 : cv D p e1 = a := hpe e1 (by simp [segEnds])
    have hstep : realGapColM mid p rest D (l, g1, e1) = .ok (dWrite D p g1 (sgnInt (a + a))) := by
      rw [gapM_unf mid (fun q hq => ⟨(hck q hq).1, (hck q hq).2 g1 (by simp [segCols])⟩)
        (hpck l (Or.inl rfl)) (hpck e1 (Or.inr (by simp [segEnds]))) o1, hpl, hpe1,
        if_neg (fun h => ha h.1), if_pos (Or.inl rfl)]
    set D1 := dWrite D p g1 (sgnInt (a + a)) with hD1
    have hcv1 : ∀ q i, (q ≠ p ∨ i ≠ g1) → cv D1 q i = cv D q i := by
      intro q i h
      rw [hD1, cv_dWrite, if_neg]
      rintro ⟨h1, h2⟩
      rcases h with h | h
      · exact h h1
      · exact h h2
    have hck1 : ∀ q i, i ∈ ck D q → i ∈ ck D1 q := fun q i hi =>
      (mem_ck_dWrite _ _ _ _ _ _).2 (Or.inl hi)
    obtain ⟨y, ys, hy⟩ : ∃ y ys, init ++ [(g, e)] = y :: ys := by
      cases init with
      | nil => exact ⟨_, _, rfl⟩
      | cons y ys => exact ⟨_, _, rfl⟩
    have hroot : realGapColM mid p rest D1 (g1, e1, y.1) = .ok D1 := by
      apply gapM_root
      · intro q hq
        exact ⟨hck1 _ _ (hck q hq).1, hck1 _ _ ((hck q hq).2 e1 (by simp [segCols]))⟩
      · obtain ⟨q, hq, h1, h2⟩ := o2 (by simp)
        exact ⟨q, hq, by rw [hcv1 q e1 (Or.inl (hqp q hq)), h1],
          by rw [hcv1 q 0 (Or.inl (hqp q hq))]; exact h2⟩
    have hlist : triples (l :: segCols ((g1, e1) :: init ++ [(g, e)])) =
        (l, g1, e1) :: (g1, e1, y.1) :: triples (e1 :: segCols (init ++ [(g, e)])) := by
      rw [List.cons_append, hy]
      obtain ⟨y1, y2⟩ := y
      rfl
    have he1 : l < e1 := c1.trans c2
    obtain ⟨D', h1, h2⟩ := ih e1 D1 (by linarith) c3
      (fun q hq => ⟨hck1 _ _ (hck q hq).1, fun i hi =>
        hck1 _ _ ((hck q hq).2 i (by
          rw [List.cons_append]; simp only [segCols, List.mem_cons]; exact Or.inr (Or.inr hi)))⟩)
      (by
        intro i hi
        apply hck1
        apply hpck
        right
        rw [List.cons_append]
        simp only [segEnds, List.mem_cons]
        exact hi)
      (o3.congr c3 (fun q hq => hcv1 q 0 (Or.inl (hqp q hq))) fun q hq i _ =>
        hcv1 q i (Or.inl (hqp q hq)))
      (by rw [hcv1 p e1 (Or.inr (by linarith)), hpe1])
      (by
        intro i hi
        have : e1 < i := by
          have hmem : i ∈ segCols (init ++ [(g, e)]) := by
            have := segEnds_sub i hi
            clear * - this
            induction init with
            | nil => simp [segCols] at this
            | cons x init ih =>
              obtain ⟨a, b⟩ := x
              rw [List.cons_append]
              simp only [segCols, List.mem_cons] at this ⊢
              rcases this with h | h | h
              · exact Or.inl h
              · exact Or.inr (Or.inl h)
              · exact Or.inr (Or.inr (ih h))
          exact segChain_lt c3 i hmem
        rw [hcv1 p i (Or.inr (by linarith)), hpe i (by simp [segEnds, hi])])
    refine ⟨D', ?_, ?_⟩
    · rw [hlist, List.foldlM_cons, hstep]
      show ((g1, e1, y.1) :: triples (e1 :: segCols (init ++ [(g, e)]))).foldlM
        (realGapColM mid p rest) D1 = _
      rw [List.foldlM_cons, hroot]
      exact h1
    · have hw1 : Written D D1 (fun q i => q = p ∧ i = g1) (fun _ _ => sgnInt (a + a)) :=
        ((Written.refl D (fun _ _ => sgnInt (a + a))).write p g1 _ rfl).congr (by simp) (fun _ _ _ => rfl)
      refine ⟨?_, ?_, ?_, ?_, fun hn => h2.nodup (hw1.nodup hn)⟩
      · rintro q i ⟨rfl, hi⟩
        by_cases h : i ∈ segGaps init
        · exact h2.val q i ⟨rfl, h⟩
        · rw [h2.old q i fun h' => h h'.2]
          rcases List.mem_cons.1 hi with rfl | hi
          · exact hw1.val q i ⟨rfl, rfl⟩
          · exact absurd hi h
      · intro q i hW
        rw [h2.old q i (fun h => hW ⟨h.1, List.mem_cons_of_mem _ h.2⟩),
          hw1.old q i (fun h => hW ⟨h.1, h.2 ▸ List.mem_cons_self⟩)]
      · intro q i
        rw [h2.ck, hw1.ck]
        simp only [segGaps, List.mem_cons]
        tauto
      · intro q
        rw [h2.keys, hw1.keys]
        constructor
        · rintro ((h | ⟨i, h⟩) | ⟨i, h⟩)
          · exact Or.inl h
          · exact Or.inr ⟨i, h.1, h.2 ▸ List.mem_cons_self⟩
          · exact Or.inr ⟨i, h.1, List.mem_cons_of_mem _ h.2⟩
        · rintro (h | ⟨i, h, h'⟩)
          · exact Or.inl (Or.inl h)
          · exact Or.inl (Or.inr ⟨g1, h, rfl⟩)

/-- A split whose new columns are the old neighbours: these are overwritten. -/
theorem gapM_collide {mid : ℚ → ℚ → ℚ} {p : List R} {rest : List (List R)} (hp : p ∉ rest)
    {D : Diagram R ℚ} {l g e : ℚ} (hlg : l < g) (hge : g < e) (hml : mid g l = l) (hme : mid g e = e)
    (hck : ∀ q ∈ rest, 0 ∈ ck D q ∧ g ∈ ck D q) (hpl : l ∈ ck D p) (hpe : e ∈ ck D p)
    (hgap : ∀ q ∈ rest, cv D q 0 ≠ 0 → cv D q g ≠ 0) (hne : cv D p l ≠ cv D p e)
    (hne0 : cv D p l * cv D p e ≠ 0) :
    ∃ D', realGapColM mid p rest D (l, g, e) = .ok D' ∧
      (∀ q ∈ rest, ∀ i, cv D' q i = if i = l ∨ i = e then cv D q g else cv D q i) ∧
      ∀ q ∈ rest, ∀ i, i ∈ ck D' q ↔ i ∈ ck D q ∨ i = l ∨ i = e := by
  rw [gapM_unf mid hck hpl hpe hgap, if_neg (by rintro ⟨h, _⟩; rw [h, zero_mul] at hne0; exact hne0 rfl),
    if_neg (by rintro (h | h); exacts [hne h, hne0 h]), hml, hme]
  have hqp : ∀ q ∈ rest, q ≠ p := by rintro q hq rfl; exact hp hq
  set D3 := dWrite (dWrite (dWrite D p l (cv D p l)) p g 0) p e (cv D p e) with hD3
  have hcv : ∀ q ∈ rest, ∀ i, cv D3 q i = cv D q i := by
    intro q hq i
    rw [hD3, cv_dWrite, if_neg fun h => hqp q hq h.1, cv_dWrite, if_neg fun h => hqp q hq h.1, cv_dWrite,
      if_neg fun h => hqp q hq h.1]
  have hck3 : ∀ q ∈ rest, ∀ i, i ∈ ck D3 q ↔ i ∈ ck D q := by
    intro q hq i
    rw [hD3, mem_ck_dWrite, mem_ck_dWrite, mem_ck_dWrite]
    constructor
    · rintro (((h | ⟨h, _⟩) | ⟨h, _⟩) | ⟨h, _⟩)
      · exact h
      · exact absurd h (hqp q hq)
      · exact absurd h (hqp q hq)
      · exact absurd h (hqp q hq)
    · exact fun h => Or.inl (Or.inl (Or.inl h))
  obtain ⟨D', e1, e2⟩ := copyCols_ok rest l e g (by linarith) (by linarith) D3
    (fun q hq => (hck3 q hq g).2 (hck q hq).2)
  refine ⟨D', e1, ?_, ?_⟩
  · intro q hq i
    by_cases h : i = l ∨ i = e
    · rw [if_pos h, e2.val q i ⟨hq, h⟩, hcv q hq]
    · rw [if_neg h, e2.old q i fun h' => h h'.2, hcv q hq]
  · intro q hq i
    rw [e2.ck, hck3 q hq]
    constructor
    · rintro (h | h)
      · exact Or.inl h
      · exact Or.inr h.2
    · rintro (h | h)
      · exact Or.inl h
      · exact Or.inr ⟨hq, h⟩

/-- The exact step when only the last interval is split. -/
theorem segExt_last {D D' : Diagram R ℚ} {p : List R} {rest : List (List R)} {a b : ℤ} (ha : a ≠ 0)
    (hb : b ≠ 0) (hab : a ≠ b) {g e : ℚ} : ∀ (init : List (ℚ × ℚ)) (l : ℚ) (gs' : List (ℚ × ℚ)),
    SegExt D D' p rest l (init ++ [(g, e)]) gs' → cv D p l = a → (∀ i ∈ segEnds init, cv D p i = a) →
    cv D p e = b →
    gs' = init ++ [((g + segLast l init) / 2, g), ((g + e) / 2, e)] ∧
      (∀ i ∈ segCols gs', cv D' p i = 0 → i = g) := by
  intro init
  induction init with
  | nil =>
    intro l gs' h hl _ he
    cases h with
    | keep _ _ _ _ gs' hbad heq hpg hpe hqg hqe h =>
      rw [hl, he] at heq
      rcases heq with h | h
      · exact absurd h hab
      · exact absurd h (mul_ne_zero ha hb)
    | split _ _ _ _ gs' hne hne0 hp1 hpg hp2 hpe hq1 hqg hq2 hqe h =>
      cases h
      refine ⟨rfl, ?_⟩
      intro i hi h0
      simp only [segCols, List.mem_cons, List.not_mem_nil, or_false] at hi
      rcases hi with rfl | rfl | rfl | rfl
      · rw [hp1, hl] at h0; exact absurd h0 ha
      · rfl
      · rw [hp2, he] at h0; exact absurd h0 hb
      · rw [hpe, he] at h0; exact absurd h0 hb
  | cons x init ih =>
    obtain ⟨g1, e1⟩ := x
    intro l gs' h hl hends he
    have he1 := hends e1 (by simp [segEnds])
    rw [List.cons_append] at h
    cases h with
    | keep _ _ _ _ gs'' hbad heq hpg hpe hqg hqe h =>
      obtain ⟨h1, h2⟩ := ih e1 gs'' h he1 (fun i hi => hends i (by simp [segEnds, hi])) he
      refine ⟨by rw [h1]; rfl, ?_⟩
      intro i hi h0
      simp only [segCols, List.mem_cons] at hi
      rcases hi with rfl | rfl | hi
      · rw [hpg, hl, he1] at h0
        exfalso
        rcases lt_or_gt_of_ne ha with h | h
        · have : ¬ 0 < a + a := by omega
          have h' : a + a < 0 := by omega
          rw [sgnInt, if_neg this, if_pos h'] at h0
          exact absurd h0 (by decide)
        · have : 0 < a + a := by omega
          rw [sgnInt, if_pos this] at h0
          exact absurd h0 (by decide)
      · rw [hpe, he1] at h0; exact absurd h0 ha
      · exact h2 i hi h0
    | split _ _ _ _ gs'' hne hne0 hp1 hpg hp2 hpe hq1 hqg hq2 hqe h =>
      rw [hl, he1] at hne
      exact absurd rfl hne

end Verif.Qe
