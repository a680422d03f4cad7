import Verif.Qe.RealLemmas

/-!
# `real_extend`: one polynomial
-/

set_option linter.unusedSectionVars false

namespace Verif.Qe

variable {R : Type} [CommRing R] [DecidableEq R]

/-- the columns of intervals -/
def segGaps : List (ℚ × ℚ) → List ℚ
  | [] => []
  | (g, _) :: gs => g :: segGaps gs

/-- the columns of ends, except for the last one -/
def segInner : List (ℚ × ℚ) → List ℚ
  | [] => []
  | [_] => []
  | (_, e) :: y :: gs => e :: segInner (y :: gs)

theorem mem_triples : ∀ (gs : List (ℚ × ℚ)) (l i : ℚ),
    i ∈ (triples (l :: segCols gs)).map (fun c => c.2.1) ↔ i ∈ segGaps gs ∨ i ∈ segInner gs := by
  intro gs
  induction gs with
  | nil => intro l i; simp [segCols, triples, segGaps, segInner]
  | cons x gs ih =>
    obtain ⟨g, e⟩ := x
    intro l i
    cases gs with
    | nil => simp [segCols, triples, segGaps, segInner]
    | cons y gs =>
      obtain ⟨g', e'⟩ := y
      have : triples (l :: segCols ((g, e) :: (g', e') :: gs)) =
        (l, g, e) :: (g, e, g') :: triples (e :: segCols ((g', e') :: gs)) := rfl
      rw [this, List.map_cons, List.map_cons, List.mem_cons, List.mem_cons, ih]
      show _ ↔ i ∈ g :: segGaps ((g', e') :: gs) ∨ i ∈ e :: segInner ((g', e') :: gs)
      rw [List.mem_cons, List.mem_cons]
      tauto

theorem segInner_sub : ∀ {gs : List (ℚ × ℚ)}, ∀ i ∈ segInner gs, i ∈ segEnds gs := by
  intro gs
  induction gs with
  | nil => simp [segInner]
  | cons x gs ih =>
    intro i hi
    cases gs with
    | nil => simp [segInner] at hi
    | cons y gs =>
      obtain ⟨g, e⟩ := x
      simp only [segInner, List.mem_cons] at hi
      simp only [segEnds, List.mem_cons] at ih ⊢
      rcases hi with h | h
      · exact Or.inl h
      · exact Or.inr (by simpa [segEnds] using ih i h)

theorem segGaps_sub : ∀ {gs : List (ℚ × ℚ)}, ∀ i ∈ segGaps gs, i ∈ segCols gs := by
  intro gs
  induction gs with
  | nil => simp [segGaps]
  | cons x gs ih =>
    obtain ⟨g, e⟩ := x
    intro i hi
    simp only [segGaps, List.mem_cons] at hi
    simp only [segCols, List.mem_cons]
    rcases hi with h | h
    · exact Or.inl h
    · exact Or.inr (Or.inr (ih i h))

theorem segEnds_eq : ∀ {gs : List (ℚ × ℚ)} {l : ℚ}, ∀ i ∈ segEnds gs, i ∈ segInner gs ∨ i = segLast l gs := by
  intro gs
  induction gs with
  | nil => simp [segEnds]
  | cons x gs ih =>
    obtain ⟨g, e⟩ := x
    intro l i hi
    cases gs with
    | nil => simpa [segEnds, segInner, segLast] using hi
    | cons y gs =>
      obtain ⟨g', e'⟩ := y
      rw [show segEnds ((g, e) :: (g', e') :: gs) = e :: segEnds ((g', e') :: gs) from rfl,
        List.mem_cons] at hi
      rw [show segInner ((g, e) :: (g', e') :: gs) = e :: segInner ((g', e') :: gs) from rfl,
        List.mem_cons]
      rcases hi with h | h
      · exact Or.inl (Or.inl h)
      · rcases ih (l := e) i h with h | h
        · exact Or.inl (Or.inr h)
        · exact Or.inr h

theorem segInner_lt_last : ∀ {gs : List (ℚ × ℚ)} {l : ℚ}, SegChain l gs → ∀ i ∈ segInner gs,
    i < segLast l gs := by
  intro gs
  induction gs with
  | nil => simp [segInner]
  | cons x gs ih =>
    obtain ⟨g, e⟩ := x
    rintro l ⟨c1, c2, c3⟩ i hi
    cases gs with
    | nil => simp [segInner] at hi
    | cons y gs =>
      obtain ⟨g', e'⟩ := y
      rw [show segInner ((g, e) :: (g', e') :: gs) = e :: segInner ((g', e') :: gs) from rfl,
        List.mem_cons] at hi
      show i < segLast e ((g', e') :: gs)
      rcases hi with rfl | h
      · exact segChain_lt c3 _ (segEnds_sub _ (segLast_mem (by simp)))
      · exact ih c3 i h

theorem SegOK.gap {D : Diagram R ℚ} {rows : List (List R)} : ∀ {gs : List (ℚ × ℚ)},
    SegOK D rows gs → ∀ g ∈ segGaps gs, ∀ q ∈ rows, cv D q 0 ≠ 0 → cv D q g ≠ 0 := by
  intro gs
  induction gs with
  | nil => simp [segGaps]
  | cons x gs ih =>
    obtain ⟨g, e⟩ := x
    rintro ⟨h1, _, h3⟩ g' hg'
    rcases List.mem_cons.1 hg' with rfl | h
    · exact h1
    · exact ih h3 g' h

theorem SegOK.inner {D : Diagram R ℚ} {rows : List (List R)} : ∀ {gs : List (ℚ × ℚ)},
    SegOK D rows gs → ∀ e ∈ segInner gs, ∃ q ∈ rows, cv D q e = 0 ∧ cv D q 0 ≠ 0 := by
  intro gs
  induction gs with
  | nil => simp [segInner]
  | cons x gs ih =>
    obtain ⟨g, e⟩ := x
    rintro ⟨_, h2, h3⟩ e' he'
    cases gs with
    | nil => simp [segInner] at he'
    | cons y gs =>
      obtain ⟨g', e''⟩ := y
      rw [show segInner ((g, e) :: (g', e'') :: gs) = e :: segInner ((g', e'') :: gs) from rfl,
        List.mem_cons] at he'
      rcases he' with rfl | h
      · exact h2 (by simp)
      · exact ih h3 e' h

/-- The value computed in a column of a root. -/
def RootVal (D : Diagram R ℚ) (p : List R) (e : ℚ) (v : ℤ) : Prop :=
  ∃ q ∈ keys D, cv D q e = 0 ∧ cv D q 0 ≠ 0 ∧
    (∀ q' ∈ keys D, cv D q' e = 0 → cv D q' 0 ≠ 0 → deg q ≤ deg q') ∧ 0 < deg q ∧
    ∃ r ∈ keys D, pseudoRem p q = .ok r ∧ lcRow q ∈ keys D ∧
      v = if cv D (lcRow q) e < 0 ∧ (deg p - deg q + 1) % 2 = 1 then -cv D r e else cv D r e

theorem realRootCol_root (A : MAlg R) {D : Diagram R ℚ} {gs : List (ℚ × ℚ)} {p : List R}
    (hs : RShape D gs) (hp : StepHyp D p)
    (hlc : ∀ q ∈ keys D, 0 < deg q → lcRow q ∈ keys D) (e : ℚ) (he : e ∈ segInner gs) :
    ∃ v, RootVal D p e v ∧ ∀ D' : Diagram R ℚ, (∀ q ∈ keys D, ∀ i, i ∈ ck D q → i ∈ ck D' q) →
      (∀ q ∈ keys D, ∀ i, cv D' q i = cv D q i) →
      realRootCol A p (keys D) D' e = .ok (dWrite D' p e v) := by
  have hec : e = 0 ∨ e ∈ segCols gs := Or.inr (segEnds_sub _ (segInner_sub _ he))
  set zs := (keys D).filter fun q => decide (cv D q e = 0) && decide (cv D q 0 ≠ 0) with hzs
  have hmem : ∀ q, q ∈ zs ↔ q ∈ keys D ∧ cv D q e = 0 ∧ cv D q 0 ≠ 0 := by
    intro q
    rw [hzs, List.mem_filter]
    simp only [Bool.and_eq_true, decide_eq_true_eq]
  obtain ⟨q0, hq0, hq01, hq02⟩ := hs.seg.inner e he
  have hne : zs ≠ [] := List.ne_nil_of_mem ((hmem q0).2 ⟨hq0, hq01, hq02⟩)
  obtain ⟨q, hmin, hqz, hqmin⟩ := minPoly_spec A zs hne
  obtain ⟨hqk, hqi, hq0'⟩ := (hmem q).1 hqz
  have hqpos : 0 < deg q := by
    rcases Nat.eq_zero_or_pos (deg q) with h | h
    · exact absurd hqi (hs.const q hqk h hq0' e hec)
    · exact h
  obtain ⟨hqc, hqle, r, hr, hrem⟩ := hp.rem q hqk hqpos
  refine ⟨_, ⟨q, hqk, hqi, hq0', fun q' h1 h2 h3 => hqmin q' ((hmem q').2 ⟨h1, h2, h3⟩), hqpos, r, hr,
    hrem, hlc q hqk hqpos, rfl⟩, ?_⟩
  intro D' hck hcv
  have hck' : ∀ q ∈ keys D, ∀ i, i = 0 ∨ i ∈ segCols gs → i ∈ ck D' q := fun q hq i hi =>
    hck q hq i ((hs.ck q hq i).2 hi)
  have hz := colZeros_ok D' 0 e (keys D) (fun q hq => ⟨hck' q hq e hec, hck' q hq 0 (Or.inl rfl)⟩)
  have hzs' : (keys D).filter (fun q => decide (cv D' q e = 0) && decide (cv D' q 0 ≠ 0)) = zs := by
    rw [hzs]
    apply List.filter_congr
    intro q hq
    rw [hcv q hq, hcv q hq]
  rw [hzs'] at hz
  unfold realRootCol
  simp only [hz]
  show (match minPoly A zs with
    | none => .ok D'
    | some q => _ : Except QErr (Diagram R ℚ)) = _
  rw [hmin]
  simp only [hrem]
  show (do
    let lcv ← dRead D' (lcRow q) e
    let value ← dRead D' r e
    let value := if lcv < 0 ∧ (deg p - deg q + 1) % 2 = 1 then -value else value
    .ok (dWrite D' p e value) : Except QErr (Diagram R ℚ)) = _
  rw [dRead_ok (hck' _ (hlc q hqk hqpos) e hec), dRead_ok (hck' r hr e hec), hcv _ (hlc q hqk hqpos),
    hcv r hr]
  rfl

theorem realRootCol_gap (A : MAlg R) {D : Diagram R ℚ} {gs : List (ℚ × ℚ)} {p : List R}
    (hs : RShape D gs) (g : ℚ) (hg : g ∈ segGaps gs) (D' : Diagram R ℚ)
    (hck : ∀ q ∈ keys D, ∀ i, i ∈ ck D q → i ∈ ck D' q)
    (hcv : ∀ q ∈ keys D, ∀ i, cv D' q i = cv D q i) :
    realRootCol A p (keys D) D' g = .ok D' := by
  have hgc : g = 0 ∨ g ∈ segCols gs := Or.inr (segGaps_sub _ hg)
  have hck' : ∀ q ∈ keys D, ∀ i, i = 0 ∨ i ∈ segCols gs → i ∈ ck D' q := fun q hq i hi =>
    hck q hq i ((hs.ck q hq i).2 hi)
  have hz := colZeros_ok D' 0 g (keys D) (fun q hq => ⟨hck' q hq g hgc, hck' q hq 0 (Or.inl rfl)⟩)
  have hzs' : (keys D).filter (fun q => decide (cv D' q g = 0) && decide (cv D' q 0 ≠ 0)) = [] := by
    rw [List.filter_eq_nil_iff]
    intro q hq
    rw [hcv q hq, hcv q hq]
    simp only [Bool.and_eq_true, decide_eq_true_eq, not_and, not_not]
    intro h
    by_contra h0
    exact hs.seg.gap g hg q hq h0 h
  rw [hzs'] at hz
  unfold realRootCol
  simp only [hz]
  rfl

/-- The diagram after the first loop. -/
structure RMid (D : Diagram R ℚ) (gs : List (ℚ × ℚ)) (p : List R) (D2 : Diagram R ℚ) : Prop where
  bot : cv D2 p 0 = cv D (lcRow p) 0 * (-1) ^ deg p
  top : cv D2 p 1 = cv D (lcRow p) 1
  root : ∀ e ∈ segInner gs, RootVal D p e (cv D2 p e)
  old : ∀ q ∈ keys D, ∀ i, cv D2 q i = cv D q i

/-- The diagram after extension by `p`. -/
structure RStep (D : Diagram R ℚ) (gs : List (ℚ × ℚ)) (p : List R) (D' : Diagram R ℚ)
    (gs' : List (ℚ × ℚ)) : Prop where
  keys : ∀ q, q ∈ keys D' ↔ q = p ∨ q ∈ keys D
  nodup : ∀ q, (ck D' q).Nodup
  ck : ∀ q ∈ Verif.Qe.keys D', ∀ i, i ∈ Verif.Qe.ck D' q ↔ i = 0 ∨ i ∈ segCols gs'
  cases : (cv D (lcRow p) 0 = 0 ∧ gs' = gs ∧ (∀ q ∈ Verif.Qe.keys D, ∀ i, cv D' q i = cv D q i) ∧
      ∀ i, i = 0 ∨ i ∈ segCols gs → cv D' p i = cv D (pTail p) i) ∨
    (cv D (lcRow p) 0 ≠ 0 ∧ ∃ D2, RMid D gs p D2 ∧ SegExt D2 D' p (Verif.Qe.keys D) 0 gs gs' ∧
      ∀ q, cv D' q 0 = cv D2 q 0)

/-- The work on `p` up to the end of the first loop. -/
theorem realMid (A : MAlg R) {D : Diagram R ℚ} {gs : List (ℚ × ℚ)} {p : List R} (hs : RShape D gs)
    (hp : StepHyp D p) (hlcs : ∀ q ∈ keys D, 0 < deg q → lcRow q ∈ keys D) :
    ∃ D1 D2, D1 = dWrite (dWrite D p 0 (cv D (lcRow p) 0 * (-1) ^ deg p)) p 1 (cv D (lcRow p) 1) ∧
      ((dRow D1 []).map Prod.fst).insertionSort (· ≤ ·) = 0 :: segCols gs ∧
      ((triples (0 :: segCols gs)).map fun c => c.2.1).foldlM (realRootCol A p (keys D)) D1 = .ok D2 ∧
      RMid D gs p D2 ∧ (∀ q, q ∈ keys D2 ↔ q = p ∨ q ∈ keys D) ∧
      (∀ q ∈ keys D, ∀ i, i ∈ ck D2 q ↔ i = 0 ∨ i ∈ segCols gs) ∧
      (∀ i, i ∈ ck D2 p ↔ i = 0 ∨ i ∈ segEnds gs) ∧ ∀ q, (ck D2 q).Nodup := by
  have hpk : ∀ q ∈ keys D, q ≠ p := fun q hq h => hp.new (h ▸ hq)
  have hpck : ∀ i, i ∉ ck D p := fun i h => hp.new (mem_keys_of_ck h)
  set a := cv D (lcRow p) 0 * (-1) ^ deg p with ha
  set b := cv D (lcRow p) 1 with hb
  set D1 := dWrite (dWrite D p 0 a) p 1 b with hD1
  have hcv1 : ∀ q ∈ keys D, ∀ i, cv D1 q i = cv D q i := by
    intro q hq i
    rw [hD1, cv_dWrite, if_neg fun h => hpk q hq h.1, cv_dWrite, if_neg fun h => hpk q hq h.1]
  have hck1 : ∀ q ∈ keys D, ∀ i, i ∈ ck D1 q ↔ i ∈ ck D q := by
    intro q hq i
    rw [hD1, mem_ck_dWrite, mem_ck_dWrite]
    constructor
    · rintro ((h | ⟨h, _⟩) | ⟨h, _⟩)
      · exact h
      · exact absurd h (hpk q hq)
      · exact absurd h (hpk q hq)
    · exact fun h => Or.inl (Or.inl h)
  have hckp : ∀ i, i ∈ ck D1 p ↔ i = 0 ∨ i = 1 := by
    intro i
    rw [hD1, mem_ck_dWrite, mem_ck_dWrite]
    constructor
    · rintro ((h | ⟨_, h⟩) | ⟨_, h⟩)
      · exact absurd h (hpck i)
      · exact Or.inl h
      · exact Or.inr h
    · rintro (h | h)
      · exact Or.inl (Or.inr ⟨rfl, h⟩)
      · exact Or.inr ⟨rfl, h⟩
  have hkeys1 : ∀ q, q ∈ keys D1 ↔ q = p ∨ q ∈ keys D := by
    intro q
    rw [hD1, mem_keys_dWrite, mem_keys_dWrite]; tauto
  have hnd1 : ∀ q, (ck D1 q).Nodup :=
    nodup_ck_dWrite _ p 1 b (nodup_ck_dWrite D p 0 a hs.nodup)
  have hsort : ((dRow D1 []).map Prod.fst).insertionSort (· ≤ ·) = 0 :: segCols gs := by
    rw [← hs.sorted hs.zero]
    have : dRow D1 [] = dRow D [] := by
      have hne : p ≠ [] := fun h => hp.new (h ▸ hs.zero)
      rw [hD1, dRow_dWrite, if_neg hne, dRow_dWrite, if_neg hne]
    rw [this]; rfl
  have h10 : (1 : ℚ) ∉ segInner gs := fun h => by
    have := segInner_lt_last hs.chain 1 h
    rw [hs.last] at this
    exact lt_irrefl _ this
  have h00 : ∀ i ∈ segInner gs, (0 : ℚ) < i := fun i hi =>
    segChain_lt hs.chain i (segEnds_sub _ (segInner_sub _ hi))
  -- first loop
  classical
  choose! rv hrv1 hrv2 using fun e (he : e ∈ segInner gs) => realRootCol_root A hs hp hlcs e he
  obtain ⟨D2, hfold1, hW⟩ := foldlM_written (realRootCol A p (keys D))
    (fun x q i => q = p ∧ i = x ∧ x ∈ segInner gs) (fun _ i => rv i) D1
    ((triples (0 :: segCols gs)).map fun c => c.2.1) (by
      intro done D' x hx hW hd
      have hx := (mem_triples gs 0 x).1 hx
      have hck' : ∀ q ∈ keys D, ∀ i, i ∈ ck D q → i ∈ ck D' q := fun q hq i hi =>
        (hW.ck q i).2 (Or.inl ((hck1 q hq i).2 hi))
      have hcv' : ∀ q ∈ keys D, ∀ i, cv D' q i = cv D q i := by
        intro q hq i
        rw [hW.old _ _ (by rintro ⟨_, _, h, _⟩; exact hpk q hq h), hcv1 q hq]
      by_cases hin : x ∈ segInner gs
      · refine ⟨_, hrv2 x hin D' hck' hcv', (hW.write p x _ rfl).congr ?_ fun _ _ _ => rfl⟩
        intro q i
        simp only [List.mem_append, List.mem_singleton]
        constructor
        · rintro (⟨y, hy, h⟩ | ⟨rfl, rfl⟩)
          · exact ⟨y, Or.inl hy, h⟩
          · exact ⟨_, Or.inr rfl, rfl, rfl, hin⟩
        · rintro ⟨y, hy | rfl, h⟩
          · exact Or.inl ⟨y, hy, h⟩
          · exact Or.inr ⟨h.1, h.2.1⟩
      · have hg := hx.resolve_right hin
        refine ⟨_, realRootCol_gap A hs x hg D' hck' hcv', hW.congr ?_ fun _ _ _ => rfl⟩
        intro q i
        simp only [List.mem_append, List.mem_singleton]
        constructor
        · rintro ⟨y, hy, h⟩
          exact ⟨y, Or.inl hy, h⟩
        · rintro ⟨y, hy | rfl, h⟩
          · exact ⟨y, hy, h⟩
          · exact absurd h.2.2 hin)
  replace hW := hW.congr (W' := fun q i => q = p ∧ i ∈ segInner gs) (by
    intro q i
    constructor
    · rintro ⟨x, _, rfl, rfl, h⟩; exact ⟨rfl, h⟩
    · rintro ⟨rfl, h⟩; exact ⟨i, (mem_triples gs 0 i).2 (Or.inr h), rfl, rfl, h⟩)
    (fun _ _ _ => rfl)
  have hmid : RMid D gs p D2 := by
    refine ⟨?_, ?_, ?_, ?_⟩
    · rw [hW.old _ _ fun h => lt_irrefl _ (h00 0 h.2), hD1, cv_dWrite,
        if_neg (by rintro ⟨_, h⟩; exact zero_ne_one h), cv_dWrite, if_pos ⟨rfl, rfl⟩]
    · rw [hW.old _ _ fun h => h10 h.2, hD1, cv_dWrite, if_pos ⟨rfl, rfl⟩]
    · intro e he
      rw [hW.val p e ⟨rfl, he⟩]
      exact hrv1 e he
    · intro q hq i
      rw [hW.old _ _ fun h => hpk q hq h.1, hcv1 q hq]
  have hkeys2 : ∀ q, q ∈ keys D2 ↔ q = p ∨ q ∈ keys D := by
    intro q
    rw [hW.keys, hkeys1]
    constructor
    · rintro (h | ⟨_, h, _⟩)
      · exact h
      · exact Or.inl h
    · exact Or.inl
  have hck2 : ∀ q ∈ keys D, ∀ i, i ∈ ck D2 q ↔ i = 0 ∨ i ∈ segCols gs := by
    intro q hq i
    rw [hW.ck, hck1 q hq, hs.ck q hq]
    constructor
    · rintro (h | h)
      · exact h
      · exact absurd h.1 (hpk q hq)
    · exact Or.inl
  have hckp2 : ∀ i, i ∈ ck D2 p ↔ i = 0 ∨ i ∈ segEnds gs := by
    intro i
    rw [hW.ck, hckp]
    constructor
    · rintro ((h | h) | h)
      · exact Or.inl h
      · right; rw [h, ← hs.last]; exact segLast_mem hs.ne
      · exact Or.inr (segInner_sub _ h.2)
    · rintro (h | h)
      · exact Or.inl (Or.inl h)
      · rcases segEnds_eq (l := 0) i h with h | h
        · exact Or.inr ⟨rfl, h⟩
        · rw [hs.last] at h; exact Or.inl (Or.inr h)
  exact ⟨D1, D2, rfl, hsort, hfold1, hmid, hkeys2, hck2, hckp2, hW.nodup hnd1⟩

theorem realStep (A : MAlg R) {D : Diagram R ℚ} {gs : List (ℚ × ℚ)} {p : List R} (hs : RShape D gs)
    (hp : StepHyp D p) (hlcs : ∀ q ∈ keys D, 0 < deg q → lcRow q ∈ keys D) (todo : List (List R)) :
    (realExtend A D (p :: todo) = .error .diagramExc ∧ cv D (lcRow p) 0 ≠ 0 ∧
      ∃ D2, RMid D gs p D2 ∧ SegBad D2 p 0 gs) ∨
    ∃ D' gs', realExtend A D (p :: todo) = realExtend A D' todo ∧ RStep D gs p D' gs' := by
  have hpk : ∀ q ∈ keys D, q ≠ p := fun q hq h => hp.new (h ▸ hq)
  have hpck : ∀ i, i ∉ ck D p := fun i h => hp.new (mem_keys_of_ck h)
  have hlast : (1 : ℚ) ∈ segCols gs := by
    rw [← hs.last]; exact segEnds_sub _ (segLast_mem hs.ne)
  have hread : ∀ q ∈ keys D, ∀ i, i = 0 ∨ i ∈ segCols gs → dRead D q i = .ok (cv D q i) :=
    fun q hq i hi => dRead_ok ((hs.ck q hq i).2 hi)
  have hlc0 := hread _ hp.lcRow 0 (Or.inl rfl)
  have hlc1 := hread _ hp.lcRow 1 (Or.inr hlast)
  by_cases h0 : cv D (lcRow p) 0 = 0
  · right
    obtain ⟨D2, h1, h2⟩ := copyTail_ok D p hp.tail (pTail_ne hp.pos)
    have hW : ∀ q i, (q = p ∧ i ∈ ck D (pTail p)) ↔ (q = p ∧ (i = 0 ∨ i ∈ segCols gs)) := by
      intro q i; rw [hs.ck _ hp.tail]
    refine ⟨D2, gs, ?_, ?_, h2.nodup hs.nodup, ?_, Or.inl ⟨h0, rfl, ?_, ?_⟩⟩
    · conv_lhs => unfold realExtend
      simp only [hlc0]
      show (if cv D (lcRow p) 0 = 0 then _ else _) = _
      rw [if_pos h0, h1]; rfl
    · intro q
      rw [h2.keys]
      constructor
      · rintro (h | ⟨i, rfl, _⟩)
        · exact Or.inr h
        · exact Or.inl rfl
      · rintro (rfl | h)
        · exact Or.inr ⟨0, (hW q 0).2 ⟨rfl, Or.inl rfl⟩⟩
        · exact Or.inl h
    · intro q hq i
      rw [h2.ck, hW]
      by_cases hqp : q = p
      · subst hqp
        constructor
        · rintro (h | h)
          · exact absurd h (hpck i)
          · exact h.2
        · exact fun h => Or.inr ⟨rfl, h⟩
      · have hq' : q ∈ keys D := by
          rcases (h2.keys q).1 hq with h | ⟨i, h, _⟩
          · exact h
          · exact absurd h hqp
        rw [hs.ck q hq']
        constructor
        · rintro (h | ⟨h, _⟩)
          · exact h
          · exact absurd h hqp
        · exact Or.inl
    · intro q hq i
      rw [h2.old _ _ fun h => hpk q hq h.1]
    · intro i hi
      rw [h2.val p i ((hW p i).2 ⟨rfl, hi⟩)]
  · obtain ⟨D1, D2, hD1, hsort, hfold1, hmid, hkeys2, hck2, hckp2, hnd2⟩ := realMid A hs hp hlcs
    have hseg2 : SegOK D2 (keys D) gs :=
      hs.seg.congr hs.chain (fun q hq => hmid.old q hq 0) fun q hq i _ => hmid.old q hq i
    have hgf := gapFold hp.new gs 0 D2 le_rfl hs.chain
      (fun q hq => ⟨(hck2 q hq 0).2 (Or.inl rfl), fun i hi => (hck2 q hq i).2 (Or.inr hi)⟩)
      (fun i hi => (hckp2 i).2 hi) hseg2
    have hunf : realExtend A D (p :: todo) = (do
        let D ← (triples (0 :: segCols gs)).foldlM (realGapCol p (keys D)) D2
        realExtend A D todo) := by
      conv_lhs => unfold realExtend
      simp only [hlc0]
      show (if cv D (lcRow p) 0 = 0 then _ else _) = _
      rw [if_neg h0]
      simp only [hlc1]
      show (do
        let D2 ← ((triples (((dRow (dWrite (dWrite D p 0 (cv D (lcRow p) 0 * (-1) ^ deg p)) p 1 (cv D (lcRow p) 1)) []).map Prod.fst).insertionSort (· ≤ ·))).map
          fun c : ℚ × ℚ × ℚ => c.2.1).foldlM (realRootCol A p (keys D)) (dWrite (dWrite D p 0 (cv D (lcRow p) 0 * (-1) ^ deg p)) p 1 (cv D (lcRow p) 1))
        let D ← (triples (((dRow (dWrite (dWrite D p 0 (cv D (lcRow p) 0 * (-1) ^ deg p)) p 1 (cv D (lcRow p) 1)) []).map Prod.fst).insertionSort (· ≤ ·))).foldlM
          (realGapCol p (keys D)) D2
        realExtend A D todo) = _
      rw [← hD1, hsort, hfold1]; rfl
    rcases hgf with ⟨hbad, herr⟩ | ⟨D', gs', r1, r2, r3, r4, r5, r6, r7⟩
    · left
      refine ⟨?_, h0, D2, hmid, hbad⟩
      rw [hunf, herr]; rfl
    · right
      have hfacts := r7.facts hs.chain
      refine ⟨D', gs', ?_, ?_, r6 hnd2, ?_, Or.inr ⟨h0, D2, hmid, r7, fun q => r2 q 0 le_rfl⟩⟩
      · rw [hunf, r1]; rfl
      · intro q
        rw [r5, hkeys2]
      · intro q hq i
        rw [r5, hkeys2] at hq
        rw [r4 q hq.symm]
        rcases hq with rfl | hq
        · rw [hckp2]
          constructor
          · rintro ((h | h) | h)
            · exact Or.inl h
            · exact Or.inr (hfacts.2.2.2 i (segEnds_sub i h))
            · exact Or.inr h
          · rintro (h | h)
            · exact Or.inl (Or.inl h)
            · exact Or.inr h
        · rw [hck2 q hq]
          constructor
          · rintro ((h | h) | h)
            · exact Or.inl h
            · exact Or.inr (hfacts.2.2.2 i h)
            · exact Or.inr h
          · rintro (h | h)
            · exact Or.inl (Or.inl h)
            · exact Or.inr h

theorem sgnInt_ne {a b : ℤ} (ha : Sign3 a) (hb : Sign3 b) (hbad : ¬ (a = 0 ∧ b = 0))
    (h : a = b ∨ a * b = 0) : sgnInt (a + b) ≠ 0 ∧ Sign3 (sgnInt (a + b)) := by
  rcases ha with rfl | rfl | rfl <;> rcases hb with rfl | rfl | rfl <;>
    simp [sgnInt, Sign3] at hbad h ⊢

theorem segExt_ok {D D' : Diagram R ℚ} {p : List R} {rest rows : List (List R)}
    (hrows : ∀ q, q ∈ rows ↔ q = p ∨ q ∈ rest) (hD0 : ∀ q, cv D' q 0 = cv D q 0)
    (hp0 : cv D p 0 ≠ 0) {l : ℚ} {gs gs' : List (ℚ × ℚ)} (h : SegExt D D' p rest l gs gs')
    (hok : SegOK D rest gs) (hval : ∀ i, i = l ∨ i ∈ segEnds gs → Sign3 (cv D p i)) :
    SegOK D' rows gs' ∧ (∀ i ∈ segCols gs', Sign3 (cv D' p i)) ∧
      ∀ i ∈ segCols gs', ∃ j ∈ segCols gs, ∀ q ∈ rest, cv D' q i = cv D q j := by
  induction h with
  | nil l => exact ⟨trivial, by simp [segCols], by simp [segCols]⟩
  | keep l g e gs gs' hbad heq hpg hpe hqg hqe hx ih =>
    obtain ⟨o1, o2, o3⟩ := hok
    have hl := hval l (Or.inl rfl)
    have he := hval e (Or.inr (by simp [segEnds]))
    obtain ⟨i1, i2, i3⟩ := ih o3 (by
      intro i hi
      apply hval
      right
      simp only [segEnds, List.mem_cons]
      exact hi)
    obtain ⟨s1, s2⟩ := sgnInt_ne hl he hbad heq
    refine ⟨⟨?_, ?_, i1⟩, ?_, ?_⟩
    · intro q hq h0
      rcases (hrows q).1 hq with rfl | hq
      · rw [hpg]; exact s1
      · rw [hqg q hq]
        rw [hD0] at h0
        exact o1 q hq h0
    · intro hne
      have : gs ≠ [] := by
        rintro rfl
        cases hx
        exact hne rfl
      obtain ⟨q, hq, a, b⟩ := o2 this
      exact ⟨q, (hrows q).2 (Or.inr hq), by rw [hqe q hq, a], by rw [hD0]; exact b⟩
    · intro i hi
      simp only [segCols, List.mem_cons] at hi
      rcases hi with rfl | rfl | hi
      · rw [hpg]; exact s2
      · rw [hpe]; exact he
      · exact i2 i hi
    · intro i hi
      simp only [segCols, List.mem_cons] at hi
      rcases hi with rfl | rfl | hi
      · exact ⟨i, by simp [segCols], hqg⟩
      · exact ⟨i, by simp [segCols], hqe⟩
      · obtain ⟨j, hj, h⟩ := i3 i hi
        exact ⟨j, by simp [segCols, hj], h⟩
  | split l g e gs gs' hne hne0 hp1 hpg hp2 hpe hq1 hqg hq2 hqe hx ih =>
    obtain ⟨o1, o2, o3⟩ := hok
    have hl := hval l (Or.inl rfl)
    have he := hval e (Or.inr (by simp [segEnds]))
    obtain ⟨i1, i2, i3⟩ := ih o3 (by
      intro i hi
      apply hval
      right
      simp only [segEnds, List.mem_cons]
      exact hi)
    have hl0 : cv D p l ≠ 0 := fun h => hne0 (by rw [h, zero_mul])
    have he0 : cv D p e ≠ 0 := fun h => hne0 (by rw [h, mul_zero])
    refine ⟨⟨?_, ?_, ?_, ?_, i1⟩, ?_, ?_⟩
    · intro q hq h0
      rcases (hrows q).1 hq with rfl | hq
      · rw [hp1]; exact hl0
      · rw [hq1 q hq]
        rw [hD0] at h0
        exact o1 q hq h0
    · intro _
      exact ⟨p, (hrows p).2 (Or.inl rfl), hpg, by rw [hD0]; exact hp0⟩
    · intro q hq h0
      rcases (hrows q).1 hq with rfl | hq
      · rw [hp2]; exact he0
      · rw [hq2 q hq]
        rw [hD0] at h0
        exact o1 q hq h0
    · intro hne
      have : gs ≠ [] := by
        rintro rfl
        cases hx
        exact hne rfl
      obtain ⟨q, hq, a, b⟩ := o2 this
      exact ⟨q, (hrows q).2 (Or.inr hq), by rw [hqe q hq, a], by rw [hD0]; exact b⟩
    · intro i hi
      simp only [segCols, List.mem_cons] at hi
      rcases hi with rfl | rfl | rfl | rfl | hi
      · rw [hp1]; exact hl
      · rw [hpg]; exact Or.inr (Or.inl rfl)
      · rw [hp2]; exact he
      · rw [hpe]; exact he
      · exact i2 i hi
    · intro i hi
      simp only [segCols, List.mem_cons] at hi
      rcases hi with rfl | rfl | rfl | rfl | hi
      · exact ⟨g, by simp [segCols], hq1⟩
      · exact ⟨i, by simp [segCols], hqg⟩
      · exact ⟨g, by simp [segCols], hq2⟩
      · exact ⟨i, by simp [segCols], hqe⟩
      · obtain ⟨j, hj, h⟩ := i3 i hi
        exact ⟨j, by simp [segCols, hj], h⟩

theorem Sign3.neg {v : ℤ} (h : Sign3 v) : Sign3 (-v) := by
  rcases h with rfl | rfl | rfl <;> simp [Sign3]

theorem Sign3.mul_pow {v : ℤ} (h : Sign3 v) (n : ℕ) : Sign3 (v * (-1) ^ n) := by
  rcases neg_one_pow_eq_or ℤ n with h' | h' <;> rw [h']
  · rwa [mul_one]
  · rw [mul_neg_one]; exact h.neg

theorem rstep_shape {D D' : Diagram R ℚ} {gs gs' : List (ℚ × ℚ)} {p : List R} (hs : RShape D gs)
    (hp : StepHyp D p) (h : RStep D gs p D' gs') : RShape D' gs' := by
  rcases h.cases with ⟨_, rfl, hold, hnew⟩ | ⟨h0, D2, hmid, hext, hcol0⟩
  · refine ⟨hs.ne, hs.chain, hs.last, h.ck, h.nodup, (h.keys _).2 (Or.inr hs.zero), ?_, ?_, ?_⟩
    · have hseg := hs.seg
      have key : ∀ gs'' : List (ℚ × ℚ), (∀ i ∈ segCols gs'', i ∈ segCols gs') →
          SegOK D (keys D) gs'' → SegOK D' (keys D') gs'' := by
        intro gs''
        induction gs'' with
        | nil => intros; trivial
        | cons x gs'' ih =>
          obtain ⟨g, e⟩ := x
          rintro hsub ⟨o1, o2, o3⟩
          have hg := hsub g (by simp [segCols])
          refine ⟨?_, ?_, ih (fun i hi => hsub i (by simp [segCols, hi])) o3⟩
          · intro q hq hq0
            rcases (h.keys q).1 hq with rfl | hq
            · rw [hnew 0 (Or.inl rfl)] at hq0
              rw [hnew g (Or.inr hg)]
              exact o1 _ hp.tail hq0
            · rw [hold q hq] at hq0 ⊢
              exact o1 q hq hq0
          · intro hne
            obtain ⟨q, hq, a, b⟩ := o2 hne
            exact ⟨q, (h.keys q).2 (Or.inr hq), by rw [hold q hq, a], by rw [hold q hq]; exact b⟩
      exact key gs' (fun _ h => h) hseg
    · intro q hq i hi
      rcases (h.keys q).1 hq with rfl | hq
      · rw [hnew i hi]; exact hs.val _ hp.tail i hi
      · rw [hold q hq]; exact hs.val q hq i hi
    · intro q hq hd hq0 i hi
      rcases (h.keys q).1 hq with rfl | hq
      · have := hp.pos; omega
      · rw [hold q hq] at hq0 ⊢
        exact hs.const q hq hd hq0 i hi
  · have hfacts := hext.facts hs.chain
    have hlastmem : (1 : ℚ) ∈ segCols gs := by
      rw [← hs.last]; exact segEnds_sub _ (segLast_mem hs.ne)
    have hval : ∀ i, i = 0 ∨ i ∈ segEnds gs → Sign3 (cv D2 p i) := by
      intro i hi
      rcases hi with rfl | hi
      · rw [hmid.bot]
        exact (hs.val _ hp.lcRow 0 (Or.inl rfl)).mul_pow _
      · rcases segEnds_eq (l := 0) i hi with h' | h'
        · obtain ⟨q, _, _, _, _, _, r, hr, _, _, hv⟩ := hmid.root i h'
          have := hs.val r hr i (Or.inr (segEnds_sub i hi))
          rw [hv]
          split
          · exact this.neg
          · exact this
        · rw [hs.last] at h'
          subst h'
          rw [hmid.top]
          exact hs.val _ hp.lcRow 1 (Or.inr hlastmem)
    have hp0 : cv D2 p 0 ≠ 0 := by
      rw [hmid.bot]
      exact mul_ne_zero h0 (pow_ne_zero _ (by decide))
    have hseg2 : SegOK D2 (keys D) gs :=
      hs.seg.congr hs.chain (fun q hq => hmid.old q hq 0) fun q hq i _ => hmid.old q hq i
    obtain ⟨k1, k2, k3⟩ := segExt_ok h.keys hcol0 hp0 hext hseg2 hval
    have hcol : ∀ i, i = 0 ∨ i ∈ segCols gs' → ∃ j, (j = 0 ∨ j ∈ segCols gs) ∧
        ∀ q ∈ keys D, cv D' q i = cv D q j := by
      intro i hi
      rcases hi with rfl | hi
      · exact ⟨0, Or.inl rfl, fun q hq => by rw [hcol0, hmid.old q hq]⟩
      · obtain ⟨j, hj, h'⟩ := k3 i hi
        exact ⟨j, Or.inr hj, fun q hq => by rw [h' q hq, hmid.old q hq]⟩
    refine ⟨fun h' => hs.ne (hfacts.2.2.1.1 h'), hfacts.1, hfacts.2.1.trans hs.last, h.ck, h.nodup,
      (h.keys _).2 (Or.inr hs.zero), k1, ?_, ?_⟩
    · intro q hq i hi
      rcases (h.keys q).1 hq with rfl | hq
      · rcases hi with rfl | hi
        · rw [hcol0]; exact hval 0 (Or.inl rfl)
        · exact k2 i hi
      · obtain ⟨j, hj, h'⟩ := hcol i hi
        rw [h' q hq]
        exact hs.val q hq j hj
    · intro q hq hd hq0 i hi
      rcases (h.keys q).1 hq with rfl | hq
      · have := hp.pos; omega
      · obtain ⟨j, hj, h'⟩ := hcol i hi
        rw [h' q hq]
        rw [hcol0, hmid.old q hq] at hq0
        exact hs.const q hq hd hq0 j hj

end Verif.Qe
