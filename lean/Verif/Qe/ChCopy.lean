import Verif.Qe.ChModel
import Verif.Qe.RealFull

/-!
# `copy_table`
-/

set_option linter.unusedSectionVars false

namespace Verif.Qe

variable {R : Type} [CommRing R] [DecidableEq R]

/-- the sign of a constant: known without the table -/
def cval (A : MAlg R) (c : Ctx R) (p : List R) : Option ℤ :=
  if hasVariable A p = false then some (A.sign (p.headD 0)) else dGet c (p.headD 0)

/-- the value of `table_lookup` -/
def tv (A : MAlg R) (c : Ctx R) (T : Table R) (p : List R) (i : ℚ) : ℤ :=
  if 0 < deg p then cv T p i else (cval A c p).getD 0

/-- The form of sign tables. -/
structure TShape (A : MAlg R) (c : Ctx R) (T : Table R) (rows : List (List R))
    (gs : List (ℚ × ℚ)) : Prop where
  ne : gs ≠ []
  chain : SegChain 0 gs
  last : segLast 0 gs = 1
  keys : ∀ q, q ∈ keys T ↔ q ∈ rows
  ck : ∀ q ∈ rows, ∀ i, i ∈ ck T q ↔ i = 0 ∨ i ∈ segCols gs
  nodup : ∀ q, (Verif.Qe.ck T q).Nodup
  seg : SegOK T rows gs
  val : ∀ q ∈ rows, ∀ i, i = 0 ∨ i ∈ segCols gs → Sign3 (cv T q i)
  const : ∀ q ∈ rows, deg q = 0 → ∀ i, i = 0 ∨ i ∈ segCols gs → cval A c q = some (cv T q i)

theorem sorted_of_ck {l : List ℚ} {gs : List (ℚ × ℚ)} (hc : SegChain 0 gs) (hn : l.Nodup)
    (hl : ∀ i, i ∈ l ↔ i = 0 ∨ i ∈ segCols gs) : l.insertionSort (· ≤ ·) = 0 :: segCols gs := by
  have hs := segCols_sorted hc
  have hnd : (0 :: segCols gs).Nodup := hs.imp fun h => h.ne
  have hp : l.Perm (0 :: segCols gs) := by
    rw [List.perm_ext_iff_of_nodup hn hnd]
    intro i
    rw [hl, List.mem_cons]
  exact List.Perm.eq_of_pairwise (le := (· ≤ ·)) (fun a b _ _ => le_antisymm)
    (List.pairwise_insertionSort _ _) (hs.imp fun h => le_of_lt h)
    ((List.perm_insertionSort _ _).trans hp)

theorem TShape.one_mem {A : MAlg R} {c : Ctx R} {T : Table R} {rows : List (List R)}
    {gs : List (ℚ × ℚ)} (h : TShape A c T rows gs) : (1 : ℚ) ∈ segCols gs := by
  rw [← h.last]; exact segEnds_sub _ (segLast_mem h.ne)

theorem TShape.tv_row {A : MAlg R} {c : Ctx R} {T : Table R} {rows : List (List R)}
    {gs : List (ℚ × ℚ)} (h : TShape A c T rows gs) {q : List R} (hq : q ∈ rows) {i : ℚ}
    (hi : i = 0 ∨ i ∈ segCols gs) : tv A c T q i = cv T q i := by
  unfold tv
  split
  · rfl
  · rw [h.const q hq (by omega) i hi]; rfl

theorem tableLookup_ok {A : MAlg R} {c : Ctx R} {T : Table R} {rows : List (List R)}
    {gs : List (ℚ × ℚ)} (h : TShape A c T rows gs) {p : List R} (hpos : 0 < deg p → p ∈ rows)
    (hconst : deg p = 0 → ∃ v, cval A c p = some v) {i : ℚ} (hi : i = 0 ∨ i ∈ segCols gs) :
    tableLookup A T p i c = .ok (tv A c T p i) := by
  unfold tableLookup tv
  by_cases hd : 0 < deg p
  · rw [if_pos hd, if_pos hd]
    exact dRead_ok ((h.ck p (hpos hd) i).2 hi)
  · rw [if_neg hd, if_neg hd]
    obtain ⟨v, hv⟩ := hconst (by omega)
    unfold cval at hv ⊢
    by_cases hh : hasVariable A p = false
    · rw [if_pos hh, if_pos hh]; rfl
    · rw [if_neg hh] at hv
      rw [if_neg hh, if_neg hh, hv]; rfl

/-! ### The condensed list of columns -/

/-- Keep the ends with `sel` (and the last one); `g` is the column that stands for the current interval. -/
def condSeg (sel : ℚ → Bool) : ℚ → List (ℚ × ℚ) → List (ℚ × ℚ)
  | _, [] => []
  | g, [(_, e)] => [(g, e)]
  | g, (_, e) :: (g', e') :: gs =>
    if sel e then (g, e) :: condSeg sel g' ((g', e') :: gs) else condSeg sel g ((g', e') :: gs)

theorem condSeg_head (sel : ℚ → Bool) : ∀ gs : List (ℚ × ℚ), gs ≠ [] →
    ∃ e r, e ∈ segEnds gs ∧ ∀ g, condSeg sel g gs = (g, e) :: r := by
  intro gs
  induction gs with
  | nil => intro h; exact absurd rfl h
  | cons x gs ih =>
    intro _
    obtain ⟨g1, e1⟩ := x
    cases gs with
    | nil => exact ⟨e1, [], by simp [segEnds], fun g => rfl⟩
    | cons y gs =>
      obtain ⟨g', e'⟩ := y
      by_cases hs : sel e1 = true
      · exact ⟨e1, condSeg sel g' ((g', e') :: gs), by simp [segEnds], fun g => by
          rw [condSeg, if_pos hs]⟩
      · obtain ⟨e, r, he, h⟩ := ih (by simp)
        refine ⟨e, r, ?_, fun g => ?_⟩
        · rw [show segEnds ((g1, e1) :: (g', e') :: gs) = e1 :: segEnds ((g', e') :: gs) from rfl]
          exact List.mem_cons_of_mem _ he
        · rw [condSeg, if_neg hs, h]

theorem condSeg_chain (sel : ℚ → Bool) : ∀ (gs : List (ℚ × ℚ)) (l l0 g : ℚ), SegChain l gs → l0 < g →
    (∀ i ∈ segEnds gs, g < i) →
    SegChain l0 (condSeg sel g gs) ∧ (gs ≠ [] → segLast l0 (condSeg sel g gs) = segLast l gs) := by
  intro gs
  induction gs with
  | nil => intro l l0 g _ _ _; exact ⟨trivial, fun h => absurd rfl h⟩
  | cons x gs ih =>
    obtain ⟨g1, e1⟩ := x
    rintro l l0 g ⟨c1, c2, c3⟩ h0 hg
    have hge : g < e1 := hg e1 (by simp [segEnds])
    cases gs with
    | nil => exact ⟨⟨h0, hge, trivial⟩, fun _ => rfl⟩
    | cons y gs =>
      obtain ⟨g', e'⟩ := y
      rw [condSeg]
      by_cases hs : sel e1 = true
      · rw [if_pos hs]
        obtain ⟨i1, i2⟩ := ih e1 e1 g' c3 c3.1 (by
          intro i hi
          rcases List.mem_cons.1 hi with rfl | hi
          · exact c3.2.1
          · exact c3.2.1.trans (segChain_lt c3.2.2 i (segEnds_sub i hi)))
        exact ⟨⟨h0, hge, i1⟩, fun _ => i2 (by simp)⟩
      · rw [if_neg hs]
        obtain ⟨i1, i2⟩ := ih e1 l0 g c3 h0 (fun i hi => hg i (List.mem_cons_of_mem _ hi))
        exact ⟨i1, fun _ => i2 (by simp)⟩

theorem condSeg_mem (sel : ℚ → Bool) : ∀ (gs : List (ℚ × ℚ)) (l g i : ℚ), gs ≠ [] →
    (∀ g ∈ segGaps gs, sel g = false) →
    ((i = segLast l gs ∨ ∃ t ∈ triples (l :: segCols gs), sel t.2.1 = true ∧ (i = t.2.1 ∨ i = t.2.2)) ↔
      i ∈ (segCols (condSeg sel g gs)).tail) := by
  intro gs
  induction gs with
  | nil => intro _ _ _ h; exact absurd rfl h
  | cons x gs ih =>
    obtain ⟨g1, e1⟩ := x
    intro l g i _ hgap
    cases gs with
    | nil =>
      have : sel g1 = false := hgap g1 (by simp [segGaps])
      simp [condSeg, segCols, segLast, triples, this]
    | cons y gs =>
      obtain ⟨g', e'⟩ := y
      have h1 : sel g1 = false := hgap g1 (by simp [segGaps])
      have htr : triples (l :: segCols ((g1, e1) :: (g', e') :: gs)) =
        (l, g1, e1) :: (g1, e1, g') :: triples (e1 :: segCols ((g', e') :: gs)) := rfl
      have hlast : segLast l ((g1, e1) :: (g', e') :: gs) = segLast e1 ((g', e') :: gs) := rfl
      have hgap' : ∀ g ∈ segGaps ((g', e') :: gs), sel g = false := fun g hg =>
        hgap g (by rw [segGaps]; exact List.mem_cons_of_mem _ hg)
      rw [htr, hlast, condSeg]
      by_cases hs : sel e1 = true
      · rw [if_pos hs]
        have hih := ih e1 g' i (by simp) hgap'
        obtain ⟨e, r, _, hr⟩ := condSeg_head sel ((g', e') :: gs) (by simp)
        rw [hr] at hih ⊢
        have : (segCols ((g, e1) :: (g', e) :: r)).tail = e1 :: g' :: (segCols ((g', e) :: r)).tail := rfl
        rw [this, List.mem_cons, List.mem_cons, ← hih]
        constructor
        · rintro (h | ⟨t, ht, h2, h3⟩)
          · exact Or.inr (Or.inr (Or.inl h))
          · rcases List.mem_cons.1 ht with rfl | ht
            · rw [h1] at h2; cases h2
            · rcases List.mem_cons.1 ht with rfl | ht
              · rcases h3 with h3 | h3
                · exact Or.inl h3
                · exact Or.inr (Or.inl h3)
              · exact Or.inr (Or.inr (Or.inr ⟨t, ht, h2, h3⟩))
        · rintro (h | h | h | ⟨t, ht, h2, h3⟩)
          · exact Or.inr ⟨(g1, e1, g'), by simp, hs, Or.inl h⟩
          · exact Or.inr ⟨(g1, e1, g'), by simp, hs, Or.inr h⟩
          · exact Or.inl h
          · exact Or.inr ⟨t, by simp [ht], h2, h3⟩
      · rw [if_neg hs, ← ih e1 g i (by simp) hgap']
        constructor
        · rintro (h | ⟨t, ht, h2, h3⟩)
          · exact Or.inl h
          · rcases List.mem_cons.1 ht with rfl | ht
            · rw [h1] at h2; cases h2
            · rcases List.mem_cons.1 ht with rfl | ht
              · exact absurd h2 hs
              · exact Or.inr ⟨t, ht, h2, h3⟩
        · rintro (h | ⟨t, ht, h2, h3⟩)
          · exact Or.inl h
          · exact Or.inr ⟨t, by simp [ht], h2, h3⟩

/-- The columns other than the first are columns of the given list. -/
theorem condSeg_sub (sel : ℚ → Bool) : ∀ (gs : List (ℚ × ℚ)) (g : ℚ),
    ∀ i ∈ (segCols (condSeg sel g gs)).tail, i ∈ segCols gs := by
  intro gs
  induction gs with
  | nil => intro g i hi; simp [condSeg, segCols] at hi
  | cons x gs ih =>
    obtain ⟨g1, e1⟩ := x
    intro g i hi
    cases gs with
    | nil => simp [condSeg, segCols] at hi; simp [segCols, hi]
    | cons y gs =>
      obtain ⟨g', e'⟩ := y
      rw [condSeg] at hi
      rw [show segCols ((g1, e1) :: (g', e') :: gs) = g1 :: e1 :: segCols ((g', e') :: gs) from rfl]
      by_cases hs : sel e1 = true
      · rw [if_pos hs] at hi
        obtain ⟨e, r, _, hr⟩ := condSeg_head sel ((g', e') :: gs) (by simp)
        have hih := ih g' i
        rw [hr] at hi hih
        have : (segCols ((g, e1) :: (g', e) :: r)).tail = e1 :: g' :: (segCols ((g', e) :: r)).tail := rfl
        rw [this] at hi
        rcases List.mem_cons.1 hi with rfl | hi
        · simp
        · rcases List.mem_cons.1 hi with rfl | hi
          · simp [segCols]
          · exact List.mem_cons_of_mem _ (List.mem_cons_of_mem _ (hih hi))
      · rw [if_neg hs] at hi
        exact List.mem_cons_of_mem _ (List.mem_cons_of_mem _ (ih g i hi))

/-- Interval columns of the condensed list. -/
theorem condSeg_gaps (sel : ℚ → Bool) : ∀ (gs : List (ℚ × ℚ)) (g : ℚ),
    ∀ i ∈ segGaps (condSeg sel g gs), i = g ∨ i ∈ segGaps gs := by
  intro gs
  induction gs with
  | nil => intro g i hi; simp [condSeg, segGaps] at hi
  | cons x gs ih =>
    obtain ⟨g1, e1⟩ := x
    intro g i hi
    cases gs with
    | nil => simp [condSeg, segGaps] at hi; exact Or.inl hi
    | cons y gs =>
      obtain ⟨g', e'⟩ := y
      rw [condSeg] at hi
      by_cases hs : sel e1 = true
      · rw [if_pos hs, segGaps] at hi
        rcases List.mem_cons.1 hi with rfl | hi
        · exact Or.inl rfl
        · right
          rw [segGaps]
          refine List.mem_cons_of_mem _ ?_
          rcases ih g' i hi with rfl | h
          · simp [segGaps]
          · exact h
      · rw [if_neg hs] at hi
        rcases ih g i hi with h | h
        · exact Or.inl h
        · right; rw [segGaps]; exact List.mem_cons_of_mem _ h

theorem condSeg_inner (sel : ℚ → Bool) : ∀ (gs : List (ℚ × ℚ)) (g : ℚ),
    ∀ i ∈ segInner (condSeg sel g gs), i ∈ segInner gs ∧ sel i = true := by
  intro gs
  induction gs with
  | nil => intro g i hi; simp [condSeg, segInner] at hi
  | cons x gs ih =>
    obtain ⟨g1, e1⟩ := x
    intro g i hi
    cases gs with
    | nil => simp [condSeg, segInner] at hi
    | cons y gs =>
      obtain ⟨g', e'⟩ := y
      rw [condSeg] at hi
      rw [show segInner ((g1, e1) :: (g', e') :: gs) = e1 :: segInner ((g', e') :: gs) from rfl]
      by_cases hs : sel e1 = true
      · rw [if_pos hs] at hi
        obtain ⟨e, r, _, hr⟩ := condSeg_head sel ((g', e') :: gs) (by simp)
        have hih := ih g' i
        rw [hr] at hi hih
        rw [show segInner ((g, e1) :: (g', e) :: r) = e1 :: segInner ((g', e) :: r) from rfl] at hi
        rcases List.mem_cons.1 hi with rfl | hi
        · exact ⟨by simp, hs⟩
        · exact ⟨List.mem_cons_of_mem _ (hih hi).1, (hih hi).2⟩
      · rw [if_neg hs] at hi
        obtain ⟨h1, h2⟩ := ih g i hi
        exact ⟨List.mem_cons_of_mem _ h1, h2⟩

theorem segOK_of {D : Diagram R ℚ} {rows : List (List R)} : ∀ {gs : List (ℚ × ℚ)},
    (∀ g ∈ segGaps gs, ∀ q ∈ rows, cv D q 0 ≠ 0 → cv D q g ≠ 0) →
    (∀ e ∈ segInner gs, ∃ q ∈ rows, cv D q e = 0 ∧ cv D q 0 ≠ 0) → SegOK D rows gs := by
  intro gs
  induction gs with
  | nil => intros; trivial
  | cons x gs ih =>
    obtain ⟨g, e⟩ := x
    intro h1 h2
    refine ⟨h1 g (by simp [segGaps]), ?_, ih (fun g' hg' => h1 g' (by rw [segGaps]; simp [hg'])) ?_⟩
    · intro hne
      cases gs with
      | nil => exact absurd rfl hne
      | cons y gs => exact h2 e (by simp [segInner])
    · intro e' he'
      cases gs with
      | nil => simp [segInner] at he'
      | cons y gs => exact h2 e' (by rw [segInner]; exact List.mem_cons_of_mem _ he')

/-! ### The columns that are copied -/

theorem colAdd_sorted {q : ℚ} {l : List ℚ} (h : l.Pairwise (· < ·)) : (colAdd q l).Pairwise (· < ·) := by
  unfold colAdd
  split
  · exact h
  · rename_i hq
    have h1 : (l.orderedInsert (· ≤ ·) q).Pairwise (· ≤ ·) :=
      List.Pairwise.orderedInsert q l (h.imp fun h => le_of_lt h)
    have h2 : (l.orderedInsert (· ≤ ·) q).Nodup := by
      rw [(List.perm_orderedInsert _ q l).nodup_iff, List.nodup_cons]
      exact ⟨hq, h.imp fun h => h.ne⟩
    exact (h1.and h2).imp fun h => lt_of_le_of_ne h.1 h.2

theorem mem_colAdd {q i : ℚ} {l : List ℚ} : i ∈ colAdd q l ↔ i = q ∨ i ∈ l := by
  unfold colAdd
  split
  · rename_i h
    exact ⟨Or.inr, fun h' => h'.elim (fun h' => h' ▸ h) id⟩
  · rw [List.mem_orderedInsert]

theorem copyRoots_ok {A : MAlg R} {c : Ctx R} {T : Table R} {rows : List (List R)}
    {gs : List (ℚ × ℚ)} (h : TShape A c T rows gs) (p : List R) (cc : List ℚ)
    (hcc : cc.Pairwise (· < ·)) :
    ∃ cc', copyRoots T (triples (0 :: segCols gs)) cc p = .ok cc' ∧ cc'.Pairwise (· < ·) ∧
      ∀ i, i ∈ cc' ↔ i ∈ cc ∨ ∃ t ∈ triples (0 :: segCols gs),
        (p ∈ rows ∧ cv T p 0 ≠ 0 ∧ cv T p t.2.1 = 0) ∧ (i = t.2.1 ∨ i = t.2.2) := by
  unfold copyRoots
  by_cases hp : p ∈ rows
  · obtain ⟨row, hrow⟩ := (dGet_isSome T p).1 ((h.keys p).2 hp)
    rw [hrow]
    simp only [dRead_ok ((h.ck p hp 0).2 (Or.inl rfl))]
    show ∃ cc', (if cv T p 0 = 0 then _ else _) = _ ∧ _
    by_cases h0 : cv T p 0 = 0
    · rw [if_pos h0]
      refine ⟨cc, rfl, hcc, fun i => ⟨Or.inl, ?_⟩⟩
      rintro (h' | ⟨_, _, h', _⟩)
      · exact h'
      · exact absurd h0 h'.2.1
    · rw [if_neg h0]
      obtain ⟨cc', e1, e2, e3⟩ := foldlM_inv (fun (cc : List ℚ) (t : ℚ × ℚ × ℚ) => do
          let v ← dRead T p t.2.1
          if v = 0 then .ok (colAdd t.2.2 (colAdd t.2.1 cc)) else (.ok cc : Except QErr (List ℚ)))
        (fun done cc' => cc'.Pairwise (· < ·) ∧ ∀ i, i ∈ cc' ↔ i ∈ cc ∨ ∃ t ∈ done,
          (p ∈ rows ∧ cv T p 0 ≠ 0 ∧ cv T p t.2.1 = 0) ∧ (i = t.2.1 ∨ i = t.2.2))
        (triples (0 :: segCols gs)) [] cc ⟨hcc, by simp⟩ (by
          rintro done t cc' ⟨hs, hm⟩ ht
          have hcol : t.2.1 ∈ ck T p := by
            rw [h.ck p hp]
            rcases (mem_triples gs 0 t.2.1).1 (List.mem_map_of_mem ht) with h' | h'
            · exact Or.inr (segGaps_sub _ h')
            · exact Or.inr (segEnds_sub _ (segInner_sub _ h'))
          simp only [dRead_ok hcol]
          show ∃ s', (if cv T p t.2.1 = 0 then _ else _) = _ ∧ _
          by_cases hv : cv T p t.2.1 = 0
          · rw [if_pos hv]
            refine ⟨_, rfl, colAdd_sorted (colAdd_sorted hs), ?_⟩
            intro i
            rw [mem_colAdd, mem_colAdd, hm]
            constructor
            · rintro (h' | h' | h' | ⟨t', ht', h'⟩)
              · exact Or.inr ⟨t, by simp, ⟨hp, h0, hv⟩, Or.inr h'⟩
              · exact Or.inr ⟨t, by simp, ⟨hp, h0, hv⟩, Or.inl h'⟩
              · exact Or.inl h'
              · exact Or.inr ⟨t', by simp [ht'], h'⟩
            · rintro (h' | ⟨t', ht', h1, h2⟩)
              · exact Or.inr (Or.inr (Or.inl h'))
              · rcases List.mem_append.1 ht' with ht' | ht'
                · exact Or.inr (Or.inr (Or.inr ⟨t', ht', h1, h2⟩))
                · rw [List.mem_singleton] at ht'
                  subst ht'
                  rcases h2 with h2 | h2
                  · exact Or.inr (Or.inl h2)
                  · exact Or.inl h2
          · rw [if_neg hv]
            refine ⟨_, rfl, hs, ?_⟩
            intro i
            rw [hm]
            constructor
            · rintro (h' | ⟨t', ht', h'⟩)
              · exact Or.inl h'
              · exact Or.inr ⟨t', by simp [ht'], h'⟩
            · rintro (h' | ⟨t', ht', h1, h2⟩)
              · exact Or.inl h'
              · rcases List.mem_append.1 ht' with ht' | ht'
                · exact Or.inr ⟨t', ht', h1, h2⟩
                · rw [List.mem_singleton] at ht'
                  subst ht'
                  exact absurd h1.2.2 hv)
      exact ⟨cc', e1, e2, e3⟩
  · rw [dGet_none T p fun h' => hp ((h.keys p).1 h')]
    refine ⟨cc, rfl, hcc, fun i => ⟨Or.inl, ?_⟩⟩
    rintro (h' | ⟨_, _, h', _⟩)
    · exact h'
    · exact absurd h'.1 hp

/-- the columns of roots of the needed polynomials -/
def selOf (T : Table R) (rows needed : List (List R)) (e : ℚ) : Bool :=
  needed.any fun p => decide (p ∈ rows ∧ cv T p 0 ≠ 0 ∧ cv T p e = 0)

theorem selOf_iff {T : Table R} {rows needed : List (List R)} {e : ℚ} :
    selOf T rows needed e = true ↔ ∃ p ∈ needed, p ∈ rows ∧ cv T p 0 ≠ 0 ∧ cv T p e = 0 := by
  unfold selOf
  rw [List.any_eq_true]
  simp only [decide_eq_true_eq]

theorem TShape.selOf_gap {A : MAlg R} {c : Ctx R} {T : Table R} {rows : List (List R)}
    {gs : List (ℚ × ℚ)} (h : TShape A c T rows gs) (needed : List (List R)) :
    ∀ g ∈ segGaps gs, selOf T rows needed g = false := by
  intro g hg
  by_contra hs
  obtain ⟨p, _, h1, h2, h3⟩ := selOf_iff.1 (by simpa using hs)
  exact h.seg.gap g hg p h1 h2 h3

theorem copyCols_spec {A : MAlg R} {c : Ctx R} {T : Table R} {rows : List (List R)}
    {gs : List (ℚ × ℚ)} (h : TShape A c T rows gs) (needed : List (List R)) (g : ℚ) (hg0 : 0 < g)
    (hg : ∀ i ∈ segEnds gs, g < i) :
    needed.foldlM (copyRoots T (triples (0 :: segCols gs))) [0, 1] =
      .ok (0 :: (segCols (condSeg (selOf T rows needed) g gs)).tail) := by
  obtain ⟨cc, e1, e2, e3⟩ := foldlM_inv (copyRoots T (triples (0 :: segCols gs)))
    (fun done cc => cc.Pairwise (· < ·) ∧ ∀ i, i ∈ cc ↔ (i = 0 ∨ i = 1) ∨ ∃ p ∈ done,
      ∃ t ∈ triples (0 :: segCols gs),
        (p ∈ rows ∧ cv T p 0 ≠ 0 ∧ cv T p t.2.1 = 0) ∧ (i = t.2.1 ∨ i = t.2.2)) needed [] [0, 1]
    ⟨by simp, by simp⟩ (by
      rintro done p cc ⟨h1, h2⟩ _
      obtain ⟨cc', a1, a2, a3⟩ := copyRoots_ok h p cc h1
      refine ⟨cc', a1, a2, ?_⟩
      intro i
      rw [a3, h2]
      constructor
      · rintro ((h' | ⟨q, hq, h'⟩) | h')
        · exact Or.inl h'
        · exact Or.inr ⟨q, by simp [hq], h'⟩
        · exact Or.inr ⟨p, by simp, h'⟩
      · rintro (h' | ⟨q, hq, h'⟩)
        · exact Or.inl (Or.inl h')
        · rcases List.mem_append.1 hq with hq | hq
          · exact Or.inl (Or.inr ⟨q, hq, h'⟩)
          · rw [List.mem_singleton] at hq
            subst hq
            exact Or.inr h')
  rw [e1]
  congr 1
  rw [List.nil_append] at e3
  obtain ⟨hch, _⟩ := condSeg_chain (selOf T rows needed) gs 0 0 g h.chain hg0 hg
  have hsub : (0 :: (segCols (condSeg (selOf T rows needed) g gs)).tail).Pairwise (· < ·) :=
    (segCols_sorted hch).sublist (List.Sublist.cons_cons _ (List.tail_sublist _))
  refine List.Perm.eq_of_pairwise (le := (· < ·)) (fun a b _ _ h1 h2 => absurd h2 h1.asymm) e2 hsub ?_
  rw [List.perm_ext_iff_of_nodup (e2.imp fun h => h.ne) (hsub.imp fun h => h.ne)]
  intro i
  rw [e3, List.mem_cons, ← condSeg_mem _ gs 0 g i h.ne (h.selOf_gap needed), h.last, or_assoc]
  refine or_congr Iff.rfl (or_congr Iff.rfl ?_)
  simp only [selOf_iff]
  constructor
  · rintro ⟨p, hp, t, ht, h1, h2⟩
    exact ⟨t, ht, ⟨p, hp, h1⟩, h2⟩
  · rintro ⟨t, ht, ⟨p, hp, h1⟩, h2⟩
    exact ⟨p, hp, t, ht, h1, h2⟩

/-! ### The table -/

theorem dGet_map {l : List ℚ} {f : ℚ → ℤ} {i : ℚ} (hi : i ∈ l) :
    dGet (l.map fun col => (col, f col)) i = some (f i) := by
  induction l with
  | nil => simp at hi
  | cons a l ih =>
    unfold dGet at ih ⊢
    rw [List.map_cons, List.find?_cons]
    by_cases h : a = i
    · subst h; simp
    · simp only [h, decide_false]
      exact ih ((List.mem_cons.1 hi).resolve_left fun h' => h h'.symm)

theorem dGet_foldl_dSet {β : Type} (rowOf : List R → β) :
    ∀ (needed : List (List R)) (ret : List (List R × β)) (q : List R),
    dGet (needed.foldl (fun ret p => dSet ret p (rowOf p)) ret) q =
      if q ∈ needed then some (rowOf q) else dGet ret q := by
  intro needed
  induction needed with
  | nil => intro ret q; simp
  | cons p needed ih =>
    intro ret q
    rw [List.foldl_cons, ih]
    by_cases h : q ∈ needed
    · rw [if_pos h, if_pos (by simp [h])]
    · rw [if_neg h, dGet_dSet]
      by_cases hp : p = q
      · subst hp; simp
      · rw [if_neg hp, if_neg]
        rintro h'
        rcases List.mem_cons.1 h' with h' | h'
        · exact hp h'.symm
        · exact h h'

theorem foldlM_eq_foldl {ε σ α : Type} (f : σ → α → Except ε σ) (g : σ → α → σ) :
    ∀ (l : List α) (s : σ), (∀ s, ∀ a ∈ l, f s a = .ok (g s a)) → l.foldlM f s = .ok (l.foldl g s) := by
  intro l
  induction l with
  | nil => intro s _; rfl
  | cons a l ih =>
    intro s h
    rw [List.foldlM_cons, h s a (by simp)]
    exact ih _ fun s' b hb => h s' b (by simp [hb])

theorem copyTable_ok {A : MAlg R} {c : Ctx R} {T : Table R} {rows : List (List R)}
    {gs : List (ℚ × ℚ)} (h : TShape A c T rows gs) (hrows : rows ≠ []) {needed : List (List R)}
    (hne : needed ≠ []) (hpos : ∀ p ∈ needed, 0 < deg p → p ∈ rows)
    (hconst : ∀ p ∈ needed, deg p = 0 → ∃ v, Sign3 v ∧ cval A c p = some v) :
    ∃ T' b, copyTable A T needed c = .ok T' ∧
      (0 < b ∧ ∀ i ∈ segEnds (condSeg (selOf T rows needed) b gs), b < i) ∧
      TShape A c T' needed (condSeg (selOf T rows needed) b gs) ∧
      ∀ p ∈ needed, cv T' p b = tv A c T p 0 ∧
        ∀ i, i = 0 ∨ i ∈ (segCols (condSeg (selOf T rows needed) b gs)).tail →
          cv T' p i = tv A c T p i := by
  set sel := selOf T rows needed with hsel
  obtain ⟨e1, r, he1, hr⟩ := condSeg_head sel gs h.ne
  have he1' : (0 : ℚ) < e1 := segChain_lt h.chain e1 (segEnds_sub _ he1)
  obtain ⟨x, gs0, hgs⟩ : ∃ x gs0, gs = x :: gs0 := by
    cases hg : gs with
    | nil => exact absurd hg h.ne
    | cons x gs0 => exact ⟨x, gs0, rfl⟩
  have hgap1 : 0 < x.1 ∧ ∀ i ∈ segEnds gs, x.1 < i := by
    have := h.chain
    rw [hgs] at this ⊢
    obtain ⟨g, e⟩ := x
    refine ⟨this.1, fun i hi => ?_⟩
    rcases List.mem_cons.1 hi with rfl | hi
    · exact this.2.1
    · exact this.2.1.trans (segChain_lt this.2.2 i (segEnds_sub i hi))
  have hcc := copyCols_spec h needed x.1 hgap1.1 hgap1.2
  rw [← hsel, hr] at hcc
  set cc : List ℚ := 0 :: (segCols ((x.1, e1) :: r)).tail with hccdef
  set b : ℚ := (e1 + 0) / 2 with hb
  have hb0 : 0 < b := by rw [hb]; linarith
  have hbe : b < e1 := by rw [hb]; linarith
  have hchain1 := condSeg_chain sel gs 0 0 x.1 h.chain hgap1.1 hgap1.2
  rw [hr] at hchain1
  have hchain2 : SegChain 0 ((b, e1) :: r) := ⟨hb0, hbe, hchain1.1.2.2⟩
  have hlast2 : segLast 0 ((b, e1) :: r) = 1 := by rw [← h.last, ← hchain1.2 h.ne]; rfl
  have hccmem : ∀ i, i ∈ cc ↔ i = 0 ∨ i ∈ (segCols ((b, e1) :: r)).tail := by
    intro i; rw [hccdef, List.mem_cons]; rfl
  have hcol : ∀ i ∈ cc, i = 0 ∨ i ∈ segCols gs := by
    intro i hi
    rcases (hccmem i).1 hi with hi | hi
    · exact Or.inl hi
    · right
      have := condSeg_sub sel gs b i
      rw [hr] at this
      exact this hi
  have hbcc : b ∉ cc := by
    intro h'
    rcases (hccmem b).1 h' with h' | h'
    · linarith
    · have h2 : b ∈ e1 :: segCols r := h'
      rcases List.mem_cons.1 h2 with h2 | h2
      · linarith
      · have := segChain_lt hchain2.2.2 b h2; linarith
  -- the rows
  set rowOf : List R → List (ℚ × ℤ) := fun p =>
    dSet (cc.map fun col => (col, tv A c T p col)) b (tv A c T p 0) with hrowOf
  have hlook : ∀ p ∈ needed, ∀ i, i = 0 ∨ i ∈ segCols gs →
      tableLookup A T p i c = .ok (tv A c T p i) := by
    intro p hp i hi
    exact tableLookup_ok h (hpos p hp) (fun h0 => by
      obtain ⟨v, _, hv⟩ := hconst p hp h0
      exact ⟨v, hv⟩) hi
  have hcopy : copyTable A T needed c =
      .ok (needed.foldl (fun ret p => dSet ret p (rowOf p)) []) := by
    unfold copyTable
    rw [if_neg hne]
    cases hT : T with
    | nil =>
      exfalso
      obtain ⟨q, hq⟩ := List.exists_mem_of_ne_nil rows hrows
      have := (h.keys q).2 hq
      rw [hT] at this
      simp [Verif.Qe.keys] at this
    | cons y T0 =>
      obtain ⟨q0, row⟩ := y
      have hq0 : q0 ∈ rows := (h.keys q0).1 (by rw [hT]; simp [Verif.Qe.keys])
      have hrow : sortedCols row = 0 :: segCols gs := by
        have h1 : row.map Prod.fst = Verif.Qe.ck T q0 := by
          unfold Verif.Qe.ck dRow
          rw [hT]
          simp [dGet]
        unfold sortedCols
        rw [h1]
        exact sorted_of_ck h.chain (h.nodup q0) (h.ck q0 hq0)
      simp only [hrow, ← hT, hcc]
      show (needed.foldlM _ [] : Except QErr (Table R)) = _
      have hfirst : cc.getD 0 0 = 0 := rfl
      have hpbf : (cc.getD 1 0 + cc.getD 0 0) / 2 = b := rfl
      rw [hfirst] at *
      apply foldlM_eq_foldl
      intro ret p hp
      have hcells : (cc.mapM fun col => do
          let v ← tableLookup A T p col c
          .ok (col, v) : Except QErr (List (ℚ × ℤ))) =
          .ok (cc.map fun col => (col, tv A c T p col)) := by
        apply mapM_eq_map
        intro i hi
        rw [hlook p hp i (hcol i hi)]; rfl
      rw [hcells]
      show (do
        let v ← tableLookup A T p 0 c
        .ok (dSet ret p (dSet (cc.map fun col => (col, tv A c T p col)) b v)) : Except QErr _) = _
      rw [hlook p hp 0 (Or.inl rfl)]
      rfl
  have hget : ∀ q, dGet (needed.foldl (fun ret p => dSet ret p (rowOf p)) ([] : Table R)) q =
      if q ∈ needed then some (rowOf q) else none := by
    intro q; rw [dGet_foldl_dSet]; rfl
  set T' := needed.foldl (fun ret p => dSet ret p (rowOf p)) ([] : Table R) with hT'
  have hkeys : ∀ q, q ∈ Verif.Qe.keys T' ↔ q ∈ needed := by
    intro q
    unfold Verif.Qe.keys
    rw [dGet_isSome, hget]
    constructor
    · rintro ⟨v, hv⟩
      by_contra hq
      rw [if_neg hq] at hv; cases hv
    · intro hq; exact ⟨_, if_pos hq⟩
  have hck : ∀ q ∈ needed, Verif.Qe.ck T' q = cc ++ [b] := by
    intro q hq
    unfold Verif.Qe.ck dRow
    rw [hget, if_pos hq]
    show (rowOf q).map Prod.fst = _
    rw [hrowOf]
    simp only [keys_dSet, List.map_map]
    have : (Prod.fst ∘ fun col => (col, tv A c T q col)) = id := rfl
    rw [this, List.map_id, if_neg hbcc]
  have hcv : ∀ q ∈ needed, cv T' q b = tv A c T q 0 ∧ ∀ i ∈ cc, cv T' q i = tv A c T q i := by
    intro q hq
    have h1 : ∀ i, cv T' q i = (dGet (rowOf q) i).getD 0 := by
      intro i
      rw [cv, hget, if_pos hq]; rfl
    constructor
    · rw [h1, hrowOf]
      simp only [dGet_dSet, if_true]
      rfl
    · intro i hi
      rw [h1, hrowOf]
      simp only [dGet_dSet]
      rw [if_neg (by rintro rfl; exact hbcc hi), dGet_map (f := fun i => tv A c T q i) hi]
      rfl
  refine ⟨T', b, hcopy, ?_, ?_, ?_⟩
  · rw [hr]
    refine ⟨hb0, fun i hi => ?_⟩
    rcases List.mem_cons.1 hi with rfl | hi
    · exact hbe
    · exact hbe.trans (segChain_lt hchain2.2.2 i (segEnds_sub i hi))
  · have hcase : ∀ i, i = 0 ∨ i ∈ segCols ((b, e1) :: r) → i = b ∨ i ∈ cc := by
      intro i hi
      rcases hi with hi | hi
      · exact Or.inr ((hccmem i).2 (Or.inl hi))
      · rcases List.mem_cons.1 hi with hi | hi
        · exact Or.inl hi
        · exact Or.inr ((hccmem i).2 (Or.inr hi))
    have hval : ∀ q ∈ needed, ∀ i, i = 0 ∨ i ∈ segCols ((b, e1) :: r) →
        ∃ j, (j = 0 ∨ j ∈ segCols gs) ∧ cv T' q i = tv A c T q j := by
      intro q hq i hi
      rcases hcase i hi with rfl | hi
      · exact ⟨0, Or.inl rfl, (hcv q hq).1⟩
      · exact ⟨i, hcol i hi, (hcv q hq).2 i hi⟩
    have h0cc : (0 : ℚ) ∈ cc := by simp [hccdef]
    rw [hr]
    refine ⟨by simp, hchain2, hlast2, hkeys, ?_, ?_, ?_, ?_, ?_⟩
    · intro q hq i
      rw [hck q hq, List.mem_append, List.mem_singleton, hccmem]
      rw [show segCols ((b, e1) :: r) = b :: (segCols ((b, e1) :: r)).tail from rfl, List.mem_cons]
      tauto
    · intro q
      by_cases hq : q ∈ needed
      · rw [hck q hq]
        have hcn : cc.Nodup := by
          have := segCols_sorted hchain1.1
          exact (this.sublist (List.Sublist.cons_cons _ (List.tail_sublist _))).imp fun h => h.ne
        rw [List.nodup_append]
        refine ⟨hcn, by simp, ?_⟩
        intro a ha b' hb' hab
        rw [List.mem_singleton] at hb'
        subst hb' hab
        exact hbcc ha
      · have : Verif.Qe.ck T' q = [] := by
          unfold Verif.Qe.ck dRow
          rw [hget, if_neg hq]; rfl
        rw [this]; simp
    · have hnz : ∀ q ∈ needed, ∀ g, g = 0 ∨ g ∈ segGaps gs → tv A c T q 0 ≠ 0 → tv A c T q g ≠ 0 := by
        intro q hq g hg h0
        unfold tv at h0 ⊢
        by_cases hd : 0 < deg q
        · rw [if_pos hd] at h0 ⊢
          rcases hg with rfl | hg
          · exact h0
          · exact h.seg.gap g hg q (hpos q hq hd) h0
        · rw [if_neg hd] at h0 ⊢; exact h0
      apply segOK_of
      · intro g hg q hq h0
        rw [(hcv q hq).2 0 h0cc] at h0
        have hg' := condSeg_gaps sel gs b g
        rw [hr] at hg'
        rcases hg' hg with rfl | hgg
        · rw [(hcv q hq).1]; exact h0
        · by_cases hgb : g = b
          · rw [hgb, (hcv q hq).1]; exact h0
          · have : g ∈ cc := by
              rcases hcase g (Or.inr (segGaps_sub _ hg)) with h' | h'
              · exact absurd h' hgb
              · exact h'
            rw [(hcv q hq).2 g this]
            exact hnz q hq g (Or.inr hgg) h0
      · intro e he
        have he' := condSeg_inner sel gs b e
        rw [hr] at he'
        obtain ⟨hin, hse⟩ := he' he
        obtain ⟨p, hp, hpr, hp0, hpe⟩ := selOf_iff.1 hse
        have hecol : e ∈ segCols ((b, e1) :: r) := segEnds_sub _ (segInner_sub _ he)
        have heb : e ≠ b := by
          rintro rfl
          have := segInner_sub _ he
          rcases List.mem_cons.1 this with h' | h'
          · linarith
          · have := segChain_lt hchain2.2.2 b (segEnds_sub _ h'); linarith
        have hecc : e ∈ cc := (hcase e (Or.inr hecol)).resolve_left heb
        refine ⟨p, hp, ?_, ?_⟩
        · rw [(hcv p hp).2 e hecc, h.tv_row hpr (hcol e hecc), hpe]
        · rw [(hcv p hp).2 0 h0cc, h.tv_row hpr (Or.inl rfl)]; exact hp0
    · intro q hq i hi
      obtain ⟨j, hj, hv⟩ := hval q hq i hi
      rw [hv]
      unfold tv
      by_cases hd : 0 < deg q
      · rw [if_pos hd]; exact h.val q (hpos q hq hd) j hj
      · rw [if_neg hd]
        obtain ⟨v, hv3, hv⟩ := hconst q hq (by omega)
        rw [hv]; exact hv3
    · intro q hq hd i hi
      obtain ⟨j, hj, hv⟩ := hval q hq i hi
      rw [hv]
      unfold tv
      rw [if_neg (by omega)]
      obtain ⟨v, hv3, hv⟩ := hconst q hq hd
      rw [hv]; rfl
  · intro p hp
    refine ⟨(hcv p hp).1, ?_⟩
    intro i hi
    rw [hr] at hi
    exact (hcv p hp).2 i ((hccmem i).2 hi)

end Verif.Qe
