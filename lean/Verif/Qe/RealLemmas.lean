import Verif.Qe.ComplexLemmas
import Mathlib.Tactic.Linarith

/-!
# `real_extend`: what it computes, for every assignment
-/

set_option linter.unusedSectionVars false

namespace Verif.Qe

variable {R : Type} [CommRing R] [DecidableEq R]

/-- The columns of a real diagram after column 0: pairs of a column for an open interval and the column
of its right end. -/
def segCols : List (ℚ × ℚ) → List ℚ
  | [] => []
  | (g, e) :: gs => g :: e :: segCols gs

/-- the columns of right ends -/
def segEnds : List (ℚ × ℚ) → List ℚ
  | [] => []
  | (_, e) :: gs => e :: segEnds gs

def SegChain : ℚ → List (ℚ × ℚ) → Prop
  | _, [] => True
  | l, (g, e) :: gs => l < g ∧ g < e ∧ SegChain e gs

def segLast : ℚ → List (ℚ × ℚ) → ℚ
  | l, [] => l
  | _, (_, e) :: gs => segLast e gs

/-- interval columns have no zeros, end columns (but the last) have one -/
def SegOK (D : Diagram R ℚ) (rows : List (List R)) : List (ℚ × ℚ) → Prop
  | [] => True
  | (g, e) :: gs => (∀ q ∈ rows, cv D q 0 ≠ 0 → cv D q g ≠ 0) ∧
      (gs ≠ [] → ∃ q ∈ rows, cv D q e = 0 ∧ cv D q 0 ≠ 0) ∧ SegOK D rows gs

def Sign3 (v : ℤ) : Prop := v = -1 ∨ v = 0 ∨ v = 1

structure RShape (D : Diagram R ℚ) (gs : List (ℚ × ℚ)) : Prop where
  ne : gs ≠ []
  chain : SegChain 0 gs
  last : segLast 0 gs = 1
  ck : ∀ q ∈ keys D, ∀ i, i ∈ ck D q ↔ i = 0 ∨ i ∈ segCols gs
  nodup : ∀ q, (Verif.Qe.ck D q).Nodup
  zero : [] ∈ keys D
  seg : SegOK D (keys D) gs
  val : ∀ q ∈ keys D, ∀ i, i = 0 ∨ i ∈ segCols gs → Sign3 (cv D q i)
  const : ∀ q ∈ keys D, deg q = 0 → cv D q 0 ≠ 0 → ∀ i, i = 0 ∨ i ∈ segCols gs → cv D q i ≠ 0

theorem segChain_lt : ∀ {gs : List (ℚ × ℚ)} {l : ℚ}, SegChain l gs → ∀ i ∈ segCols gs, l < i := by
  intro gs
  induction gs with
  | nil => intro l _ i hi; simp [segCols] at hi
  | cons x gs ih =>
    obtain ⟨g, e⟩ := x
    rintro l ⟨h1, h2, h3⟩ i hi
    simp only [segCols, List.mem_cons] at hi
    rcases hi with rfl | rfl | hi
    · exact h1
    · exact h1.trans h2
    · exact (h1.trans h2).trans (ih h3 i hi)

theorem segCols_sorted : ∀ {gs : List (ℚ × ℚ)} {l : ℚ}, SegChain l gs →
    (l :: segCols gs).Pairwise (· < ·) := by
  intro gs
  induction gs with
  | nil => intro l _; simp [segCols]
  | cons x gs ih =>
    obtain ⟨g, e⟩ := x
    intro l h
    rw [List.pairwise_cons]
    refine ⟨segChain_lt h, ?_⟩
    obtain ⟨h1, h2, h3⟩ := h
    show (g :: e :: segCols gs).Pairwise (· < ·)
    rw [List.pairwise_cons]
    refine ⟨?_, ih h3⟩
    intro i hi
    rcases List.mem_cons.1 hi with rfl | hi
    · exact h2
    · exact h2.trans (segChain_lt h3 i hi)

theorem segEnds_sub {gs : List (ℚ × ℚ)} : ∀ i ∈ segEnds gs, i ∈ segCols gs := by
  induction gs with
  | nil => simp [segEnds]
  | cons x gs ih =>
    obtain ⟨g, e⟩ := x
    intro i hi
    simp only [segEnds, List.mem_cons] at hi
    simp only [segCols, List.mem_cons]
    rcases hi with rfl | hi
    · simp
    · exact Or.inr (Or.inr (ih i hi))

theorem segLast_mem : ∀ {gs : List (ℚ × ℚ)} {l : ℚ}, gs ≠ [] → segLast l gs ∈ segEnds gs := by
  intro gs
  induction gs with
  | nil => intro l h; exact absurd rfl h
  | cons x gs ih =>
    obtain ⟨g, e⟩ := x
    intro l _
    by_cases h : gs = []
    · subst h; simp [segLast, segEnds]
    · have := ih (l := e) h
      simp only [segLast, segEnds, List.mem_cons]
      exact Or.inr this

/-- the sorted columns of the zero row -/
theorem RShape.sorted {D : Diagram R ℚ} {gs : List (ℚ × ℚ)} (h : RShape D gs) {q : List R}
    (hq : q ∈ keys D) :
    (Verif.Qe.ck D q).insertionSort (· ≤ ·) = 0 :: segCols gs := by
  have hs := segCols_sorted h.chain
  have hnd : (0 :: segCols gs).Nodup := hs.imp fun h => h.ne
  have hp : (Verif.Qe.ck D q).Perm (0 :: segCols gs) := by
    rw [List.perm_ext_iff_of_nodup (h.nodup q) hnd]
    intro i
    rw [h.ck q hq, List.mem_cons]
  refine List.Perm.eq_of_pairwise (le := (· ≤ ·)) (fun a b _ _ => le_antisymm)
    (List.pairwise_insertionSort _ _) (hs.imp fun h => le_of_lt h)
    ((List.perm_insertionSort _ _).trans hp)

/-! ### The loop over the intervals -/

theorem copyCols_ok (rest : List (List R)) (a b col : ℚ) (hac : a ≠ col) (hbc : b ≠ col)
    (D : Diagram R ℚ) (hck : ∀ q ∈ rest, col ∈ ck D q) :
    ∃ D', rest.foldlM (fun D q => do
        let v ← dRead D q col
        let D := dWrite D q a v
        let v ← dRead D q col
        .ok (dWrite D q b v)) D = .ok D' ∧
      Written D D' (fun q i => q ∈ rest ∧ (i = a ∨ i = b)) (fun q _ => cv D q col) := by
  obtain ⟨D', h1, h2⟩ := foldlM_written (κ := ℚ) (fun D q => do
        let v ← dRead D q col
        let D := dWrite D q a v
        let v ← dRead D q col
        .ok (dWrite D q b v)) (fun x q i => q = x ∧ (i = a ∨ i = b)) (fun q _ => cv D q col) D rest (by
    intro done D' q hq hW hd
    have hck1 : col ∈ ck D' q := (hW.ck _ _).2 (Or.inl (hck q hq))
    have hv1 : cv D' q col = cv D q col := hW.old _ _ (by
      rintro ⟨x, _, _, h | h⟩
      · exact hac h.symm
      · exact hbc h.symm)
    have hck2 : col ∈ ck (dWrite D' q a (cv D q col)) q := (mem_ck_dWrite _ _ _ _ _ _).2 (Or.inl hck1)
    have hv2 : cv (dWrite D' q a (cv D q col)) q col = cv D q col := by
      rw [cv_dWrite, if_neg fun h => hac h.2.symm, hv1]
    refine ⟨dWrite (dWrite D' q a (cv D q col)) q b (cv D q col), ?_, ?_⟩
    · simp only [dRead_ok hck1, hv1]
      show (do
        let v ← dRead (dWrite D' q a (cv D q col)) q col
        .ok (dWrite (dWrite D' q a (cv D q col)) q b v) : Except QErr _) = _
      rw [dRead_ok hck2, hv2]; rfl
    · refine ((hW.write q a _ rfl).write q b _ rfl).congr ?_ (fun _ _ _ => rfl)
      intro q' i
      simp only [List.mem_append, List.mem_singleton]
      constructor
      · rintro ((⟨x, hx, h⟩ | ⟨rfl, rfl⟩) | ⟨rfl, rfl⟩)
        · exact ⟨x, Or.inl hx, h⟩
        · exact ⟨_, Or.inr rfl, rfl, Or.inl rfl⟩
        · exact ⟨_, Or.inr rfl, rfl, Or.inr rfl⟩
      · rintro ⟨x, hx | rfl, h⟩
        · exact Or.inl (Or.inl ⟨x, hx, h⟩)
        · rcases h with ⟨rfl, rfl | rfl⟩
          · exact Or.inl (Or.inr ⟨rfl, rfl⟩)
          · exact Or.inr ⟨rfl, rfl⟩)
  refine ⟨D', h1, h2.congr ?_ fun _ _ _ => rfl⟩
  intro q i
  constructor
  · rintro ⟨x, hx, rfl, h⟩; exact ⟨hx, h⟩
  · rintro ⟨hq, h⟩; exact ⟨q, hq, rfl, h⟩

/-- two consecutive ends with value 0 -/
def SegBad (D : Diagram R ℚ) (p : List R) : ℚ → List (ℚ × ℚ) → Prop
  | _, [] => False
  | l, (_, e) :: gs => (cv D p l = 0 ∧ cv D p e = 0) ∨ SegBad D p e gs

/-- The new columns and their values. -/
inductive SegExt (D D' : Diagram R ℚ) (p : List R) (rest : List (List R)) :
    ℚ → List (ℚ × ℚ) → List (ℚ × ℚ) → Prop
  | nil (l) : SegExt D D' p rest l [] []
  | keep (l g e gs gs') (hbad : ¬ (cv D p l = 0 ∧ cv D p e = 0))
      (heq : cv D p l = cv D p e ∨ cv D p l * cv D p e = 0)
      (hpg : cv D' p g = sgnInt (cv D p l + cv D p e)) (hpe : cv D' p e = cv D p e)
      (hqg : ∀ q ∈ rest, cv D' q g = cv D q g) (hqe : ∀ q ∈ rest, cv D' q e = cv D q e)
      (h : SegExt D D' p rest e gs gs') :
      SegExt D D' p rest l ((g, e) :: gs) ((g, e) :: gs')
  | split (l g e gs gs') (hne : cv D p l ≠ cv D p e) (hne0 : cv D p l * cv D p e ≠ 0)
      (hp1 : cv D' p ((g + l) / 2) = cv D p l) (hpg : cv D' p g = 0)
      (hp2 : cv D' p ((g + e) / 2) = cv D p e) (hpe : cv D' p e = cv D p e)
      (hq1 : ∀ q ∈ rest, cv D' q ((g + l) / 2) = cv D q g)
      (hqg : ∀ q ∈ rest, cv D' q g = cv D q g)
      (hq2 : ∀ q ∈ rest, cv D' q ((g + e) / 2) = cv D q g)
      (hqe : ∀ q ∈ rest, cv D' q e = cv D q e)
      (h : SegExt D D' p rest e gs gs') :
      SegExt D D' p rest l ((g, e) :: gs) (((g + l) / 2, g) :: ((g + e) / 2, e) :: gs')

theorem SegExt.congr {D₁ D₂ D' : Diagram R ℚ} {p : List R} {rest : List (List R)} {l : ℚ}
    {gs gs' : List (ℚ × ℚ)} (h : SegExt D₁ D' p rest l gs gs') (hc : SegChain l gs)
    (hv : ∀ q, q = p ∨ q ∈ rest → ∀ i, i = l ∨ i ∈ segCols gs → cv D₁ q i = cv D₂ q i) :
    SegExt D₂ D' p rest l gs gs' := by
  induction h with
  | nil l => exact .nil l
  | keep l g e gs gs' hbad heq hpg hpe hqg hqe _ ih =>
    have e1 := hv p (Or.inl rfl) l (Or.inl rfl)
    have e2 := hv p (Or.inl rfl) e (Or.inr (by simp [segCols]))
    have e3 := fun q hq => hv q (Or.inr hq) g (Or.inr (by simp [segCols]))
    have e4 := fun q hq => hv q (Or.inr hq) e (Or.inr (by simp [segCols]))
    rw [e1, e2] at hbad heq hpg
    rw [e2] at hpe
    refine .keep l g e gs gs' hbad heq hpg hpe (fun q hq => by rw [hqg q hq, e3 q hq])
      (fun q hq => by rw [hqe q hq, e4 q hq]) (ih hc.2.2 ?_)
    intro q hq i hi
    refine hv q hq i (Or.inr ?_)
    simp only [segCols, List.mem_cons]
    tauto
  | split l g e gs gs' hne hne0 hp1 hpg hp2 hpe hq1 hqg hq2 hqe _ ih =>
    have e1 := hv p (Or.inl rfl) l (Or.inl rfl)
    have e2 := hv p (Or.inl rfl) e (Or.inr (by simp [segCols]))
    have e3 := fun q hq => hv q (Or.inr hq) g (Or.inr (by simp [segCols]))
    have e4 := fun q hq => hv q (Or.inr hq) e (Or.inr (by simp [segCols]))
    rw [e1, e2] at hne hne0
    rw [e1] at hp1
    rw [e2] at hp2 hpe
    refine .split l g e gs gs' hne hne0 hp1 hpg hp2 hpe (fun q hq => by rw [hq1 q hq, e3 q hq])
      (fun q hq => by rw [hqg q hq, e3 q hq]) (fun q hq => by rw [hq2 q hq, e3 q hq])
      (fun q hq => by rw [hqe q hq, e4 q hq]) (ih hc.2.2 ?_)
    intro q hq i hi
    refine hv q hq i (Or.inr ?_)
    simp only [segCols, List.mem_cons]
    tauto

theorem SegExt.facts {D D' : Diagram R ℚ} {p : List R} {rest : List (List R)} {l : ℚ}
    {gs gs' : List (ℚ × ℚ)} (h : SegExt D D' p rest l gs gs') (hc : SegChain l gs) :
    SegChain l gs' ∧ segLast l gs' = segLast l gs ∧ (gs' = [] ↔ gs = []) ∧
      ∀ i ∈ segCols gs, i ∈ segCols gs' := by
  induction h with
  | nil l => exact ⟨trivial, rfl, Iff.rfl, by simp⟩
  | keep l g e gs gs' _ _ _ _ _ _ _ ih =>
    obtain ⟨h1, h2, h3⟩ := hc
    obtain ⟨i1, i2, i3, i4⟩ := ih h3
    refine ⟨⟨h1, h2, i1⟩, i2, by simp, ?_⟩
    intro i hi
    simp only [segCols, List.mem_cons] at hi ⊢
    rcases hi with h | h | h
    · exact Or.inl h
    · exact Or.inr (Or.inl h)
    · exact Or.inr (Or.inr (i4 i h))
  | split l g e gs gs' _ _ _ _ _ _ _ _ _ _ _ ih =>
    obtain ⟨h1, h2, h3⟩ := hc
    obtain ⟨i1, i2, i3, i4⟩ := ih h3
    refine ⟨⟨by linarith, by linarith, by linarith, by linarith, i1⟩, i2, by simp, ?_⟩
    intro i hi
    simp only [segCols, List.mem_cons] at hi ⊢
    rcases hi with h | h | h
    · exact Or.inr (Or.inl h)
    · exact Or.inr (Or.inr (Or.inr (Or.inl h)))
    · exact Or.inr (Or.inr (Or.inr (Or.inr (i4 i h))))

/-- What one interval column does. -/
theorem realGapCol_gap {p : List R} {rest : List (List R)} (hp : p ∉ rest) {D : Diagram R ℚ}
    {l g e : ℚ} (hlg : l < g) (hge : g < e)
    (hck : ∀ q ∈ rest, 0 ∈ ck D q ∧ g ∈ ck D q) (hpl : l ∈ ck D p) (hpe : e ∈ ck D p)
    (hgap : ∀ q ∈ rest, cv D q 0 ≠ 0 → cv D q g ≠ 0) :
    (cv D p l = 0 ∧ cv D p e = 0 ∧ realGapCol p rest D (l, g, e) = .error .diagramExc) ∨
    (¬ (cv D p l = 0 ∧ cv D p e = 0) ∧ (cv D p l = cv D p e ∨ cv D p l * cv D p e = 0) ∧
      realGapCol p rest D (l, g, e) = .ok (dWrite D p g (sgnInt (cv D p l + cv D p e)))) ∨
    (cv D p l ≠ cv D p e ∧ cv D p l * cv D p e ≠ 0 ∧ ∃ D', realGapCol p rest D (l, g, e) = .ok D' ∧
      Written D D' (fun q i => (q = p ∧ (i = (g + l) / 2 ∨ i = g ∨ i = (g + e) / 2)) ∨
        (q ∈ rest ∧ (i = (g + l) / 2 ∨ i = (g + e) / 2)))
        (fun q i => if q = p then (if i = g then 0 else if i = (g + l) / 2 then cv D p l else cv D p e)
          else cv D q g)) := by
  have hz := colZeros_ok D 0 g rest (fun q hq => ⟨(hck q hq).2, (hck q hq).1⟩)
  have hz' : rest.filter (fun q => decide (cv D q g = 0) && decide (cv D q 0 ≠ 0)) = [] := by
    rw [List.filter_eq_nil_iff]
    intro q hq
    simp only [Bool.and_eq_true, decide_eq_true_eq, not_and, not_not]
    intro h
    by_contra h0
    exact hgap q hq h0 h
  rw [hz'] at hz
  have hunf : realGapCol p rest D (l, g, e) =
      if cv D p l = 0 ∧ cv D p e = 0 then .error .diagramExc
      else if cv D p l = cv D p e ∨ cv D p l * cv D p e = 0 then
        .ok (dWrite D p g (sgnInt (cv D p l + cv D p e)))
      else rest.foldlM (fun D q => do
        let v ← dRead D q g
        let D := dWrite D q ((g + l) / 2) v
        let v ← dRead D q g
        .ok (dWrite D q ((g + e) / 2) v))
        (dWrite (dWrite (dWrite D p ((g + l) / 2) (cv D p l)) p g 0) p ((g + e) / 2) (cv D p e)) := by
    unfold realGapCol
    simp only [hz, dRead_ok hpl, dRead_ok hpe]
    rfl
  rw [hunf]
  by_cases h1 : cv D p l = 0 ∧ cv D p e = 0
  · exact Or.inl ⟨h1.1, h1.2, if_pos h1⟩
  by_cases h2 : cv D p l = cv D p e ∨ cv D p l * cv D p e = 0
  · exact Or.inr (Or.inl ⟨h1, h2, by rw [if_neg h1, if_pos h2]⟩)
  right; right
  push Not at h2
  refine ⟨h2.1, h2.2, ?_⟩
  rw [if_neg h1, if_neg (by push Not; exact h2)]
  set f : List R → ℚ → ℤ := fun q i => if q = p then
    (if i = g then 0 else if i = (g + l) / 2 then cv D p l else cv D p e) else cv D q g with hf
  have n1 : (g + l) / 2 ≠ g := by intro h; linarith
  have n2 : (g + e) / 2 ≠ g := by intro h; linarith
  have n3 : (g + e) / 2 ≠ (g + l) / 2 := by intro h; linarith
  obtain ⟨D3, hD3, hW3⟩ : ∃ D3, D3 =
      dWrite (dWrite (dWrite D p ((g + l) / 2) (cv D p l)) p g 0) p ((g + e) / 2) (cv D p e) ∧
      Written D D3 (fun q i => q = p ∧ (i = (g + l) / 2 ∨ i = g ∨ i = (g + e) / 2)) f := by
    refine ⟨_, rfl, ?_⟩
    refine ((((Written.refl D f).write p ((g + l) / 2) (cv D p l) ?_).write p g 0 ?_).write p
      ((g + e) / 2) (cv D p e) ?_).congr ?_ (fun _ _ _ => rfl)
    · rw [hf]; simp [n1]
    · rw [hf]; simp
    · rw [hf]; simp [n2, n3]
    · intro q i
      constructor
      · rintro (((h | ⟨h, h'⟩) | ⟨h, h'⟩) | ⟨h, h'⟩)
        · exact h.elim
        · exact ⟨h, Or.inl h'⟩
        · exact ⟨h, Or.inr (Or.inl h')⟩
        · exact ⟨h, Or.inr (Or.inr h')⟩
      · rintro ⟨h, h' | h' | h'⟩
        · exact Or.inl (Or.inl (Or.inr ⟨h, h'⟩))
        · exact Or.inl (Or.inr ⟨h, h'⟩)
        · exact Or.inr ⟨h, h'⟩
  rw [← hD3]
  clear hD3 hunf
  clear_value f
  have hqp : ∀ q ∈ rest, q ≠ p := by rintro q hq rfl; exact hp hq
  obtain ⟨D', e1, e2⟩ := copyCols_ok rest ((g + l) / 2) ((g + e) / 2) g n1 n2 D3 (fun q hq =>
    (hW3.ck q g).2 (Or.inl (hck q hq).2))
  refine ⟨D', e1, ?_⟩
  have hold : ∀ q ∈ rest, ∀ i, cv D3 q i = cv D q i := by
    intro q hq i
    exact hW3.old _ _ fun h => hqp q hq h.1
  refine ⟨?_, ?_, ?_, ?_, ?_⟩
  · intro q i hW
    rcases hW with ⟨rfl, h⟩ | ⟨hq, h⟩
    · rw [e2.old _ _ fun h' => hp h'.1, hW3.val q i ⟨rfl, h⟩]
    · rw [e2.val q i ⟨hq, h⟩, hold q hq, hf]
      simp [hqp q hq]
  · intro q i hW
    rw [e2.old _ _ fun h => hW (Or.inr h), hW3.old _ _ fun h => hW (Or.inl h)]
  · intro q i
    rw [e2.ck, hW3.ck, or_assoc]
  · intro q
    rw [e2.keys, hW3.keys, or_assoc]
    constructor
    · rintro (h | ⟨i, h⟩ | ⟨i, h⟩)
      · exact Or.inl h
      · exact Or.inr ⟨i, Or.inl h⟩
      · exact Or.inr ⟨i, Or.inr h⟩
    · rintro (h | ⟨i, h | h⟩)
      · exact Or.inl h
      · exact Or.inr (Or.inl ⟨i, h⟩)
      · exact Or.inr (Or.inr ⟨i, h⟩)
  · intro hn
    exact e2.nodup (hW3.nodup hn)

/-- A root column is skipped. -/
theorem realGapCol_root {p : List R} {rest : List (List R)} {D : Diagram R ℚ} {a e b : ℚ}
    (hck : ∀ q ∈ rest, 0 ∈ ck D q ∧ e ∈ ck D q) (hroot : ∃ q ∈ rest, cv D q e = 0 ∧ cv D q 0 ≠ 0) :
    realGapCol p rest D (a, e, b) = .ok D := by
  have hz := colZeros_ok D 0 e rest (fun q hq => ⟨(hck q hq).2, (hck q hq).1⟩)
  unfold realGapCol
  simp only [hz]
  show (if (rest.filter _).length ≠ 0 then _ else _) = _
  rw [if_pos]
  intro h
  rw [List.length_eq_zero_iff, List.filter_eq_nil_iff] at h
  obtain ⟨q, hq, h1, h2⟩ := hroot
  exact h q hq (by simp [h1, h2])

theorem SegOK.congr {D D' : Diagram R ℚ} {rows : List (List R)} : ∀ {gs : List (ℚ × ℚ)} {l : ℚ},
    SegOK D rows gs → SegChain l gs →
    (∀ q ∈ rows, cv D' q 0 = cv D q 0) → (∀ q ∈ rows, ∀ i, l < i → cv D' q i = cv D q i) →
    SegOK D' rows gs := by
  intro gs
  induction gs with
  | nil => intros; trivial
  | cons x gs ih =>
    obtain ⟨g, e⟩ := x
    rintro l ⟨h1, h2, h3⟩ ⟨c1, c2, c3⟩ h0 hv
    refine ⟨?_, ?_, ih h3 c3 h0 fun q hq i hi => hv q hq i (by linarith)⟩
    · intro q hq hq0
      rw [h0 q hq] at hq0
      rw [hv q hq g c1]
      exact h1 q hq hq0
    · intro hne
      obtain ⟨q, hq, a, b⟩ := h2 hne
      refine ⟨q, hq, ?_, ?_⟩
      · rw [hv q hq e (by linarith), a]
      · rw [h0 q hq]; exact b

theorem gapFold {p : List R} {rest : List (List R)} (hp : p ∉ rest) :
    ∀ (gs : List (ℚ × ℚ)) (l : ℚ) (D : Diagram R ℚ), 0 ≤ l → SegChain l gs →
    (∀ q ∈ rest, 0 ∈ ck D q ∧ ∀ i ∈ segCols gs, i ∈ ck D q) →
    (∀ i, i = l ∨ i ∈ segEnds gs → i ∈ ck D p) → SegOK D rest gs →
    (SegBad D p l gs ∧ (triples (l :: segCols gs)).foldlM (realGapCol p rest) D = .error .diagramExc) ∨
    ∃ D' gs', (triples (l :: segCols gs)).foldlM (realGapCol p rest) D = .ok D' ∧
      (∀ q i, i ≤ l → cv D' q i = cv D q i) ∧
      (∀ q, q ∉ rest → q ≠ p → ∀ i, i ∈ ck D' q ↔ i ∈ ck D q) ∧
      (∀ q, q ∈ rest ∨ q = p → ∀ i, i ∈ ck D' q ↔ i ∈ ck D q ∨ i ∈ segCols gs') ∧
      (∀ q, q ∈ keys D' ↔ q ∈ keys D) ∧
      ((∀ q, (ck D q).Nodup) → ∀ q, (ck D' q).Nodup) ∧
      SegExt D D' p rest l gs gs' := by
  intro gs
  induction gs with
  | nil =>
    intro l D _ _ _ _ _
    refine Or.inr ⟨D, [], rfl, by simp, by simp, by simp [segCols], by simp, id, .nil l⟩
  | cons x gs ih =>
    obtain ⟨g, e⟩ := x
    rintro l D hl0 ⟨c1, c2, c3⟩ hck hpck ⟨o1, o2, o3⟩
    have hpk : p ∈ keys D := mem_keys_of_ck (hpck l (Or.inl rfl))
    have hle : l < e := c1.trans c2
    -- the list of the loop
    have htr : triples (l :: segCols ((g, e) :: gs)) = (l, g, e) :: triples (g :: e :: segCols gs) := rfl
    have hgc : g ∈ segCols ((g, e) :: gs) := by simp [segCols]
    have hec : e ∈ segCols ((g, e) :: gs) := by simp [segCols]
    have hsub : ∀ i ∈ segCols gs, i ∈ segCols ((g, e) :: gs) := by
      intro i hi; simp [segCols, hi]
    -- from a diagram after the first interval
    have hnext : ∀ D1 : Diagram R ℚ, (∀ q ∈ rest, ∀ i, i ∈ ck D q → i ∈ ck D1 q) →
        (∀ q, ∀ i, e ≤ i → cv D1 q i = cv D q i) → (∀ q, ∀ i, i ≤ l → cv D1 q i = cv D q i) →
        (triples (g :: e :: segCols gs)).foldlM (realGapCol p rest) D1 =
          (triples (e :: segCols gs)).foldlM (realGapCol p rest) D1 := by
      intro D1 h1 h2 h3
      cases gs with
      | nil => rfl
      | cons x gs =>
        obtain ⟨g', e'⟩ := x
        show ((g, e, g') :: triples (e :: segCols ((g', e') :: gs))).foldlM (realGapCol p rest) D1 = _
        rw [List.foldlM_cons, realGapCol_root]
        · rfl
        · intro q hq
          exact ⟨h1 q hq 0 (hck q hq).1, h1 q hq e ((hck q hq).2 e hec)⟩
        · obtain ⟨q, hq, a, b⟩ := o2 (by simp)
          exact ⟨q, hq, by rw [h2 q e le_rfl, a], by rw [h3 q 0 hl0]; exact b⟩
    have hok : ∀ D1 : Diagram R ℚ, (∀ q, ∀ i, e ≤ i → cv D1 q i = cv D q i) →
        (∀ q, ∀ i, i ≤ l → cv D1 q i = cv D q i) → SegOK D1 rest gs := by
      intro D1 h2 h3
      exact o3.congr c3 (fun q _ => h3 q 0 hl0) fun q _ i hi => h2 q i (le_of_lt hi)
    have hbadcongr : ∀ D1 : Diagram R ℚ, (∀ q, ∀ i, e ≤ i → cv D1 q i = cv D q i) →
        SegBad D1 p e gs → SegBad D p e gs := by
      intro D1 h2
      have : ∀ (gs : List (ℚ × ℚ)) (e' : ℚ), e ≤ e' → SegChain e' gs → SegBad D1 p e' gs →
          SegBad D p e' gs := by
        intro gs
        induction gs with
        | nil => intro _ _ _ h; exact h
        | cons x gs ih =>
          obtain ⟨g, e2⟩ := x
          rintro e' he' ⟨a, b, c⟩ (h | h)
          · left
            rw [← h2 p e' he', ← h2 p e2 (by linarith)]; exact h
          · right
            exact ih e2 (by linarith) c h
      exact this gs e le_rfl c3
    -- combination
    have hfinish : ∀ (D1 : Diagram R ℚ) (new : List (ℚ × ℚ)),
        realGapCol p rest D (l, g, e) = .ok D1 →
        (∀ q, ∀ i, e ≤ i → cv D1 q i = cv D q i) → (∀ q, ∀ i, i ≤ l → cv D1 q i = cv D q i) →
        (∀ q, q ∉ rest → q ≠ p → ∀ i, i ∈ ck D1 q ↔ i ∈ ck D q) →
        (∀ q, q ∈ rest ∨ q = p → ∀ i, i ∈ ck D1 q ↔ i ∈ ck D q ∨ i ∈ segCols new) →
        (∀ q, q ∈ keys D1 ↔ q ∈ keys D) → ((∀ q, (ck D q).Nodup) → ∀ q, (ck D1 q).Nodup) →
        (∀ (D' : Diagram R ℚ) (gs' : List (ℚ × ℚ)), (∀ q i, i ≤ e → cv D' q i = cv D1 q i) →
          SegExt D D' p rest e gs gs' → SegExt D D' p rest l ((g, e) :: gs) (new ++ gs')) →
        (∀ gs' : List (ℚ × ℚ), segCols (new ++ gs') = segCols new ++ segCols gs') →
        (SegBad D p l ((g, e) :: gs) ∧
          (triples (l :: segCols ((g, e) :: gs))).foldlM (realGapCol p rest) D = .error .diagramExc) ∨
        ∃ D' gs', (triples (l :: segCols ((g, e) :: gs))).foldlM (realGapCol p rest) D = .ok D' ∧
          (∀ q i, i ≤ l → cv D' q i = cv D q i) ∧
          (∀ q, q ∉ rest → q ≠ p → ∀ i, i ∈ ck D' q ↔ i ∈ ck D q) ∧
          (∀ q, q ∈ rest ∨ q = p → ∀ i, i ∈ ck D' q ↔ i ∈ ck D q ∨ i ∈ segCols gs') ∧
          (∀ q, q ∈ keys D' ↔ q ∈ keys D) ∧
          ((∀ q, (ck D q).Nodup) → ∀ q, (ck D' q).Nodup) ∧
          SegExt D D' p rest l ((g, e) :: gs) gs' := by
      intro D1 new hstep hge hle' hck0 hck1 hkeys hnd hext happ
      have hckD1 : ∀ q, q ∈ rest ∨ q = p → ∀ i, i ∈ ck D q → i ∈ ck D1 q := fun q hq i hi =>
        (hck1 q hq i).2 (Or.inl hi)
      have hfold : (triples (l :: segCols ((g, e) :: gs))).foldlM (realGapCol p rest) D =
          (triples (e :: segCols gs)).foldlM (realGapCol p rest) D1 := by
        rw [htr, List.foldlM_cons, hstep]
        exact hnext D1 (fun q hq => hckD1 q (Or.inl hq)) hge hle'
      rw [hfold]
      rcases ih e D1 (by linarith) c3 (fun q hq => ⟨hckD1 q (Or.inl hq) 0 (hck q hq).1,
          fun i hi => hckD1 q (Or.inl hq) i ((hck q hq).2 i (hsub i hi))⟩)
          (by
            intro i hi
            apply hckD1 p (Or.inr rfl)
            apply hpck
            right
            simp only [segEnds, List.mem_cons]
            exact hi) (hok D1 hge hle') with ⟨hb, herr⟩ | ⟨D', gs', r1, r2, r3, r4, r5, r6, r7⟩
      · exact Or.inl ⟨Or.inr (hbadcongr D1 hge hb), herr⟩
      · refine Or.inr ⟨D', new ++ gs', r1, ?_, ?_, ?_, ?_, ?_, ?_⟩
        · intro q i hi
          rw [r2 q i (by linarith), hle' q i hi]
        · intro q h1 h2 i
          rw [r3 q h1 h2, hck0 q h1 h2]
        · intro q hq i
          rw [r4 q hq, hck1 q hq, happ, List.mem_append, or_assoc]
        · intro q
          rw [r5, hkeys]
        · exact fun h => r6 (hnd h)
        · refine hext D' gs' r2 (r7.congr c3 ?_)
          intro q _ i hi
          rcases hi with rfl | hi
          · exact hge q i le_rfl
          · exact hge q i (le_of_lt (segChain_lt c3 i hi))
    rcases realGapCol_gap hp c1 c2 (fun q hq => ⟨(hck q hq).1, (hck q hq).2 g hgc⟩)
      (hpck l (Or.inl rfl)) (hpck e (Or.inr (by simp [segEnds]))) o1 with
      ⟨b1, b2, b3⟩ | ⟨b1, b2, b3⟩ | ⟨b1, b2, D1, b3, hW⟩
    · refine Or.inl ⟨Or.inl ⟨b1, b2⟩, ?_⟩
      rw [htr, List.foldlM_cons, b3]; rfl
    · have hrec : e ∈ ck D p := hpck e (Or.inr (by simp [segEnds]))
      refine hfinish _ [(g, e)] b3 ?_ ?_ ?_ ?_ ?_ ?_ ?_ (fun _ => rfl)
      · intro q i hi
        rw [cv_dWrite, if_neg]
        rintro ⟨_, rfl⟩; linarith
      · intro q i hi
        rw [cv_dWrite, if_neg]
        rintro ⟨_, rfl⟩; linarith
      · intro q _ h2 i
        rw [mem_ck_dWrite]
        constructor
        · rintro (h | ⟨h, _⟩)
          · exact h
          · exact absurd h h2
        · exact Or.inl
      · intro q hq i
        rw [mem_ck_dWrite]
        simp only [segCols, List.mem_cons, List.not_mem_nil, or_false]
        constructor
        · rintro (h | ⟨_, h⟩)
          · exact Or.inl h
          · exact Or.inr (Or.inl h)
        · rintro (h | rfl | rfl)
          · exact Or.inl h
          · rcases hq with hq | hq
            · exact Or.inl ((hck q hq).2 i hgc)
            · exact Or.inr ⟨hq, rfl⟩
          · rcases hq with hq | hq
            · exact Or.inl ((hck q hq).2 i hec)
            · subst hq; exact Or.inl hrec
      · intro q
        rw [mem_keys_dWrite]
        constructor
        · rintro (rfl | h)
          · exact hpk
          · exact h
        · exact Or.inr
      · exact fun h => nodup_ck_dWrite D p g _ h
      · intro D' gs' hD' hext
        have hqv : ∀ q ∈ rest, ∀ i, i ≤ e → cv D' q i = cv D q i := by
          intro q hq i hi
          rw [hD' q i hi, cv_dWrite, if_neg]
          rintro ⟨rfl, _⟩; exact hp hq
        refine .keep l g e gs gs' b1 b2 ?_ ?_ (fun q hq => hqv q hq g c2.le)
          (fun q hq => hqv q hq e le_rfl) hext
        · rw [hD' p g c2.le, cv_dWrite, if_pos ⟨rfl, rfl⟩]
        · rw [hD' p e le_rfl, cv_dWrite, if_neg]
          rintro ⟨_, h⟩; linarith
    · have hrec : e ∈ ck D p := hpck e (Or.inr (by simp [segEnds]))
      have hout : ∀ q i, i ≤ l ∨ e ≤ i → cv D1 q i = cv D q i := by
        intro q i hi
        apply hW.old
        rintro (⟨_, h⟩ | ⟨_, h⟩)
        · rcases h with rfl | rfl | rfl <;> rcases hi with hi | hi <;> linarith
        · rcases h with rfl | rfl <;> rcases hi with hi | hi <;> linarith
      refine hfinish D1 [((g + l) / 2, g), ((g + e) / 2, e)] b3 ?_ ?_ ?_ ?_ ?_ hW.nodup ?_
        (fun _ => rfl)
      · intro q i hi; exact hout q i (Or.inr hi)
      · intro q i hi; exact hout q i (Or.inl hi)
      · intro q h1 h2 i
        rw [hW.ck]
        constructor
        · rintro (h | ⟨h, _⟩ | ⟨h, _⟩)
          · exact h
          · exact absurd h h2
          · exact absurd h h1
        · exact Or.inl
      · intro q hq i
        rw [hW.ck]
        simp only [segCols, List.mem_cons, List.not_mem_nil, or_false]
        constructor
        · rintro (h | ⟨_, h⟩ | ⟨_, h⟩)
          · exact Or.inl h
          · rcases h with h | h | h
            · exact Or.inr (Or.inl h)
            · exact Or.inr (Or.inr (Or.inl h))
            · exact Or.inr (Or.inr (Or.inr (Or.inl h)))
          · rcases h with h | h
            · exact Or.inr (Or.inl h)
            · exact Or.inr (Or.inr (Or.inr (Or.inl h)))
        · rintro (h | h | h | h | h)
          · exact Or.inl h
          · rcases hq with hq | hq
            · exact Or.inr (Or.inr ⟨hq, Or.inl h⟩)
            · exact Or.inr (Or.inl ⟨hq, Or.inl h⟩)
          · rcases hq with hq | hq
            · left; rw [h]; exact (hck q hq).2 g hgc
            · exact Or.inr (Or.inl ⟨hq, Or.inr (Or.inl h)⟩)
          · rcases hq with hq | hq
            · exact Or.inr (Or.inr ⟨hq, Or.inr h⟩)
            · exact Or.inr (Or.inl ⟨hq, Or.inr (Or.inr h)⟩)
          · rcases hq with hq | hq
            · left; rw [h]; exact (hck q hq).2 e hec
            · left; rw [h, hq]; exact hrec
      · intro q
        rw [hW.keys]
        constructor
        · rintro (h | ⟨i, ⟨rfl, _⟩ | ⟨h, _⟩⟩)
          · exact h
          · exact hpk
          · exact mem_keys_of_ck (hck q h).1
        · exact Or.inl
      · intro D' gs' hD' hext
        have n1 : (g + l) / 2 ≠ g := by intro h; linarith
        have n2 : (g + e) / 2 ≠ g := by intro h; linarith
        have n3 : (g + e) / 2 ≠ (g + l) / 2 := by intro h; linarith
        have hqp : ∀ q ∈ rest, q ≠ p := by rintro q hq rfl; exact hp hq
        refine .split l g e gs gs' b1 b2 ?_ ?_ ?_ ?_ ?_ ?_ ?_ ?_ hext
        · rw [hD' p _ (by linarith), hW.val p _ (Or.inl ⟨rfl, Or.inl rfl⟩), if_pos rfl, if_neg n1,
            if_pos rfl]
        · rw [hD' p _ c2.le, hW.val p _ (Or.inl ⟨rfl, Or.inr (Or.inl rfl)⟩), if_pos rfl, if_pos rfl]
        · rw [hD' p _ (by linarith), hW.val p _ (Or.inl ⟨rfl, Or.inr (Or.inr rfl)⟩), if_pos rfl,
            if_neg n2, if_neg n3]
        · rw [hD' p _ le_rfl, hout p e (Or.inr le_rfl)]
        · intro q hq
          rw [hD' q _ (by linarith), hW.val q _ (Or.inr ⟨hq, Or.inl rfl⟩), if_neg (hqp q hq)]
        · intro q hq
          rw [hD' q _ c2.le, hW.old]
          rintro (⟨h, _⟩ | ⟨_, h⟩)
          · exact hqp q hq h
          · rcases h with h | h
            · exact n1 h.symm
            · exact n2 h.symm
        · intro q hq
          rw [hD' q _ (by linarith), hW.val q _ (Or.inr ⟨hq, Or.inr rfl⟩), if_neg (hqp q hq)]
        · intro q hq
          rw [hD' q _ le_rfl, hout q e (Or.inr le_rfl)]

end Verif.Qe
