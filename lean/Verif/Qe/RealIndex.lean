import Verif.Qe.RealMain

/-!
# The columns of a real diagram by index
-/

set_option linter.unusedSectionVars false

open Polynomial Verif.Alg

namespace Verif.Qe

universe u

variable {R : Type} [CommRing R] [DecidableEq R]
variable {K : Type u} [Field K] [LinearOrder K] [IsStrictOrderedRing K] [PolyIVT K]

theorem segCols_length (gs : List (ℚ × ℚ)) : (segCols gs).length = 2 * gs.length := by
  induction gs with
  | nil => rfl
  | cons x gs ih => obtain ⟨g, e⟩ := x; simp only [segCols, List.length_cons, ih]; omega

theorem SegSem.sorted {φ : R →+* K} {D : Diagram R ℚ} {rows : List (List R)} {L : K → Prop}
    {gs : List (ℚ × ℚ)} {xs : List K} (h : SegSem φ D rows L gs xs) :
    gs.length = xs.length + 1 ∧ xs.Pairwise (· < ·) ∧ (LowerCut L → ∀ x ∈ xs, L x) := by
  induction h with
  | last L g e hg he => exact ⟨rfl, List.Pairwise.nil, by simp⟩
  | cons L g e gs x xs hx hg he h ih =>
    obtain ⟨h1, h2, h3⟩ := ih
    have h3 := h3 (lowerCut_gt x)
    refine ⟨by simp [h1], List.pairwise_cons.2 ⟨h3, h2⟩, ?_⟩
    intro hL y hy
    rcases List.mem_cons.1 hy with rfl | hy
    · exact hx
    · exact hL.up x y hx (h3 y hy)

theorem SegSem.gapAt {φ : R →+* K} {D : Diagram R ℚ} {rows : List (List R)} {L : K → Prop}
    {gs : List (ℚ × ℚ)} {xs : List K} (h : SegSem φ D rows L gs xs) :
    ∀ i ≤ xs.length, ∀ x, L x → (∀ y ∈ xs.take i, y < x) → (∀ y ∈ xs.drop i, x < y) →
      ∀ q ∈ rows, sg ((P φ q).eval x) = cv D q ((segCols gs).getD (2 * i) 0) := by
  induction h with
  | last L g e hg he =>
    intro i hi x hx _ _ q hq
    have : i = 0 := by simpa using hi
    subst this
    exact hg q hq x hx
  | cons L g e gs y xs hy hg he h ih =>
    intro i hi x hx h1 h2 q hq
    cases i with
    | zero =>
      exact hg q hq x hx (h2 y (by simp))
    | succ i =>
      have := ih i (by simpa using hi) x (h1 y (by simp)) (fun z hz => h1 z (by simp [hz]))
        (fun z hz => h2 z (by simpa using hz)) q hq
      rw [this, show 2 * (i + 1) = 2 * i + 1 + 1 by ring]
      rfl

theorem SegSem.rootAt {φ : R →+* K} {D : Diagram R ℚ} {rows : List (List R)} {L : K → Prop}
    {gs : List (ℚ × ℚ)} {xs : List K} (h : SegSem φ D rows L gs xs) :
    ∀ i < xs.length, ∀ q ∈ rows,
      sg ((P φ q).eval (xs.getD i 0)) = cv D q ((segCols gs).getD (2 * i + 1) 0) := by
  induction h with
  | last L g e hg he => intro i hi; simp at hi
  | cons L g e gs y xs hy hg he h ih =>
    intro i hi q hq
    cases i with
    | zero => exact he q hq
    | succ i =>
      have := ih i (by simpa using hi) q hq
      rw [show 2 * (i + 1) + 1 = 2 * i + 1 + 1 + 1 by ring]
      exact this

theorem SegSem.root_or_gap {φ : R →+* K} {D : Diagram R ℚ} {rows : List (List R)} {L : K → Prop}
    {gs : List (ℚ × ℚ)} {xs : List K} (h : SegSem φ D rows L gs xs) :
    ∀ x, L x → x ∈ xs ∨ ∃ g ∈ segGaps gs, ∀ q ∈ rows, sg ((P φ q).eval x) = cv D q g := by
  induction h with
  | last L g e hg he =>
    intro x hx
    exact Or.inr ⟨g, by simp [segGaps], fun q hq => hg q hq x hx⟩
  | cons L g e gs y xs hy hg he h ih =>
    intro x hx
    rcases lt_trichotomy x y with hxy | rfl | hxy
    · exact Or.inr ⟨g, by simp [segGaps], fun q hq => hg q hq x hx hxy⟩
    · exact Or.inl (by simp)
    · rcases ih x hxy with h | ⟨i, hi, h⟩
      · exact Or.inl (by simp [h])
      · exact Or.inr ⟨i, by simp [segGaps, hi], h⟩

theorem SegSem.root_col {φ : R →+* K} {D : Diagram R ℚ} {rows : List (List R)} {L : K → Prop}
    {gs : List (ℚ × ℚ)} {xs : List K} (h : SegSem φ D rows L gs xs) :
    ∀ x ∈ xs, ∃ e ∈ segInner gs, ∀ q ∈ rows, sg ((P φ q).eval x) = cv D q e := by
  induction h with
  | last L g e hg he => simp
  | cons L g e gs y xs hy hg he h ih =>
    intro x hx
    obtain ⟨a, as, rfl⟩ := h.ne_nil
    rcases List.mem_cons.1 hx with rfl | hx
    · exact ⟨e, by simp [segInner], he⟩
    · obtain ⟨e', h1, h2⟩ := ih x hx
      exact ⟨e', List.mem_cons_of_mem _ h1, h2⟩

end Verif.Qe
