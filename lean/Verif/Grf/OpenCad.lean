import Mathlib.Topology.Connected.LocallyConnected
import Mathlib.Topology.Connected.Clopen
import Mathlib.Topology.Order.Compact
import Mathlib.Topology.Order.IntermediateValue
import Mathlib.Analysis.Calculus.LocalExtr.Rolle

/-!
# Sectors over connected sets

The topological part of the correctness of open cylindrical algebraic decompositions: over a connected set on which a
family of functions of one variable only has simple zeros, none of which escapes to infinity, every sector over one
point can be followed to any other point.
-/

namespace Verif.Grf

open Topology Set Filter

section
variable {X : Type*} [TopologicalSpace X]

/-- Two points in a common connected subset of `W`. -/
def Linked (W : Set X) (x y : X) : Prop := ∃ A ⊆ W, IsPreconnected A ∧ x ∈ A ∧ y ∈ A

theorem Linked.refl {W : Set X} {x : X} (h : x ∈ W) : Linked W x x :=
  ⟨{x}, by simpa using h, isPreconnected_singleton, rfl, rfl⟩

theorem Linked.symm {W : Set X} {x y : X} (h : Linked W x y) : Linked W y x := by
  obtain ⟨A, h1, h2, h3, h4⟩ := h
  exact ⟨A, h1, h2, h4, h3⟩

theorem Linked.trans {W : Set X} {x y z : X} (h : Linked W x y) (h' : Linked W y z) : Linked W x z := by
  obtain ⟨A, h1, h2, h3, h4⟩ := h
  obtain ⟨B, k1, k2, k3, k4⟩ := h'
  exact ⟨A ∪ B, union_subset h1 k1, h2.union y h4 k3 k2, Or.inl h3, Or.inr k4⟩

theorem Linked.left {W : Set X} {x y : X} (h : Linked W x y) : x ∈ W := by
  obtain ⟨A, h1, h2, h3, h4⟩ := h
  exact h1 h3

theorem Linked.right {W : Set X} {x y : X} (h : Linked W x y) : y ∈ W := h.symm.left

theorem Linked.map {Y : Type*} [TopologicalSpace Y] {W : Set X} {V : Set Y} {x y : X} (h : Linked W x y) {f : X → Y}
    (hf : Continuous f) (hm : ∀ x ∈ W, f x ∈ V) : Linked V (f x) (f y) := by
  obtain ⟨A, h1, h2, h3, h4⟩ := h
  refine ⟨f '' A, ?_, h2.image f hf.continuousOn, mem_image_of_mem f h3, mem_image_of_mem f h4⟩
  rintro _ ⟨a, ha, rfl⟩
  exact hm a (h1 ha)

theorem Linked.of_isPreconnected {A W : Set X} (hA : IsPreconnected A) (hW : A ⊆ W) {x y : X} (hx : x ∈ A) (hy : y ∈ A) :
    Linked W x y := ⟨A, hW, hA, hx, hy⟩

variable {g g' : X × ℝ → ℝ}

theorem vertical_link {β : X} {a b : ℝ} (h : ∀ z ∈ uIcc a b, g (β, z) ≠ 0) :
    Linked {z | g z ≠ 0} (β, a) (β, b) := by
  refine ⟨(fun z => (β, z)) '' uIcc a b, ?_, ?_, ⟨a, left_mem_uIcc, rfl⟩, ⟨b, right_mem_uIcc, rfl⟩⟩
  · rintro _ ⟨z, hz, rfl⟩
    exact h z hz
  · exact isPreconnected_uIcc.image _ (by fun_prop)

theorem horizontal_link {U : Set X} (hU : IsPreconnected U) {c : ℝ} (h : ∀ α ∈ U, g (α, c) ≠ 0) {β β' : X}
    (hβ : β ∈ U) (hβ' : β' ∈ U) : Linked {z | g z ≠ 0} (β, c) (β', c) := by
  refine ⟨(fun α => (α, c)) '' U, ?_, ?_, ⟨β, hβ, rfl⟩, ⟨β', hβ', rfl⟩⟩
  · rintro _ ⟨α, hα, rfl⟩
    exact h α hα
  · exact hU.image _ (by fun_prop)

omit [TopologicalSpace X] in
/-- Between two zeros there is a zero of the derivative. -/
theorem rolle (hd : ∀ α x, HasDerivAt (fun y => g (α, y)) (g' (α, x)) x) {β : X} {a b : ℝ} (hab : a < b)
    (ha : g (β, a) = 0) (hb : g (β, b) = 0) : ∃ c ∈ Ioo a b, g' (β, c) = 0 := by
  apply exists_hasDerivAt_eq_zero (f := fun y => g (β, y)) (f' := fun y => g' (β, y)) hab
  · exact fun x _ => (hd β x).continuousAt.continuousWithinAt
  · simp [ha, hb]
  · exact fun x _ => hd β x

variable [LocallyConnectedSpace X]

/-- Near a point the sectors correspond to each other. -/
theorem local_link (hg : Continuous g) (hg' : Continuous g') (hd : ∀ α x, HasDerivAt (fun y => g (α, y)) (g' (α, x)) x)
    (α₀ : X) (y₀ : ℝ) (hns : g (α₀, y₀) = 0 → g' (α₀, y₀) ≠ 0) :
    ∃ U ∈ 𝓝 α₀, ∃ N ∈ 𝓝 y₀, ∀ β ∈ U, ∀ β' ∈ U, ∀ y ∈ N, g (β, y) ≠ 0 → ∃ y', Linked {z | g z ≠ 0} (β, y) (β', y') := by
  by_cases h0 : g (α₀, y₀) = 0
  · have hD : {z | g' z ≠ 0} ∈ 𝓝 (α₀, y₀) := (isOpen_ne_fun hg' continuous_const).mem_nhds (hns h0)
    obtain ⟨U₁, hU₁, N, hN, hsub⟩ := mem_nhds_prod_iff.1 hD
    obtain ⟨δ, hδ, hN⟩ := Metric.nhds_basis_closedBall.mem_iff.1 hN
    rw [Real.closedBall_eq_Icc] at hN
    have hD' : ∀ β ∈ U₁, ∀ y ∈ Icc (y₀ - δ) (y₀ + δ), g' (β, y) ≠ 0 := fun β hβ y hy => hsub ⟨hβ, hN hy⟩
    have hα : α₀ ∈ U₁ := mem_of_mem_nhds hU₁
    have one : ∀ β ∈ U₁, ∀ a ∈ Icc (y₀ - δ) (y₀ + δ), ∀ b ∈ Icc (y₀ - δ) (y₀ + δ), a < b → g (β, a) = 0 →
        g (β, b) ≠ 0 := by
      intro β hβ a ha b hb hab h1 h2
      obtain ⟨c, hc, hc0⟩ := rolle hd hab h1 h2
      exact hD' β hβ c ⟨by linarith [ha.1, hc.1], by linarith [hb.2, hc.2]⟩ hc0
    have hup : g (α₀, y₀ + δ) ≠ 0 := one α₀ hα y₀ ⟨by linarith, by linarith⟩ _ ⟨by linarith, by linarith⟩ (by linarith) h0
    have hdn : g (α₀, y₀ - δ) ≠ 0 := fun h =>
      one α₀ hα _ ⟨by linarith, by linarith⟩ y₀ ⟨by linarith, by linarith⟩ (by linarith) h h0
    have hV : U₁ ∩ {β | g (β, y₀ + δ) ≠ 0} ∩ {β | g (β, y₀ - δ) ≠ 0} ∈ 𝓝 α₀ := by
      refine inter_mem (inter_mem hU₁ ?_) ?_
      · exact (isOpen_ne_fun (hg.comp (by fun_prop : Continuous fun β : X => (β, y₀ + δ))) continuous_const).mem_nhds hup
      · exact (isOpen_ne_fun (hg.comp (by fun_prop : Continuous fun β : X => (β, y₀ - δ))) continuous_const).mem_nhds hdn
    refine ⟨_, connectedComponentIn_mem_nhds hV, Icc (y₀ - δ) (y₀ + δ), Icc_mem_nhds (by linarith) (by linarith), ?_⟩
    have hC := connectedComponentIn_subset (U₁ ∩ {β | g (β, y₀ + δ) ≠ 0} ∩ {β | g (β, y₀ - δ) ≠ 0}) α₀
    have hP : IsPreconnected (connectedComponentIn (U₁ ∩ {β | g (β, y₀ + δ) ≠ 0} ∩ {β | g (β, y₀ - δ) ≠ 0}) α₀) :=
      isPreconnected_connectedComponentIn
    intro β hβ β' hβ' y hy hne
    by_cases hr : ∃ r ∈ Icc y (y₀ + δ), g (β, r) = 0
    · obtain ⟨r, hr, hr0⟩ := hr
      have hyr : y < r := lt_of_le_of_ne hr.1 (by rintro rfl; exact hne hr0)
      refine ⟨y₀ - δ, (vertical_link ?_).trans (horizontal_link hP (fun α hα => (hC hα).2) hβ hβ')⟩
      intro z hz
      rw [uIcc_of_ge hy.1] at hz
      intro hz0
      exact one β (hC hβ).1.1 z ⟨hz.1, by linarith [hz.2, hy.2]⟩ r ⟨by linarith [hy.1], hr.2⟩ (by linarith [hz.2]) hz0 hr0
    · refine ⟨y₀ + δ, (vertical_link ?_).trans (horizontal_link hP (fun α hα => (hC hα).1.2) hβ hβ')⟩
      intro z hz
      rw [uIcc_of_le hy.2] at hz
      exact fun hz0 => hr ⟨z, hz, hz0⟩
  · have hW : {z | g z ≠ 0} ∈ 𝓝 (α₀, y₀) := (isOpen_ne_fun hg continuous_const).mem_nhds h0
    obtain ⟨U, hU, N, hN, hsub⟩ := mem_nhds_prod_iff.1 (connectedComponentIn_mem_nhds hW)
    exact ⟨U, hU, N, hN, fun β hβ β' hβ' y hy _ => ⟨y, Linked.of_isPreconnected isPreconnected_connectedComponentIn
      (connectedComponentIn_subset _ _) (hsub ⟨hβ, hy⟩) (hsub ⟨hβ', hy⟩)⟩⟩

/-- The same for all sectors over a neighbourhood. -/
theorem near_link (hg : Continuous g) (hg' : Continuous g') (hd : ∀ α x, HasDerivAt (fun y => g (α, y)) (g' (α, x)) x)
    (α₀ : X) (hns : ∀ y, g (α₀, y) = 0 → g' (α₀, y) ≠ 0)
    (hbd : ∃ M : ℝ, 0 ≤ M ∧ ∀ᶠ α in 𝓝 α₀, ∀ y, M ≤ |y| → g (α, y) ≠ 0) :
    ∃ U ∈ 𝓝 α₀, ∀ β ∈ U, ∀ β' ∈ U, ∀ y, g (β, y) ≠ 0 → ∃ y', Linked {z | g z ≠ 0} (β, y) (β', y') := by
  obtain ⟨M, hM, hbd⟩ := hbd
  have hK : ∃ U ∈ 𝓝 α₀, ∀ β ∈ U, ∀ β' ∈ U, ∀ y ∈ Icc (-M) M, g (β, y) ≠ 0 →
      ∃ y', Linked {z | g z ≠ 0} (β, y) (β', y') := by
    apply (isCompact_Icc (a := -M) (b := M)).induction_on
      (p := fun s => ∃ U ∈ 𝓝 α₀, ∀ β ∈ U, ∀ β' ∈ U, ∀ y ∈ s, g (β, y) ≠ 0 → ∃ y', Linked {z | g z ≠ 0} (β, y) (β', y'))
    · exact ⟨univ, univ_mem, by simp⟩
    · rintro s t hst ⟨U, hU, h⟩
      exact ⟨U, hU, fun β hβ β' hβ' y hy => h β hβ β' hβ' y (hst hy)⟩
    · rintro s t ⟨U, hU, h⟩ ⟨V, hV, h'⟩
      refine ⟨U ∩ V, inter_mem hU hV, ?_⟩
      rintro β hβ β' hβ' y (hy | hy)
      · exact h β hβ.1 β' hβ'.1 y hy
      · exact h' β hβ.2 β' hβ'.2 y hy
    · intro y _
      obtain ⟨U, hU, N, hN, h⟩ := local_link hg hg' hd α₀ y (hns y)
      exact ⟨N, nhdsWithin_le_nhds hN, U, hU, h⟩
  obtain ⟨U, hU, h⟩ := hK
  refine ⟨U ∩ {α | ∀ y, M ≤ |y| → g (α, y) ≠ 0}, inter_mem hU hbd, ?_⟩
  intro β hβ β' hβ' y hy
  rcases le_or_gt |y| M with hyM | hyM
  · exact h β hβ.1 β' hβ'.1 y (abs_le.1 hyM) hy
  · rcases le_or_gt 0 y with hy0 | hy0
    · rw [abs_of_nonneg hy0] at hyM
      have hv : Linked {z | g z ≠ 0} (β, y) (β, M) := by
        apply vertical_link
        intro z hz
        rw [uIcc_of_ge hyM.le] at hz
        exact hβ.2 z (hz.1.trans (le_abs_self z))
      obtain ⟨y', hy'⟩ := h β hβ.1 β' hβ'.1 M ⟨by linarith, le_refl _⟩ hv.right
      exact ⟨y', hv.trans hy'⟩
    · rw [abs_of_neg hy0] at hyM
      have hv : Linked {z | g z ≠ 0} (β, y) (β, -M) := by
        apply vertical_link
        intro z hz
        rw [uIcc_of_le (by linarith)] at hz
        exact hβ.2 z ((by linarith [hz.2] : M ≤ -z).trans (neg_le_abs z))
      obtain ⟨y', hy'⟩ := h β hβ.1 β' hβ'.1 (-M) ⟨le_refl _, by linarith⟩ hv.right
      exact ⟨y', hv.trans hy'⟩

/-- Sectors can be followed along a connected set. -/
theorem follow_sector (hg : Continuous g) (hg' : Continuous g')
    (hd : ∀ α x, HasDerivAt (fun y => g (α, y)) (g' (α, x)) x) {A : Set X} (hA : IsPreconnected A)
    (hns : ∀ α ∈ A, ∀ y, g (α, y) = 0 → g' (α, y) ≠ 0)
    (hbd : ∀ α ∈ A, ∃ M : ℝ, 0 ≤ M ∧ ∀ᶠ β in 𝓝 α, ∀ y, M ≤ |y| → g (β, y) ≠ 0) {α β : X} (hα : α ∈ A) (hβ : β ∈ A) :
    ∀ y, g (α, y) ≠ 0 → ∃ y', Linked {z | g z ≠ 0} (α, y) (β, y') := by
  apply hA.induction₂' (fun α β => ∀ y, g (α, y) ≠ 0 → ∃ y', Linked {z | g z ≠ 0} (α, y) (β, y')) ?_ ?_ hα hβ
  · intro α hα
    obtain ⟨U, hU, h⟩ := near_link hg hg' hd α (hns α hα) (hbd α hα)
    filter_upwards [nhdsWithin_le_nhds hU] with β hβ
    exact ⟨h α (mem_of_mem_nhds hU) β hβ, h β hβ α (mem_of_mem_nhds hU)⟩
  · intro α β γ _ _ _ h1 h2 y hy
    obtain ⟨y', hy'⟩ := h1 y hy
    obtain ⟨y'', hy''⟩ := h2 y' hy'.right
    exact ⟨y'', hy'.trans hy''⟩

end

end Verif.Grf
