import Verif.Vts.VtsLemmas
import Verif.Vts.Witness

/-! Helper lemmas for the statements in `Props.lean`. -/

set_option linter.unusedSectionVars false

open Polynomial Verif.Alg

namespace Verif.Vts

variable {R : Type} [CommRing R] [LinearOrder R] {K : Type} [Field K] [LinearOrder K]
  [IsStrictOrderedRing K]

theorem isSign_iff (v : K) (s : ℤ) : IsSign v s ↔ s = sg v := by
  unfold IsSign
  rcases sg_cases v with ⟨h, e⟩ | ⟨h, e⟩ | ⟨h, e⟩ <;> rw [e]
  all_goals
    constructor
    · rintro (⟨h1, h2⟩ | ⟨h1, h2⟩ | ⟨h1, h2⟩) <;> first | exact h2 | (exfalso; linarith)
    · intro h2; simp [h, h2]

theorem signedPseudoRemainder_nil_left (g : List R) : signedPseudoRemainder [] g = .ok [] := by
  rw [signedPseudoRemainder]; simp

theorem signedPseudoRemainder_nil_right (f : List R) (hf : f ≠ []) :
    signedPseudoRemainder f [] = .error .divZeroPoly := by
  rw [signedPseudoRemainder]
  split
  · rename_i h; simp at h; exact absurd h hf
  · simp

theorem signedPseudoRemainder_no_error (f g : List R) (hg : g ≠ []) :
    ∃ r, signedPseudoRemainder f g = .ok r := by
  induction hn : f.length using Nat.strong_induction_on generalizing f with
  | _ n ih =>
    rw [signedPseudoRemainder]
    split
    · exact ⟨_, rfl⟩
    · rename_i lcf hlf
      have hne : f ≠ [] := by rintro rfl; simp at hlf
      have hpos := List.length_pos_iff.2 hne
      rw [List.getLast?_eq_some_getLast hg]
      simp only
      split
      · exact ih _ (by simp; omega) _ rfl
      · split
        · exact ⟨_, rfl⟩
        · refine ih _ ?_ _ rfl
          simp; omega

theorem normalized_neg {r : List R} (h : Normalized r) : Normalized (r.map fun c => -c) := by
  obtain ⟨c, h1, h2⟩ := h
  exact ⟨-c, by simp [List.getLast?_map, h1], by simpa using h2⟩

theorem denote_neg (φ : R →+* K) (r : List R) : denote φ (r.map fun c => -c) = - denote φ r := by
  rw [denote_eq_iff]
  intro i
  rw [coeff_neg, coeff_denote]
  simp only [List.getD, List.getElem?_map]
  cases r[i]? <;> simp

/-- recurrence and lengths in the remainder sequence -/
theorem signedRemainderSequence_chain {φ : R →+* K} (hφ : StrictMono φ) (p q : List R)
    (hq : Normalized q) :
    ∃ l, signedRemainderSequence p q = .ok (p :: q :: l) ∧ (∀ f ∈ q :: l, Normalized f) ∧
      (∀ i f g h, (p :: q :: l)[i]? = some f → (p :: q :: l)[i + 1]? = some g →
        (p :: q :: l)[i + 2]? = some h → h.length < g.length ∧
        ∃ (c : R) (a : K[X]), 0 < c ∧ C (φ c) * denote φ f = a * denote φ g - denote φ h) ∧
      (∀ f g, (p :: q :: l)[l.length]? = some f → (p :: q :: l)[l.length + 1]? = some g →
        ∃ (c : R) (a : K[X]), 0 < c ∧ C (φ c) * denote φ f = a * denote φ g) := by
  induction hn : q.length using Nat.strong_induction_on generalizing p q with
  | _ n ih =>
    obtain ⟨r, h1, h2, c, a, h3, h4⟩ := signedPseudoRemainder_spec (φ := φ) hφ p q hq
    have hlen := signedPseudoRemainder_length p q r h1
    rw [signedRemainderSequence]
    split
    · rename_i e he; rw [h1] at he; simp at he
    · rename_i rem he
      rw [h1] at he
      simp only [Except.ok.injEq] at he
      subst he
      by_cases hr : r = []
      · rw [dif_pos hr]
        refine ⟨[], rfl, by simpa using hq, ?_, ?_⟩
        · intro i f g h _ _ hh
          simp at hh
        · intro f g hf hg
          simp at hf hg
          subst hf hg
          rw [hr] at h4
          exact ⟨c, a, h3, by simpa [denote] using h4⟩
      · rw [dif_neg hr]
        have hrn := normalized_neg (h2.resolve_left hr)
        have hrl := hlen.resolve_left hr
        obtain ⟨l, i1, i2, i3, i4⟩ := ih (r.map fun c => -c).length (by simp; omega) q _ hrn rfl
        rw [i1]
        refine ⟨(r.map fun c => -c) :: l, rfl, ?_, ?_, ?_⟩
        · intro f hf
          rcases List.mem_cons.1 hf with rfl | hf
          · exact hq
          · exact i2 f hf
        · intro i f g h hf hg hh
          cases i with
          | zero =>
            simp at hf hg hh
            subst hf hg hh
            refine ⟨by simpa using hrl, c, a, h3, ?_⟩
            rw [denote_neg, h4]; ring
          | succ i => exact i3 i f g h (by simpa using hf) (by simpa using hg) (by simpa using hh)
        · intro f g hf hg
          exact i4 f g (by simpa using hf) (by simpa using hg)

theorem length_signVec (n i : ℕ) : (signVec n i).length = n := by
  induction n generalizing i with
  | zero => rfl
  | succ n ih => simp [signVec, ih]

theorem range_three (N : ℕ) : List.range (3 * N) = List.range N ++
    ((List.range N).map (fun i => N + i) ++ (List.range N).map (fun i => 2 * N + i)) := by
  have : 3 * N = N + (N + N) := by ring
  rw [this, List.range_add, List.range_add, List.map_append, List.map_map]
  congr 2
  apply List.map_congr_left
  intro i _; simp; ring

theorem countP_signVec_cons (φ : R →+* K) (p : List R) (ps : List (List R)) (rs : List K) (s : ℤ)
    (ss : List ℤ) :
    rs.countP (fun x => decide ((p :: ps).map (fun q => sgAt φ q x) = s :: ss)) =
      (rs.filter fun r => decide (sgAt φ p r = s)).countP
        (fun x => decide (ps.map (fun q => sgAt φ q x) = ss)) := by
  rw [List.countP_filter]
  apply List.countP_congr
  intro x _
  simp [and_comm]

theorem counts_eq (φ : R →+* K) (ps : List (List R)) (rs : List K) :
    counts φ ps rs = (List.range (3 ^ ps.length)).map fun i =>
      ((rs.countP fun x => decide (ps.map (fun q => sgAt φ q x) = signVec ps.length i) : ℕ) : ℚ) := by
  induction ps generalizing rs with
  | nil => simp [counts, signVec]
  | cons p ps ih =>
    rw [counts, ih, ih, ih, List.length_cons, pow_succ, mul_comm, range_three, List.map_append,
      List.map_append, List.map_map, List.map_map]
    have hpos : 0 < 3 ^ ps.length := by positivity
    congr 1
    · apply List.map_congr_left
      intro i hi
      rw [List.mem_range] at hi
      rw [signVec, Nat.div_eq_of_lt hi, Nat.mod_eq_of_lt hi, countP_signVec_cons]
      simp
    congr 1
    · apply List.map_congr_left
      intro i hi
      rw [List.mem_range] at hi
      have h1 : (3 ^ ps.length + i) / 3 ^ ps.length = 1 := by
        rw [Nat.add_div_left _ hpos, Nat.div_eq_of_lt hi]
      have h2 : (3 ^ ps.length + i) % 3 ^ ps.length = i := by
        rw [Nat.add_mod_left, Nat.mod_eq_of_lt hi]
      simp only [Function.comp]
      rw [signVec, h1, h2, countP_signVec_cons]
      simp
    · apply List.map_congr_left
      intro i hi
      rw [List.mem_range] at hi
      have h1 : (2 * 3 ^ ps.length + i) / 3 ^ ps.length = 2 := by
        rw [mul_comm, Nat.mul_add_div hpos, Nat.div_eq_of_lt hi]
      have h2 : (2 * 3 ^ ps.length + i) % 3 ^ ps.length = i := by
        rw [mul_comm, Nat.mul_add_mod, Nat.mod_eq_of_lt hi]
      simp only [Function.comp]
      rw [signVec, h1, h2, countP_signVec_cons]
      simp

theorem foldl_digits (es : List ℕ) (a : ℕ) :
    es.foldl (fun acc e => 3 * acc + e) a = a * 3 ^ es.length + digitsIndex es := by
  unfold digitsIndex
  induction es generalizing a with
  | nil => simp
  | cons e es ih =>
    rw [List.foldl_cons, ih, List.foldl_cons, ih (3 * 0 + e), List.length_cons, pow_succ]
    ring

theorem digitsIndex_cons (e : ℕ) (es : List ℕ) :
    digitsIndex (e :: es) = e * 3 ^ es.length + digitsIndex es := by
  conv_lhs => unfold digitsIndex
  rw [List.foldl_cons, foldl_digits]; ring

theorem digitsIndex_lt (es : List ℕ) (h : ∀ e ∈ es, e ≤ 2) : digitsIndex es < 3 ^ es.length := by
  induction es with
  | nil => simp [digitsIndex]
  | cons e es ih =>
    have := ih fun e he => h e (List.mem_cons_of_mem _ he)
    have he := h e (by simp)
    rw [digitsIndex_cons, List.length_cons, pow_succ]
    nlinarith

theorem makeProductList_get (φ : R →+* K) (ps : List (List R)) (es : List ℕ)
    (hl : es.length = ps.length) (h : ∀ e ∈ es, e ≤ 2) :
    ∃ q, (makeProductList ps)[digitsIndex es]? = some q ∧
      denote φ q = (List.zipWith (fun p e => denote φ p ^ e) ps es).prod := by
  induction ps generalizing es with
  | nil =>
    simp at hl; subst hl
    exact ⟨[1], by simp [makeProductList, digitsIndex], by simp [denote]⟩
  | cons p ps ih =>
    cases es with
    | nil => simp at hl
    | cons e es =>
      simp only [List.length_cons, Nat.add_right_cancel_iff] at hl
      have h' := fun e he => h e (List.mem_cons_of_mem _ he)
      obtain ⟨q, h1, h2⟩ := ih es hl h'
      have he := h e (by simp)
      have hlt := digitsIndex_lt es h'
      have hL := length_makeProductList ps
      rw [hl] at hlt
      rw [digitsIndex_cons, hl, makeProductList]
      have hcase : e = 0 ∨ e = 1 ∨ e = 2 := by omega
      rcases hcase with rfl | rfl | rfl
      · refine ⟨q, ?_, by simp [h2]⟩
        rw [zero_mul, zero_add, List.append_assoc, List.getElem?_append_left (by omega)]
        exact h1
      · refine ⟨multiply q p, ?_, by simp [denote_multiply, h2, mul_comm]⟩
        rw [one_mul, List.append_assoc, List.getElem?_append_right (by omega),
          List.getElem?_append_left (by simp; omega), hL]
        simp [h1]
      · refine ⟨multiply q (multiply p p), ?_, by simp [denote_multiply, h2, mul_comm, pow_two]⟩
        rw [List.getElem?_append_right (by simp; omega)]
        have : 2 * 3 ^ ps.length + digitsIndex es -
            (makeProductList ps ++ List.map (fun product => multiply product p) (makeProductList ps)).length
            = digitsIndex es := by simp [hL]; omega
        rw [this]
        simp [h1]

end Verif.Vts
