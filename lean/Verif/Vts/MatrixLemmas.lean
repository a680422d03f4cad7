import Verif.Vts.Spec
import Mathlib.LinearAlgebra.Matrix.ToLin
import Mathlib.Algebra.BigOperators.Fin
import Mathlib.Tactic.Linarith
import Mathlib.Tactic.Ring

/-! Helper lemmas: the sign matrices. -/

namespace Verif.Vts

/-- dot product of two lists -/
def dot (r v : List ℚ) : ℚ := (List.zipWith (· * ·) r v).sum

/-- matrix times vector without shape check -/
def mulV (A : Mat) (v : List ℚ) : List ℚ := A.map fun r => dot r v

theorem matVec_ok {A : Mat} {v : List ℚ} {n : ℕ} (hA : IsSquare' n A) (hv : v.length = n) :
    matVec A v = .ok (mulV A v) := by
  unfold matVec
  rw [if_pos]
  · rfl
  · simp only [List.all_eq_true, decide_eq_true_eq]
    intro r hr; rw [hA.2 r hr, hv]

theorem kron_assoc (A B C : Mat) : kron (kron A B) C = kron A (kron B C) := by
  simp only [kron, List.flatMap_assoc, List.map_flatMap, List.flatMap_map]
  congr 1; funext ra
  congr 1; funext rb
  simp only [List.map_map, Function.comp_def, List.map_flatMap,
    mul_assoc]

theorem kron_one_right (A : Mat) : kron A [[1]] = A := by
  simp [kron]

theorem kron_one_left (A : Mat) : kron [[1]] A = A := by
  simp [kron]

theorem signMatrix_succ (n : ℕ) : signMatrix (n + 1) = kron (signMatrix n) baseMatrix := by
  cases n with
  | zero => rw [signMatrix, signMatrix, kron_one_left]
  | succ n => rw [signMatrix]

theorem signMatrix_succ' (n : ℕ) : signMatrix (n + 1) = kron baseMatrix (signMatrix n) := by
  induction n with
  | zero => rw [signMatrix, signMatrix, kron_one_right]
  | succ n ih => rw [signMatrix_succ, ih, kron_assoc, ← signMatrix_succ, ← ih]

theorem kron_base (A : Mat) : kron baseMatrix A =
    A.map (fun r => r ++ (r ++ r)) ++ (A.map (fun r => r.map (fun _ => 0) ++ (r ++ r.map (fun b => -b)))
      ++ A.map (fun r => r.map (fun _ => 0) ++ (r ++ r))) := by
  simp [kron, baseMatrix]

theorem isSquare_signMatrix (n : ℕ) : IsSquare' (3 ^ n) (signMatrix n) := by
  induction n with
  | zero => simp [IsSquare', signMatrix]
  | succ n ih =>
    rw [signMatrix_succ', kron_base]
    refine ⟨?_, ?_⟩
    · simp [ih.1]; omega
    · intro r hr
      simp only [List.mem_append, List.mem_map] at hr
      rcases hr with ⟨a, ha, rfl⟩ | ⟨a, ha, rfl⟩ | ⟨a, ha, rfl⟩ <;> simp [ih.2 a ha] <;> omega

theorem dot_append {r1 r2 v1 v2 : List ℚ} (h : r1.length = v1.length) :
    dot (r1 ++ r2) (v1 ++ v2) = dot r1 v1 + dot r2 v2 := by
  unfold dot
  rw [List.zipWith_append h, List.sum_append]

theorem dot_zero (r v : List ℚ) : dot (r.map fun _ => 0) v = 0 := by
  unfold dot
  induction r generalizing v with
  | nil => simp
  | cons a r ih => cases v <;> simp_all

theorem dot_neg (r v : List ℚ) : dot (r.map fun b => -b) v = - dot r v := by
  unfold dot
  induction r generalizing v with
  | nil => simp
  | cons a r ih =>
    cases v with
    | nil => simp
    | cons b v => simp [ih]; ring

/-- Action of the Kronecker product with the base matrix. -/
theorem mulV_kron_base {A : Mat} {n : ℕ} (hA : IsSquare' n A) {v0 v1 v2 : List ℚ}
    (h0 : v0.length = n) (h1 : v1.length = n) :
    mulV (kron baseMatrix A) (v0 ++ (v1 ++ v2)) =
      List.zipWith (· + ·) (mulV A v0) (List.zipWith (· + ·) (mulV A v1) (mulV A v2)) ++
      (List.zipWith (· - ·) (mulV A v1) (mulV A v2) ++
       List.zipWith (· + ·) (mulV A v1) (mulV A v2)) := by
  rw [kron_base]
  simp only [mulV, List.map_append, List.map_map, List.zipWith_map_left, List.zipWith_map_right,
    List.zipWith_self]
  congr 1
  · apply List.map_congr_left
    intro r hr
    have := hA.2 r hr
    simp only [Function.comp]
    rw [dot_append (by omega), dot_append (by omega)]
  congr 1
  · apply List.map_congr_left
    intro r hr
    have := hA.2 r hr
    simp only [Function.comp]
    rw [dot_append (by simp; omega), dot_append (by omega), dot_zero, dot_neg]; ring
  · apply List.map_congr_left
    intro r hr
    have := hA.2 r hr
    simp only [Function.comp]
    rw [dot_append (by simp; omega), dot_append (by omega), dot_zero]; ring

theorem length_mulV {A : Mat} {n : ℕ} (hA : IsSquare' n A) (v : List ℚ) : (mulV A v).length = n := by
  simp [mulV, hA.1]

theorem split3 {n : ℕ} {v : List ℚ} (h : v.length = 3 ^ (n + 1)) :
    ∃ v0 v1 v2, v = v0 ++ (v1 ++ v2) ∧ v0.length = 3 ^ n ∧ v1.length = 3 ^ n ∧ v2.length = 3 ^ n := by
  refine ⟨v.take (3 ^ n), (v.drop (3 ^ n)).take (3 ^ n), (v.drop (3 ^ n)).drop (3 ^ n), ?_, ?_, ?_, ?_⟩
  · rw [List.take_append_drop, List.take_append_drop]
  · simp; omega
  · simp; omega
  · simp; omega

theorem zipWith_left_inj {n : ℕ} (a b c a' b' c' : List ℚ) (ha : a.length = n) (hb : b.length = n)
    (hc : c.length = n) (ha' : a'.length = n) (hb' : b'.length = n) (hc' : c'.length = n)
    (h1 : List.zipWith (· + ·) a (List.zipWith (· + ·) b c) =
      List.zipWith (· + ·) a' (List.zipWith (· + ·) b' c'))
    (h2 : List.zipWith (· - ·) b c = List.zipWith (· - ·) b' c')
    (h3 : List.zipWith (· + ·) b c = List.zipWith (· + ·) b' c') : a = a' ∧ b = b' ∧ c = c' := by
  induction n generalizing a b c a' b' c' with
  | zero => simp_all
  | succ n ih =>
    obtain ⟨x, a, rfl⟩ := List.exists_cons_of_length_eq_add_one ha
    obtain ⟨y, b, rfl⟩ := List.exists_cons_of_length_eq_add_one hb
    obtain ⟨z, c, rfl⟩ := List.exists_cons_of_length_eq_add_one hc
    obtain ⟨x', a', rfl⟩ := List.exists_cons_of_length_eq_add_one ha'
    obtain ⟨y', b', rfl⟩ := List.exists_cons_of_length_eq_add_one hb'
    obtain ⟨z', c', rfl⟩ := List.exists_cons_of_length_eq_add_one hc'
    simp only [List.zipWith_cons_cons, List.cons.injEq] at h1 h2 h3
    obtain ⟨e1, e2, e3⟩ := ih a b c a' b' c' (by simpa using ha) (by simpa using hb)
      (by simpa using hc) (by simpa using ha') (by simpa using hb') (by simpa using hc') h1.2 h2.2 h3.2
    subst e1 e2 e3
    refine ⟨?_, ?_, ?_⟩
    · congr 1; linarith [h1.1, h3.1]
    · congr 1; linarith [h2.1, h3.1]
    · congr 1; linarith [h2.1, h3.1]

theorem mulV_signMatrix_injective (n : ℕ) (v w : List ℚ) (hv : v.length = 3 ^ n)
    (hw : w.length = 3 ^ n) (h : mulV (signMatrix n) v = mulV (signMatrix n) w) : v = w := by
  induction n generalizing v w with
  | zero =>
    simp only [pow_zero] at hv hw
    obtain ⟨a, rfl⟩ := List.length_eq_one_iff.1 hv
    obtain ⟨b, rfl⟩ := List.length_eq_one_iff.1 hw
    simpa [mulV, signMatrix, dot] using h
  | succ n ih =>
    obtain ⟨v0, v1, v2, rfl, a0, a1, a2⟩ := split3 hv
    obtain ⟨w0, w1, w2, rfl, b0, b1, b2⟩ := split3 hw
    have hS := isSquare_signMatrix n
    rw [signMatrix_succ', mulV_kron_base hS a0 a1, mulV_kron_base hS b0 b1] at h
    have l0 := fun v => length_mulV hS v
    obtain ⟨h1, h2⟩ := List.append_inj h (by simp [l0])
    obtain ⟨h2, h3⟩ := List.append_inj h2 (by simp [l0])
    obtain ⟨e0, e1, e2⟩ := zipWith_left_inj _ _ _ _ _ _ (l0 _) (l0 _) (l0 _) (l0 _) (l0 _) (l0 _)
      h1 h2 h3
    rw [ih v0 w0 a0 b0 e0, ih v1 w1 a1 b1 e1, ih v2 w2 a2 b2 e2]

theorem dot_eq_sum {n : ℕ} {r v : List ℚ} (hr : r.length = n) (hv : v.length = n) :
    dot r v = ∑ i : Fin n, r.getD i 0 * v.getD i 0 := by
  subst hr
  unfold dot
  induction r generalizing v with
  | nil => simp
  | cons a r ih =>
    obtain ⟨b, v, rfl⟩ := List.exists_cons_of_length_eq_add_one hv
    rw [List.zipWith_cons_cons, List.sum_cons, ih (by simpa using hv), List.length_cons,
      Fin.sum_univ_succ]
    simp

theorem mulV_eq {n : ℕ} {A : Mat} {v : List ℚ} (hA : IsSquare' n A) (hv : v.length = n) :
    mulV A v = List.ofFn ((toMatrix n A).mulVec fun i => v.getD i 0) := by
  apply List.ext_getElem
  · simp [length_mulV hA]
  · intro i h1 h2
    have hi : i < A.length := by simpa [mulV] using h1
    simp only [mulV, List.getElem_map, List.getElem_ofFn, Matrix.mulVec, dotProduct, toMatrix]
    rw [dot_eq_sum (hA.2 _ (List.getElem_mem hi)) hv]
    apply Finset.sum_congr rfl
    intro j _
    simp [List.getD, List.getElem?_eq_getElem hi]

theorem ofFn_getD {n : ℕ} {v : List ℚ} (hv : v.length = n) :
    List.ofFn (fun i : Fin n => v.getD i 0) = v := by
  apply List.ext_getElem
  · simp [hv]
  · intro i h1 h2
    simp [List.getD, List.getElem?_eq_getElem h2]

theorem getD_ofFn {n : ℕ} (f : Fin n → ℚ) : (fun i : Fin n => (List.ofFn f).getD i 0) = f := by
  funext i
  simp [List.getD]

theorem isUnit_det_signMatrix (n : ℕ) : IsUnit (toMatrix (3 ^ n) (signMatrix n)).det := by
  rw [← Matrix.isUnit_iff_isUnit_det, ← Matrix.mulVec_injective_iff_isUnit]
  intro f g h
  have hS := isSquare_signMatrix n
  have h1 := mulV_eq hS (v := List.ofFn f) (by simp)
  have h2 := mulV_eq hS (v := List.ofFn g) (by simp)
  rw [getD_ofFn] at h1 h2
  have := mulV_signMatrix_injective n (List.ofFn f) (List.ofFn g) (by simp) (by simp)
    (by rw [h1, h2]; exact congrArg _ h)
  exact List.ofFn_injective this

/-- A list matrix that represents the inverse undoes the multiplication. -/
theorem mulV_inv {n : ℕ} {A B : Mat} (hA : IsSquare' n A) (hB : IsSquare' n B)
    (hdet : IsUnit (toMatrix n A).det) (h : toMatrix n B = (toMatrix n A)⁻¹) {v : List ℚ}
    (hv : v.length = n) : mulV B (mulV A v) = v := by
  rw [mulV_eq hB (length_mulV hA v), mulV_eq hA hv, getD_ofFn, Matrix.mulVec_mulVec, h,
    Matrix.nonsing_inv_mul _ hdet, Matrix.one_mulVec, ofFn_getD hv]

end Verif.Vts
