import Verif.Qe.ChGeneric
import Verif.Qe.PropsDepth

/-!
# C28 where the leading coefficient does not vanish

`R`, the lists of coefficients, `poly`, `value` and `Normal` are as in `PropsMuchnik`.
-/

set_option linter.unusedSectionVars false

open Polynomial

namespace Verif.Qe

variable {R : Type} [CommRing R] [DecidableEq R]

/-- What holds instead of **C28** on every input that is not constant: if `real_full` returns at all, the returned
disjunction is equivalent to the existence of a point at all the valuations where the leading coefficient of the first
of the polynomials of highest degree does not vanish. All the errors of `C28_violated_sound` and
`C28_violated_complete` are at the zeros of this one coefficient. -/
theorem C28_generic_partial [IsDomain R] [CharZero R] (A : MAlg R) (hA : GoodScalars A)
    (lesser eqs greater : List (List R)) (p : List R) (hp : FirstHighest (lesser ++ eqs ++ greater) p)
    (hlen : 1 < p.length) (hn : ∀ q ∈ lesser ++ eqs ++ greater, Normal q) (fuel : ℕ)
    (ret : List (List R × List R × List R)) (hret : chFull A fuel lesser eqs greater = .ok ret)
    {K : Type} [Field K] [LinearOrder K] [IsStrictOrderedRing K] [Verif.Alg.PolyIVT K] (φ : R →+* K)
    (hφ : ScalarSigns A φ) (hlc : φ (p.getLastD 0) ≠ 0) :
    (∃ z ∈ ret, (∀ k ∈ z.1, φ k < 0) ∧ (∀ k ∈ z.2.1, φ k = 0) ∧ ∀ k ∈ z.2.2, 0 < φ k) ↔
      ∃ x, (∀ q ∈ lesser, value φ q x < 0) ∧ (∀ q ∈ eqs, value φ q x = 0) ∧
        ∀ q ∈ greater, 0 < value φ q x := by
  obtain ⟨rest, hds, hrest⟩ := degSet_first hp
  obtain ⟨N, hN⟩ := chFull_generic (K := K) hA.algOK lesser eqs greater (fun q hq => canon_of_normal (hn q hq)) hds
    (by unfold deg; omega)
  have hT : NF (realTable A fuel (lesser ++ eqs ++ greater) []) := by
    intro h
    unfold chFull at hret
    rw [h] at hret
    cases hret
  have hret' : chFull A (max N fuel) lesser eqs greater = .ok ret := by
    unfold chFull at hret ⊢
    rw [realTable_stable A _ _ _ hT _ (le_max_right N fuel)]
    exact hret
  have := hN _ (le_max_left N fuel) ret hret' φ (hφ.rval hA) hlc
  simpa only [eval_P] using this

/-- C28_generic_partial for `y*x + 1 = 0 ∧ x - 1 > 0`, where one of the contexts is wrong at `y = 0`
(`C28_violated_sound`): at every other value of `y` the answer is right. -/
example : ∃ ret, chFull ZY.alg 20 [] [[1, ZY.y]] [[-1, 1]] = .ok ret ∧ ∀ a : ℝ, a ≠ 0 →
    ((∃ z ∈ ret, (∀ k ∈ z.1, ZY.at' a k < 0) ∧ (∀ k ∈ z.2.1, ZY.at' a k = 0) ∧ ∀ k ∈ z.2.2, 0 < ZY.at' a k) ↔
      ∃ x : ℝ, (∀ q ∈ ([] : List (List ZY)), value (ZY.at' a) q x < 0) ∧
        (∀ q ∈ [[1, ZY.y]], value (ZY.at' a) q x = 0) ∧ ∀ q ∈ [[(-1 : ZY), 1]], 0 < value (ZY.at' a) q x) := by
  obtain ⟨ret, h, -⟩ := C28_violated_sound
  refine ⟨ret, h, fun a ha => C28_generic_partial ZY.alg .zyAlg _ _ _ [1, ZY.y] ⟨[], [[-1, 1]], by simp⟩ (by simp) ?_ _ ret h
    (ZY.at' a) (scalarSigns_zy a) (by simpa [ZY.at'_y] using ha)⟩
  intro p hp h
  simp only [List.cons_append, List.nil_append, List.mem_cons, List.not_mem_nil, or_false] at hp
  rcases hp with rfl | rfl <;> revert h <;> decide

end Verif.Qe
