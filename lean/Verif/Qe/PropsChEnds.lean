import Verif.Qe.ChEnds
import Verif.Qe.PropsChGeneric

/-!
# C28: when `real_full` of `cohenhorm.py` raises an exception, and systems of linear polynomials

`R`, the lists of coefficients, `poly`, `value` and `Normal` are as in `PropsMuchnik`.
-/

set_option linter.unusedSectionVars false

open Polynomial

namespace Verif.Qe

variable {R : Type} [CommRing R] [DecidableEq R]

theorem exists_firstHighest : ∀ {ps : List (List R)}, ps ≠ [] → ∃ p, FirstHighest ps p := by
  intro ps
  induction ps with
  | nil => intro h; exact absurd rfl h
  | cons a ps ih =>
    intro _
    by_cases hps : ps = []
    · subst hps
      exact ⟨a, [], [], rfl, by simp, by simp⟩
    · obtain ⟨p, pre, post, rfl, h1, h2⟩ := ih hps
      by_cases hap : a.length < p.length
      · refine ⟨p, a :: pre, post, rfl, ?_, h2⟩
        intro q hq
        rcases List.mem_cons.1 hq with rfl | hq
        · exact hap
        · exact h1 q hq
      · refine ⟨a, [], pre ++ p :: post, rfl, by simp, ?_⟩
        intro q hq
        rcases List.mem_append.1 hq with hq | hq
        · have := h1 q hq; omega
        · rcases List.mem_cons.1 hq with rfl | hq
          · omega
          · have := h2 q hq; omega

/-- What holds instead of **C28** on every input: `real_full` ends, and the only exception is that of
`C28_violated_exception`, for a sign that is not in the context. It is raised only if the first of the polynomials of
highest degree is at least quadratic and has a leading coefficient with parameters. -/
theorem C28_exceptions_partial [IsDomain R] [CharZero R] (A : MAlg R) (hA : GoodScalars A)
    (lesser eqs greater : List (List R)) (hn : ∀ q ∈ lesser ++ eqs ++ greater, Normal q) :
    ∃ (N : ℕ) (r : Except QErr (List (List R × List R × List R))),
      (∀ fuel ≥ N, chFull A fuel lesser eqs greater = r) ∧
      ((∃ ret, r = .ok ret) ∨ (r = .error .noKey ∧ ∃ p, FirstHighest (lesser ++ eqs ++ greater) p ∧
        2 ≤ (poly p).natDegree ∧ A.hasVar (poly p).leadingCoeff = true)) := by
  by_cases hne : lesser ++ eqs ++ greater = []
  · refine ⟨0, .ok [], fun fuel _ => ?_, Or.inl ⟨_, rfl⟩⟩
    unfold chFull
    rw [hne]
    cases fuel <;> rfl
  obtain ⟨p, hp⟩ := exists_firstHighest hne
  have hpm : p ∈ lesser ++ eqs ++ greater := by
    obtain ⟨pre, post, h, _⟩ := hp
    rw [h]; simp
  by_cases hlead : p.length ≤ 1 ∨ A.hasVar (p.getLastD 0) = false
  · obtain ⟨N, ret, h, _⟩ := C28_partial A hA lesser eqs greater p hp hlead hn
    exact ⟨N, .ok ret, h, Or.inl ⟨ret, rfl⟩⟩
  push Not at hlead
  obtain ⟨rest, hds, _⟩ := degSet_first hp
  obtain ⟨N, hN⟩ := chFull_ends hA.algOK lesser eqs greater (fun q hq => canon_of_normal (hn q hq)) hds
    (by unfold deg; omega)
  have hstab : ∀ fuel ≥ N, chFull A fuel lesser eqs greater = chFull A N lesser eqs greater := by
    intro fuel hf
    have hT : NF (realTable A N (lesser ++ eqs ++ greater) []) := by
      intro h
      have h' : chFull A N lesser eqs greater = .error .outOfFuel := by unfold chFull; rw [h]; rfl
      rcases hN N le_rfl with ⟨_, h2⟩ | ⟨_, h2⟩ <;> rw [h'] at h2 <;> cases h2
    unfold chFull
    rw [realTable_stable A _ _ _ hT fuel hf]
  refine ⟨N, _, hstab, ?_⟩
  rcases hN N le_rfl with ⟨h1, h2⟩ | h2
  · right
    have hc := canon_of_normal (hn p hpm)
    refine ⟨h2, p, hp, ?_, ?_⟩
    · have := natDegree_toPoly hc
      rw [poly_eq, this]; exact h1
    · rw [poly_eq, leadingCoeff_toPoly hc]
      exact eq_true_of_ne_false hlead.2
  · exact Or.inl h2

/-- What holds instead of **C28** for linear polynomials, all coefficients with parameters: `real_full` always returns,
and the returned disjunction is equivalent to the existence of a point at all the valuations where the leading
coefficient of the first linear polynomial does not vanish. -/
theorem C28_linear_partial [IsDomain R] [CharZero R] (A : MAlg R) (hA : GoodScalars A)
    (lesser eqs greater : List (List R)) (hn : ∀ q ∈ lesser ++ eqs ++ greater, Normal q)
    (hdeg : ∀ q ∈ lesser ++ eqs ++ greater, (poly q).natDegree ≤ 1) (p : List R)
    (hp : FirstHighest (lesser ++ eqs ++ greater) p) (hlen : (poly p).natDegree = 1) :
    ∃ (N : ℕ) (ret : List (List R × List R × List R)), (∀ fuel ≥ N, chFull A fuel lesser eqs greater = .ok ret) ∧
      ∀ {K : Type} [Field K] [LinearOrder K] [IsStrictOrderedRing K] [Verif.Alg.PolyIVT K] (φ : R →+* K),
        ScalarSigns A φ → φ (poly p).leadingCoeff ≠ 0 →
        ((∃ z ∈ ret, (∀ k ∈ z.1, φ k < 0) ∧ (∀ k ∈ z.2.1, φ k = 0) ∧ ∀ k ∈ z.2.2, 0 < φ k) ↔
          ∃ x, (∀ q ∈ lesser, value φ q x < 0) ∧ (∀ q ∈ eqs, value φ q x = 0) ∧
            ∀ q ∈ greater, 0 < value φ q x) := by
  have hpm : p ∈ lesser ++ eqs ++ greater := by
    obtain ⟨pre, post, h, _⟩ := hp
    rw [h]; simp
  have hc := canon_of_normal (hn p hpm)
  have hd : deg p = 1 := by
    rw [← natDegree_toPoly hc, ← poly_eq]; exact hlen
  obtain ⟨N, r, h1, ⟨ret, rfl⟩ | ⟨_, q, hq, hq2, _⟩⟩ := C28_exceptions_partial A hA lesser eqs greater hn
  · refine ⟨N, ret, h1, fun φ hφ hlc => ?_⟩
    refine C28_generic_partial A hA lesser eqs greater p hp (by unfold deg at hd; omega) hn N ret (h1 N le_rfl) φ hφ ?_
    rwa [poly_eq, leadingCoeff_toPoly hc] at hlc
  · have hqm : q ∈ lesser ++ eqs ++ greater := by
      obtain ⟨pre, post, h, _⟩ := hq
      rw [h]; simp
    have := hdeg q hqm
    omega

theorem normal_zy {ps : List (List ZY)} (h : ∀ p ∈ ps, p.getLast? ≠ some 0) : ∀ p ∈ ps, Normal p := by
  intro p hp h0
  have := h p hp
  rw [List.getLast?_eq_some_getLast h0] at this
  exact fun h' => this (by rw [h'])

/-- `C28_exceptions_partial` for `y*x² = 0`: the exception is raised, so the polynomial must be at least quadratic. -/
example : ∃ p, FirstHighest [[0, 0, ZY.y]] p ∧ 2 ≤ (poly p).natDegree := by
  obtain ⟨N, r, h1, ⟨ret, rfl⟩ | ⟨_, p, hp, hp2, _⟩⟩ := C28_exceptions_partial ZY.alg .zyAlg [] [[0, 0, ZY.y]] []
    (normal_zy (by decide))
  · have h2 := h1 (N + 20) (by omega)
    have h3 := C28_violated_exception
    have hT : NF (realTable ZY.alg 20 ([] ++ [[0, 0, ZY.y]] ++ []) []) := by
      intro h
      unfold chFull at h3
      rw [h] at h3
      cases h3
    have h4 : chFull ZY.alg (N + 20) [] [[0, 0, ZY.y]] [] = chFull ZY.alg 20 [] [[0, 0, ZY.y]] [] := by
      unfold chFull
      rw [realTable_stable ZY.alg _ _ _ hT (N + 20) (by omega)]
    rw [h4, h3] at h2
    cases h2
  · exact ⟨p, hp, hp2⟩

/-- `C28_linear_partial` for `y*x + 1 = 0 ∧ x - y > 0`. -/
example : ∃ (N : ℕ) (ret : List (List ZY × List ZY × List ZY)),
    (∀ fuel ≥ N, chFull ZY.alg fuel [] [[1, ZY.y]] [[-ZY.y, 1]] = .ok ret) ∧ ∀ a : ℝ, a ≠ 0 →
    ((∃ z ∈ ret, (∀ k ∈ z.1, ZY.at' a k < 0) ∧ (∀ k ∈ z.2.1, ZY.at' a k = 0) ∧ ∀ k ∈ z.2.2, 0 < ZY.at' a k) ↔
      ∃ x : ℝ, (∀ q ∈ ([] : List (List ZY)), value (ZY.at' a) q x < 0) ∧
        (∀ q ∈ [[1, ZY.y]], value (ZY.at' a) q x = 0) ∧ ∀ q ∈ [[-ZY.y, (1 : ZY)]], 0 < value (ZY.at' a) q x) := by
  have hn : ∀ q ∈ [] ++ [[1, ZY.y]] ++ [[-ZY.y, (1 : ZY)]], Normal q := normal_zy (by decide)
  have hd : ∀ q ∈ [] ++ [[1, ZY.y]] ++ [[-ZY.y, (1 : ZY)]], (poly q).natDegree = 1 := by
    intro q hq
    rw [poly_eq, natDegree_toPoly (canon_of_normal (hn q hq))]
    simp only [List.cons_append, List.nil_append, List.mem_cons, List.not_mem_nil, or_false] at hq
    rcases hq with rfl | rfl <;> rfl
  obtain ⟨N, ret, h1, h2⟩ := C28_linear_partial ZY.alg .zyAlg [] [[1, ZY.y]] [[-ZY.y, 1]] hn (fun q hq => (hd q hq).le)
    [1, ZY.y] ⟨[], [[-ZY.y, 1]], by simp⟩ (hd _ (by simp))
  refine ⟨N, ret, h1, fun a ha => h2 (ZY.at' a) (scalarSigns_zy a) ?_⟩
  rw [poly_eq, leadingCoeff_toPoly (canon_of_normal (hn _ (by simp)))]
  simpa [lc, ZY.at'_y] using ha

end Verif.Qe
