import Verif.Qe.PropsCohenHormander
import Verif.Vts.Props

/-!
# C91: the three decision procedures agree

`internal_vts`, Muchnik's `real_full` and Cohen-Hörmander's `real_full` on the same constraints without parameters. A
polynomial is the list of its integer coefficients; `internal_vts` knows no `> 0`, so it gets the negated polynomials.
-/

namespace Verif.Qe

open Polynomial Verif.Vts

theorem eval_denote_value {K : Type} [Field K] (φ : ℤ →+* K) (p : List ℤ) (x : K) :
    (denote φ p).eval x = value φ p x := by
  induction p with
  | nil => simp [denote, value]
  | cons c l ih => simp [denote, value, ih]

theorem value_neg_list {K : Type} [Field K] (φ : ℤ →+* K) (p : List ℤ) (x : K) :
    value φ (p.map fun c => -c) x = - value φ p x := by
  induction p with
  | nil => simp [value]
  | cons c l ih => simp [value, ih]; ring

theorem Normalized.normal {p : List ℤ} (h : Normalized p) : Normal p := by
  intro hne
  obtain ⟨c, h1, h2⟩ := h
  rw [List.getLast?_eq_some_getLast hne] at h1
  cases h1
  exact h2

/-- **C91**. On integer polynomials with nonzero leading coefficients: both elimination procedures answer, and
if virtual term substitution answers, the three answers are the same, and right. -/
theorem C91_agree {E : Env ℤ ℝ} (hE : EnvOK E (Int.castRingHom ℝ)) (lesser eqs greater : List (List ℤ))
    (hne : lesser ++ eqs ++ greater ≠ []) (hn : ∀ p ∈ lesser ++ eqs ++ greater, ∃ c, p.getLast? = some c ∧ c ≠ 0) :
    ∃ (N : ℕ) (out : QOut (List (List ℤ) × List (List ℤ) × List (List ℤ))) (ret : List (List ℤ × List ℤ × List ℤ)),
      (∀ fuel ≥ N, realFull intAlg fuel lesser eqs greater = .ok out ∧
        chFull intAlg fuel lesser eqs greater = .ok ret) ∧
      (out.satisfiable = true ↔ ret ≠ []) ∧
      (∀ b, internalVts E [] (lesser ++ greater.map fun p => p.map fun c => -c) eqs [] = .ok b →
        (b = true ↔ ret ≠ [])) ∧
      (ret ≠ [] ↔ ∃ x : ℝ, (∀ q ∈ lesser, value (Int.castRingHom ℝ) q x < 0) ∧
        (∀ q ∈ eqs, value (Int.castRingHom ℝ) q x = 0) ∧ ∀ q ∈ greater, 0 < value (Int.castRingHom ℝ) q x) := by
  have hnormal : ∀ p ∈ lesser ++ eqs ++ greater, Normal p := fun p hp => Normalized.normal (hn p hp)
  have hsgn : ScalarSigns intAlg (Int.castRingHom ℝ) := by
    intro c _
    show c.sign = signZ (c : ℝ)
    unfold signZ
    rcases lt_trichotomy c 0 with h | h | h
    · rw [Int.sign_eq_neg_one_of_neg h, if_pos (by exact_mod_cast h)]
    · subst h; simp
    · rw [Int.sign_eq_one_of_pos h, if_neg (not_lt.2 (by exact_mod_cast h.le)),
        if_neg (by exact_mod_cast h.ne')]
  obtain ⟨N1, out, h1, -, h2⟩ := C26_real_partial intAlg (fun _ => rfl)
    (fun c => by rcases lt_trichotomy c 0 with h | h | h
                 · exact Or.inl (Int.sign_eq_neg_one_of_neg h)
                 · exact Or.inr (Or.inl (by rw [h]; rfl))
                 · exact Or.inr (Or.inr (Int.sign_eq_one_of_pos h))) lesser eqs greater hnormal
  obtain ⟨N2, ret, h3, h4⟩ := C27_partial intAlg GoodScalars.intAlg (fun _ => rfl) lesser eqs greater hne hnormal
  have h5 := h2 (Int.castRingHom ℝ) hsgn
  obtain ⟨h6, h7⟩ := h4 (Int.castRingHom ℝ) hsgn
  have hzc : ¬ ZeroAndConstant (lesser ++ eqs ++ greater) := by
    rintro ⟨a, ha⟩
    obtain ⟨c, hc, -⟩ := hn [] ((ha []).2 (Or.inr rfl))
    cases hc
  have hret := (⟨h6, h7 hzc⟩ : ret ≠ [] ↔ _)
  refine ⟨max N1 N2, out, ret, fun fuel hf => ⟨h1 fuel (le_of_max_le_left hf), h3 fuel (le_of_max_le_right hf)⟩,
    h5.trans hret.symm, fun b hb => ?_, hret⟩
  have hN : ∀ p ∈ ([] : List (List ℤ)) ++ (lesser ++ greater.map fun p => p.map fun c => -c) ++ eqs ++ [], Normalized p := by
    intro p hp
    simp only [List.nil_append, List.append_nil, List.mem_append, List.mem_map] at hp
    rcases hp with (hp | ⟨q, hq, rfl⟩) | hp
    · exact hn p (by simp [hp])
    · obtain ⟨c, hc, h0⟩ := hn q (by simp [hq])
      exact ⟨-c, by rw [List.getLast?_map, hc]; rfl, neg_ne_zero.2 h0⟩
    · exact hn p (by simp [hp])
  rw [C01_vts_decides hE _ _ _ _ hN b hb, hret]
  unfold Satisfiable
  simp only [eval_denote_value]
  refine exists_congr fun x => ⟨fun ⟨_, h2, h3, _⟩ => ⟨fun q hq => h2 q (by simp [hq]), h3, fun q hq => ?_⟩,
    fun ⟨h1, h2, h3⟩ => ⟨by simp, fun p hp => ?_, h2, by simp⟩⟩
  · have := h2 (q.map fun c => -c) (List.mem_append_right _ (List.mem_map_of_mem hq))
    rw [value_neg_list] at this
    linarith
  · rcases List.mem_append.1 hp with hp | hp
    · exact h1 p hp
    · obtain ⟨q, hq, rfl⟩ := List.mem_map.1 hp
      rw [value_neg_list]
      have := h3 q hq
      linarith

-- the hypotheses are met, and all three answer: `x - 2 < 0`, `x² - 1 = 0`, `x > 0`
example : EnvOK stdEnv (Int.castRingHom ℝ) ∧
    (∀ p ∈ [[-2, 1]] ++ [[-1, 0, 1]] ++ [[(0 : ℤ), 1]], ∃ c, p.getLast? = some c ∧ c ≠ 0) ∧
    (∃ b, internalVts stdEnv [] ([[-2, 1]] ++ [[0, 1]].map fun p => p.map fun c => -c) [[-1, 0, 1]] [] = .ok b) := by
  refine ⟨stdEnv_ok, ?_, ?_⟩
  · intro p hp
    simp at hp
    rcases hp with rfl | rfl | rfl <;> exact ⟨1, rfl, by norm_num⟩
  · refine C02_degree stdEnv_ok _ _ _ _ ?_ ?_
    · intro p hp
      simp at hp
      rcases hp with rfl | rfl | rfl
      · exact ⟨1, rfl, by norm_num⟩
      · exact ⟨-1, rfl, by norm_num⟩
      · exact ⟨1, rfl, by norm_num⟩
    · decide

end Verif.Qe
