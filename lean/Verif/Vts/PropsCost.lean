import Verif.Vts.CostLemmas
import Verif.Vts.Props

/-!
# C90: the work of `internal_vts` is polynomial

`internalVtsB` is `internalVts` with a bill.  The bill counts Tarski queries (prices `⟨1, 0⟩`) or multiplications of
coefficients (prices `⟨0, 1⟩`), whether the function returns or raises.
-/

namespace Verif.Vts

open Polynomial

variable {R : Type} [CommRing R] [LinearOrder R] {K : Type} [Field K] [LinearOrder K]

/-- C90: the bill does not change the result. -/
theorem C90_same_result (P : Prices) (E : Env R K) (le lt eq ne : List (List R)) :
    (internalVtsB P E le lt eq ne).2 = internalVts E le lt eq ne :=
  internalVtsB_snd P E le lt eq ne

/-- C90: if `T` is the number of coefficients and polynomials of the input, and no polynomial has more roots than
coefficients, there are at most `243 * T ^ 2` Tarski queries and `2000000 * (T + 1) ^ 5` multiplications of
coefficients. -/
theorem C90_bounds (E : Env R K) (le lt eq ne : List (List R)) (T : ℕ)
    (hT : ((le ++ lt ++ eq ++ ne).map fun p => p.length + 1).sum = T)
    (hroots : ∀ p ∈ le ++ lt ++ eq ++ ne, ∀ rs, E.mkRoots p = .ok rs → rs.length ≤ p.length) :
    (internalVtsB ⟨1, 0⟩ E le lt eq ne).1 ≤ 243 * T ^ 2 ∧
      (internalVtsB ⟨0, 1⟩ E le lt eq ne).1 ≤ 2000000 * (T + 1) ^ 5 := by
  constructor
  · refine (internalVtsB_fst ⟨1, 0⟩ E le lt eq ne T hT hroots).trans (le_of_eq ?_)
    simp only [evalPrice]
    ring
  · refine (internalVtsB_fst ⟨0, 1⟩ E le lt eq ne T hT hroots).trans ?_
    simp only [evalPrice]
    have h : T * (T * (243 * (0 + 1 * (8086 * (T + 1) ^ 3)) + 1 * T)) + 1 * T ≤
        (T + 1) * ((T + 1) * (243 * (8086 * (T + 1) ^ 3) + (T + 1) ^ 3)) + (T + 1) ^ 5 := by
      have h1 : T ≤ (T + 1) ^ 3 := (Nat.le_succ T).trans (Nat.le_self_pow (by norm_num) _)
      have h2 : T ≤ (T + 1) ^ 5 := (Nat.le_succ T).trans (Nat.le_self_pow (by norm_num) _)
      have h3 : T * (T * (243 * (0 + 1 * (8086 * (T + 1) ^ 3)) + 1 * T)) ≤
          (T + 1) * ((T + 1) * (243 * (8086 * (T + 1) ^ 3) + (T + 1) ^ 3)) := by
        refine Nat.mul_le_mul (Nat.le_succ T) (Nat.mul_le_mul (Nat.le_succ T) ?_)
        omega
      omega
    refine h.trans ?_
    have : (T + 1) * ((T + 1) * (243 * (8086 * (T + 1) ^ 3) + (T + 1) ^ 3)) + (T + 1) ^ 5 =
        1964900 * (T + 1) ^ 5 := by ring
    rw [this]
    exact Nat.mul_le_mul_right _ (by norm_num)

/-- C90 for the intended environment: polynomials whose last coefficient is not zero. -/
theorem C90_normalized [IsStrictOrderedRing R] [IsStrictOrderedRing K] {E : Env R K} {φ : R →+* K} (hE : EnvOK E φ)
    (le lt eq ne : List (List R)) (T : ℕ) (hT : ((le ++ lt ++ eq ++ ne).map fun p => p.length + 1).sum = T)
    (hn : ∀ p ∈ le ++ lt ++ eq ++ ne, Normalized p) :
    (internalVtsB ⟨1, 0⟩ E le lt eq ne).1 ≤ 243 * T ^ 2 ∧
      (internalVtsB ⟨0, 1⟩ E le lt eq ne).1 ≤ 2000000 * (T + 1) ^ 5 := by
  refine C90_bounds E le lt eq ne T hT fun p hp rs hrs => ?_
  have h0 := denote_ne_zero hE.mono.injective (hn p hp)
  obtain ⟨rs', h1, h2, h3⟩ := hE.roots p h0
  rw [hrs] at h1
  cases h1
  have h4 : rs.toFinset.card ≤ (denote φ p).natDegree := by
    refine (Finset.card_le_card fun x hx => ?_).trans (card_roots' (denote φ p) |>.trans' (Multiset.toFinset_card_le _))
    rw [Multiset.mem_toFinset, mem_roots h0]
    exact (h3 x).1 (List.mem_toFinset.1 hx)
  rw [List.toFinset_card_of_nodup h2, natDegree_denote hE.mono.injective (hn p hp)] at h4
  omega

/-- C90: the sign of one polynomial at one root costs exactly `3 ^ (k + 1)` Tarski queries, where `k` is the number of
derivatives that describe the root. -/
theorem C90_single (E : Env R K) (origin goal : List R) (d : DDS R K) (s : ℤ) (hg : goal ≠ origin)
    (h : evaluateSingle E origin d goal = .ok s) :
    (evaluateSingleB ⟨1, 0⟩ E origin d goal).1 = 3 ^ (d.recorded.length + 1) := by
  have hq1 : ∀ p q : List R, (tarskiQueryB ⟨1, 0⟩ p q).1 = 1 := by
    intro p q
    have h1 := tarskiQueryB_fst ⟨1, 0⟩ p q
    have h2 : 1 ≤ (tarskiQueryB ⟨1, 0⟩ p q).1 := by
      simp only [tarskiQueryB, pay]; omega
    simp only [Nat.zero_mul, Nat.add_zero] at h1
    omega
  have hq : ∀ (l : List (List R)) (zs : List ℤ), (queriesB ⟨1, 0⟩ origin l).2 = .ok zs →
      (queriesB ⟨1, 0⟩ origin l).1 = l.length := by
    intro l
    induction l with
    | nil => intro zs _; rfl
    | cons q l ih =>
      intro zs hz
      rw [queriesB] at hz ⊢
      unfold andThen at hz ⊢
      cases h1 : (tarskiQueryB ⟨1, 0⟩ origin q).2 with
      | error e => rw [h1] at hz; cases hz
      | ok z =>
        rw [h1] at hz
        cases h2 : (queriesB ⟨1, 0⟩ origin l).2 with
        | error e => rw [h2] at hz; cases hz
        | ok zs' =>
          simp only [free, hq1, ih zs' h2, List.length_cons]
          omega
  rw [← evaluateSingleB_snd ⟨1, 0⟩] at h
  unfold evaluateSingleB at h ⊢
  rw [if_neg hg] at h ⊢
  simp only at h ⊢
  unfold andThen at h ⊢
  cases hm : (free (getMatrixInverse E.inv ((d.allPolies ++ [goal]).length : ℤ))).2 with
  | error e => rw [hm] at h; cases h
  | ok m =>
    rw [hm] at h
    simp only [pay] at h ⊢
    cases hz : (queriesB ⟨1, 0⟩ origin (makeProductListB ⟨1, 0⟩ (d.allPolies ++ [goal])).2).2 with
    | error e => rw [hz] at h; cases h
    | ok zs =>
      have h1 := hq _ zs hz
      have h2 := makeProductListB_fst ⟨1, 0⟩ (d.allPolies ++ [goal])
      simp only [Nat.zero_mul, Nat.le_zero_eq] at h2
      rw [makeProductListB_snd, length_makeProductList] at h1
      simp only [free]
      rw [h2, makeProductListB_snd, h1]
      simp [DDS.allPolies]

/-- Roots and matrices for the examples. -/
def billEnv : Env ℤ ℚ where
  mkRoots p := .ok (if p = [-1, 0, 1] then [-1, 1] else if p = [-1, 1] then [1] else [])
  inv m := .ok (if m.length = 3 then [[1, 0, -1], [0, 1/2, 1/2], [0, -1/2, 1/2]]
    else kron [[1, 0, -1], [0, 1/2, 1/2], [0, -1/2, 1/2]] [[1, 0, -1], [0, 1/2, 1/2], [0, -1/2, 1/2]])
  φ := fun c => (c : ℚ)

-- `x² - 1 = 0`, `x - 1 ≠ 0`: the sign of `x - 1` at two roots takes 9 queries each, far below `243 * 7 ^ 2`
example : internalVtsB ⟨1, 0⟩ billEnv [] [] [[-1, 0, 1]] [[-1, 1]] = (18, .ok true) ∧
    ((([] ++ [] ++ [[-1, 0, 1]] ++ [[-1, 1]] : List (List ℤ))).map fun p => p.length + 1).sum = 7 ∧
    ∀ p ∈ ([] ++ [] ++ [[-1, 0, 1]] ++ [[-1, 1]] : List (List ℤ)), ∀ rs, billEnv.mkRoots p = .ok rs →
      rs.length ≤ p.length := by
  refine ⟨by decide +kernel, rfl, ?_⟩
  intro p hp rs hrs
  simp at hp
  rcases hp with rfl | rfl <;> cases hrs <;> simp

-- the multiplications of the same run
example : (internalVtsB ⟨0, 1⟩ billEnv [] [] [[-1, 0, 1]] [[-1, 1]]).1 = 826 := by decide +kernel

-- an exception does not end the bill: a root described by five derivatives is refused before the first query
example : evaluateSingleB ⟨1, 1⟩ billEnv [-1, 1] ⟨1, [([1], 1), ([2], 1), ([3], 1), ([4], 1), ([5], 1)]⟩ [0, 1] =
    (0, .error .moreThan5) := by decide +kernel

-- `C90_single` and `C90_normalized` are about runs that exist
example : evaluateSingle billEnv [-1, 0, 1] ⟨1, [([0, 2], 1)]⟩ [-1, 1] = .ok 0 ∧
    (evaluateSingleB ⟨1, 0⟩ billEnv [-1, 0, 1] ⟨1, [([0, 2], 1)]⟩ [-1, 1]).1 = 3 ^ 2 := by decide +kernel

example : EnvOK stdEnv (Int.castRingHom ℝ) ∧ ∀ p ∈ [] ++ [[-1, 1]] ++ [[0, -1, 0, 1]] ++ [], Normalized (R := ℤ) p := by
  refine ⟨stdEnv_ok, fun p hp => ?_⟩
  simp at hp
  rcases hp with rfl | rfl
  · exact normalized_int [-1] 1 (by decide)
  · exact normalized_int [0, -1, 0] 1 (by decide)

end Verif.Vts
