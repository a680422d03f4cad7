import Mathlib.Algebra.MvPolynomial.Variables
import Mathlib.Algebra.MvPolynomial.Monad
import Mathlib.RingTheory.MvPolynomial.Basic
import Mathlib.Algebra.MvPolynomial.CommRing
import Verif.Qe.PropsClosure
import Verif.Qe.PropsMuchnikReal

/-!
# C106: eliminating several variables, one after the other

The inputs and the results of the elimination procedures are polynomials of the same kind (sympy expressions), so that
every returned conjunction can be given to the procedure of another variable. Here the polynomials are those of Mathlib
in the variables `0, 1, 2, ...` with rational coefficients.

The loops over conjunctions and variables (`elimVar`, `elimVars`, `cElimVar`, `cElimVars`) are not code of /repo: they are
what a user of `Muchniker.real_full` and `Muchniker.complex_full` (`muchnik.py:392-504, 661-790`) writes around them, with
one `SympyWrapper(variable)` (`sympywrapper.py:11-60`) for each variable, whose coefficients are `coeffsIn`.
-/

set_option linter.unusedSectionVars false

open Polynomial Verif.Alg

namespace Verif.Qe

/-- Polynomials in all variables. -/
abbrev MvP := MvPolynomial ℕ ℚ

noncomputable local instance : DecidableEq MvP := Classical.decEq _

/-- A polynomial as a polynomial in the variable `v`, with coefficients in the other variables. -/
noncomputable def asPoly (v : ℕ) : MvP →+* MvP[X] :=
  MvPolynomial.eval₂Hom (C.comp MvPolynomial.C) fun i => if i = v then X else C (MvPolynomial.X i)

/-- The list of the coefficients at the powers of `v`: what `LC`, `degree`, `p_tail` of `SympyWrapper(v)` see of a
polynomial (`sympywrapper.py:24-45`). -/
noncomputable def coeffsIn (v : ℕ) (p : MvP) : List MvP :=
  if p = 0 then [] else (List.range ((asPoly v p).natDegree + 1)).map (asPoly v p).coeff

/-- The value of a polynomial at a point. -/
noncomputable def valueAt {K : Type} [Field K] [CharZero K] (ρ : ℕ → K) (p : MvP) : K :=
  MvPolynomial.eval₂ (Rat.castHom K) ρ p

/-- The functions `has_variable` and `sign` of the algebra (`sympywrapper.py:47-62`) are right on constants and tell them
from the other polynomials. -/
structure SympyOK (A : MAlg MvP) : Prop where
  hasVar : ∀ c, A.hasVar c = true ↔ c.vars.Nonempty
  sign : ∀ r : ℚ, A.sign (MvPolynomial.C r) = signZ r
  sign3 : ∀ c, A.sign c = -1 ∨ A.sign c = 0 ∨ A.sign c = 1

/-- A conjunction: polynomials that are negative, zero and positive. -/
abbrev Conj := List MvP × List MvP × List MvP

/-- The conjunction is true at a point. -/
def Conj.holds {K : Type} [Field K] [LinearOrder K] [IsStrictOrderedRing K] (ρ : ℕ → K) (z : Conj) : Prop :=
  (∀ p ∈ z.1, valueAt ρ p < 0) ∧ (∀ p ∈ z.2.1, valueAt ρ p = 0) ∧ ∀ p ∈ z.2.2, 0 < valueAt ρ p

/-- `real_full` (`muchnik.py:661-790`) for one variable and one conjunction. Where nothing is returned, the line printed at the end tells
whether the conjunction is satisfiable. -/
noncomputable def elimOne (A : MAlg MvP) (fuel v : ℕ) (z : Conj) : Except QErr (List Conj) := do
  let out ← realFull A fuel (z.1.map (coeffsIn v)) (z.2.1.map (coeffsIn v)) (z.2.2.map (coeffsIn v))
  .ok (if out.ret = [] then if out.satisfiable then [([], [], [])] else []
    else out.ret.map fun z => (z.1.map fun c => c.headD 0, z.2.1.map fun c => c.headD 0, z.2.2.map fun c => c.headD 0))

/-- One variable, all conjunctions of a disjunction. -/
noncomputable def elimVar (A : MAlg MvP) (fuel v : ℕ) (F : List Conj) : Except QErr (List Conj) := do
  let l ← F.mapM (elimOne A fuel v)
  .ok l.flatten

/-- One variable after the other. -/
noncomputable def elimVars (A : MAlg MvP) (fuel : ℕ) : List ℕ → List Conj → Except QErr (List Conj)
  | [], F => .ok F
  | v :: vs, F => do
    let G ← elimVar A fuel v F
    elimVars A fuel vs G

/-! ### coefficients -/

theorem eval_asPoly (v : ℕ) (p : MvP) : (asPoly v p).eval (MvPolynomial.X v) = p := by
  have : (evalRingHom (MvPolynomial.X v)).comp (asPoly v) = RingHom.id MvP := by
    apply MvPolynomial.ringHom_ext
    · intro r; simp [asPoly]
    · intro i
      by_cases hi : i = v
      · subst hi; simp [asPoly]
      · simp [asPoly, hi]
  exact DFunLike.congr_fun this p

theorem asPoly_eq_zero {v : ℕ} {p : MvP} : asPoly v p = 0 ↔ p = 0 := by
  constructor
  · intro h
    rw [← eval_asPoly v p, h, eval_zero]
  · rintro rfl
    exact map_zero _

theorem toPoly_coeffsIn (v : ℕ) (p : MvP) : toPoly (coeffsIn v p) = asPoly v p := by
  unfold coeffsIn
  split
  · next h => subst h; simp
  · ext n
    rw [coeff_toPoly]
    by_cases hn : n < (asPoly v p).natDegree + 1
    · simp [List.getD_eq_getElem?_getD, hn]
    · rw [coeff_eq_zero_of_natDegree_lt (by omega)]
      simp [List.getD_eq_getElem?_getD, hn]

theorem normal_coeffsIn (v : ℕ) (p : MvP) : Normal (coeffsIn v p) := by
  intro h
  unfold coeffsIn at h ⊢
  split at h
  · exact absurd rfl h
  · next hp =>
    simp only [hp, if_false, List.getLast_map, List.getLast_range, Nat.add_sub_cancel]
    rw [coeff_natDegree, Ne, leadingCoeff_eq_zero, asPoly_eq_zero]
    exact hp

theorem value_coeffsIn {K : Type} [Field K] [CharZero K] (v : ℕ) (p : MvP) (ρ : ℕ → K) (x : K) :
    value (MvPolynomial.eval₂Hom (Rat.castHom K) ρ) (coeffsIn v p) x = valueAt (Function.update ρ v x) p := by
  rw [← eval_P, P, toPoly_coeffsIn]
  have : (evalRingHom x).comp ((mapRingHom (MvPolynomial.eval₂Hom (Rat.castHom K) ρ)).comp (asPoly v)) =
      MvPolynomial.eval₂Hom (Rat.castHom K) (Function.update ρ v x) := by
    apply MvPolynomial.ringHom_ext
    · intro r; simp [asPoly]
    · intro i
      by_cases hi : i = v
      · subst hi; simp [asPoly]
      · simp [asPoly, hi]
  exact DFunLike.congr_fun this p

/-! ### variables -/

open Classical in
/-- The variables outside of `W` are replaced by 0. -/
noncomputable def restr (W : Set ℕ) : MvP →ₐ[ℚ] MvP :=
  MvPolynomial.bind₁ fun i => if i ∈ W then MvPolynomial.X i else 0

theorem vars_of_restr {W : Set ℕ} {p : MvP} (h : restr W p = p) : ∀ i ∈ p.vars, i ∈ W := by
  classical
  intro i hi
  rw [← h, restr] at hi
  obtain ⟨j, _, hj⟩ := Finset.mem_biUnion.1 (MvPolynomial.vars_bind₁ _ _ hi)
  split at hj
  · next hW =>
    rw [MvPolynomial.vars_X, Finset.mem_singleton] at hj
    exact hj ▸ hW
  · simp at hj

theorem restr_asPoly {W : Set ℕ} {v : ℕ} {p : MvP} (h : ∀ i ∈ p.vars, i = v ∨ i ∈ W) :
    (asPoly v p).map (restr W).toRingHom = asPoly v p := by
  have : ((mapRingHom (restr W).toRingHom).comp (asPoly v)) p = asPoly v p := by
    apply MvPolynomial.hom_congr_vars
    · ext r; simp [asPoly]
    · intro i hi _
      rcases eq_or_ne i v with rfl | hiv
      · simp [asPoly]
      · simp [asPoly, hiv, restr, (h i hi).resolve_left hiv]
    · rfl
  exact this

/-- The polynomials whose coefficients have variables in `W` only. -/
theorem closed_restr (W : Set ℕ) : Closed {q : MvP[X] | q.map (restr W).toRingHom = q} where
  zero := by simp
  der := by
    intro p hp
    simp only [Set.mem_ofPred_eq] at hp ⊢
    rw [← derivative_map, hp]
  tail := by
    intro p hp
    simp only [Set.mem_ofPred_eq] at hp ⊢
    ext n : 1
    rw [coeff_map, eraseLead_coeff]
    split
    · simp
    · rw [← coeff_map, hp]
  rem := by
    intro p hp q hq hq0 hle r Q hr he
    simp only [Set.mem_ofPred_eq] at hp hq ⊢
    have hlc : (restr W).toRingHom q.leadingCoeff = q.leadingCoeff := by
      rw [leadingCoeff, ← coeff_map, hq]
    have h2 := congrArg (Polynomial.map (restr W).toRingHom) he
    rw [Polynomial.map_mul, Polynomial.map_add, Polynomial.map_mul, Polynomial.map_C, map_pow, hlc, hp, hq, he] at h2
    have h3 : (Q - Q.map (restr W).toRingHom) * q = r.map (restr W).toRingHom - r := by linear_combination h2
    have hdeg : (r.map (restr W).toRingHom - r).natDegree < q.natDegree :=
      lt_of_le_of_lt (natDegree_sub_le _ _) (max_lt (lt_of_le_of_lt natDegree_map_le hr) hr)
    have h4 : Q - Q.map (restr W).toRingHom = 0 := by
      by_contra hne
      have hqne : q ≠ 0 := by rintro rfl; simp at hq0
      rw [← h3, natDegree_mul hne hqne] at hdeg
      omega
    rw [h4, zero_mul] at h3
    exact (sub_eq_zero.1 h3.symm)

/-! ### one variable -/

theorem sign_ok {A : MAlg MvP} (hA : SympyOK A) {K : Type} [Field K] [LinearOrder K] [IsStrictOrderedRing K] (ρ : ℕ → K) :
    RValOK A (MvPolynomial.eval₂Hom (Rat.castHom K) ρ) := by
  have key : ∀ c : MvP, A.hasVar c = false → A.sign c = sg (MvPolynomial.eval₂Hom (Rat.castHom K) ρ c) := by
    intro c hc
    have hv : c.vars = ∅ := by
      by_contra h
      rw [(hA.hasVar c).2 (Finset.nonempty_iff_ne_empty.2 h)] at hc
      cases hc
    rw [MvPolynomial.vars_eq_empty_iff_eq_C] at hv
    rw [hv, hA.sign, MvPolynomial.coe_eval₂Hom, MvPolynomial.eval₂_C, signZ_eq]
    generalize MvPolynomial.coeff 0 c = r
    rcases lt_trichotomy r 0 with h | h | h
    · rw [sg_neg' h, sg_neg']; simpa using h
    · subst h; simp
    · rw [sg_pos h, sg_pos]; simpa using h
  refine ⟨?_, key⟩
  rw [← MvPolynomial.C_0, hA.sign]
  simp [signZ]

/-- One step: the result is equivalent to the existence of a value for `v`; its polynomials are not constant, do not
contain `v`, and contain no new variables. -/
theorem elimOne_spec {A : MAlg MvP} (hA : SympyOK A) (v : ℕ) (z : Conj) :
    ∃ N G, (∀ fuel ≥ N, elimOne A fuel v z = .ok G) ∧
      (∀ {K : Type} [Field K] [LinearOrder K] [IsStrictOrderedRing K] [PolyIVT K] (ρ : ℕ → K),
        (∃ y ∈ G, y.holds ρ) ↔ ∃ x, z.holds (Function.update ρ v x)) ∧
      ∀ y ∈ G, ∀ p ∈ y.1 ++ y.2.1 ++ y.2.2, p.vars.Nonempty ∧ ∀ i ∈ p.vars, i ≠ v ∧
        ∃ q ∈ z.1 ++ z.2.1 ++ z.2.2, i ∈ q.vars := by
  have hn : ∀ p ∈ z.1.map (coeffsIn v) ++ z.2.1.map (coeffsIn v) ++ z.2.2.map (coeffsIn v), Normal p := by
    intro p hp
    rw [← List.map_append, ← List.map_append] at hp
    obtain ⟨q, _, rfl⟩ := List.mem_map.1 hp
    exact normal_coeffsIn v q
  obtain ⟨N, S, ret0, h1, hS, hin, hmem, -, hsem⟩ := realFull_spec A hA.sign3 (z.1.map (coeffsIn v))
    (z.2.1.map (coeffsIn v)) (z.2.2.map (coeffsIn v)) fun p hp => canon_of_normal (hn p hp)
  have hsem' : ∀ {K : Type} [Field K] [LinearOrder K] [IsStrictOrderedRing K] [PolyIVT K] (ρ : ℕ → K),
      (∃ y ∈ ret0, Conj.holds ρ (y.1.map fun c => c.headD 0, y.2.1.map fun c => c.headD 0,
        y.2.2.map fun c => c.headD 0)) ↔ ∃ x, z.holds (Function.update ρ v x) := by
    intro K _ _ _ _ ρ
    have := hsem (MvPolynomial.eval₂Hom (Rat.castHom K) ρ) (sign_ok hA ρ)
    simp only [eval_P, List.mem_map, forall_exists_index, and_imp, forall_apply_eq_imp_iff₂, value_coeffsIn] at this
    simp only [Conj.holds, List.mem_map, forall_exists_index, and_imp, forall_apply_eq_imp_iff₂]
    exact this
  have hvars : ∀ y ∈ ret0, ∀ c ∈ y.1 ++ y.2.1 ++ y.2.2, (c.headD 0).vars.Nonempty ∧ ∀ i ∈ (c.headD 0).vars, i ≠ v ∧
      ∃ q ∈ z.1 ++ z.2.1 ++ z.2.2, i ∈ q.vars := by
    intro y hy c hc
    have hc' : c ∈ y.2.1 ++ y.1 ++ y.2.2 := by
      simp only [List.mem_append] at hc ⊢; tauto
    obtain ⟨hcS, hcc, hcv⟩ := (mem_varFragOf A S c).1 ((hmem y hy c).1 hc')
    cases c with
    | nil => cases hcv
    | cons a l =>
      have hl : l = [] := by simpa [isConst] using hcc
      subst hl
      refine ⟨(hA.hasVar a).1 hcv, ?_⟩
      let W : Set ℕ := {i | i ≠ v ∧ ∃ q ∈ z.1 ++ z.2.1 ++ z.2.2, i ∈ q.vars}
      have hT := C21_least A _ hn N S (h1 N le_rfl).1 _ (closed_restr W) (by
        intro p hp
        rw [← List.map_append, ← List.map_append] at hp
        obtain ⟨q, hq, rfl⟩ := List.mem_map.1 hp
        rw [poly_eq, toPoly_coeffsIn]
        refine restr_asPoly fun i hi => ?_
        rcases eq_or_ne i v with h | h
        · exact Or.inl h
        · exact Or.inr ⟨h, q, hq, hi⟩) [a] hcS
      rw [poly_eq] at hT
      have ha : restr W a = a := by
        have := congrArg (fun q => q.coeff 0) hT
        simpa using this
      exact vars_of_restr ha
  by_cases hret : ret0.filter (fun c => (c.2.1 ++ c.1 ++ c.2.2).length ≠ 0) = []
  · -- nothing is returned: the conjunctions are empty
    have hempty : ∀ y ∈ ret0, y = ([], [], []) := by
      rintro ⟨a, b, c⟩ hy
      rw [List.filter_eq_nil_iff] at hret
      have := hret _ hy
      simp only [ne_eq, List.length_eq_zero_iff, List.append_eq_nil_iff, decide_not, Bool.not_eq_true',
        decide_eq_false_iff_not, not_not] at this
      obtain ⟨⟨rfl, rfl⟩, rfl⟩ := this
      rfl
    refine ⟨N, if decide (ret0.length > 0) then [([], [], [])] else [], fun fuel hf => ?_, ?_, ?_⟩
    · unfold elimOne
      rw [(h1 fuel hf).2]
      simp only [bind, Except.bind, hret, if_true]
    · intro K _ _ _ _ ρ
      rw [← hsem' ρ]
      cases ret0 with
      | nil => simp
      | cons y ys =>
        have hy := hempty y (by simp)
        subst hy
        simp [Conj.holds]
    · intro y hy p hp
      split at hy
      · rw [List.mem_singleton] at hy
        subst hy
        simp at hp
      · simp at hy
  · -- some conjunction is not empty, so the family has a parameter and all are not empty
    have hall : ret0.filter (fun c => (c.2.1 ++ c.1 ++ c.2.2).length ≠ 0) = ret0 := by
      rw [List.filter_eq_self]
      obtain ⟨y, hy⟩ := List.exists_mem_of_ne_nil _ hret
      rw [List.mem_filter] at hy
      obtain ⟨hy, hy'⟩ := hy
      rw [decide_eq_true_eq] at hy'
      obtain ⟨c, hc⟩ := List.exists_mem_of_ne_nil _ fun h => hy' (List.length_eq_zero_iff.2 h)
      intro z hz
      have := (hmem z hz c).2 ((hmem y hy c).1 hc)
      rw [decide_eq_true_eq]
      exact fun h => List.ne_nil_of_mem this (List.length_eq_zero_iff.1 h)
    refine ⟨N, ret0.map fun z => (z.1.map fun c => c.headD 0, z.2.1.map fun c => c.headD 0, z.2.2.map fun c => c.headD 0),
      fun fuel hf => ?_, ?_, ?_⟩
    · unfold elimOne
      rw [(h1 fuel hf).2]
      simp only [bind, Except.bind]
      rw [if_neg hret, hall]
    · intro K _ _ _ _ ρ
      rw [← hsem' ρ]
      simp
    · intro y hy p hp
      obtain ⟨y₀, hy₀, rfl⟩ := List.mem_map.1 hy
      simp only [← List.map_append] at hp
      obtain ⟨c, hc, rfl⟩ := List.mem_map.1 hp
      exact hvars y₀ hy₀ c hc

theorem elimVar_spec {A : MAlg MvP} (hA : SympyOK A) (v : ℕ) (F : List Conj) :
    ∃ N G, (∀ fuel ≥ N, elimVar A fuel v F = .ok G) ∧
      (∀ {K : Type} [Field K] [LinearOrder K] [IsStrictOrderedRing K] [PolyIVT K] (ρ : ℕ → K),
        (∃ y ∈ G, y.holds ρ) ↔ ∃ x, ∃ z ∈ F, z.holds (Function.update ρ v x)) ∧
      ∀ y ∈ G, ∀ p ∈ y.1 ++ y.2.1 ++ y.2.2, p.vars.Nonempty ∧ ∀ i ∈ p.vars, i ≠ v ∧
        ∃ z ∈ F, ∃ q ∈ z.1 ++ z.2.1 ++ z.2.2, i ∈ q.vars := by
  induction F with
  | nil => exact ⟨0, [], fun fuel _ => rfl, fun ρ => by simp, by simp⟩
  | cons z F ih =>
    obtain ⟨N₁, G₁, h1, h2, h3⟩ := elimOne_spec hA v z
    obtain ⟨N₂, G₂, k1, k2, k3⟩ := ih
    refine ⟨max N₁ N₂, G₁ ++ G₂, fun fuel hf => ?_, fun ρ => ?_, ?_⟩
    · have e1 := h1 fuel (le_of_max_le_left hf)
      have e2 := k1 fuel (le_of_max_le_right hf)
      unfold elimVar at e2 ⊢
      rw [List.mapM_cons, e1]
      simp only [bind, Except.bind] at e2 ⊢
      cases h : List.mapM (elimOne A fuel v) F with
      | error e => rw [h] at e2; cases e2
      | ok l =>
        rw [h] at e2
        simp only [Except.ok.injEq] at e2
        simp [pure, Except.pure, e2]
    · have a := h2 ρ
      have b := k2 ρ
      simp only [List.mem_append, or_and_right, exists_or, List.mem_cons, exists_eq_left]
      rw [a, b]
    · intro y hy p hp
      rcases List.mem_append.1 hy with h | h
      · obtain ⟨e1, e2⟩ := h3 y h p hp
        exact ⟨e1, fun i hi => ⟨(e2 i hi).1, z, by simp, (e2 i hi).2⟩⟩
      · obtain ⟨e1, e2⟩ := k3 y h p hp
        exact ⟨e1, fun i hi => ⟨(e2 i hi).1, by
          obtain ⟨z', hz', hq⟩ := (e2 i hi).2
          exact ⟨z', by simp [hz'], hq⟩⟩⟩

/-- **C106** for the real numbers. Eliminating the variables `vs` one after the other from a disjunction of
conjunctions ends without an exception, and the result holds at a point exactly when the variables `vs` can be changed so
that the disjunction holds. No variable of `vs` is left, no new one comes in, and (if there was anything to eliminate) all
conditions depend on some variable. -/
theorem C106_real (A : MAlg MvP) (hA : SympyOK A) (vs : List ℕ) (F : List Conj) :
    ∃ N G, (∀ fuel ≥ N, elimVars A fuel vs F = .ok G) ∧
      (∀ {K : Type} [Field K] [LinearOrder K] [IsStrictOrderedRing K] [PolyIVT K] (ρ : ℕ → K),
        (∃ y ∈ G, y.holds ρ) ↔ ∃ ρ' : ℕ → K, (∀ i, i ∉ vs → ρ' i = ρ i) ∧ ∃ z ∈ F, z.holds ρ') ∧
      (∀ y ∈ G, ∀ p ∈ y.1 ++ y.2.1 ++ y.2.2, (vs ≠ [] → p.vars.Nonempty) ∧ ∀ i ∈ p.vars, i ∉ vs ∧
        ∃ z ∈ F, ∃ q ∈ z.1 ++ z.2.1 ++ z.2.2, i ∈ q.vars) := by
  induction vs generalizing F with
  | nil =>
    refine ⟨0, F, fun _ _ => rfl, fun ρ => ?_, fun y hy p hp => ⟨fun h => absurd rfl h, fun i hi => ⟨by simp, y, hy, p, hp, hi⟩⟩⟩
    constructor
    · exact fun h => ⟨ρ, fun _ _ => rfl, h⟩
    · rintro ⟨ρ', h, h'⟩
      have : ρ' = ρ := funext fun i => h i (by simp)
      exact this ▸ h'
  | cons v vs ih =>
    obtain ⟨N₁, G₁, h1, h2, h3⟩ := elimVar_spec hA v F
    obtain ⟨N₂, G₂, k1, k2, k3⟩ := ih G₁
    refine ⟨max N₁ N₂, G₂, fun fuel hf => ?_, fun {K} _ _ _ _ ρ => ?_, fun y hy p hp => ?_⟩
    · unfold elimVars
      rw [h1 fuel (le_of_max_le_left hf)]
      exact k1 fuel (le_of_max_le_right hf)
    · rw [k2 ρ]
      constructor
      · rintro ⟨ρ₁, hρ, h⟩
        obtain ⟨x, hx⟩ := (h2 ρ₁).1 h
        refine ⟨_, fun i hi => ?_, hx⟩
        rw [List.mem_cons, not_or] at hi
        rw [Function.update_of_ne hi.1, hρ i hi.2]
      · classical
        rintro ⟨ρ', hρ, h⟩
        refine ⟨fun i => if i ∈ vs then ρ' i else ρ i, fun i hi => by simp [hi], (h2 _).2 ⟨ρ' v, ?_⟩⟩
        have : Function.update (fun i => if i ∈ vs then ρ' i else ρ i) v (ρ' v) = ρ' := by
          funext i
          rcases eq_or_ne i v with rfl | hi
          · simp
          · rw [Function.update_of_ne hi]
            split
            · rfl
            · next h => exact (hρ i (by simp [hi, h])).symm
        rw [this]
        exact h
    · obtain ⟨e1, e2⟩ := k3 y hy p hp
      have hkey : ∀ i ∈ p.vars, i ∉ v :: vs ∧ ∃ z ∈ F, ∃ q ∈ z.1 ++ z.2.1 ++ z.2.2, i ∈ q.vars := by
        intro i hi
        obtain ⟨hiv, z, hz, q, hq, hiq⟩ := e2 i hi
        obtain ⟨hne, hF⟩ := (h3 z hz q hq).2 i hiq
        exact ⟨by simp [hne, hiv], hF⟩
      refine ⟨fun _ => ?_, hkey⟩
      cases vs with
      | cons w ws => exact e1 (by simp)
      | nil =>
        have : G₂ = G₁ := by
          have := k1 N₂ le_rfl
          unfold elimVars at this
          exact (Except.ok.inj this).symm
        subst this
        exact (h3 y hy p hp).1

/-- **C106**, sentences: when all variables have been eliminated (at least one), the result is the empty list if the
disjunction is unsatisfiable, and otherwise a list of empty conjunctions. -/
theorem C106_decides (A : MAlg MvP) (hA : SympyOK A) (vs : List ℕ) (hvs : vs ≠ []) (F : List Conj)
    (hF : ∀ z ∈ F, ∀ q ∈ z.1 ++ z.2.1 ++ z.2.2, ∀ i ∈ q.vars, i ∈ vs) :
    ∃ N G, (∀ fuel ≥ N, elimVars A fuel vs F = .ok G) ∧ (∀ y ∈ G, y = ([], [], [])) ∧
      ∀ {K : Type} [Field K] [LinearOrder K] [IsStrictOrderedRing K] [PolyIVT K],
        (G ≠ [] ↔ ∃ ρ : ℕ → K, ∃ z ∈ F, z.holds ρ) := by
  obtain ⟨N, G, h1, h2, h3⟩ := C106_real A hA vs F
  have hG : ∀ y ∈ G, y = ([], [], []) := by
    intro y hy
    have : y.1 ++ y.2.1 ++ y.2.2 = [] := by
      by_contra hne
      obtain ⟨p, hp⟩ := List.exists_mem_of_ne_nil _ hne
      obtain ⟨e1, e2⟩ := h3 y hy p hp
      obtain ⟨i, hi⟩ := e1 hvs
      obtain ⟨hiv, z, hz, q, hq, hiq⟩ := e2 i hi
      exact hiv (hF z hz q hq i hiq)
    obtain ⟨a, b, c⟩ := y
    simp only [List.append_eq_nil_iff] at this
    obtain ⟨⟨rfl, rfl⟩, rfl⟩ := this
    rfl
  refine ⟨N, G, h1, hG, fun {K} _ _ _ _ => ?_⟩
  constructor
  · intro hne
    obtain ⟨y, hy⟩ := List.exists_mem_of_ne_nil _ hne
    obtain ⟨ρ', _, h⟩ := (h2 (fun _ => (0 : K))).1 ⟨y, hy, by rw [hG y hy]; simp [Conj.holds]⟩
    exact ⟨ρ', h⟩
  · rintro ⟨ρ, h⟩
    obtain ⟨y, hy, _⟩ := (h2 ρ).2 ⟨ρ, fun _ _ => rfl, h⟩
    exact List.ne_nil_of_mem hy

/-- An algebra as it is assumed; the leading scalars, which are used for sorting only, do not matter. -/
noncomputable def mvAlg (LS : List MvP → ℚ) : MAlg MvP := ⟨fun c => decide c.vars.Nonempty, fun c => signZ (c.coeff 0), LS⟩

theorem mvAlg_ok (LS : List MvP → ℚ) : SympyOK (mvAlg LS) := by
  refine ⟨fun c => by simp [mvAlg], fun r => by simp [mvAlg], fun c => ?_⟩
  simp only [mvAlg, signZ]
  split
  · simp
  · split <;> simp

/-- `x0^2 + x1^2 - 1 < 0 ∧ x1 - x0 = 0`: eliminating `x1` and then `x0` answers that it is satisfiable (over the reals,
at `x0 = x1 = 0`). -/
example : ∃ N G, (∀ fuel ≥ N, elimVars (mvAlg fun _ => 1) fuel [1, 0]
      [([MvPolynomial.X 0 ^ 2 + MvPolynomial.X 1 ^ 2 - 1], [MvPolynomial.X 1 - MvPolynomial.X 0], [])] = .ok G) ∧
    (∀ y ∈ G, y = ([], [], [])) ∧ G ≠ [] := by
  obtain ⟨N, G, h1, h2, h3⟩ := C106_decides (mvAlg fun _ => 1) (mvAlg_ok _) [1, 0] (by simp)
    [([MvPolynomial.X 0 ^ 2 + MvPolynomial.X 1 ^ 2 - 1], [MvPolynomial.X 1 - MvPolynomial.X 0], [])] (by
      classical
      intro z hz q hq i hi
      rw [List.mem_singleton] at hz
      subst hz
      simp only [List.append_nil, List.cons_append, List.nil_append, List.mem_cons, List.not_mem_nil, or_false] at hq
      rcases hq with rfl | rfl
      · rcases Finset.mem_union.1 (MvPolynomial.vars_sub_subset _ hi) with hi | hi
        · rcases Finset.mem_union.1 (MvPolynomial.vars_add_subset _ _ hi) with hi | hi
          · have := MvPolynomial.vars_pow _ _ hi
            simp [MvPolynomial.vars_X] at this
            simp [this]
          · have := MvPolynomial.vars_pow _ _ hi
            simp [MvPolynomial.vars_X] at this
            simp [this]
        · simp at hi
      · rcases Finset.mem_union.1 (MvPolynomial.vars_sub_subset _ hi) with hi | hi <;>
          simp [MvPolynomial.vars_X] at hi <;> simp [hi])
  refine ⟨N, G, h1, h2, (h3 (K := ℝ)).2 ⟨fun _ => 0, _, List.mem_singleton_self _, ?_⟩⟩
  simp [Conj.holds, valueAt]

/-! ### complex numbers -/

/-- A conjunction for the complex procedure: polynomials that are zero and not zero. -/
abbrev CConj := List MvP × List MvP

/-- The conjunction is true at a point. -/
def CConj.holds {K : Type} [Field K] [CharZero K] (ρ : ℕ → K) (z : CConj) : Prop :=
  (∀ p ∈ z.1, valueAt ρ p = 0) ∧ ∀ p ∈ z.2, valueAt ρ p ≠ 0

/-- `complex_full` for one variable and one conjunction, with the printed line where nothing is returned. -/
noncomputable def cElimOne (A : MAlg MvP) (fuel v : ℕ) (z : CConj) : Except QErr (List CConj) := do
  let out ← complexFull A fuel (z.1.map (coeffsIn v)) (z.2.map (coeffsIn v))
  .ok (if out.ret = [] then if out.satisfiable then [([], [])] else []
    else out.ret.map fun z => (z.1.map fun c => c.headD 0, z.2.map fun c => c.headD 0))

/-- One variable, all conjunctions of a disjunction. -/
noncomputable def cElimVar (A : MAlg MvP) (fuel v : ℕ) (F : List CConj) : Except QErr (List CConj) := do
  let l ← F.mapM (cElimOne A fuel v)
  .ok l.flatten

/-- One variable after the other. -/
noncomputable def cElimVars (A : MAlg MvP) (fuel : ℕ) : List ℕ → List CConj → Except QErr (List CConj)
  | [], F => .ok F
  | v :: vs, F => do
    let G ← cElimVar A fuel v F
    cElimVars A fuel vs G

theorem val_ok {A : MAlg MvP} (hA : SympyOK A) {K : Type} [Field K] [CharZero K] (ρ : ℕ → K) :
    ValOK A (MvPolynomial.eval₂Hom (Rat.castHom K) ρ) := by
  intro c h0 hc
  have hv : c.vars = ∅ := by
    by_contra h
    rw [(hA.hasVar c).2 (Finset.nonempty_iff_ne_empty.2 h)] at hc
    cases hc
  rw [MvPolynomial.vars_eq_empty_iff_eq_C] at hv
  have hr : c.coeff 0 ≠ 0 := fun h => h0 (by rw [hv, h, MvPolynomial.C_0])
  rw [hv, MvPolynomial.coe_eval₂Hom, MvPolynomial.eval₂_C]
  simpa using hr

theorem cElimOne_spec {A : MAlg MvP} (hA : SympyOK A) (v : ℕ) (z : CConj) :
    ∃ N G, (∀ fuel ≥ N, cElimOne A fuel v z = .ok G) ∧
      (∀ {K : Type} [Field K] [CharZero K] [IsAlgClosed K] (ρ : ℕ → K),
        (∃ y ∈ G, y.holds ρ) ↔ ∃ x, z.holds (Function.update ρ v x)) ∧
      ∀ y ∈ G, ∀ p ∈ y.1 ++ y.2, p.vars.Nonempty ∧ ∀ i ∈ p.vars, i ≠ v ∧ ∃ q ∈ z.1 ++ z.2, i ∈ q.vars := by
  have hn : ∀ p ∈ z.1.map (coeffsIn v) ++ z.2.map (coeffsIn v), Normal p := by
    intro p hp
    rw [← List.map_append] at hp
    obtain ⟨q, _, rfl⟩ := List.mem_map.1 hp
    exact normal_coeffsIn v q
  obtain ⟨N, S, ret0, h1, hS, hin, hmem, -, hsem⟩ := complexFull_spec A (z.1.map (coeffsIn v))
    (z.2.map (coeffsIn v)) fun p hp => canon_of_normal (hn p hp)
  have hsem' : ∀ {K : Type} [Field K] [CharZero K] [IsAlgClosed K] (ρ : ℕ → K),
      (∃ y ∈ ret0, CConj.holds ρ (y.1.map fun c => c.headD 0, y.2.map fun c => c.headD 0)) ↔
        ∃ x, z.holds (Function.update ρ v x) := by
    intro K _ _ _ ρ
    have := hsem (MvPolynomial.eval₂Hom (Rat.castHom K) ρ) (val_ok hA ρ)
    simp only [eval_P, List.mem_map, forall_exists_index, and_imp, forall_apply_eq_imp_iff₂, value_coeffsIn] at this
    simp only [CConj.holds, List.mem_map, forall_exists_index, and_imp, forall_apply_eq_imp_iff₂]
    exact this
  have hvars : ∀ y ∈ ret0, ∀ c ∈ y.1 ++ y.2, (c.headD 0).vars.Nonempty ∧ ∀ i ∈ (c.headD 0).vars, i ≠ v ∧
      ∃ q ∈ z.1 ++ z.2, i ∈ q.vars := by
    intro y hy c hc
    obtain ⟨hcS, hcc, hcv⟩ := (mem_varFragOf A S c).1 ((hmem y hy c).1 hc)
    cases c with
    | nil => cases hcv
    | cons a l =>
      have hl : l = [] := by simpa [isConst] using hcc
      subst hl
      refine ⟨(hA.hasVar a).1 hcv, ?_⟩
      let W : Set ℕ := {i | i ≠ v ∧ ∃ q ∈ z.1 ++ z.2, i ∈ q.vars}
      have hT := C21_least A _ hn N S (h1 N le_rfl).1 _ (closed_restr W) (by
        intro p hp
        rw [← List.map_append] at hp
        obtain ⟨q, hq, rfl⟩ := List.mem_map.1 hp
        rw [poly_eq, toPoly_coeffsIn]
        refine restr_asPoly fun i hi => ?_
        rcases eq_or_ne i v with h | h
        · exact Or.inl h
        · exact Or.inr ⟨h, q, hq, hi⟩) [a] hcS
      rw [poly_eq] at hT
      have ha : restr W a = a := by
        have := congrArg (fun q => q.coeff 0) hT
        simpa using this
      exact vars_of_restr ha
  by_cases hret : ret0.filter (fun zn => (zn.1 ++ zn.2).length ≠ 0) = []
  · have hempty : ∀ y ∈ ret0, y = ([], []) := by
      rintro ⟨a, b⟩ hy
      rw [List.filter_eq_nil_iff] at hret
      have := hret _ hy
      simp only [ne_eq, List.length_eq_zero_iff, List.append_eq_nil_iff, decide_not, Bool.not_eq_true',
        decide_eq_false_iff_not, not_not] at this
      obtain ⟨rfl, rfl⟩ := this
      rfl
    refine ⟨N, if decide (ret0.length > 0) then [([], [])] else [], fun fuel hf => ?_, ?_, ?_⟩
    · unfold cElimOne
      rw [(h1 fuel hf).2]
      simp only [bind, Except.bind, hret, if_true]
    · intro K _ _ _ ρ
      rw [← hsem' ρ]
      cases ret0 with
      | nil => simp
      | cons y ys =>
        have hy := hempty y (by simp)
        subst hy
        simp [CConj.holds]
    · intro y hy p hp
      split at hy
      · rw [List.mem_singleton] at hy
        subst hy
        simp at hp
      · simp at hy
  · have hall : ret0.filter (fun zn => (zn.1 ++ zn.2).length ≠ 0) = ret0 := by
      rw [List.filter_eq_self]
      obtain ⟨y, hy⟩ := List.exists_mem_of_ne_nil _ hret
      rw [List.mem_filter] at hy
      obtain ⟨hy, hy'⟩ := hy
      rw [decide_eq_true_eq] at hy'
      obtain ⟨c, hc⟩ := List.exists_mem_of_ne_nil _ fun h => hy' (List.length_eq_zero_iff.2 h)
      intro z hz
      have := (hmem z hz c).2 ((hmem y hy c).1 hc)
      rw [decide_eq_true_eq]
      exact fun h => List.ne_nil_of_mem this (List.length_eq_zero_iff.1 h)
    refine ⟨N, ret0.map fun z => (z.1.map fun c => c.headD 0, z.2.map fun c => c.headD 0), fun fuel hf => ?_, ?_, ?_⟩
    · unfold cElimOne
      rw [(h1 fuel hf).2]
      simp only [bind, Except.bind]
      rw [if_neg hret, hall]
    · intro K _ _ _ ρ
      rw [← hsem' ρ]
      simp
    · intro y hy p hp
      obtain ⟨y₀, hy₀, rfl⟩ := List.mem_map.1 hy
      simp only [← List.map_append] at hp
      obtain ⟨c, hc, rfl⟩ := List.mem_map.1 hp
      exact hvars y₀ hy₀ c hc

theorem cElimVar_spec {A : MAlg MvP} (hA : SympyOK A) (v : ℕ) (F : List CConj) :
    ∃ N G, (∀ fuel ≥ N, cElimVar A fuel v F = .ok G) ∧
      (∀ {K : Type} [Field K] [CharZero K] [IsAlgClosed K] (ρ : ℕ → K),
        (∃ y ∈ G, y.holds ρ) ↔ ∃ x, ∃ z ∈ F, z.holds (Function.update ρ v x)) ∧
      ∀ y ∈ G, ∀ p ∈ y.1 ++ y.2, p.vars.Nonempty ∧ ∀ i ∈ p.vars, i ≠ v ∧
        ∃ z ∈ F, ∃ q ∈ z.1 ++ z.2, i ∈ q.vars := by
  induction F with
  | nil => exact ⟨0, [], fun fuel _ => rfl, fun ρ => by simp, by simp⟩
  | cons z F ih =>
    obtain ⟨N₁, G₁, h1, h2, h3⟩ := cElimOne_spec hA v z
    obtain ⟨N₂, G₂, k1, k2, k3⟩ := ih
    refine ⟨max N₁ N₂, G₁ ++ G₂, fun fuel hf => ?_, fun ρ => ?_, ?_⟩
    · have e1 := h1 fuel (le_of_max_le_left hf)
      have e2 := k1 fuel (le_of_max_le_right hf)
      unfold cElimVar at e2 ⊢
      rw [List.mapM_cons, e1]
      simp only [bind, Except.bind] at e2 ⊢
      cases h : List.mapM (cElimOne A fuel v) F with
      | error e => rw [h] at e2; cases e2
      | ok l =>
        rw [h] at e2
        simp only [Except.ok.injEq] at e2
        simp [pure, Except.pure, e2]
    · have a := h2 ρ
      have b := k2 ρ
      simp only [List.mem_append, or_and_right, exists_or, List.mem_cons, exists_eq_left]
      rw [a, b]
    · intro y hy p hp
      rcases List.mem_append.1 hy with h | h
      · obtain ⟨e1, e2⟩ := h3 y h p hp
        exact ⟨e1, fun i hi => ⟨(e2 i hi).1, z, by simp, (e2 i hi).2⟩⟩
      · obtain ⟨e1, e2⟩ := k3 y h p hp
        exact ⟨e1, fun i hi => ⟨(e2 i hi).1, by
          obtain ⟨z', hz', hq⟩ := (e2 i hi).2
          exact ⟨z', by simp [hz'], hq⟩⟩⟩

/-- **C106** for the complex numbers (all algebraically closed fields of characteristic 0): as `C106_real`. -/
theorem C106_complex (A : MAlg MvP) (hA : SympyOK A) (vs : List ℕ) (F : List CConj) :
    ∃ N G, (∀ fuel ≥ N, cElimVars A fuel vs F = .ok G) ∧
      (∀ {K : Type} [Field K] [CharZero K] [IsAlgClosed K] (ρ : ℕ → K),
        (∃ y ∈ G, y.holds ρ) ↔ ∃ ρ' : ℕ → K, (∀ i, i ∉ vs → ρ' i = ρ i) ∧ ∃ z ∈ F, z.holds ρ') ∧
      (∀ y ∈ G, ∀ p ∈ y.1 ++ y.2, (vs ≠ [] → p.vars.Nonempty) ∧ ∀ i ∈ p.vars, i ∉ vs ∧
        ∃ z ∈ F, ∃ q ∈ z.1 ++ z.2, i ∈ q.vars) := by
  induction vs generalizing F with
  | nil =>
    refine ⟨0, F, fun _ _ => rfl, fun ρ => ?_, fun y hy p hp => ⟨fun h => absurd rfl h, fun i hi => ⟨by simp, y, hy, p, hp, hi⟩⟩⟩
    constructor
    · exact fun h => ⟨ρ, fun _ _ => rfl, h⟩
    · rintro ⟨ρ', h, h'⟩
      have : ρ' = ρ := funext fun i => h i (by simp)
      exact this ▸ h'
  | cons v vs ih =>
    obtain ⟨N₁, G₁, h1, h2, h3⟩ := cElimVar_spec hA v F
    obtain ⟨N₂, G₂, k1, k2, k3⟩ := ih G₁
    refine ⟨max N₁ N₂, G₂, fun fuel hf => ?_, fun {K} _ _ _ ρ => ?_, fun y hy p hp => ?_⟩
    · unfold cElimVars
      rw [h1 fuel (le_of_max_le_left hf)]
      exact k1 fuel (le_of_max_le_right hf)
    · rw [k2 ρ]
      constructor
      · rintro ⟨ρ₁, hρ, h⟩
        obtain ⟨x, hx⟩ := (h2 ρ₁).1 h
        refine ⟨_, fun i hi => ?_, hx⟩
        rw [List.mem_cons, not_or] at hi
        rw [Function.update_of_ne hi.1, hρ i hi.2]
      · classical
        rintro ⟨ρ', hρ, h⟩
        refine ⟨fun i => if i ∈ vs then ρ' i else ρ i, fun i hi => by simp [hi], (h2 _).2 ⟨ρ' v, ?_⟩⟩
        have : Function.update (fun i => if i ∈ vs then ρ' i else ρ i) v (ρ' v) = ρ' := by
          funext i
          rcases eq_or_ne i v with rfl | hi
          · simp
          · rw [Function.update_of_ne hi]
            split
            · rfl
            · next h => exact (hρ i (by simp [hi, h])).symm
        rw [this]
        exact h
    · obtain ⟨e1, e2⟩ := k3 y hy p hp
      have hkey : ∀ i ∈ p.vars, i ∉ v :: vs ∧ ∃ z ∈ F, ∃ q ∈ z.1 ++ z.2, i ∈ q.vars := by
        intro i hi
        obtain ⟨hiv, z, hz, q, hq, hiq⟩ := e2 i hi
        obtain ⟨hne, hF⟩ := (h3 z hz q hq).2 i hiq
        exact ⟨by simp [hne, hiv], hF⟩
      refine ⟨fun _ => ?_, hkey⟩
      cases vs with
      | cons w ws => exact e1 (by simp)
      | nil =>
        have : G₂ = G₁ := by
          have := k1 N₂ le_rfl
          unfold cElimVars at this
          exact (Except.ok.inj this).symm
        subst this
        exact (h3 y hy p hp).1

/-- **C106**, sentences over the complex numbers. -/
theorem C106_complex_decides (A : MAlg MvP) (hA : SympyOK A) (vs : List ℕ) (hvs : vs ≠ []) (F : List CConj)
    (hF : ∀ z ∈ F, ∀ q ∈ z.1 ++ z.2, ∀ i ∈ q.vars, i ∈ vs) :
    ∃ N G, (∀ fuel ≥ N, cElimVars A fuel vs F = .ok G) ∧ (∀ y ∈ G, y = ([], [])) ∧
      ∀ {K : Type} [Field K] [CharZero K] [IsAlgClosed K], (G ≠ [] ↔ ∃ ρ : ℕ → K, ∃ z ∈ F, z.holds ρ) := by
  obtain ⟨N, G, h1, h2, h3⟩ := C106_complex A hA vs F
  have hG : ∀ y ∈ G, y = ([], []) := by
    intro y hy
    have : y.1 ++ y.2 = [] := by
      by_contra hne
      obtain ⟨p, hp⟩ := List.exists_mem_of_ne_nil _ hne
      obtain ⟨e1, e2⟩ := h3 y hy p hp
      obtain ⟨i, hi⟩ := e1 hvs
      obtain ⟨hiv, z, hz, q, hq, hiq⟩ := e2 i hi
      exact hiv (hF z hz q hq i hiq)
    obtain ⟨a, b⟩ := y
    simp only [List.append_eq_nil_iff] at this
    obtain ⟨rfl, rfl⟩ := this
    rfl
  refine ⟨N, G, h1, hG, fun {K} _ _ _ => ?_⟩
  constructor
  · intro hne
    obtain ⟨y, hy⟩ := List.exists_mem_of_ne_nil _ hne
    obtain ⟨ρ', _, h⟩ := (h2 (fun _ => (0 : K))).1 ⟨y, hy, by rw [hG y hy]; simp [CConj.holds]⟩
    exact ⟨ρ', h⟩
  · rintro ⟨ρ, h⟩
    obtain ⟨y, hy, _⟩ := (h2 ρ).2 ⟨ρ, fun _ _ => rfl, h⟩
    exact List.ne_nil_of_mem hy

/-- `x0 * x1 - 1 = 0 ∧ x0 = 0`: eliminating both variables answers that it is unsatisfiable over the complex numbers. -/
example : ∃ N, ∀ fuel ≥ N, cElimVars (mvAlg fun _ => 1) fuel [1, 0]
    [([MvPolynomial.X 0 * MvPolynomial.X 1 - 1, MvPolynomial.X 0], [])] = .ok [] := by
  obtain ⟨N, G, h1, h2, h3⟩ := C106_complex_decides (mvAlg fun _ => 1) (mvAlg_ok _) [1, 0] (by simp)
    [([MvPolynomial.X 0 * MvPolynomial.X 1 - 1, MvPolynomial.X 0], [])] (by
      classical
      intro z hz q hq i hi
      rw [List.mem_singleton] at hz
      subst hz
      simp only [List.append_nil, List.mem_cons, List.not_mem_nil, or_false] at hq
      rcases hq with rfl | rfl
      · rcases Finset.mem_union.1 (MvPolynomial.vars_sub_subset _ hi) with hi | hi
        · have := MvPolynomial.vars_mul _ _ hi
          simp [MvPolynomial.vars_X] at this
          simp; tauto
        · simp at hi
      · simp [MvPolynomial.vars_X] at hi
        simp [hi])
  have hG : G = [] := by
    by_contra hne
    obtain ⟨ρ, z, hz, hh⟩ := (h3 (K := ℂ)).1 hne
    rw [List.mem_singleton] at hz
    subst hz
    simp [CConj.holds, valueAt] at hh
    obtain ⟨a, b⟩ := hh
    rw [b] at a
    simp at a
  exact ⟨N, fun fuel hf => hG ▸ h1 fuel hf⟩

end Verif.Qe
