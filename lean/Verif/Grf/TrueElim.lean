import Mathlib.RingTheory.Polynomial.Resultant.Basic
import Mathlib.Algebra.MvPolynomial.Variables
import Mathlib.RingTheory.Localization.FractionRing
import Mathlib.FieldTheory.Perfect
import Mathlib.RingTheory.MvPolynomial.Basic
import Mathlib.Algebra.MvPolynomial.Monad
import Verif.Grf.MultiTree

/-!
# Resultants and discriminants

The resultants and discriminants of Mathlib have the properties that the proofs about the projection need (`ElimOK`).
-/

set_option linter.unusedSectionVars false

namespace Verif.Grf

/-- A polynomial as a polynomial in the variable `v`; the coefficients are polynomials in the other variables. -/
noncomputable def inVar (v : ℕ) : MvPolynomial ℕ ℚ →ₐ[ℚ] Polynomial (MvPolynomial ℕ ℚ) :=
  MvPolynomial.aeval fun i => if i = v then Polynomial.X else Polynomial.C (MvPolynomial.X i)

/-- The functions `resultant` and `discriminant` are those of the books: determinants of Sylvester matrices, as
polynomials in the other variables. For polynomials without the variable all that is assumed is that the result is a
constant. -/
structure TrueElim (E : CadEnv) : Prop where
  res : ∀ (p q : MPoly) (v : ℕ), Normal p → Normal q → 0 < p.degreeIn v ∨ 0 < q.degreeIn v →
    toMv (E.res p q v) = Polynomial.resultant (inVar v (toMv p)) (inVar v (toMv q))
  disc : ∀ (p : MPoly) (v : ℕ), Normal p → 0 < p.degreeIn v → toMv (E.disc p v) = (inVar v (toMv p)).discr
  resConst : ∀ (p q : MPoly) (v : ℕ), Normal p → Normal q → p.degreeIn v = 0 → q.degreeIn v = 0 →
    (E.res p q v).isConstant = true
  discConst : ∀ (p : MPoly) (v : ℕ), Normal p → p.degreeIn v = 0 → (E.disc p v).isConstant = true
  resNormal : ∀ (p q : MPoly) (v : ℕ), Normal p → Normal q → Normal (E.res p q v)
  discNormal : ∀ (p : MPoly) (v : ℕ), Normal p → Normal (E.disc p v)

theorem toMv_cons (t : Mono × ℚ) (p : MPoly) :
    toMv (t :: p) = MvPolynomial.monomial (List.toFinsupp t.1) t.2 + toMv p := by simp [toMv]

theorem aeval_toMv (p : MPoly) (ρ : ℕ → ℝ) : MvPolynomial.aeval ρ (toMv p) = p.eval ρ := by
  have key : ∀ (m : Mono) (i : ℕ) (σ : ℕ → ℝ), (∀ j, σ j = ρ (i + j)) →
      ((List.toFinsupp m).prod fun j e => σ j ^ e) = Mono.evalFrom ρ i m := by
    intro m
    induction m with
    | nil => intro i σ _; simp [Mono.evalFrom]
    | cons e m ih =>
      intro i σ hσ
      rw [Mono.evalFrom, ← ih (i + 1) (fun j => σ (j + 1)) (by intro j; rw [hσ]; congr 1; ring),
        List.toFinsupp_cons_eq_single_add_embDomain]
      rw [Finsupp.prod_add_index' (by simp) (by intros; rw [pow_add])]
      rw [Finsupp.prod_single_index (by simp), Finsupp.prod_embDomain, hσ 0]
      simp
  induction p with
  | nil => simp [toMv, MPoly.eval_nil]
  | cons t p ih =>
    rw [toMv_cons, map_add, ih, MPoly.eval_cons, MvPolynomial.aeval_monomial, key t.1 0 ρ (by simp)]
    simp

/-- Substituting the variable again. -/
theorem eval_inVar (v : ℕ) (f : MvPolynomial ℕ ℚ) : (inVar v f).eval (MvPolynomial.X v) = f := by
  have : ((Polynomial.aeval (R := MvPolynomial ℕ ℚ) (MvPolynomial.X v : MvPolynomial ℕ ℚ)).restrictScalars ℚ).comp
      (inVar v) = AlgHom.id ℚ _ := by
    apply MvPolynomial.algHom_ext
    intro i
    by_cases hi : i = v
    · subst hi; simp [inVar]
    · simp [inVar, hi]
  have h := DFunLike.congr_fun this f
  simpa [Polynomial.coe_aeval_eq_eval] using h

theorem eval_map_inVar (v : ℕ) (f : MvPolynomial ℕ ℚ) (ρ : ℕ → ℝ) (x : ℝ) :
    ((inVar v f).map (MvPolynomial.aeval ρ : MvPolynomial ℕ ℚ →ₐ[ℚ] ℝ).toRingHom).eval x =
      MvPolynomial.aeval (Function.update ρ v x) f := by
  have : (Polynomial.evalRingHom x).comp ((Polynomial.mapRingHom
      (MvPolynomial.aeval ρ : MvPolynomial ℕ ℚ →ₐ[ℚ] ℝ).toRingHom).comp (inVar v).toRingHom) =
      (MvPolynomial.aeval (Function.update ρ v x) : MvPolynomial ℕ ℚ →ₐ[ℚ] ℝ).toRingHom := by
    apply MvPolynomial.ringHom_ext
    · intro r
      simp [inVar]
    · intro i
      by_cases hi : i = v
      · subst hi; simp [inVar]
      · simp [inVar, hi]
  exact DFunLike.congr_fun this f

theorem map_inVar (v : ℕ) (p : MPoly) (ρ : ℕ → ℝ) :
    (inVar v (toMv p)).map (MvPolynomial.aeval ρ : MvPolynomial ℕ ℚ →ₐ[ℚ] ℝ).toRingHom = fib v ρ p := by
  apply Polynomial.funext
  intro x
  rw [eval_map_inVar, eval_fib, aeval_toMv]

theorem aeval_coeff_inVar (v : ℕ) (p : MPoly) (ρ : ℕ → ℝ) (j : ℕ) :
    MvPolynomial.aeval ρ ((inVar v (toMv p)).coeff j) = (fib v ρ p).coeff j := by
  rw [← map_inVar, Polynomial.coeff_map]
  rfl

theorem eq_of_aeval {f g : MvPolynomial ℕ ℚ} (h : ∀ ρ : ℕ → ℝ, MvPolynomial.aeval ρ f = MvPolynomial.aeval ρ g) :
    f = g := by
  apply MvPolynomial.funext
  intro ρ
  have h1 := h fun i => (ρ i : ℝ)
  have : ∀ f : MvPolynomial ℕ ℚ, (MvPolynomial.aeval (fun i => (ρ i : ℝ)) f : ℝ) = ((MvPolynomial.eval ρ f : ℚ) : ℝ) := by
    intro f
    have e : (MvPolynomial.aeval (fun i => (ρ i : ℝ)) : MvPolynomial ℕ ℚ →ₐ[ℚ] ℝ) =
        (Algebra.ofId ℚ ℝ).comp (MvPolynomial.aeval ρ) := by
      apply MvPolynomial.algHom_ext
      intro i
      simp
    rw [e, AlgHom.comp_apply, MvPolynomial.aeval_eq_eval]
    rfl
  rw [this, this] at h1
  exact_mod_cast h1

theorem coeff_inVar (v : ℕ) (p : MPoly) (j : ℕ) : (inVar v (toMv p)).coeff j = toMv (coefIn p v j) := by
  apply eq_of_aeval
  intro ρ
  rw [aeval_coeff_inVar, coeff_fib, aeval_toMv]
  split
  · rfl
  · next hj =>
    have : coefIn p v j = [] := by
      unfold coefIn
      rw [List.map_eq_nil_iff, List.filter_eq_nil_iff]
      intro t ht
      have := exp_le_degreeIn (v := v) ht
      simp only [beq_iff_eq]
      omega
    rw [this, MPoly.eval_nil]

theorem toMv_ne_zero {p : MPoly} (hp : Normal p) (h : p ≠ []) : toMv p ≠ 0 := by
  intro h0
  obtain ⟨ρ, hρ⟩ := hp.exists_ne h
  rw [← eval_toMv, h0] at hρ
  simp at hρ

theorem natDegree_inVar {p : MPoly} (hp : Normal p) (v : ℕ) : (inVar v (toMv p)).natDegree = p.degreeIn v := by
  by_cases h : p = []
  · subst h
    simp [toMv, MPoly.degreeIn]
  apply le_antisymm
  · rw [Polynomial.natDegree_le_iff_coeff_eq_zero]
    intro j hj
    rw [coeff_inVar]
    have : coefIn p v j = [] := by
      unfold coefIn
      rw [List.map_eq_nil_iff, List.filter_eq_nil_iff]
      intro t ht
      have := exp_le_degreeIn (v := v) ht
      simp only [beq_iff_eq]
      omega
    rw [this]
    simp [toMv]
  · apply Polynomial.le_natDegree_of_ne_zero
    rw [coeff_inVar, ← lcIn_eq]
    exact toMv_ne_zero (normal_coefIn hp v _) (lcIn_ne_nil h v)

theorem leadingCoeff_inVar {p : MPoly} (hp : Normal p) (v : ℕ) :
    (inVar v (toMv p)).leadingCoeff = toMv (lcIn p v) := by
  rw [Polynomial.leadingCoeff, natDegree_inVar hp, coeff_inVar, lcIn_eq]

/-! ### Variables -/

theorem mem_vars_toMv {p : MPoly} (hp : Normal p) {w : ℕ} : w ∈ (toMv p).vars ↔ w ∈ p.vars := by
  constructor
  · intro h
    have : ∀ q : MPoly, w ∈ (toMv q).vars → ∃ t ∈ q, 0 < t.1.exp w := by
      intro q
      induction q with
      | nil => intro h; simp [toMv] at h
      | cons t q ih =>
        intro h
        rw [toMv_cons] at h
        rcases Finset.mem_union.1 (MvPolynomial.vars_add_subset _ _ h) with h | h
        · refine ⟨t, by simp, ?_⟩
          by_cases ht : t.2 = 0
          · rw [ht] at h; simp at h
          · rw [MvPolynomial.vars_monomial ht, Finsupp.mem_support_iff, List.toFinsupp_apply] at h
            exact Nat.pos_of_ne_zero h
        · obtain ⟨u, hu, h⟩ := ih h
          exact ⟨u, by simp [hu], h⟩
    exact MPoly.mem_vars.2 (this p h)
  · intro h
    obtain ⟨t, ht, h⟩ := MPoly.mem_vars.1 h
    rw [MvPolynomial.mem_vars_iff_mem_support]
    refine ⟨List.toFinsupp t.1, ?_, ?_⟩
    · rw [MvPolynomial.mem_support_iff, coeff_toMv hp ht]
      exact hp.coef t ht
    · rw [Finsupp.mem_support_iff, List.toFinsupp_apply]
      exact Nat.ne_of_gt h

/-- Set the variables that are not in the set to 0. -/
noncomputable def forget (S : ℕ → Prop) [DecidablePred S] : MvPolynomial ℕ ℚ →ₐ[ℚ] MvPolynomial ℕ ℚ :=
  MvPolynomial.bind₁ fun i => if S i then MvPolynomial.X i else 0

theorem vars_of_forget {S : ℕ → Prop} [DecidablePred S] {f : MvPolynomial ℕ ℚ} (h : forget S f = f) {w : ℕ}
    (hw : w ∈ f.vars) : S w := by
  rw [← h] at hw
  obtain ⟨i, _, hi⟩ := MvPolynomial.mem_vars_bind₁ _ _ hw
  split at hi
  · next hS =>
    rw [MvPolynomial.vars_X, Finset.mem_singleton] at hi
    rwa [hi]
  · simp at hi

theorem forget_inVar {S : ℕ → Prop} [DecidablePred S] {v : ℕ} {p : MPoly} (hp : Normal p)
    (hS : ∀ w ∈ p.vars, w ≠ v → S w) :
    (inVar v (toMv p)).map (forget S).toRingHom = inVar v (toMv p) := by
  have := MvPolynomial.hom_congr_vars (f₁ := (Polynomial.mapRingHom (forget S).toRingHom).comp (inVar v).toRingHom)
    (f₂ := (inVar v).toRingHom) (p₁ := toMv p) (p₂ := toMv p) (by
      ext r
      simp [forget, inVar]) (by
      intro i hi _
      by_cases h : i = v
      · subst h; simp [inVar]
      · have := hS i ((mem_vars_toMv hp).1 hi) h
        simp [inVar, h, forget, this]) rfl
  exact this

theorem vars_resultant {p q : MPoly} {v w : ℕ} (hp : Normal p) (hq : Normal q)
    (hw : w ∈ (Polynomial.resultant (inVar v (toMv p)) (inVar v (toMv q))).vars) :
    w ≠ v ∧ (w ∈ p.vars ∨ w ∈ q.vars) := by
  classical
  refine vars_of_forget (S := fun w => w ≠ v ∧ (w ∈ p.vars ∨ w ∈ q.vars)) ?_ hw
  have := Polynomial.resultant_map_map (inVar v (toMv p)) (inVar v (toMv q)) (inVar v (toMv p)).natDegree
    (inVar v (toMv q)).natDegree (forget fun w => w ≠ v ∧ (w ∈ p.vars ∨ w ∈ q.vars)).toRingHom
  rw [forget_inVar hp fun w hw hne => ⟨hne, Or.inl hw⟩, forget_inVar hq fun w hw hne => ⟨hne, Or.inr hw⟩] at this
  exact this.symm

theorem vars_discr {p : MPoly} {v w : ℕ} (hp : Normal p) (hd : 0 < p.degreeIn v)
    (hw : w ∈ (inVar v (toMv p)).discr.vars) : w ≠ v ∧ w ∈ p.vars := by
  classical
  refine vars_of_forget (S := fun w => w ≠ v ∧ w ∈ p.vars) ?_ hw
  have hfix := forget_inVar (S := fun w => w ≠ v ∧ w ∈ p.vars) hp (v := v) fun w hw hne => ⟨hne, hw⟩
  rw [← natDegree_inVar hp] at hd
  generalize inVar v (toMv p) = f at hfix hd ⊢
  have h1 := Polynomial.resultant_deriv (Polynomial.natDegree_pos_iff_degree_pos.1 hd)
  have h2 := Polynomial.resultant_map_map f f.derivative f.natDegree (f.natDegree - 1)
    (forget fun w => w ≠ v ∧ w ∈ p.vars).toRingHom
  rw [← Polynomial.derivative_map, hfix, h1] at h2
  have hlc : (forget fun w => w ≠ v ∧ w ∈ p.vars) f.leadingCoeff = f.leadingCoeff := by
    have := congrArg (fun g => g.coeff f.natDegree) hfix
    rw [Polynomial.coeff_map] at this
    exact this
  have hlc0 : f.leadingCoeff ≠ 0 := by
    intro h
    rw [Polynomial.leadingCoeff_eq_zero] at h
    subst h
    simp at hd
  have h3 : (forget fun w => w ≠ v ∧ w ∈ p.vars).toRingHom ((-1) ^ (f.natDegree * (f.natDegree - 1) / 2) *
      f.leadingCoeff * f.discr) = (-1) ^ (f.natDegree * (f.natDegree - 1) / 2) * f.leadingCoeff *
      (forget fun w => w ≠ v ∧ w ∈ p.vars) f.discr := by
    rw [map_mul, map_mul, map_pow, map_neg, map_one]
    change _ * (forget fun w => w ≠ v ∧ w ∈ p.vars) f.leadingCoeff * _ = _
    rw [hlc]
    rfl
  rw [h3] at h2
  exact (mul_left_cancel₀ (mul_ne_zero (pow_ne_zero _ (by simp)) hlc0) h2).symm

theorem isConstant_vars {p : MPoly} (h : p.isConstant = true) (w : ℕ) : w ∉ p.vars := by
  intro hw
  obtain ⟨t, ht, hw⟩ := MPoly.mem_vars.1 hw
  rw [MPoly.isConstant, List.all_eq_true] at h
  have h0 := h t ht
  rw [decide_eq_true_iff] at h0
  have : t.1.exp w ≤ t.1.deg := by
    unfold Mono.exp Mono.deg
    rw [List.getD_eq_getElem?_getD]
    cases hg : t.1[w]? with
    | none => simp
    | some e => exact List.le_sum_of_mem (List.mem_of_getElem? hg)
  omega

/-! ### Common zeros -/

/-- Right resultants and discriminants have the properties that the proofs use. -/
theorem TrueElim.elimOK {E : CadEnv} (h : TrueElim E) : ElimOK E where
  res := by
    intro p q v ρ hp hq hd hp0 hq0
    rw [← aeval_toMv, h.res p q v hp hq hd]
    rw [← natDegree_inVar hp, ← natDegree_inVar hq] at hd
    obtain ⟨a, b, -, -, hab⟩ := Polynomial.exists_mul_add_mul_eq_C_resultant (inVar v (toMv p)) (inVar v (toMv q))
      le_rfl le_rfl (hd.imp Nat.ne_of_gt Nat.ne_of_gt)
    have := congrArg (Polynomial.eval (MvPolynomial.X v)) hab
    rw [Polynomial.eval_add, Polynomial.eval_mul, Polynomial.eval_mul, eval_inVar, eval_inVar, Polynomial.eval_C] at this
    rw [← this, map_add, map_mul, map_mul, aeval_toMv, aeval_toMv, hp0, hq0]
    ring
  disc := by
    intro p v ρ hp hd hlc hp0 hder
    rw [← aeval_toMv, h.disc p v hp (by omega)]
    have hnd := natDegree_inVar hp v
    have hl := leadingCoeff_inVar hp v
    have hder0 : MvPolynomial.aeval ρ ((inVar v (toMv p)).derivative.eval (MvPolynomial.X v)) = 0 := by
      have h1 := (hasDerivAt_fib v ρ p (ρ v)).unique hder
      rw [← map_inVar, Polynomial.derivative_map] at h1
      have h2 := Polynomial.hom_eval₂ (inVar v (toMv p)).derivative (RingHom.id _)
        (MvPolynomial.aeval ρ : MvPolynomial ℕ ℚ →ₐ[ℚ] ℝ).toRingHom (MvPolynomial.X v)
      rw [Polynomial.eval_map] at h1
      rw [← h1]
      have : (MvPolynomial.aeval ρ : MvPolynomial ℕ ℚ →ₐ[ℚ] ℝ).toRingHom (MvPolynomial.X v) = ρ v := by
        simp
      rw [this, RingHom.comp_id] at h2
      rw [← h2]
      rfl
    have hev := eval_inVar v (toMv p)
    rw [← aeval_toMv, ← hl] at hlc
    rw [← hnd] at hd
    rw [← aeval_toMv] at hp0
    generalize inVar v (toMv p) = f at *
    have h1 := Polynomial.resultant_deriv (f := f) (Polynomial.natDegree_pos_iff_degree_pos.1 (by omega))
    obtain ⟨a, b, -, -, hab⟩ := Polynomial.exists_mul_add_mul_eq_C_resultant (m := f.natDegree) (n := f.natDegree - 1)
      f f.derivative le_rfl (Polynomial.natDegree_derivative_le f) (Or.inl (by omega))
    have := congrArg (fun g => MvPolynomial.aeval ρ (Polynomial.eval (MvPolynomial.X v) g)) hab
    simp only [Polynomial.eval_add, Polynomial.eval_mul, Polynomial.eval_C, h1] at this
    rw [hev, map_add, map_mul, map_mul, map_mul, map_mul, hp0, hder0, zero_mul, zero_mul, add_zero, map_pow, map_neg,
      map_one] at this
    rcases mul_eq_zero.1 this.symm with h | h
    · rcases mul_eq_zero.1 h with h | h
      · exact absurd h (pow_ne_zero _ (by norm_num))
      · exact absurd h hlc
    · exact h
  resVars := by
    intro p q v w hp hq hw
    by_cases hd : 0 < p.degreeIn v ∨ 0 < q.degreeIn v
    · rw [← mem_vars_toMv (h.resNormal p q v hp hq), h.res p q v hp hq hd] at hw
      exact vars_resultant hp hq hw
    · exact absurd hw (isConstant_vars (h.resConst p q v hp hq (by omega) (by omega)) w)
  discVars := by
    intro p v w hp hw
    by_cases hd : 0 < p.degreeIn v
    · rw [← mem_vars_toMv (h.discNormal p v hp), h.disc p v hp hd] at hw
      exact vars_discr hp hd hw
    · exact absurd hw (isConstant_vars (h.discConst p v hp (by omega)) w)
  resNormal := h.resNormal
  discNormal := h.discNormal

/-! ### Normal forms of the polynomials of Mathlib -/

/-- The exponents as a list without trailing zeros. -/
noncomputable def monoOf (m : ℕ →₀ ℕ) : Mono := Mono.strip ((List.range (m.support.sup id + 1)).map m)

theorem exp_monoOf (m : ℕ →₀ ℕ) (i : ℕ) : (monoOf m).exp i = m i := by
  rw [monoOf, exp_strip, Mono.exp, List.getD_eq_getElem?_getD]
  by_cases hi : i < m.support.sup id + 1
  · rw [List.getElem?_map, List.getElem?_range hi]
    rfl
  · rw [List.getElem?_eq_none (by simpa using hi)]
    symm
    rw [Option.getD_none]
    by_contra h
    have : i ≤ m.support.sup id := Finset.le_sup (f := id) (Finsupp.mem_support_iff.2 h)
    omega

theorem toFinsupp_monoOf (m : ℕ →₀ ℕ) : List.toFinsupp (monoOf m) = m := by
  ext i
  rw [List.toFinsupp_apply]
  exact exp_monoOf m i

/-- The normal form of a polynomial of Mathlib. -/
noncomputable def ofMv (f : MvPolynomial ℕ ℚ) : MPoly :=
  f.support.toList.map fun m => (monoOf m, f.coeff m)

theorem normal_ofMv (f : MvPolynomial ℕ ℚ) : Normal (ofMv f) := by
  refine ⟨?_, ?_, ?_⟩
  · intro t ht
    obtain ⟨m, hm, rfl⟩ := List.mem_map.1 ht
    exact MvPolynomial.mem_support_iff.1 (Finset.mem_toList.1 hm)
  · intro t ht
    obtain ⟨m, hm, rfl⟩ := List.mem_map.1 ht
    exact stripped_strip _
  · rw [ofMv, List.map_map]
    apply List.Nodup.map_on _ (Finset.nodup_toList _)
    intro m _ m' _ h
    ext i
    rw [← exp_monoOf m, ← exp_monoOf m', show monoOf m = monoOf m' from h]

theorem toMv_ofMv (f : MvPolynomial ℕ ℚ) : toMv (ofMv f) = f := by
  rw [toMv, ofMv, List.map_map]
  have : ((fun t : Mono × ℚ => MvPolynomial.monomial (List.toFinsupp t.1) t.2) ∘ fun m => (monoOf m, f.coeff m)) =
      fun m => MvPolynomial.monomial m (f.coeff m) := by
    funext m
    simp only [Function.comp, toFinsupp_monoOf]
  rw [this, Finset.sum_map_toList, MvPolynomial.support_sum_monomial_coeff]

/-! ### Where they are zero -/

theorem toMv_eq_zero {p : MPoly} (hp : Normal p) : toMv p = 0 ↔ p = [] := by
  constructor
  · intro h
    by_contra hne
    exact toMv_ne_zero hp hne h
  · rintro rfl; simp [toMv]

section
open Polynomial
variable {R K : Type*} [CommRing R] [IsDomain R] [Field K] [Algebra R K] [IsFractionRing R K]

theorem resultant_eq_zero_iff_field {f g : R[X]} (h : f ≠ 0 ∨ g ≠ 0) :
    resultant f g = 0 ↔ ¬ IsCoprime (f.map (algebraMap R K)) (g.map (algebraMap R K)) := by
  have hinj := IsFractionRing.injective R K
  rw [← map_eq_zero_iff _ hinj, ← resultant_map_map]
  have h1 := resultant_eq_zero_iff (f := f.map (algebraMap R K)) (g := g.map (algebraMap R K))
  rw [natDegree_map_eq_of_injective hinj, natDegree_map_eq_of_injective hinj] at h1
  rw [h1, Ne, Ne, Polynomial.map_eq_zero_iff hinj, Polynomial.map_eq_zero_iff hinj]
  tauto

theorem discr_eq_zero_iff_field [CharZero K] {f : R[X]} (h : 0 < f.natDegree) :
    f.discr = 0 ↔ ¬ Squarefree (f.map (algebraMap R K)) := by
  have hinj := IsFractionRing.injective R K
  have hf : f ≠ 0 := by
    rintro rfl
    simp at h
  have h1 := resultant_deriv (natDegree_pos_iff_degree_pos.1 h)
  have h2 : f.discr = 0 ↔ resultant f f.derivative f.natDegree (f.natDegree - 1) = 0 := by
    rw [h1]
    simp [hf]
  have h3 := resultant_eq_zero_iff (f := f.map (algebraMap R K)) (g := (f.map (algebraMap R K)).derivative)
  rw [natDegree_derivative, natDegree_map_eq_of_injective hinj, derivative_map, resultant_map_map,
    map_eq_zero_iff _ hinj, ← h2] at h3
  rw [h3, ← PerfectField.separable_iff_squarefree, Polynomial.Separable, derivative_map, Ne, Ne,
    Polynomial.map_eq_zero_iff hinj]
  tauto

end

/-- A polynomial in the variable `v` whose coefficients are rational functions in the other variables. -/
noncomputable def overField (v : ℕ) (p : MPoly) : Polynomial (FractionRing (MvPolynomial ℕ ℚ)) :=
  (inVar v (toMv p)).map (algebraMap _ _)

theorem natDegree_overField {p : MPoly} (hp : Normal p) (v : ℕ) : (overField v p).natDegree = p.degreeIn v := by
  rw [overField, Polynomial.natDegree_map_eq_of_injective (IsFractionRing.injective _ _), natDegree_inVar hp]

theorem overField_ne_zero {p : MPoly} (hp : Normal p) (hne : p ≠ []) (v : ℕ) : overField v p ≠ 0 := by
  intro h
  rw [overField, Polynomial.map_eq_zero_iff (IsFractionRing.injective _ _)] at h
  have := eval_inVar v (toMv p)
  rw [h, Polynomial.eval_zero] at this
  exact toMv_ne_zero hp hne this.symm

/-- A resultant is 0 exactly when the polynomials have a common factor in which the variable occurs. -/
theorem TrueElim.res_ne_nil {E : CadEnv} (h : TrueElim E) {p q : MPoly} {v : ℕ} (hp : Normal p) (hq : Normal q)
    (hd : 0 < p.degreeIn v ∨ 0 < q.degreeIn v) : E.res p q v ≠ [] ↔ IsCoprime (overField v p) (overField v q) := by
  rw [Ne, ← toMv_eq_zero (h.resNormal p q v hp hq), h.res p q v hp hq hd]
  rw [← natDegree_inVar hp, ← natDegree_inVar hq] at hd
  rw [resultant_eq_zero_iff_field (K := FractionRing (MvPolynomial ℕ ℚ)), not_not]
  · rfl
  · refine hd.imp ?_ ?_ <;> (intro h h0; rw [h0] at h; simp at h)

/-- A discriminant is 0 exactly when the polynomial has a square factor in which the variable occurs. -/
theorem TrueElim.disc_ne_nil {E : CadEnv} (h : TrueElim E) {p : MPoly} {v : ℕ} (hp : Normal p)
    (hd : 0 < p.degreeIn v) : E.disc p v ≠ [] ↔ Squarefree (overField v p) := by
  rw [Ne, ← toMv_eq_zero (h.discNormal p v hp), h.disc p v hp hd]
  rw [← natDegree_inVar hp] at hd
  have : CharZero (FractionRing (MvPolynomial ℕ ℚ)) := IsFractionRing.charZero_of_isFractionRing (MvPolynomial ℕ ℚ)
  rw [discr_eq_zero_iff_field (K := FractionRing (MvPolynomial ℕ ℚ)) hd, not_not]
  rfl

end Verif.Grf
