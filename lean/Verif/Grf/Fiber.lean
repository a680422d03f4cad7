import Verif.Grf.PropsCad
import Verif.Grf.OpenCad
import Mathlib.Analysis.Polynomial.CauchyBound
import Mathlib.Analysis.Calculus.Deriv.Polynomial
import Mathlib.Topology.Instances.Real.Lemmas
import Mathlib.Topology.Algebra.Polynomial
import Mathlib.Algebra.MvPolynomial.Funext
import Mathlib.Data.List.ToFinsupp

/-!
# Polynomials as polynomials in one of their variables, over the reals
-/

set_option linter.unusedSectionVars false

namespace Verif.Grf

open Topology Filter

/-! ### Monomials -/

/-- A monomial without trailing zeros. -/
def Mono.strip (m : Mono) : Mono := (m.reverse.dropWhile (· == 0)).reverse

theorem exp_nil (i : ℕ) : Mono.exp [] i = 0 := by simp [Mono.exp]

theorem exp_append_zero (m : Mono) (i : ℕ) : Mono.exp (m ++ [0]) i = m.exp i := by
  unfold Mono.exp
  rw [List.getD_eq_getElem?_getD, List.getD_eq_getElem?_getD, List.getElem?_append]
  split
  · rfl
  · next h =>
    rw [List.getElem?_eq_none (not_lt.1 h)]
    cases i - m.length <;> simp

theorem strip_append_zero (m : Mono) : Mono.strip (m ++ [0]) = m.strip := by
  simp [Mono.strip]

theorem strip_append_pos (m : Mono) {e : ℕ} (he : e ≠ 0) : Mono.strip (m ++ [e]) = m ++ [e] := by
  simp [Mono.strip, he]

theorem exp_strip (m : Mono) (i : ℕ) : m.strip.exp i = m.exp i := by
  induction m using List.reverseRecOn with
  | nil => rfl
  | append_singleton m e ih =>
    by_cases he : e = 0
    · subst he
      rw [strip_append_zero, ih, exp_append_zero]
    · rw [strip_append_pos m he]

/-- no trailing zeros -/
def Mono.Stripped (m : Mono) : Prop := m.getLast? ≠ some 0

theorem stripped_strip (m : Mono) : m.strip.Stripped := by
  induction m using List.reverseRecOn with
  | nil => simp [Mono.strip, Mono.Stripped]
  | append_singleton m e ih =>
    by_cases he : e = 0
    · subst he
      rw [strip_append_zero]; exact ih
    · rw [strip_append_pos m he, Mono.Stripped, List.getLast?_append]
      simp [he]

theorem exp_set (m : Mono) (v i : ℕ) : Mono.exp (m.set v 0) i = if i = v then 0 else m.exp i := by
  unfold Mono.exp
  rw [List.getD_eq_getElem?_getD, List.getD_eq_getElem?_getD, List.getElem?_set]
  by_cases h : v = i
  · subst h
    rw [if_pos rfl, if_pos rfl]
    split <;> rfl
  · rw [if_neg h, if_neg (Ne.symm h)]

theorem stripped_ext : ∀ {m m' : Mono}, m.Stripped → m'.Stripped → (∀ i, m.exp i = m'.exp i) → m = m' := by
  have key : ∀ {m m' : Mono}, m.Stripped → (∀ i, m.exp i = m'.exp i) → m.length ≤ m'.length := by
    intro m m' hm h
    by_contra hlt
    rw [not_le] at hlt
    have hne : m ≠ [] := by rintro rfl; simp at hlt
    have hlast := h (m.length - 1)
    unfold Mono.exp at hlast
    rw [List.getD_eq_getElem?_getD, List.getD_eq_getElem?_getD, List.getElem?_eq_none (l := m') (by omega)] at hlast
    apply hm
    rw [List.getLast?_eq_getElem?]
    rw [List.getElem?_eq_getElem (by omega)] at hlast ⊢
    simpa using hlast
  intro m m' hm hm' h
  have hl : m.length = m'.length := le_antisymm (key hm h) (key hm' fun i => (h i).symm)
  apply List.ext_getElem hl
  intro i h1 h2
  have := h i
  unfold Mono.exp at this
  rw [List.getD_eq_getElem?_getD, List.getD_eq_getElem?_getD, List.getElem?_eq_getElem h1,
    List.getElem?_eq_getElem h2] at this
  simpa using this

section
variable {K : Type*} [Field K]

theorem evalFrom_append_zero (ρ : ℕ → K) : ∀ (m : Mono) (i : ℕ),
    Mono.evalFrom ρ i (m ++ [0]) = Mono.evalFrom ρ i m
  | [], i => by simp [Mono.evalFrom]
  | e :: m, i => by
    rw [List.cons_append, Mono.evalFrom, evalFrom_append_zero ρ m, Mono.evalFrom]

theorem evalFrom_strip (ρ : ℕ → K) (m : Mono) (i : ℕ) : Mono.evalFrom ρ i m.strip = Mono.evalFrom ρ i m := by
  induction m using List.reverseRecOn with
  | nil => rfl
  | append_singleton m e ih =>
    by_cases he : e = 0
    · subst he
      rw [strip_append_zero, ih, evalFrom_append_zero]
    · rw [strip_append_pos m he]

theorem evalFrom_set (ρ : ℕ → K) : ∀ (m : Mono) (i v : ℕ),
    Mono.evalFrom ρ i m = Mono.evalFrom ρ i (m.set v 0) * ρ (i + v) ^ m.exp v
  | [], i, v => by simp [Mono.evalFrom, Mono.exp]
  | e :: m, i, 0 => by simp [Mono.evalFrom, Mono.exp]; ring
  | e :: m, i, v + 1 => by
    rw [List.set_cons_succ, Mono.evalFrom, Mono.evalFrom, evalFrom_set ρ m (i + 1) v]
    rw [show Mono.exp (e :: m) (v + 1) = Mono.exp m v by simp [Mono.exp], show i + (v + 1) = i + 1 + v by ring]
    ring

end

/-! ### Coefficients with respect to a variable -/

/-- The coefficient of the power `i` of the variable `v`. -/
def coefIn (p : MPoly) (v i : ℕ) : MPoly :=
  (p.filter fun t => t.1.exp v == i).map fun t => (Mono.strip (t.1.set v 0), t.2)

theorem lcIn_eq (p : MPoly) (v : ℕ) : lcIn p v = coefIn p v (p.degreeIn v) := rfl

theorem coefIn_cons (t : Mono × ℚ) (p : MPoly) (v i : ℕ) : coefIn (t :: p) v i =
    if t.1.exp v = i then (Mono.strip (t.1.set v 0), t.2) :: coefIn p v i else coefIn p v i := by
  unfold coefIn
  by_cases h : t.1.exp v = i
  · rw [if_pos h, List.filter_cons_of_pos (by simpa using h)]; rfl
  · rw [if_neg h, List.filter_cons_of_neg (by simpa using h)]

theorem vars_coefIn {p : MPoly} {v i w : ℕ} (h : w ∈ (coefIn p v i).vars) : w ≠ v ∧ w ∈ p.vars := by
  obtain ⟨t, ht, hw⟩ := MPoly.mem_vars.1 h
  obtain ⟨u, hu, rfl⟩ := List.mem_map.1 ht
  rw [exp_strip, exp_set] at hw
  split at hw
  · simp at hw
  · next hv => exact ⟨hv, MPoly.mem_vars.2 ⟨u, (List.mem_filter.1 hu).1, hw⟩⟩

theorem exp_le_degreeIn {p : MPoly} {v : ℕ} {t : Mono × ℚ} (h : t ∈ p) : t.1.exp v ≤ p.degreeIn v :=
  le_foldr_max (List.mem_map.2 ⟨t, h, rfl⟩)

theorem degreeIn_eq_zero {p : MPoly} {v : ℕ} (h : v ∉ p.vars) : p.degreeIn v = 0 := by
  unfold MPoly.degreeIn
  have : ∀ l : List ℕ, (∀ x ∈ l, x = 0) → l.foldr max 0 = 0 := by
    intro l
    induction l with
    | nil => intro _; rfl
    | cons a l ih =>
      intro hl
      rw [List.foldr_cons, ih fun x hx => hl x (by simp [hx]), hl a (by simp)]; rfl
  apply this
  intro x hx
  obtain ⟨t, ht, rfl⟩ := List.mem_map.1 hx
  by_contra h0
  exact h (MPoly.mem_vars.2 ⟨t, ht, Nat.pos_of_ne_zero h0⟩)

section
variable {K : Type*} [Field K]

theorem eval_coefs (ρ : ℕ → K) (v N : ℕ) : ∀ (p : MPoly), (∀ t ∈ p, t.1.exp v ≤ N) →
    p.eval ρ = ∑ i ∈ Finset.range (N + 1), (coefIn p v i).eval ρ * ρ v ^ i
  | [], _ => by simp [coefIn, MPoly.eval_nil]
  | t :: p, h => by
    rw [MPoly.eval_cons, eval_coefs ρ v N p fun t ht => h t (by simp [ht])]
    have : ∀ i ∈ Finset.range (N + 1), (coefIn (t :: p) v i).eval ρ * ρ v ^ i =
        (if i = t.1.exp v then (t.2 : K) * Mono.evalFrom ρ 0 t.1 else 0) + (coefIn p v i).eval ρ * ρ v ^ i := by
      intro i _
      rw [coefIn_cons]
      by_cases hi : t.1.exp v = i
      · rw [if_pos hi, if_pos hi.symm, MPoly.eval_cons, evalFrom_strip, evalFrom_set ρ t.1 0 v, hi, zero_add]
        ring
      · rw [if_neg hi, if_neg (Ne.symm hi), zero_add]
    rw [Finset.sum_congr rfl this, Finset.sum_add_distrib, Finset.sum_ite_eq' ]
    rw [if_pos (Finset.mem_range.2 (Nat.lt_succ_of_le (h t (by simp))))]

theorem eval_coefIn_update (ρ : ℕ → K) (p : MPoly) (v i : ℕ) (x : K) :
    (coefIn p v i).eval (Function.update ρ v x) = (coefIn p v i).eval ρ :=
  MPoly.eval_congr fun _ hw => Function.update_of_ne (vars_coefIn hw).1 _ _

/-- The polynomial in `v` over a point. -/
noncomputable def fib (v : ℕ) (ρ : ℕ → K) (p : MPoly) : Polynomial K :=
  ∑ i ∈ Finset.range (p.degreeIn v + 1), Polynomial.C ((coefIn p v i).eval ρ) * Polynomial.X ^ i

theorem eval_fib (v : ℕ) (ρ : ℕ → K) (p : MPoly) (x : K) :
    (fib v ρ p).eval x = p.eval (Function.update ρ v x) := by
  rw [eval_coefs (Function.update ρ v x) v (p.degreeIn v) p fun t ht => exp_le_degreeIn ht]
  unfold fib
  rw [Polynomial.eval_finsetSum]
  apply Finset.sum_congr rfl
  intro i _
  rw [eval_coefIn_update, Function.update_self]
  simp

theorem coeff_fib (v : ℕ) (ρ : ℕ → K) (p : MPoly) (j : ℕ) :
    (fib v ρ p).coeff j = if j ≤ p.degreeIn v then (coefIn p v j).eval ρ else 0 := by
  unfold fib
  rw [Polynomial.finsetSum_coeff]
  simp only [Polynomial.coeff_C_mul, Polynomial.coeff_X_pow, mul_ite, mul_one, mul_zero]
  rw [Finset.sum_ite_eq]
  simp

theorem natDegree_fib {v : ℕ} {ρ : ℕ → K} {p : MPoly} (h : (lcIn p v).eval ρ ≠ 0) :
    (fib v ρ p).natDegree = p.degreeIn v := by
  apply le_antisymm
  · rw [Polynomial.natDegree_le_iff_coeff_eq_zero]
    intro j hj
    rw [coeff_fib, if_neg (by omega)]
  · apply Polynomial.le_natDegree_of_ne_zero
    rw [coeff_fib, if_pos le_rfl]
    exact h

end

/-! ### Continuity -/

theorem continuous_evalFrom : ∀ (m : Mono) (i : ℕ), Continuous fun ρ : ℕ → ℝ => Mono.evalFrom ρ i m
  | [], i => continuous_const
  | e :: m, i => by
    have := continuous_evalFrom m (i + 1)
    show Continuous fun ρ : ℕ → ℝ => ρ i ^ e * Mono.evalFrom ρ (i + 1) m
    fun_prop

theorem continuous_eval : ∀ p : MPoly, Continuous fun ρ : ℕ → ℝ => p.eval ρ
  | [] => continuous_const
  | t :: p => by
    have h1 := continuous_eval p
    have h2 := continuous_evalFrom t.1 0
    simp only [MPoly.eval_cons]
    fun_prop

theorem continuous_eval_update (p : MPoly) (v : ℕ) :
    Continuous fun z : (ℕ → ℝ) × ℝ => p.eval (Function.update z.1 v z.2) :=
  (continuous_eval p).comp (continuous_fst.update v continuous_snd)

theorem hasDerivAt_fib (v : ℕ) (ρ : ℕ → ℝ) (p : MPoly) (x : ℝ) :
    HasDerivAt (fun y => p.eval (Function.update ρ v y)) ((fib v ρ p).derivative.eval x) x := by
  have := (fib v ρ p).hasDerivAt x
  simpa only [eval_fib] using this

theorem continuous_deriv_fib (p : MPoly) (v : ℕ) :
    Continuous fun z : (ℕ → ℝ) × ℝ => (fib v z.1 p).derivative.eval z.2 := by
  unfold fib
  simp only [Polynomial.derivative_sum, Polynomial.eval_finsetSum, Polynomial.derivative_mul, Polynomial.derivative_C,
    Polynomial.derivative_X_pow, zero_mul, zero_add, Polynomial.eval_mul, Polynomial.eval_C, Polynomial.eval_pow,
    Polynomial.eval_X]
  apply continuous_finsetSum
  intro i _
  have := (continuous_eval (coefIn p v i)).comp (continuous_fst : Continuous fun z : (ℕ → ℝ) × ℝ => z.1)
  have h2 : Continuous fun z : (ℕ → ℝ) × ℝ => (coefIn p v i).eval z.1 := this
  fun_prop

/-- The roots over a neighbourhood of a point where the leading coefficient is not zero are bounded. -/
theorem roots_bounded {p : MPoly} {v : ℕ} {ρ : ℕ → ℝ} (h : (lcIn p v).eval ρ ≠ 0) :
    ∃ M : ℝ, 0 ≤ M ∧ ∀ᶠ σ in 𝓝 ρ, ∀ y, M ≤ |y| → p.eval (Function.update σ v y) ≠ 0 := by
  let b : (ℕ → ℝ) → ℝ := fun σ =>
    (∑ i ∈ Finset.range (p.degreeIn v), |(coefIn p v i).eval σ|) / |(lcIn p v).eval σ| + 1
  have hb : ContinuousAt b ρ := by
    have h1 : ContinuousAt (fun σ : ℕ → ℝ => ∑ i ∈ Finset.range (p.degreeIn v), |(coefIn p v i).eval σ|) ρ :=
      (continuous_finsetSum _ fun i _ => (continuous_eval (coefIn p v i)).abs).continuousAt
    have h2 : ContinuousAt (fun σ : ℕ → ℝ => |(lcIn p v).eval σ|) ρ := (continuous_eval (lcIn p v)).abs.continuousAt
    exact (h1.div h2 (by simpa using h)).add continuousAt_const
  have hpos : 0 ≤ b ρ + 1 := by
    have : 0 ≤ (∑ i ∈ Finset.range (p.degreeIn v), |(coefIn p v i).eval ρ|) / |(lcIn p v).eval ρ| :=
      div_nonneg (Finset.sum_nonneg fun i _ => abs_nonneg _) (abs_nonneg _)
    simp only [b]
    linarith
  refine ⟨b ρ + 1, hpos, ?_⟩
  have hev : ∀ᶠ σ in 𝓝 ρ, b σ < b ρ + 1 := hb.eventually (eventually_lt_nhds (by linarith))
  have hlc : ∀ᶠ σ in 𝓝 ρ, (lcIn p v).eval σ ≠ 0 := (continuous_eval (lcIn p v)).continuousAt.eventually_ne h
  filter_upwards [hev, hlc] with σ h1 h2 y hy h0
  have hne : fib v σ p ≠ 0 := by
    intro h3
    have := coeff_fib v σ p (p.degreeIn v)
    rw [h3, if_pos le_rfl] at this
    exact h2 (by rw [lcIn_eq, ← this]; simp)
  have hroot : (fib v σ p).IsRoot y := by rw [Polynomial.IsRoot.def, eval_fib, h0]
  have hc := hroot.norm_lt_cauchyBound hne
  have hle : ((fib v σ p).cauchyBound : ℝ) ≤ b σ := by
    unfold Polynomial.cauchyBound
    rw [natDegree_fib h2]
    have hl : (fib v σ p).leadingCoeff = (lcIn p v).eval σ := by
      rw [Polynomial.leadingCoeff, natDegree_fib h2, coeff_fib, if_pos le_rfl, lcIn_eq]
    rw [hl]
    have hsup : (((Finset.range (p.degreeIn v)).sup fun j => ‖(fib v σ p).coeff j‖₊ : NNReal) : ℝ) ≤
        ∑ i ∈ Finset.range (p.degreeIn v), |(coefIn p v i).eval σ| := by
      have h3 : (Finset.range (p.degreeIn v)).sup (fun j => ‖(fib v σ p).coeff j‖₊) ≤
          ∑ i ∈ Finset.range (p.degreeIn v), ‖(coefIn p v i).eval σ‖₊ := by
        apply Finset.sup_le
        intro j hj
        rw [coeff_fib, if_pos (Finset.mem_range.1 hj).le]
        exact Finset.single_le_sum (f := fun i => ‖(coefIn p v i).eval σ‖₊) (fun i _ => zero_le) hj
      have h4 := NNReal.coe_le_coe.2 h3
      push_cast at h4
      simpa using h4
    push_cast
    simp only [b, Real.norm_eq_abs]
    gcongr
  have h5 : |y| < ((fib v σ p).cauchyBound : ℝ) := by
    have := NNReal.coe_lt_coe.2 hc
    simpa using this
  linarith

/-! ### Normal forms -/

/-- Polynomials as they are made by Sage: different monomials without trailing zeros, coefficients that are not zero. -/
structure Normal (p : MPoly) : Prop where
  coef : NoZeroTerms p
  strip : ∀ t ∈ p, t.1.Stripped
  nodup : (p.map Prod.fst).Nodup

/-- The polynomial of Mathlib. -/
noncomputable def toMv (p : MPoly) : MvPolynomial ℕ ℚ :=
  (p.map fun t => MvPolynomial.monomial (List.toFinsupp t.1) t.2).sum

theorem eval_toMv (p : MPoly) (ρ : ℕ → ℚ) : MvPolynomial.eval ρ (toMv p) = p.eval ρ := by
  have key : ∀ (m : Mono) (i : ℕ) (σ : ℕ → ℚ), (∀ j, σ j = ρ (i + j)) →
      ((List.toFinsupp m).prod fun j e => σ j ^ e) = Mono.evalFrom ρ i m := by
    intro m
    induction m with
    | nil => intro i σ _; simp [Mono.evalFrom]
    | cons e m ih =>
      intro i σ hσ
      rw [Mono.evalFrom, ← ih (i + 1) (fun j => σ (j + 1)) (by intro j; rw [hσ]; congr 1; ring),
        List.toFinsupp_cons_eq_single_add_embDomain]
      rw [Finsupp.prod_add_index' (by simp) (by intros; rw [pow_add])]
      rw [Finsupp.prod_single_index (by simp), Finsupp.prod_embDomain, hσ 0]
      simp
  induction p with
  | nil => simp [toMv, MPoly.eval_nil]
  | cons t p ih =>
    have : toMv (t :: p) = MvPolynomial.monomial (List.toFinsupp t.1) t.2 + toMv p := by simp [toMv]
    rw [this, map_add, ih, MPoly.eval_cons, MvPolynomial.eval_monomial, key t.1 0 ρ (by simp)]
    simp

theorem coeff_toMv {p : MPoly} (hp : Normal p) {t : Mono × ℚ} (ht : t ∈ p) :
    MvPolynomial.coeff (List.toFinsupp t.1) (toMv p) = t.2 := by
  have hz : ∀ (q : MPoly) (m : Mono), m.Stripped → (∀ u ∈ q, u.1.Stripped) → m ∉ q.map Prod.fst →
      MvPolynomial.coeff (List.toFinsupp m) (toMv q) = 0 := by
    intro q m hm
    induction q with
    | nil => intro _ _; simp [toMv]
    | cons u q ih =>
      intro hs hn
      have : toMv (u :: q) = MvPolynomial.monomial (List.toFinsupp u.1) u.2 + toMv q := by simp [toMv]
      rw [this, MvPolynomial.coeff_add, ih (fun x hx => hs x (by simp [hx])) (fun h => hn (by simp [h])),
        MvPolynomial.coeff_monomial, if_neg, add_zero]
      intro h
      apply hn
      rw [List.map_cons, List.mem_cons]
      left
      apply stripped_ext hm (hs u (by simp))
      intro i
      have := DFunLike.congr_fun h i
      simpa [Mono.exp, List.toFinsupp_apply] using this.symm
  induction p with
  | nil => simp at ht
  | cons u p ih =>
    have he : toMv (u :: p) = MvPolynomial.monomial (List.toFinsupp u.1) u.2 + toMv p := by simp [toMv]
    have hnd := hp.nodup
    rw [List.map_cons, List.nodup_cons] at hnd
    rw [he, MvPolynomial.coeff_add, MvPolynomial.coeff_monomial]
    rcases List.mem_cons.1 ht with rfl | ht
    · rw [if_pos rfl, hz p t.1 (hp.strip t (by simp)) (fun x hx => hp.strip x (by simp [hx])) hnd.1, add_zero]
    · rw [ih ⟨fun x hx => hp.coef x (by simp [hx]), fun x hx => hp.strip x (by simp [hx]), hnd.2⟩ ht, if_neg, zero_add]
      intro h
      apply hnd.1
      have : u.1 = t.1 := by
        apply stripped_ext (hp.strip u (by simp)) (hp.strip t (by simp [ht]))
        intro i
        have := DFunLike.congr_fun h i
        simpa [Mono.exp, List.toFinsupp_apply] using this
      rw [this]
      exact List.mem_map.2 ⟨t, ht, rfl⟩

/-- A normal form that is not empty is not the zero function. -/
theorem Normal.exists_ne {p : MPoly} (hp : Normal p) (h : p ≠ []) : ∃ ρ : ℕ → ℚ, p.eval ρ ≠ 0 := by
  by_contra hno
  push Not at hno
  have h0 : toMv p = 0 := by
    apply MvPolynomial.funext
    intro ρ
    rw [eval_toMv, hno ρ, map_zero]
  obtain ⟨t, ht⟩ := List.exists_mem_of_ne_nil _ h
  have := coeff_toMv hp ht
  rw [h0] at this
  exact hp.coef t ht (by simpa using this.symm)

end Verif.Grf
