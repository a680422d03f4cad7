import Mathlib.Algebra.MvPolynomial.Degrees
import Verif.Grf.TrueElim

/-!
# Degrees of the polynomials of the projection
-/

set_option linter.unusedSectionVars false

namespace Verif.Grf

/-! ### Total degree of a polynomial of the model -/

theorem totalDegree_le_iff {p : MPoly} {d : ℕ} : p.totalDegree ≤ d ↔ ∀ t ∈ p, t.1.deg ≤ d := by
  constructor
  · intro h t ht
    exact (le_foldr_max (List.mem_map.2 ⟨t, ht, rfl⟩)).trans h
  · intro h
    by_cases hp : p = []
    · subst hp; simp [MPoly.totalDegree]
    · have := mem_foldr_max (l := p.map fun t => t.1.deg) (by simpa using hp)
      obtain ⟨t, ht, he⟩ := List.mem_map.1 this
      exact he.symm.le.trans (h t ht)

theorem deg_le_totalDegree {p : MPoly} {t : Mono × ℚ} (h : t ∈ p) : t.1.deg ≤ p.totalDegree :=
  totalDegree_le_iff.1 le_rfl t h

theorem deg_mul : ∀ a b : Mono, (a.mul b).deg = a.deg + b.deg
  | [], b => by simp [Mono.mul, Mono.deg]
  | x :: a, [] => by simp [Mono.mul, Mono.deg]
  | x :: a, y :: b => by
    have := deg_mul a b
    simp only [Mono.mul, Mono.deg, List.sum_cons] at *
    omega

theorem totalDegree_addTerm {m : Mono} {c : ℚ} {p : MPoly} {d : ℕ} (hm : m.deg ≤ d) (hp : p.totalDegree ≤ d) :
    (addTerm m c p).totalDegree ≤ d := by
  rw [totalDegree_le_iff] at *
  intro t ht
  rcases mem_addTerm ht with h | ⟨t', h1, h2⟩
  · rw [h]; exact hm
  · rw [h2]; exact hp t' h1

theorem totalDegree_add {p q : MPoly} {d : ℕ} (hp : p.totalDegree ≤ d) (hq : q.totalDegree ≤ d) :
    (p.add q).totalDegree ≤ d := by
  unfold MPoly.add
  induction p with
  | nil => exact hq
  | cons t p ih =>
    rw [totalDegree_le_iff] at hp
    exact totalDegree_addTerm (hp t (by simp)) (ih (totalDegree_le_iff.2 fun u hu => hp u (by simp [hu])))

theorem totalDegree_mulTerm {m : Mono} {c : ℚ} {p : MPoly} {d e : ℕ} (hm : m.deg ≤ d) (hp : p.totalDegree ≤ e) :
    (MPoly.mulTerm m c p).totalDegree ≤ d + e := by
  unfold MPoly.mulTerm
  induction p with
  | nil => simp [MPoly.totalDegree]
  | cons t p ih =>
    rw [totalDegree_le_iff] at hp
    refine totalDegree_addTerm ?_ (ih (totalDegree_le_iff.2 fun u hu => hp u (by simp [hu])))
    rw [deg_mul]
    have := hp t (by simp)
    omega

theorem totalDegree_mul {p q : MPoly} {d e : ℕ} (hp : p.totalDegree ≤ d) (hq : q.totalDegree ≤ e) :
    (p.mul q).totalDegree ≤ d + e := by
  unfold MPoly.mul
  induction p with
  | nil => simp [MPoly.totalDegree]
  | cons t p ih =>
    rw [totalDegree_le_iff] at hp
    exact totalDegree_add (totalDegree_mulTerm (hp t (by simp)) hq)
      (ih (totalDegree_le_iff.2 fun u hu => hp u (by simp [hu])))

theorem totalDegree_foldl : ∀ (ps : List MPoly) (q : MPoly),
    (ps.foldl MPoly.mul q).totalDegree ≤ q.totalDegree + (ps.map MPoly.totalDegree).sum
  | [], q => by simp
  | p :: ps, q => by
    have h1 := totalDegree_foldl ps (q.mul p)
    have h2 : (q.mul p).totalDegree ≤ _ := totalDegree_mul le_rfl le_rfl
    rw [List.foldl_cons, List.map_cons, List.sum_cons]
    omega

theorem deg_substFrom (d : List (ℕ × ℚ)) : ∀ (m : Mono) (i : ℕ), (Mono.substFrom d i m).2.deg ≤ m.deg
  | [], _ => le_rfl
  | e :: m, i => by
    have ih := deg_substFrom d m (i + 1)
    rw [Mono.substFrom]
    simp only [Mono.deg, List.sum_cons] at *
    split
    · simp only
      split
      · simp
      · rw [List.sum_cons]; omega
    · simp only
      split
      · simp
      · rw [List.sum_cons]; omega

theorem totalDegree_subst (d : List (ℕ × ℚ)) (p : MPoly) : (p.subst d).totalDegree ≤ p.totalDegree := by
  suffices ∀ e, p.totalDegree ≤ e → (p.subst d).totalDegree ≤ e from this _ le_rfl
  intro e hp
  unfold MPoly.subst
  induction p with
  | nil => simp [MPoly.totalDegree]
  | cons t p ih =>
    rw [totalDegree_le_iff] at hp
    exact totalDegree_addTerm ((deg_substFrom d t.1 0).trans (hp t (by simp)))
      (ih (totalDegree_le_iff.2 fun u hu => hp u (by simp [hu])))

theorem deg_set : ∀ (m : Mono) (v : ℕ), Mono.deg (m.set v 0) ≤ m.deg
  | [], _ => le_rfl
  | e :: m, 0 => by simp [Mono.deg]
  | e :: m, v + 1 => by
    have := deg_set m v
    simp only [List.set_cons_succ, Mono.deg, List.sum_cons] at *
    omega

theorem deg_strip (m : Mono) : Mono.deg ((m.reverse.dropWhile (· == 0)).reverse) ≤ m.deg := by
  unfold Mono.deg
  rw [List.sum_reverse]
  conv_rhs => rw [← List.sum_reverse]
  exact (List.dropWhile_sublist _).sum_le_sum (by simp)

theorem totalDegree_lcIn (p : MPoly) (v : ℕ) : (lcIn p v).totalDegree ≤ p.totalDegree := by
  rw [totalDegree_le_iff]
  intro t ht
  obtain ⟨u, hu, rfl⟩ := List.mem_map.1 ht
  exact (deg_strip _).trans ((deg_set _ _).trans (deg_le_totalDegree (List.mem_filter.1 hu).1))

theorem totalDegree_pos {p : MPoly} (h : p.isConstant = false) : 1 ≤ p.totalDegree := by
  by_contra hn
  have : p.totalDegree ≤ 0 := by omega
  rw [totalDegree_le_iff] at this
  have hc : p.isConstant = true := by
    unfold MPoly.isConstant
    rw [List.all_eq_true]
    intro t ht
    simpa using this t ht
  rw [hc] at h
  cases h

theorem totalDegree_base {p : MPoly} (h : p.isConstant = false) : (purePolyBase p).totalDegree ≤ p.totalDegree := by
  unfold purePolyBase
  split
  · split
    · next v _ =>
      refine le_trans ?_ (totalDegree_pos h)
      simp [MPoly.var, MPoly.totalDegree, Mono.deg]
    · exact le_rfl
  · exact le_rfl

theorem totalDegree_filter {ps : List MPoly} {d : ℕ} (h : ∀ p ∈ ps, p.isConstant = false → p.totalDegree ≤ d) {q : MPoly}
    (hq : q ∈ filterProjSet ps) : q.totalDegree ≤ d := by
  obtain ⟨p, hp, hc, rfl⟩ := mem_filterProjSet hq
  exact (totalDegree_base hc).trans (h p hp hc)

/-! ### Normal forms after substitution -/

theorem normal_addTerm {m : Mono} {c : ℚ} {p : MPoly} (hm : m.Stripped) (hp : Normal p) : Normal (addTerm m c p) := by
  refine ⟨addTerm_coef hp.coef, ?_, ?_⟩
  · intro t ht
    rcases mem_addTerm ht with h | ⟨t', h1, h2⟩
    · rw [h]; exact hm
    · rw [h2]; exact hp.strip t' h1
  · have hnd := hp.nodup
    clear hp
    induction p with
    | nil =>
      unfold addTerm
      split <;> simp
    | cons u p ih =>
      obtain ⟨m', c'⟩ := u
      rw [List.map_cons, List.nodup_cons] at hnd
      unfold addTerm
      split
      · next h =>
        split
        · exact hnd.2
        · rw [List.map_cons, List.nodup_cons]
          exact ⟨h ▸ hnd.1, hnd.2⟩
      · next h =>
        rw [List.map_cons, List.nodup_cons]
        refine ⟨fun hmem => ?_, ih hnd.2⟩
        obtain ⟨t, ht, he⟩ := List.mem_map.1 hmem
        rcases mem_addTerm ht with h' | ⟨t', h1, h2⟩
        · exact h (he.symm.trans h')
        · exact hnd.1 (List.mem_map.2 ⟨t', h1, h2.symm.trans he⟩)

theorem stripped_cons {e : ℕ} {m : Mono} (hm : m.Stripped) (h : m ≠ []) : Mono.Stripped (e :: m) := by
  unfold Mono.Stripped at *
  rwa [List.getLast?_cons_of_ne_nil h]

theorem stripped_substFrom (d : List (ℕ × ℚ)) : ∀ (m : Mono) (i : ℕ), (Mono.substFrom d i m).2.Stripped
  | [], _ => by simp [Mono.substFrom, Mono.Stripped]
  | e :: m, i => by
    have ih := stripped_substFrom d m (i + 1)
    rw [Mono.substFrom]
    split
    · simp only
      split
      · simp [Mono.Stripped]
      · next h => exact stripped_cons ih h
    · simp only
      split
      · simp [Mono.Stripped]
      · next h =>
        by_cases h2 : (Mono.substFrom d (i + 1) m).2 = []
        · rw [h2]
          have : e ≠ 0 := fun he => h ⟨he, h2⟩
          simpa [Mono.Stripped] using this
        · exact stripped_cons ih h2

theorem normal_nil : Normal [] := ⟨by simp [NoZeroTerms], by simp, by simp⟩

theorem normal_subst (d : List (ℕ × ℚ)) (p : MPoly) : Normal (p.subst d) := by
  unfold MPoly.subst
  induction p with
  | nil => exact normal_nil
  | cons t p ih => exact normal_addTerm (stripped_substFrom d t.1 0) ih

/-! ### Resultants and discriminants -/

theorem sum_toFinsupp : ∀ m : Mono, ((List.toFinsupp m).sum fun _ e => e) = m.deg
  | [] => by simp [Mono.deg]
  | e :: m => by
    have ih := sum_toFinsupp m
    rw [List.toFinsupp_cons_eq_single_add_embDomain, Finsupp.sum_add_index' (by simp) (by simp),
      Finsupp.sum_single_index rfl, Finsupp.sum_embDomain, ih]
    simp [Mono.deg]

open MvPolynomial in
theorem totalDegree_toMv (p : MPoly) : (toMv p).totalDegree ≤ p.totalDegree := by
  suffices ∀ d, p.totalDegree ≤ d → (toMv p).totalDegree ≤ d from this _ le_rfl
  intro d hp
  induction p with
  | nil => simp [toMv]
  | cons t p ih =>
    rw [totalDegree_le_iff] at hp
    rw [toMv_cons]
    refine (MvPolynomial.totalDegree_add _ _).trans (max_le ?_
      (ih (totalDegree_le_iff.2 fun u hu => hp u (by simp [hu]))))
    refine (totalDegree_monomial_le _ _).trans (le_trans (le_of_eq ?_) (hp t (by simp)))
    exact sum_toFinsupp t.1

theorem le_totalDegree_toMv {p : MPoly} (hp : Normal p) : p.totalDegree ≤ (toMv p).totalDegree := by
  rw [totalDegree_le_iff]
  intro t ht
  rw [← sum_toFinsupp]
  apply MvPolynomial.le_totalDegree
  rw [MvPolynomial.mem_support_iff, coeff_toMv hp ht]
  exact hp.coef t ht

/-- All coefficients have at most the given total degree. -/
def CoefLe (d : ℕ) (f : Polynomial (MvPolynomial ℕ ℚ)) : Prop := ∀ i, (f.coeff i).totalDegree ≤ d

theorem CoefLe.mul {d e : ℕ} {f g : Polynomial (MvPolynomial ℕ ℚ)} (hf : CoefLe d f) (hg : CoefLe e g) :
    CoefLe (d + e) (f * g) := by
  intro i
  rw [Polynomial.coeff_mul]
  apply MvPolynomial.totalDegree_finsetSum_le
  intro x _
  exact (MvPolynomial.totalDegree_mul _ _).trans (add_le_add (hf _) (hg _))

theorem CoefLe.pow {d : ℕ} {f : Polynomial (MvPolynomial ℕ ℚ)} (hf : CoefLe d f) : ∀ k, CoefLe (k * d) (f ^ k)
  | 0 => by
    intro i
    rw [pow_zero, Polynomial.coeff_one]
    split <;> simp
  | k + 1 => by
    rw [pow_succ, add_mul, one_mul]
    exact (CoefLe.pow hf k).mul hf

theorem inVar_monomial (v : ℕ) (s : ℕ →₀ ℕ) (a : ℚ) :
    CoefLe (s.sum fun _ e => e) (inVar v (MvPolynomial.monomial s a)) ∧
      (inVar v (MvPolynomial.monomial s a)).natDegree ≤ s.sum fun _ e => e := by
  have hbase : ∀ i, CoefLe 1 (if i = v then Polynomial.X else Polynomial.C (MvPolynomial.X i : MvPolynomial ℕ ℚ)) ∧
      (if i = v then Polynomial.X else Polynomial.C (MvPolynomial.X i : MvPolynomial ℕ ℚ)).natDegree ≤ 1 := by
    intro i
    split
    · refine ⟨fun j => ?_, Polynomial.natDegree_X_le⟩
      rw [Polynomial.coeff_X]
      split <;> simp
    · refine ⟨fun j => ?_, by simp⟩
      rw [Polynomial.coeff_C]
      split <;> simp
  have hprod : ∀ F : Finset ℕ, CoefLe (∑ i ∈ F, s i)
      (∏ i ∈ F, (if i = v then Polynomial.X else Polynomial.C (MvPolynomial.X i : MvPolynomial ℕ ℚ)) ^ s i) ∧
      (∏ i ∈ F, (if i = v then Polynomial.X else Polynomial.C (MvPolynomial.X i : MvPolynomial ℕ ℚ)) ^ s i).natDegree ≤
        ∑ i ∈ F, s i := by
    intro F
    induction F using Finset.induction_on with
    | empty =>
      refine ⟨fun j => ?_, by simp⟩
      rw [Finset.prod_empty, Polynomial.coeff_one]
      split <;> simp
    | insert i F hi ih =>
      rw [Finset.prod_insert hi, Finset.sum_insert hi]
      constructor
      · have := (hbase i).1.pow (s i)
        rw [mul_one] at this
        exact this.mul ih.1
      · refine Polynomial.natDegree_mul_le.trans (add_le_add ?_ ih.2)
        refine Polynomial.natDegree_pow_le.trans ?_
        calc s i * _ ≤ s i * 1 := Nat.mul_le_mul_left _ (hbase i).2
          _ = s i := mul_one _
  have he : inVar v (MvPolynomial.monomial s a) = Polynomial.C (MvPolynomial.C a) *
      ∏ i ∈ s.support, (if i = v then Polynomial.X else Polynomial.C (MvPolynomial.X i : MvPolynomial ℕ ℚ)) ^ s i := by
    rw [inVar, MvPolynomial.aeval_monomial]
    rfl
  rw [he]
  constructor
  · intro j
    rw [Polynomial.coeff_C_mul]
    refine (MvPolynomial.totalDegree_mul _ _).trans ?_
    rw [MvPolynomial.totalDegree_C, zero_add]
    exact (hprod s.support).1 j
  · exact (Polynomial.natDegree_C_mul_le _ _).trans (hprod s.support).2

theorem inVar_le (v : ℕ) (f : MvPolynomial ℕ ℚ) :
    CoefLe f.totalDegree (inVar v f) ∧ (inVar v f).natDegree ≤ f.totalDegree := by
  have hs : inVar v f = ∑ s ∈ f.support, inVar v (MvPolynomial.monomial s (f.coeff s)) := by
    conv_lhs => rw [f.as_sum]
    rw [map_sum]
  rw [hs]
  constructor
  · intro i
    rw [Polynomial.finsetSum_coeff]
    apply MvPolynomial.totalDegree_finsetSum_le
    intro s hs
    exact ((inVar_monomial v s _).1 i).trans (MvPolynomial.le_totalDegree hs)
  · apply Polynomial.natDegree_sum_le_of_forall_le
    intro s hs
    exact (inVar_monomial v s _).2.trans (MvPolynomial.le_totalDegree hs)

theorem totalDegree_det {k d : ℕ} {M : Matrix (Fin k) (Fin k) (MvPolynomial ℕ ℚ)}
    (h : ∀ i j, (M i j).totalDegree ≤ d) : M.det.totalDegree ≤ k * d := by
  rw [Matrix.det_apply]
  apply MvPolynomial.totalDegree_finsetSum_le
  intro σ _
  have h1 : (∏ i, M (σ i) i).totalDegree ≤ k * d := by
    refine (MvPolynomial.totalDegree_finsetProd _ _).trans ?_
    refine (Finset.sum_le_sum fun i _ => h (σ i) i).trans ?_
    simp
  rcases Int.units_eq_one_or (Equiv.Perm.sign σ) with h2 | h2
  · rw [h2, one_smul]; exact h1
  · rw [h2, Units.neg_smul, one_smul, MvPolynomial.totalDegree_neg]; exact h1

theorem sylvester_le {d m n : ℕ} {f g : Polynomial (MvPolynomial ℕ ℚ)} (hf : CoefLe d f) (hg : CoefLe d g)
    (i j : Fin (m + n)) : (f.sylvester g m n i j).totalDegree ≤ d := by
  unfold Polynomial.sylvester
  rw [Matrix.of_apply]
  induction j using Fin.addCases with
  | left j =>
    rw [Fin.addCases_left]
    split
    · exact hg _
    · simp
  | right j =>
    rw [Fin.addCases_right]
    split
    · exact hf _
    · simp

theorem totalDegree_resultant {d : ℕ} {f g : Polynomial (MvPolynomial ℕ ℚ)} (hf : CoefLe d f) (hg : CoefLe d g)
    (hf' : f.natDegree ≤ d) (hg' : g.natDegree ≤ d) : (Polynomial.resultant f g).totalDegree ≤ 2 * d ^ 2 := by
  refine (totalDegree_det (sylvester_le hf hg)).trans ?_
  calc (f.natDegree + g.natDegree) * d ≤ (d + d) * d := Nat.mul_le_mul_right _ (by omega)
    _ = 2 * d ^ 2 := by ring

theorem totalDegree_discr {d : ℕ} {f : Polynomial (MvPolynomial ℕ ℚ)} (hf : CoefLe d f) (hf' : f.natDegree ≤ d) :
    f.discr.totalDegree ≤ 2 * d ^ 2 := by
  have hcast : ∀ n : ℕ, ((n : MvPolynomial ℕ ℚ)).totalDegree = 0 := by
    intro n
    rw [← map_natCast (MvPolynomial.C : ℚ →+* MvPolynomial ℕ ℚ) n, MvPolynomial.totalDegree_C]
  have hd : CoefLe d f.derivative := by
    intro i
    rw [Polynomial.coeff_derivative]
    refine (MvPolynomial.totalDegree_mul _ _).trans ?_
    have : ((i : MvPolynomial ℕ ℚ) + 1).totalDegree = 0 := by exact_mod_cast hcast (i + 1)
    rw [this, add_zero]
    exact hf _
  have hdet : f.sylvesterDeriv.det.totalDegree ≤ 2 * d ^ 2 := by
    refine (totalDegree_det (d := d) ?_).trans ?_
    · intro i j
      by_cases hn : f.natDegree = 0
      · rw [Polynomial.sylvesterDeriv, dif_pos hn, Matrix.zero_apply]; simp
      · rw [Polynomial.sylvesterDeriv, dif_neg hn, Matrix.updateRow_apply]
        split
        · split
          · simp
          · split
            · rw [hcast]; simp
            · simp
        · exact sylvester_le hd hf i j
    · calc (f.natDegree - 1 + f.natDegree) * d ≤ (d + d) * d := Nat.mul_le_mul_right _ (by omega)
        _ = 2 * d ^ 2 := by ring
  unfold Polynomial.discr
  rcases neg_one_pow_eq_or (MvPolynomial ℕ ℚ) (f.natDegree * (f.natDegree - 1) / 2) with h | h
  · rw [h, mul_one]; exact hdet
  · rw [h, mul_neg, mul_one, MvPolynomial.totalDegree_neg]; exact hdet

theorem totalDegree_res {E : CadEnv} (h : TrueElim E) {p q : MPoly} {v d : ℕ} (hp : Normal p) (hq : Normal q)
    (hp' : p.totalDegree ≤ d) (hq' : q.totalDegree ≤ d) (hc : (E.res p q v).isConstant = false) :
    (E.res p q v).totalDegree ≤ 2 * d ^ 2 := by
  have hdeg : 0 < p.degreeIn v ∨ 0 < q.degreeIn v := by
    by_contra hn
    push Not at hn
    have := h.resConst p q v hp hq (by omega) (by omega)
    rw [this] at hc
    cases hc
  refine (le_totalDegree_toMv (h.resNormal p q v hp hq)).trans ?_
  rw [h.res p q v hp hq hdeg]
  have h1 := inVar_le v (toMv p)
  have h2 := inVar_le v (toMv q)
  have h3 := (totalDegree_toMv p).trans hp'
  have h4 := (totalDegree_toMv q).trans hq'
  exact totalDegree_resultant (fun i => (h1.1 i).trans h3) (fun i => (h2.1 i).trans h4) (h1.2.trans h3) (h2.2.trans h4)

theorem totalDegree_disc {E : CadEnv} (h : TrueElim E) {p : MPoly} {v d : ℕ} (hp : Normal p)
    (hp' : p.totalDegree ≤ d) (hc : (E.disc p v).isConstant = false) : (E.disc p v).totalDegree ≤ 2 * d ^ 2 := by
  have hdeg : 0 < p.degreeIn v := by
    by_contra hn
    have := h.discConst p v hp (by omega)
    rw [this] at hc
    cases hc
  refine (le_totalDegree_toMv (h.discNormal p v hp)).trans ?_
  rw [h.disc p v hp hdeg]
  have h1 := inVar_le v (toMv p)
  have h3 := (totalDegree_toMv p).trans hp'
  exact totalDegree_discr (fun i => (h1.1 i).trans h3) (h1.2.trans h3)

end Verif.Grf
