import Verif.Grf.Cad
import Verif.Grf.PropsAtom
import Verif.Alg.Basic
import Mathlib.Analysis.Real.Sqrt
import Mathlib.NumberTheory.Real.Irrational
import Mathlib.Algebra.Polynomial.Roots

/-!
# C38, C39, C40, C52: projection order, projection filter, root isolation and sampling
-/

set_option linter.unusedSectionVars false

namespace Verif.Grf

/-! ### C40 -/

theorem statLe_trans (a b c : ℕ × ℕ × ℕ) (h1 : statLe a b = true) (h2 : statLe b c = true) : statLe a c = true := by
  simp only [statLe, Bool.or_eq_true, Bool.and_eq_true, decide_eq_true_eq] at *
  omega

theorem statLe_total (a b : ℕ × ℕ × ℕ) : (statLe a b || statLe b a) = true := by
  simp only [statLe, Bool.or_eq_true, Bool.and_eq_true, decide_eq_true_eq] at *
  omega

/-- **C40**: the projection order is a permutation of the variables; the statistics (maximal degree, maximal total
degree, number of terms) do not increase along it (lexicographically), and variables with equal statistics appear in
the reverse of the given order. The statistics of a variable that occurs in some polynomial are the
maximum of the degrees in that variable, the maximum of the total degrees of the monomials with the variable, and
the number of these monomials. -/
theorem C40_projection_order (polys : List MPoly) (vars : List ℕ) :
    (projOrd polys vars).Perm vars ∧
    (projOrd polys vars).Pairwise (fun v w => statLe (varStats polys w) (varStats polys v) = true) ∧
    (∀ v w, [v, w].Sublist vars → varStats polys v = varStats polys w → [w, v].Sublist (projOrd polys vars)) ∧
    ∀ v, (∃ p ∈ polys, ∃ t ∈ p, v ∈ t.1.vars) →
      (∀ p ∈ polys, p.degreeIn v ≤ (varStats polys v).1) ∧ (∃ p ∈ polys, p.degreeIn v = (varStats polys v).1) ∧
      (∀ p ∈ polys, ∀ t ∈ p, v ∈ t.1.vars → t.1.deg ≤ (varStats polys v).2.1) ∧
      (∃ p ∈ polys, ∃ t ∈ p, v ∈ t.1.vars ∧ t.1.deg = (varStats polys v).2.1) ∧
      (varStats polys v).2.2 = (polys.map fun p => p.countP fun t => decide (v ∈ t.1.vars)).sum := by
  have hmax : ∀ (l : List ℕ), (∀ x ∈ l, x ≤ l.foldr max 0) ∧ (l ≠ [] → l.foldr max 0 ∈ l) := by
    intro l
    induction l with
    | nil => simp
    | cons a l ih =>
      refine ⟨fun x hx => ?_, fun _ => ?_⟩
      · rcases List.mem_cons.1 hx with rfl | hx
        · exact le_max_left _ _
        · exact (ih.1 x hx).trans (le_max_right _ _)
      · show max a (l.foldr max 0) ∈ a :: l
        by_cases hl : l = []
        · subst hl; simp
        · rcases max_choice a (l.foldr max 0) with h | h <;> rw [h]
          · simp
          · exact List.mem_cons_of_mem _ (ih.2 hl)
  let r : ℕ → ℕ → Prop := fun a b => statLe (varStats polys a) (varStats polys b) = true
  have i1 : IsTrans ℕ r := ⟨fun a b c => statLe_trans _ _ _⟩
  have i2 : Std.Total r := ⟨fun a b => by
    have := statLe_total (varStats polys a) (varStats polys b)
    rwa [Bool.or_eq_true] at this⟩
  refine ⟨(List.reverse_perm _).trans (List.perm_insertionSort _ _), ?_, ?_, ?_⟩
  · rw [projOrd, List.pairwise_reverse]
    exact List.pairwise_insertionSort r vars
  · intro v w hs he
    have : [v, w].Sublist (vars.insertionSort r) :=
      List.pair_sublist_insertionSort
        (by show statLe _ _ = true; rw [he]; simpa using statLe_total (varStats polys w) (varStats polys w)) hs
    have := this.reverse
    simpa [projOrd] using this
  · rintro v ⟨p, hp, t, ht, hv⟩
    have hm : ∀ m, m ∈ (polys.flatMap fun p => p.map Prod.fst).filter (fun m => decide (v ∈ m.vars)) ↔
        ∃ p ∈ polys, ∃ t ∈ p, v ∈ t.1.vars ∧ t.1 = m := by
      intro m
      rw [List.mem_filter, List.mem_flatMap]
      constructor
      · rintro ⟨⟨p, hp, hm⟩, hv⟩
        obtain ⟨t, ht, rfl⟩ := List.mem_map.1 hm
        exact ⟨p, hp, t, ht, by simpa using hv, rfl⟩
      · rintro ⟨p, hp, t, ht, hv, rfl⟩
        exact ⟨⟨p, hp, List.mem_map.2 ⟨t, ht, rfl⟩⟩, by simpa using hv⟩
    have hne : (polys.flatMap fun p => p.map Prod.fst).filter (fun m => decide (v ∈ m.vars)) ≠ [] :=
      List.ne_nil_of_mem ((hm t.1).2 ⟨p, hp, t, ht, hv, rfl⟩)
    have hst : varStats polys v = ((polys.map fun p => p.degreeIn v).foldr max 0,
        (((polys.flatMap fun p => p.map Prod.fst).filter fun m => decide (v ∈ m.vars)).map Mono.deg).foldr max 0,
        ((polys.flatMap fun p => p.map Prod.fst).filter fun m => decide (v ∈ m.vars)).length) := by
      unfold varStats
      rw [if_pos hne]
    rw [hst]
    refine ⟨fun q hq => (hmax _).1 _ (List.mem_map.2 ⟨q, hq, rfl⟩), ?_, ?_, ?_, ?_⟩
    · have h := (hmax (polys.map fun p => p.degreeIn v)).2 (by
        intro h0
        rw [List.map_eq_nil_iff] at h0
        rw [h0] at hp
        simp at hp)
      obtain ⟨q, hq, he⟩ := List.mem_map.1 h
      exact ⟨q, hq, he⟩
    · intro q hq s hs hvs
      exact (hmax _).1 _ (List.mem_map.2 ⟨s.1, (hm s.1).2 ⟨q, hq, s, hs, hvs, rfl⟩, rfl⟩)
    · have h := (hmax (((polys.flatMap fun p => p.map Prod.fst).filter fun m => decide (v ∈ m.vars)).map Mono.deg)).2
        (by simpa using hne)
      obtain ⟨m, hm', he⟩ := List.mem_map.1 h
      obtain ⟨q, hq, s, hs, hvs, rfl⟩ := (hm m).1 hm'
      exact ⟨q, hq, s, hs, hvs, he⟩
    · show (List.filter _ (polys.flatMap fun p => p.map Prod.fst)).length = _
      clear hst hne hm hp i1 i2 r
      induction polys with
      | nil => rfl
      | cons q polys ih =>
        rw [List.flatMap_cons, List.filter_append, List.length_append, ih, List.map_cons, List.sum_cons,
          List.filter_map, List.length_map, List.countP_eq_length_filter]
        rfl

/-- `x0*x2 + x1^2`, `x2^3`: the variable `x2` comes first, and `x0` last. -/
example : projOrd [[([1, 0, 1], 1), ([0, 2], 1)], [([0, 0, 3], 1)]] [0, 1, 2] = [2, 1, 0] ∧
    [0, 3].Sublist [0, 1, 2, 3] ∧ projOrd [[([0, 1], 1)]] [0, 1, 2, 3] = [1, 3, 2, 0] := by decide +kernel

/-! ### C52 -/

variable {K : Type} [Field K] [LinearOrder K] [IsStrictOrderedRing K]

/-- Terms have nonzero coefficients, as they do in all polynomials made by the operations. -/
def NoZeroTerms (p : MPoly) : Prop := ∀ t ∈ p, t.2 ≠ 0

theorem evalFrom_eq_zero (ρ : ℕ → K) : ∀ (m : Mono) (i : ℕ),
    Mono.evalFrom ρ i m = 0 ↔ ∃ j, 0 < m.exp j ∧ ρ (i + j) = 0
  | [], i => by simp [Mono.evalFrom, Mono.exp]
  | e :: m, i => by
    rw [Mono.evalFrom, mul_eq_zero, pow_eq_zero_iff', evalFrom_eq_zero ρ m (i + 1)]
    constructor
    · rintro (⟨h1, h2⟩ | ⟨j, h1, h2⟩)
      · exact ⟨0, by simpa [Mono.exp] using Nat.pos_of_ne_zero h2, h1⟩
      · exact ⟨j + 1, by simpa [Mono.exp] using h1, by rw [show i + (j + 1) = i + 1 + j by ring]; exact h2⟩
    · rintro ⟨j, h1, h2⟩
      cases j with
      | zero => exact Or.inl ⟨h2, by simp [Mono.exp] at h1; omega⟩
      | succ j =>
        exact Or.inr ⟨j, by simpa [Mono.exp] using h1, by rw [show i + 1 + j = i + (j + 1) by ring]; exact h2⟩

theorem purePolyBase_zero {p : MPoly} (hp : NoZeroTerms p) (hc : p.isConstant = false) (ρ : ℕ → K) :
    (purePolyBase p).eval ρ = 0 ↔ p.eval ρ = 0 := by
  unfold purePolyBase
  split
  · next hlen =>
    split
    · next v hv =>
      match p, hlen with
      | [], _ => simp [MPoly.isConstant] at hc
      | [t], _ =>
        rw [MPoly.eval_var, MPoly.eval_cons, MPoly.eval_nil, add_zero, mul_eq_zero, evalFrom_eq_zero]
        have ht : (t.2 : K) ≠ 0 := by exact_mod_cast hp t (by simp)
        have hmem : ∀ w, w ∈ MPoly.vars [t] ↔ 0 < t.1.exp w := by
          intro w
          rw [MPoly.mem_vars]
          simp
        rw [hv] at hmem
        constructor
        · intro h
          exact Or.inr ⟨v, (hmem v).1 (by simp), by simpa using h⟩
        · rintro (h | ⟨j, h1, h2⟩)
          · exact absurd h ht
          · have := (hmem j).2 h1
            rw [List.mem_singleton] at this
            subst this
            simpa using h2
    · rfl
  · rfl

/-- **C52**: the projection filter loses no zero: for every polynomial that is not constant the filtered set has a
polynomial with the same zeros (over any ordered field), and every polynomial of the filtered set has the
same zeros as some nonconstant polynomial given. The filtered set has no duplicates. -/
theorem C52_filter (ps : List MPoly) (hps : ∀ p ∈ ps, NoZeroTerms p) :
    (∀ p ∈ ps, p.isConstant = false →
      ∃ q ∈ filterProjSet ps, ∀ ρ : ℕ → K, q.eval ρ = 0 ↔ p.eval ρ = 0) ∧
    (∀ q ∈ filterProjSet ps, ∃ p ∈ ps, p.isConstant = false ∧ ∀ ρ : ℕ → K, q.eval ρ = 0 ↔ p.eval ρ = 0) ∧
    (filterProjSet ps).Nodup := by
  refine ⟨?_, ?_, List.nodup_dedup _⟩
  · intro p hp hc
    refine ⟨purePolyBase p, ?_, purePolyBase_zero (hps p hp) hc⟩
    rw [filterProjSet, List.mem_dedup, List.mem_map]
    exact ⟨p, List.mem_filter.2 ⟨hp, by simp [hc]⟩, rfl⟩
  · intro q hq
    rw [filterProjSet, List.mem_dedup, List.mem_map] at hq
    obtain ⟨p, hp, rfl⟩ := hq
    obtain ⟨h1, h2⟩ := List.mem_filter.1 hp
    have hc : p.isConstant = false := by simpa using h2
    exact ⟨p, h1, hc, purePolyBase_zero (hps p h1) hc⟩

/-- `5, 3*x1^2, x1, x0*x1, x0+1` -/
example : filterProjSet [[([], 5)], [([0, 2], 3)], [([0, 1], 1)], [([1, 1], 1)], [([1], 1), ([], 1)]] =
    [[([0, 1], 1)], [([1, 1], 1)], [([1], 1), ([], 1)]] ∧
    ∀ p ∈ ([[([], 5)], [([0, 2], 3)], [([0, 1], 1)], [([1, 1], 1)], [([1], 1), ([], 1)]] : List MPoly),
      NoZeroTerms p := by
  refine ⟨by decide +kernel, ?_⟩
  unfold NoZeroTerms
  decide +kernel

/-! ### C38 -/

/-- The value of a univariate polynomial (whatever its variable is). -/
def val (p : MPoly) (x : K) : K := p.eval fun _ => x

theorem val_eq {p : MPoly} {v : ℕ} (hv : ∀ w ∈ p.vars, w = v) (ρ : ℕ → K) : p.eval ρ = val p (ρ v) :=
  MPoly.eval_congr fun w hw => by rw [hv w hw]

/-- At most one variable, and not zero. -/
def Univ (p : MPoly) : Prop := (∃ v, ∀ w ∈ p.vars, w = v) ∧ ∃ a : ℚ, val p a ≠ 0

theorem val_cast (p : MPoly) (a : ℚ) : val p ((a : ℚ) : K) = ((val p a : ℚ) : K) := by
  have cast : ∀ (m : Mono) (i : ℕ), Mono.evalFrom (fun _ => ((a : ℚ) : K)) i m =
      ((Mono.evalFrom (fun _ => a) i m : ℚ) : K) := by
    intro m
    induction m with
    | nil => intro i; simp [Mono.evalFrom]
    | cons e m ih => intro i; rw [Mono.evalFrom, Mono.evalFrom, ih]; push_cast; rfl
  unfold val
  induction p with
  | nil => simp [MPoly.eval_nil]
  | cons t p ih => rw [MPoly.eval_cons, MPoly.eval_cons, ih, cast]; push_cast; rfl

/-- The univariate polynomial, as a polynomial of Mathlib. -/
noncomputable def toPoly (K : Type) [Field K] (p : MPoly) : Polynomial K :=
  (p.map fun t => Polynomial.C (t.2 : K) * Polynomial.X ^ t.1.deg).sum

theorem eval_toPoly (p : MPoly) (x : K) : (toPoly K p).eval x = val p x := by
  have mono : ∀ (m : Mono) (i : ℕ), Mono.evalFrom (fun _ => x) i m = x ^ m.deg := by
    intro m
    induction m with
    | nil => intro i; simp [Mono.evalFrom, Mono.deg]
    | cons e m ih => intro i; rw [Mono.evalFrom, ih, ← pow_add]; simp [Mono.deg]
  unfold toPoly val
  induction p with
  | nil => simp [MPoly.eval_nil]
  | cons t p ih =>
    rw [MPoly.eval_cons, List.map_cons, List.sum_cons, Polynomial.eval_add, ih, mono]
    simp

/-- What is assumed of Sage: `roots` returns the rational roots, and `real_root_intervals` returns isolating
intervals: they are pairwise separated, and every root is in one of them and every one of them contains exactly
one root (also with their end points). -/
structure RootsOK (K : Type) [Field K] [LinearOrder K] (E : CadEnv) : Prop where
  roots : ∀ p, Univ p → ∀ a : ℚ, (∃ m, (a, m) ∈ E.roots p) ↔ val p a = 0
  cover : ∀ p, Univ p → ∀ z : K, val p z = 0 → ∃ I ∈ E.rri p, (I.1.1 : K) ≤ z ∧ z ≤ I.1.2
  has : ∀ p, Univ p → ∀ I ∈ E.rri p, ∃ z : K, val p z = 0 ∧ (I.1.1 : K) ≤ z ∧ z ≤ I.1.2
  uniq : ∀ p, Univ p → ∀ I ∈ E.rri p, ∀ z z' : K, val p z = 0 → val p z' = 0 →
    (I.1.1 : K) ≤ z → z ≤ I.1.2 → (I.1.1 : K) ≤ z' → z' ≤ I.1.2 → z = z'
  sep : ∀ p, Univ p → (E.rri p).Pairwise fun I J => I.1.2 ≤ J.1.1 ∨ J.1.2 ≤ I.1.1

/-- What is assumed of Sage about the number of results: each rational root is listed once, and there are not more
isolating intervals than real roots. -/
structure CountOK (E : CadEnv) : Prop where
  roots : ∀ p, Univ p → ((E.roots p).map Prod.fst).Nodup
  rri : ∀ p, Univ p → (E.rri p).length ≤ {z : ℝ | val p z = 0}.ncard

/-- The list covers the roots of the polynomials. -/
def CoversRoots (K : Type) [Field K] [LinearOrder K] (ps : List MPoly) (ivls : List ((ℚ × ℚ) × ℕ)) : Prop :=
  ∀ p ∈ ps, ∀ z : K, val p z = 0 → ∃ I ∈ ivls, (I.1.1 : K) ≤ z ∧ z ≤ I.1.2

/-- `x0^3 - 2*x0` -/
def cubic : MPoly := [([3], 1), ([1], -2)]

theorem val_cubic (x : K) : val cubic x = x ^ 3 - 2 * x := by
  simp [val, cubic, MPoly.eval, Mono.evalFrom]
  ring

theorem cubic_univ : Univ cubic := by
  refine ⟨⟨0, by decide +kernel⟩, 1, ?_⟩
  rw [val_cubic]; norm_num

/-- **C38** is violated for every right choice of Sage's functions: the polynomial `x^3 - 2x` has the rational root
0, and then its two other roots are not covered. -/
theorem C38_violated (E : CadEnv) (hE : RootsOK ℝ E) : ¬ CoversRoots ℝ [cubic] (isoRootIntvls E [cubic]) := by
  have h0 : ∀ a : ℚ, (∃ m, (a, m) ∈ E.roots cubic) → a = 0 := by
    intro a ha
    have h := (hE.roots cubic cubic_univ a).1 ha
    rw [val_cubic] at h
    have h2 : a * (a ^ 2 - 2) = 0 := by linear_combination h
    rcases mul_eq_zero.1 h2 with h | h
    · exact h
    · exfalso
      have hsq : IsSquare (2 : ℚ) := ⟨a, by linear_combination -h⟩
      have hirr := irrational_sqrt_two
      apply hirr
      refine ⟨|a|, ?_⟩
      have : (2 : ℝ) = (a : ℝ) ^ 2 := by
        have h' : a ^ 2 = 2 := by linarith
        exact_mod_cast h'.symm
      rw [this, Real.sqrt_sq_eq_abs]
      push_cast
      rfl
  have hne : E.roots cubic ≠ [] := by
    obtain ⟨m, hm⟩ := (hE.roots cubic cubic_univ 0).2 (by rw [val_cubic]; norm_num)
    exact List.ne_nil_of_mem hm
  intro hcov
  obtain ⟨I, hI, h1, h2⟩ := hcov cubic (by simp) (Real.sqrt 2) (by
    rw [val_cubic]
    have : Real.sqrt 2 ^ 2 = 2 := Real.sq_sqrt (by norm_num)
    calc Real.sqrt 2 ^ 3 - 2 * Real.sqrt 2 = Real.sqrt 2 * (Real.sqrt 2 ^ 2 - 2) := by ring
      _ = 0 := by rw [this]; ring)
  have hiso : isoRootIntvls E [cubic] = (E.roots cubic).map fun r => ((r.1, r.1), r.2) := by
    unfold isoRootIntvls
    simp [hne]
  rw [hiso] at hI
  obtain ⟨r, hr, rfl⟩ := List.mem_map.1 hI
  have := h0 r.1 ⟨r.2, hr⟩
  simp only [this] at h2
  have : (0 : ℝ) < Real.sqrt 2 := Real.sqrt_pos.2 (by norm_num)
  norm_num at h2
  linarith

theorem val_mul (p q : MPoly) (x : K) : val (p.mul q) x = val p x * val q x := MPoly.eval_mul _ p q

theorem val_one (x : K) : val (MPoly.const 1) x = 1 := by rw [val, MPoly.eval_const]; norm_num

theorem val_foldl (x : K) : ∀ (ps : List MPoly) (q : MPoly),
    val (ps.foldl MPoly.mul q) x = val q x * (ps.map fun p => val p x).prod
  | [], q => by simp
  | p :: ps, q => by rw [List.foldl_cons, val_foldl x ps, val_mul, List.map_cons, List.prod_cons]; ring

theorem mem_addTerm {m : Mono} {c : ℚ} : ∀ {p : MPoly} {t : Mono × ℚ}, t ∈ addTerm m c p →
    t.1 = m ∨ ∃ t' ∈ p, t.1 = t'.1
  | [], t, h => by
    unfold addTerm at h
    split at h
    · simp at h
    · rw [List.mem_singleton] at h; subst h; exact Or.inl rfl
  | (m', c') :: p, t, h => by
    unfold addTerm at h
    split at h
    · split at h
      · exact Or.inr ⟨t, by simp [h], rfl⟩
      · rcases List.mem_cons.1 h with rfl | h
        · exact Or.inl rfl
        · exact Or.inr ⟨t, by simp [h], rfl⟩
    · rcases List.mem_cons.1 h with rfl | h
      · exact Or.inr ⟨_, by simp, rfl⟩
      · rcases mem_addTerm h with h | ⟨t', h1, h2⟩
        · exact Or.inl h
        · exact Or.inr ⟨t', by simp [h1], h2⟩

theorem mem_add {p q : MPoly} : ∀ {t : Mono × ℚ}, t ∈ p.add q → ∃ t' ∈ p ++ q, t.1 = t'.1 := by
  unfold MPoly.add
  induction p with
  | nil => intro t h; exact ⟨t, by simpa using h, rfl⟩
  | cons a p ih =>
    intro t h
    rw [List.foldr_cons] at h
    rcases mem_addTerm h with h | ⟨t', h1, h2⟩
    · exact ⟨a, by simp, h⟩
    · obtain ⟨t'', h3, h4⟩ := ih h1
      exact ⟨t'', by simp at h3 ⊢; tauto, h2.trans h4⟩

theorem exp_mul : ∀ (a b : Mono) (i : ℕ), (a.mul b).exp i = a.exp i + b.exp i
  | [], b, i => by simp [Mono.mul, Mono.exp]
  | x :: a, [], i => by simp [Mono.mul, Mono.exp]
  | x :: a, y :: b, i => by
    cases i with
    | zero => simp [Mono.mul, Mono.exp]
    | succ i =>
      have := exp_mul a b i
      simpa [Mono.mul, Mono.exp] using this

theorem vars_mul {p q : MPoly} {v : ℕ} (h : v ∈ (p.mul q).vars) : v ∈ p.vars ∨ v ∈ q.vars := by
  rw [MPoly.mem_vars] at h
  obtain ⟨t, ht, hv⟩ := h
  simp only [MPoly.mem_vars]
  have hmt : ∀ (m : Mono) (c : ℚ) (q : MPoly) (t : Mono × ℚ), t ∈ MPoly.mulTerm m c q →
      ∃ s ∈ q, t.1 = m.mul s.1 := by
    intro m c q
    unfold MPoly.mulTerm
    induction q with
    | nil => intro t h; simp at h
    | cons a q ih =>
      intro t h
      rw [List.foldr_cons] at h
      rcases mem_addTerm h with h | ⟨t', h1, h2⟩
      · exact ⟨a, by simp, h⟩
      · obtain ⟨s, hs, he⟩ := ih t' h1
        exact ⟨s, by simp [hs], h2.trans he⟩
  have hm : ∀ (p : MPoly) (t : Mono × ℚ), t ∈ p.mul q → ∃ a ∈ p, ∃ b ∈ q, t.1 = a.1.mul b.1 := by
    intro p
    unfold MPoly.mul
    induction p with
    | nil => intro t h; simp at h
    | cons a p ih =>
      intro t h
      rw [List.foldr_cons] at h
      obtain ⟨t', h1, h2⟩ := mem_add h
      rcases List.mem_append.1 h1 with h1 | h1
      · obtain ⟨s, hs, he⟩ := hmt _ _ _ _ h1
        exact ⟨a, by simp, s, hs, h2.trans he⟩
      · obtain ⟨a', ha', b, hb, he⟩ := ih t' h1
        exact ⟨a', by simp [ha'], b, hb, h2.trans he⟩
  obtain ⟨a, ha, b, hb, he⟩ := hm p t ht
  rw [he, exp_mul] at hv
  rcases Nat.eq_zero_or_pos (a.1.exp v) with h0 | h0
  · exact Or.inr ⟨b, hb, by omega⟩
  · exact Or.inl ⟨a, ha, h0⟩

/-- Nonzero polynomials in the variable `v` (with no other variable). -/
def InVar (v : ℕ) (p : MPoly) : Prop := (∀ w ∈ p.vars, w = v) ∧ ∃ a : ℚ, val p a ≠ 0

theorem InVar.univ {v : ℕ} {p : MPoly} (h : InVar v p) : Univ p := ⟨⟨v, h.1⟩, h.2⟩

theorem InVar.one (v : ℕ) : InVar v (MPoly.const 1) := by
  refine ⟨?_, 0, by rw [val_one]; norm_num⟩
  have : (MPoly.const 1).vars = [] := by decide +kernel
  rw [this]; simp

theorem InVar.mul {v : ℕ} {p q : MPoly} (hp : InVar v p) (hq : InVar v q) : InVar v (p.mul q) := by
  refine ⟨fun w hw => (vars_mul hw).elim (hp.1 w) (hq.1 w), ?_⟩
  obtain ⟨a, ha⟩ := hp.2
  obtain ⟨b, hb⟩ := hq.2
  have h1 : toPoly ℚ p ≠ 0 := by
    intro h; apply ha; rw [← eval_toPoly, h]; simp
  have h2 : toPoly ℚ q ≠ 0 := by
    intro h; apply hb; rw [← eval_toPoly, h]; simp
  have h3 := mul_ne_zero h1 h2
  by_contra hn
  push Not at hn
  apply h3
  apply Polynomial.funext
  intro x
  rw [Polynomial.eval_mul, eval_toPoly, eval_toPoly, ← val_mul, hn x]; simp

theorem InVar.foldl {v : ℕ} : ∀ {ps : List MPoly} {q : MPoly}, (∀ p ∈ ps, InVar v p) → InVar v q →
    InVar v (ps.foldl MPoly.mul q)
  | [], _, _, hq => hq
  | p :: ps, q, h, hq => by
    rw [List.foldl_cons]
    exact InVar.foldl (fun x hx => h x (by simp [hx])) (hq.mul (h p (by simp)))

/-- What holds instead of **C38**: the roots of nonzero polynomials in one variable are covered if every one of them
has no rational root or only rational roots. -/
theorem C38_partial (E : CadEnv) (hE : RootsOK K E) (v : ℕ) (ps : List MPoly) (hps : ∀ p ∈ ps, InVar v p)
    (hpure : ∀ p ∈ ps, (∀ a : ℚ, val p a ≠ 0) ∨ ∀ z : K, val p z = 0 → ∃ a : ℚ, z = a) :
    CoversRoots K ps (isoRootIntvls E ps) := by
  intro p hp z hz
  have hne : ps ≠ [] := List.ne_nil_of_mem hp
  unfold isoRootIntvls
  rw [if_neg hne]
  by_cases hr : E.roots p = []
  · have hmem : p ∈ ps.filter fun p => decide (E.roots p = []) := List.mem_filter.2 ⟨hp, by simp [hr]⟩
    have hz0 : val ((ps.filter fun p => decide (E.roots p = [])).foldl MPoly.mul (MPoly.const 1)) z = 0 := by
      rw [val_foldl, val_one, one_mul]
      exact List.prod_eq_zero (List.mem_map.2 ⟨p, hmem, hz⟩)
    have hn1 : (ps.filter fun p => decide (E.roots p = [])).foldl MPoly.mul (MPoly.const 1) ≠ MPoly.const 1 := by
      intro h1
      rw [h1, val_one] at hz0
      exact one_ne_zero hz0
    have hin : InVar v ((ps.filter fun p => decide (E.roots p = [])).foldl MPoly.mul (MPoly.const 1)) :=
      InVar.foldl (fun q hq => hps q (List.mem_filter.1 hq).1) (InVar.one v)
    obtain ⟨I, hI, h⟩ := hE.cover _ hin.univ z hz0
    refine ⟨I, ?_, h⟩
    simp only
    rw [if_pos hn1]
    exact List.mem_append.2 (Or.inl hI)
  · rcases hpure p hp with h | h
    · exfalso
      obtain ⟨⟨a, m⟩, hm⟩ := List.exists_mem_of_ne_nil _ hr
      exact h a ((hE.roots p (hps p hp).univ a).1 ⟨m, hm⟩)
    · obtain ⟨a, rfl⟩ := h z hz
      rw [val_cast] at hz
      obtain ⟨m, hm⟩ := (hE.roots p (hps p hp).univ a).2 (by exact_mod_cast hz)
      refine ⟨((a, a), m), ?_, le_refl _, le_refl _⟩
      exact List.mem_append.2 (Or.inr (List.mem_flatMap.2 ⟨p, hp, List.mem_map.2 ⟨(a, m), hm, rfl⟩⟩))

theorem exists_isolating (Z : Finset ℝ) : ∀ B : ℝ, (∀ z ∈ Z, z < B) → ∃ l : List ((ℚ × ℚ) × ℕ),
    (∀ I ∈ l, (I.1.2 : ℝ) < B) ∧ (∀ z ∈ Z, ∃ I ∈ l, (I.1.1 : ℝ) ≤ z ∧ z ≤ I.1.2) ∧
    (∀ I ∈ l, ∃ z ∈ Z, (I.1.1 : ℝ) ≤ z ∧ z ≤ I.1.2) ∧
    (∀ I ∈ l, ∀ z ∈ Z, ∀ z' ∈ Z, (I.1.1 : ℝ) ≤ z → z ≤ I.1.2 → (I.1.1 : ℝ) ≤ z' → z' ≤ I.1.2 → z = z') ∧
    (l.Pairwise fun I J => I.1.2 ≤ J.1.1 ∨ J.1.2 ≤ I.1.1) ∧ l.length = Z.card := by
  induction Z using Finset.induction_on_max with
  | empty => exact fun B _ => ⟨[], by simp⟩
  | insert m Z hm ih =>
    intro B hB
    have hmB : m < B := hB m (Finset.mem_insert_self _ _)
    obtain ⟨B', h1, h2⟩ : ∃ B', (∀ z ∈ Z, z < B') ∧ B' < m := by
      by_cases hZ : Z.Nonempty
      · refine ⟨(Z.max' hZ + m) / 2, fun z hz => ?_, ?_⟩
        · have := Z.le_max' z hz
          have := hm _ (Z.max'_mem hZ)
          linarith
        · have := hm _ (Z.max'_mem hZ)
          linarith
      · rw [Finset.not_nonempty_iff_eq_empty] at hZ
        subst hZ
        exact ⟨m - 1, by simp, by linarith⟩
    obtain ⟨l, e1, e2, e3, e4, e5, e6⟩ := ih B' h1
    obtain ⟨a, ha1, ha2⟩ := exists_rat_btwn h2
    obtain ⟨b, hb1, hb2⟩ := exists_rat_btwn hmB
    refine ⟨l ++ [((a, b), 1)], ?_, ?_, ?_, ?_, ?_, ?_⟩
    · intro I hI
      rcases List.mem_append.1 hI with hI | hI
      · have := e1 I hI
        linarith
      · rw [List.mem_singleton] at hI; subst hI; exact hb2
    · intro z hz
      rcases Finset.mem_insert.1 hz with rfl | hz
      · exact ⟨_, List.mem_append.2 (Or.inr (List.mem_singleton_self _)), ha2.le, hb1.le⟩
      · obtain ⟨I, hI, h⟩ := e2 z hz
        exact ⟨I, List.mem_append.2 (Or.inl hI), h⟩
    · intro I hI
      rcases List.mem_append.1 hI with hI | hI
      · obtain ⟨z, hz, h⟩ := e3 I hI
        exact ⟨z, Finset.mem_insert_of_mem hz, h⟩
      · rw [List.mem_singleton] at hI; subst hI
        exact ⟨m, Finset.mem_insert_self _ _, ha2.le, hb1.le⟩
    · intro I hI z hz z' hz' g1 g2 g3 g4
      rcases List.mem_append.1 hI with hI | hI
      · have hb := e1 I hI
        rcases Finset.mem_insert.1 hz with rfl | hz
        · linarith
        · rcases Finset.mem_insert.1 hz' with rfl | hz'
          · linarith
          · exact e4 I hI z hz z' hz' g1 g2 g3 g4
      · rw [List.mem_singleton] at hI; subst hI
        simp only at g1 g2 g3 g4
        rcases Finset.mem_insert.1 hz with rfl | hz
        · rcases Finset.mem_insert.1 hz' with rfl | hz'
          · rfl
          · have := h1 z' hz'
            linarith
        · have := h1 z hz
          linarith
    · rw [List.pairwise_append]
      refine ⟨e5, List.pairwise_singleton _ _, ?_⟩
      intro I hI J hJ
      rw [List.mem_singleton] at hJ; subst hJ
      left
      have := e1 I hI
      have : (I.1.2 : ℝ) < a := by linarith
      exact_mod_cast this.le
    · rw [List.length_append, e6, List.length_singleton,
        Finset.card_insert_of_notMem fun h => absurd (hm m h) (lt_irrefl m)]

/-- There are functions that meet the assumptions on Sage's functions. -/
theorem rootsOK_count : ∃ E : CadEnv, RootsOK ℝ E ∧ CountOK E := by
  classical
  have h0 : ∀ p, Univ p → toPoly ℝ p ≠ 0 := by
    rintro p ⟨_, a, ha⟩ h
    apply ha
    have : val p ((a : ℚ) : ℝ) = 0 := by rw [← eval_toPoly, h]; simp
    rw [val_cast] at this
    exact_mod_cast this
  have hz : ∀ p, Univ p → ∀ z : ℝ, z ∈ (toPoly ℝ p).roots.toFinset ↔ val p z = 0 := by
    intro p hp z
    rw [Multiset.mem_toFinset, Polynomial.mem_roots (h0 p hp), Polynomial.IsRoot.def, eval_toPoly]
  have hiso : ∀ p, ∃ l : List ((ℚ × ℚ) × ℕ),
      (∀ z ∈ (toPoly ℝ p).roots.toFinset, ∃ I ∈ l, (I.1.1 : ℝ) ≤ z ∧ z ≤ I.1.2) ∧
      (∀ I ∈ l, ∃ z ∈ (toPoly ℝ p).roots.toFinset, (I.1.1 : ℝ) ≤ z ∧ z ≤ I.1.2) ∧
      (∀ I ∈ l, ∀ z ∈ (toPoly ℝ p).roots.toFinset, ∀ z' ∈ (toPoly ℝ p).roots.toFinset,
        (I.1.1 : ℝ) ≤ z → z ≤ I.1.2 → (I.1.1 : ℝ) ≤ z' → z' ≤ I.1.2 → z = z') ∧
      (l.Pairwise fun I J => I.1.2 ≤ J.1.1 ∨ J.1.2 ≤ I.1.1) ∧ l.length = (toPoly ℝ p).roots.toFinset.card := by
    intro p
    obtain ⟨B, hB⟩ := (toPoly ℝ p).roots.toFinset.exists_le
    obtain ⟨l, _, h⟩ := exists_isolating (toPoly ℝ p).roots.toFinset (B + 1) fun z hz => by
      have := hB z hz
      linarith
    exact ⟨l, h⟩
  choose rri h1 h2 h3 h4 h5 using hiso
  refine ⟨⟨fun p => (toPoly ℚ p).roots.toFinset.toList.map fun a => (a, 1), rri, fun _ _ _ _ l _ => l, fun p _ _ => p,
    fun p _ => p⟩, ⟨?_, ?_, ?_, ?_, fun p _ => h4 p⟩, ?_, ?_⟩
  · intro p hp a
    have : toPoly ℚ p ≠ 0 := by
      obtain ⟨_, b, hb⟩ := hp
      intro h
      apply hb
      rw [← eval_toPoly, h]; simp
    simp only [List.mem_map, Prod.mk.injEq, Finset.mem_toList, Multiset.mem_toFinset]
    rw [← eval_toPoly, ← Polynomial.IsRoot.def, ← Polynomial.mem_roots this]
    constructor
    · rintro ⟨m, b, hb, rfl, _⟩; exact hb
    · intro h; exact ⟨1, a, h, rfl, rfl⟩
  · intro p hp z h
    exact h1 p z ((hz p hp z).2 h)
  · intro p hp I hI
    obtain ⟨z, hz', h⟩ := h2 p I hI
    exact ⟨z, (hz p hp z).1 hz', h⟩
  · intro p hp I hI z z' hz1 hz2
    exact h3 p I hI z ((hz p hp z).2 hz1) z' ((hz p hp z').2 hz2)
  · intro p _
    simp only [List.map_map]
    have : (Prod.fst ∘ fun a : ℚ => (a, 1)) = id := rfl
    rw [this, List.map_id]
    exact Finset.nodup_toList _
  · intro p hp
    have : {z : ℝ | val p z = 0} = ((toPoly ℝ p).roots.toFinset : Set ℝ) := by
      ext z
      rw [Finset.mem_coe, hz p hp z]
      rfl
    rw [this, Set.ncard_coe_finset]
    exact (h5 p).le

/-- The same without the numbers of results. -/
theorem rootsOK_exists : ∃ E : CadEnv, RootsOK ℝ E := by
  obtain ⟨E, h, _⟩ := rootsOK_count
  exact ⟨E, h⟩

/-- `x0^2 - 2` has no rational root, and `x0^2 - x0` has only rational roots. -/
example : InVar 0 [([2], 1), ([], -2)] ∧ InVar 0 [([2], 1), ([1], -1)] ∧
    (∀ a : ℚ, val [([2], 1), ([], -2)] a ≠ 0) ∧
    ∀ z : ℝ, val [([2], 1), ([1], -1)] z = 0 → ∃ a : ℚ, z = a := by
  have e1 : ∀ x : ℚ, val [([2], 1), ([], -2)] x = x ^ 2 - 2 := by
    intro x; simp [val, MPoly.eval, Mono.evalFrom]; ring
  have e2 : ∀ (x : ℝ), val [([2], 1), ([1], -1)] x = x ^ 2 - x := by
    intro x; simp [val, MPoly.eval, Mono.evalFrom]; ring
  refine ⟨⟨by decide +kernel, 0, by rw [e1]; norm_num⟩, ⟨by decide +kernel, 2, by decide +kernel⟩, ?_, ?_⟩
  · intro a h
    rw [e1] at h
    apply irrational_sqrt_two
    refine ⟨|a|, ?_⟩
    have : (2 : ℝ) = (a : ℝ) ^ 2 := by
      have h' : a ^ 2 = 2 := by linarith
      exact_mod_cast h'.symm
    rw [this, Real.sqrt_sq_eq_abs]
    push_cast
    rfl
  · intro z h
    rw [e2] at h
    have : z * (z - 1) = 0 := by linear_combination h
    rcases mul_eq_zero.1 this with h | h
    · exact ⟨0, by rw [h]; simp⟩
    · exact ⟨1, by push_cast; linarith⟩

/-! ### C39 -/

/-- **C39** is violated: for the hypothesis `x0 != 0` the chosen point is 0, where the hypothesis is false. -/
theorem C39_violated : ∃ (h : Atom) (v : ℕ) (x : ℚ), h.poly = MPoly.var v ∧ h.holds (fun _ => x) ∧
    ∀ y ∈ sectorNoRoots [h] v, ¬ h.holds fun _ => y := by
  refine ⟨⟨MPoly.var 0, .ne, [0]⟩, 0, 1, rfl, ?_, ?_⟩
  · show MPoly.eval _ (MPoly.var 0) ≠ 0
    rw [MPoly.eval_var]; norm_num
  · intro y hy
    have : sectorNoRoots [⟨MPoly.var 0, .ne, [0]⟩] 0 = [0] := by decide +kernel
    rw [this, List.mem_singleton] at hy
    subst hy
    show ¬ (MPoly.eval _ (MPoly.var 0) ≠ 0)
    rw [MPoly.eval_var]; simp

/-- What holds instead of **C39**: when there are no roots, the single chosen point makes the first hypothesis of
the form `x op 0` in this variable true unless `op` is `!=`. -/
theorem C39_partial (ambient : List Atom) (v : ℕ) (h : Atom) (rest : List Atom)
    (hf : ambient.filter (fun h => decide (h.poly = MPoly.var v)) = h :: rest) (hop : h.op ≠ .ne) :
    ∃ y, sectorNoRoots ambient v = [y] ∧ ∀ ρ : ℕ → ℚ, ρ v = y → h.holds ρ := by
  have hp : h.poly = MPoly.var v := by
    have : h ∈ ambient.filter (fun h => decide (h.poly = MPoly.var v)) := by rw [hf]; simp
    simpa using (List.mem_filter.1 this).2
  unfold sectorNoRoots
  rw [hf]
  simp only
  cases ho : h.op with
  | lt => exact ⟨-1, by simp, fun ρ hρ => by simp [Atom.holds, ho, rel, hp, MPoly.eval_var, hρ]⟩
  | gt => exact ⟨1, by simp, fun ρ hρ => by simp [Atom.holds, ho, rel, hp, MPoly.eval_var, hρ]⟩
  | le => exact ⟨0, by simp, fun ρ hρ => by simp [Atom.holds, ho, rel, hp, MPoly.eval_var, hρ]⟩
  | ge => exact ⟨0, by simp, fun ρ hρ => by simp [Atom.holds, ho, rel, hp, MPoly.eval_var, hρ]⟩
  | eq => exact ⟨0, by simp, fun ρ hρ => by simp [Atom.holds, ho, rel, hp, MPoly.eval_var, hρ]⟩
  | ne => exact absurd ho hop

example : sectorNoRoots [⟨MPoly.var 1, .gt, [1]⟩, ⟨MPoly.var 0, .lt, [0]⟩, ⟨MPoly.var 0, .gt, [0]⟩] 0 = [-1] := by
  decide +kernel

end Verif.Grf
