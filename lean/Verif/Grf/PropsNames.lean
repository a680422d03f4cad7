import Verif.Grf.PropsLast

/-!
# C118: the names of the variables

Between variables with the same statistics the order of elimination is that of their names (`grf.sage:256-261`).
-/

set_option linter.unusedSectionVars false

open Verif.Alg

namespace Verif.Grf

/-- `(x0^2 + 1)^2 * (x0^2 + 1 - x1^2 - x1^4 - x1^6)` -/
def namePoly : MPoly :=
  [([0, 2], -1), ([0, 4], -1), ([0, 6], -1), ([2, 2], -2), ([2, 4], -2), ([2, 6], -2), ([4, 2], -1), ([4, 4], -1),
    ([4, 6], -1), ([], 1), ([2], 3), ([4], 3), ([6], 1)]

/-- `(x1^2 + 1)^2 * (x1^2 + 1 - x0^2 - x0^4 - x0^6)` -/
def namePoly' : MPoly :=
  [([2], -1), ([4], -1), ([6], -1), ([2, 2], -2), ([4, 2], -2), ([6, 2], -2), ([2, 4], -1), ([4, 4], -1),
    ([6, 4], -1), ([], 1), ([0, 2], 3), ([0, 4], 3), ([0, 6], 1)]

theorem eval_namePoly {K : Type} [Field K] [CharZero K] (ρ : ℕ → K) :
    namePoly.eval ρ = (ρ 0 ^ 2 + 1) ^ 2 * (ρ 0 ^ 2 + 1 - ρ 1 ^ 2 - ρ 1 ^ 4 - ρ 1 ^ 6) := by
  simp [namePoly, MPoly.eval, Mono.evalFrom]; ring

theorem eval_namePoly' {K : Type} [Field K] [CharZero K] (ρ : ℕ → K) :
    namePoly'.eval ρ = (ρ 1 ^ 2 + 1) ^ 2 * (ρ 1 ^ 2 + 1 - ρ 0 ^ 2 - ρ 0 ^ 4 - ρ 0 ^ 6) := by
  simp [namePoly', MPoly.eval, Mono.evalFrom]; ring

theorem normal_namePoly : Normal namePoly := by
  refine ⟨?_, ?_, by decide +kernel⟩
  · unfold NoZeroTerms; decide +kernel
  · unfold Mono.Stripped; decide +kernel

theorem disc_namePoly {E : CadEnv} (hel : TrueElim E) : E.disc namePoly 0 = [] := by
  by_contra hne
  have hsq := (hel.disc_ne_nil normal_namePoly (v := 0) (by decide +kernel)).1 hne
  have h1 : toMv namePoly = (MvPolynomial.X 0 ^ 2 + 1) ^ 2 *
      (MvPolynomial.X 0 ^ 2 + 1 - MvPolynomial.X 1 ^ 2 - MvPolynomial.X 1 ^ 4 - MvPolynomial.X 1 ^ 6) := by
    apply eq_of_aeval
    intro ρ
    rw [aeval_toMv, eval_namePoly]
    simp
  have h2 : inVar 0 (MvPolynomial.X 0 ^ 2 + 1) = Polynomial.X ^ 2 + 1 := by simp [inVar]
  have h3 : overField 0 namePoly = (Polynomial.X ^ 2 + 1) * (Polynomial.X ^ 2 + 1) *
      (inVar 0 (MvPolynomial.X 0 ^ 2 + 1 - MvPolynomial.X 1 ^ 2 - MvPolynomial.X 1 ^ 4 - MvPolynomial.X 1 ^ 6)).map
        (algebraMap _ _) := by
    rw [overField, h1, map_mul, map_pow, h2, Polynomial.map_mul]
    simp [sq]
  have hu := hsq (Polynomial.X ^ 2 + 1) ⟨_, h3⟩
  have hd := Polynomial.natDegree_eq_zero_of_isUnit hu
  have : (Polynomial.X ^ 2 + 1 : Polynomial (FractionRing (MvPolynomial ℕ ℚ))).natDegree = 2 := by
    rw [← Polynomial.C_1]
    exact Polynomial.natDegree_X_pow_add_C
  omega

/-- `⊢ namePoly >= 0` is reported as proved: nothing is left to project to, and the only value of `x1` is 0. -/
theorem name_proved (S : Sage ℚ) (E : CadEnv) (hel : TrueElim E) (numSps : ℕ) (more) (solve) (fuel : ℕ) :
    check (cadCore S E 2 numSps (fun _ _ => []) more solve) (fuel + 1) 0 ⟨[], ⟨⟨namePoly, .ge, [0, 1]⟩, [], []⟩, []⟩ =
      .ok ([], ⟨[], ⟨⟨namePoly, .ge, [0, 1]⟩, [], []⟩, []⟩) := by
  have hbm : bmProj E 0 [namePoly] = [] := by
    have hl : lcIn namePoly 0 = [([], 1)] := by decide +kernel
    unfold bmProj
    simp only [List.dedup_cons_of_notMem (List.not_mem_nil (a := namePoly)), List.dedup_nil, List.map_cons,
      List.map_nil, disc_namePoly hel, hl, List.flatMap_cons, List.flatMap_nil]
    have hfl : [namePoly].filter (fun q => decide (namePoly ≠ q)) = [] := by decide +kernel
    rw [hfl, List.map_nil]
    decide +kernel
  have hf : filterProjSet [namePoly] = [namePoly] := by decide +kernel
  have ho : projOrd [namePoly] (List.range 2) = [1, 0] := by decide +kernel
  have hps : projSets E [1, 0] 1 [namePoly] = [[], [namePoly]] := by
    show projSets E [1, 0] 0 (bmProj E 0 [namePoly]) ++ [[namePoly]] = _
    rw [hbm]; rfl
  have hsam : ∃ ds, (cadCore S E 2 numSps (fun _ _ => []) more solve).samples 0
      ⟨[], ⟨⟨namePoly, .ge, [0, 1]⟩, [], []⟩, []⟩ = .ok ds ∧ ∀ d ∈ ds, ∃ s : ℚ, d = [(1, 0), (0, s)] := by
    refine ⟨(((stackExt E [1, 0] [namePoly] numSps [] [0]) ++ []).insertionSort fun a b => ptLe a b = true).map
      (spDict [1, 0]), ?_, ?_⟩
    · show samplePtDicts S E 2 [namePoly] _ numSps [] = _
      unfold samplePtDicts
      simp only [hf, ho, hps]
      rfl
    · intro d hd
      obtain ⟨c, hc, rfl⟩ := List.mem_map.1 hd
      rw [List.mem_insertionSort, List.append_nil] at hc
      unfold stackExt at hc
      obtain ⟨s, hs, rfl⟩ := List.mem_map.1 hc
      exact ⟨s, rfl⟩
  obtain ⟨ds, hds, hmem⟩ := hsam
  refine check_true _ _ _ _ _ hds ?_
  intro d hd
  obtain ⟨s, rfl⟩ := hmem d hd
  change Goal.evalOnDict S ⟨⟨namePoly, .ge, [0, 1]⟩, [], []⟩ _ = _
  apply main_true
  · refine ⟨by simp, by simp, fun v hv => ?_⟩
    have : v = 0 ∨ v = 1 := by
      revert v
      decide +kernel
    rcases this with rfl | rfl <;> simp
  · show rel .ge (namePoly.eval _) 0
    rw [eval_namePoly]
    have e0 : ptOf [(1, 0), (0, s)] 0 = s := by simp [ptOf, List.lookup_cons]
    have e1 : ptOf [((1 : ℕ), (0 : ℚ)), (0, s)] 1 = 0 := by simp [ptOf]
    rw [e0, e1]
    simp only [rel]
    have : 0 ≤ s ^ 2 := sq_nonneg s
    have h2 : s ^ 2 + 1 - 0 ^ 2 - 0 ^ 4 - 0 ^ 6 = s ^ 2 + 1 := by ring
    rw [h2]
    positivity

theorem mono_roots {a b : ℝ} (h : a ^ 2 + a ^ 4 + a ^ 6 = b ^ 2 + b ^ 4 + b ^ 6) : a ^ 2 = b ^ 2 := by
  have h1 : (a ^ 2 - b ^ 2) * (1 + (a ^ 2 + b ^ 2) + (a ^ 4 + a ^ 2 * b ^ 2 + b ^ 4)) = 0 := by linear_combination h
  rcases mul_eq_zero.1 h1 with h | h
  · linarith
  · exfalso
    have : 0 ≤ (a ^ 2 + b ^ 2) + (a ^ 4 + a ^ 2 * b ^ 2 + b ^ 4) := by positivity
    linarith

/-- `⊢ namePoly' >= 0` is not. -/
theorem name_unproved (S : Sage ℚ) (E : CadEnv) (hE : RootsOK ℝ E) (hu : UniformOK E) (numSps : ℕ) (hn : 1 ≤ numSps)
    (more) (solve) (fuel : ℕ) :
    check (cadCore S E 2 numSps (fun _ _ => []) more solve) (fuel + 1) 0 ⟨[], ⟨⟨namePoly', .ge, [0, 1]⟩, [], []⟩, []⟩ =
      .error .indexError := by
  have hfresh : Fresh ⟨namePoly', .ge, [0, 1]⟩ := by unfold Fresh; decide +kernel
  have hf : filterProjSet ([] ++ namePoly' :: ([] : List Atom).map Atom.poly) = [namePoly'] := by decide +kernel
  have ho : projOrd [namePoly'] (List.range 2) = [1, 0] := by decide +kernel
  obtain ⟨ds, hds⟩ := (C59_partial S E ([] ++ namePoly' :: ([] : List Atom).map Atom.poly) numSps []).2 2
    ⟨⟨namePoly', .ge, [0, 1]⟩, [], []⟩ (by decide)
  obtain ⟨v, rest, base, sets, h1, h2, h3, -⟩ := C60_partial S E 2 _ _ numSps [] ds hfresh (by simp) hds
  rw [hf, ho] at h1
  cases h1
  rw [hf] at h2
  have h2' : projSets E [1, 0] 0 (bmProj E 0 [namePoly']) ++ [[namePoly']] = base :: sets := h2
  simp only [projSets, List.cons_append, List.nil_append] at h2'
  cases h2'
  obtain ⟨a, ha⟩ := List.exists_mem_of_ne_nil _ (sectorSps_ne E [] (isoRootIntvls E (bmProj E 0 [namePoly'])) 1 [] 1)
  have hval : ∀ x : ℝ, val (namePoly'.subst (spDict [1, 0] [a])) x =
      ((a : ℝ) ^ 2 + 1) ^ 2 * ((a : ℝ) ^ 2 + 1 - x ^ 2 - x ^ 4 - x ^ 6) := by
    intro x
    show MPoly.eval _ _ = _
    rw [eval_subst, eval_namePoly']
    rfl
  have hup : ∀ x : ℝ, namePoly'.eval (Function.update (fun _ => (a : ℝ)) 0 x) =
      ((a : ℝ) ^ 2 + 1) ^ 2 * ((a : ℝ) ^ 2 + 1 - x ^ 2 - x ^ 4 - x ^ 6) := by
    intro x
    rw [eval_namePoly']
    simp
  have hpos : (0 : ℝ) < ((a : ℝ) ^ 2 + 1) ^ 2 := by positivity
  have hzero : ∀ x : ℝ, ((a : ℝ) ^ 2 + 1) ^ 2 * ((a : ℝ) ^ 2 + 1 - x ^ 2 - x ^ 4 - x ^ 6) = 0 →
      x ^ 2 + x ^ 4 + x ^ 6 = (a : ℝ) ^ 2 + 1 := by
    intro x h
    rcases mul_eq_zero.1 h with h | h
    · exact absurd h hpos.ne'
    · linarith
  have hneg : ((a : ℝ) ^ 2 + 1) ^ 2 * ((a : ℝ) ^ 2 + 1 - ((a : ℝ) ^ 2 + 1) ^ 2 - ((a : ℝ) ^ 2 + 1) ^ 4 -
      ((a : ℝ) ^ 2 + 1) ^ 6) < 0 := by
    apply mul_neg_of_pos_of_neg hpos
    have h1 : (0 : ℝ) < ((a : ℝ) ^ 2 + 1) ^ 4 := by positivity
    have h2 : (0 : ℝ) < ((a : ℝ) ^ 2 + 1) ^ 6 := by positivity
    nlinarith [sq_nonneg (a : ℝ)]
  have hqc : NoZeroTerms (namePoly'.subst (spDict [1, 0] [a])) := coef_subst _ _
  have hqv : ∀ w ∈ (namePoly'.subst (spDict [1, 0] [a])).vars, w = 0 := by
    intro w hw
    obtain ⟨e1, e2⟩ := vars_subst hw
    have h01 : ∀ w ∈ namePoly'.vars, w = 0 ∨ w = 1 := by decide +kernel
    rcases h01 w e2 with rfl | rfl
    · rfl
    · simp [spDict] at e1
  obtain ⟨q, hq⟩ : ∃ q, namePoly'.subst (spDict [1, 0] [a]) = q := ⟨_, rfl⟩
  rw [hq] at hval hqc hqv
  have hconst : q.isConstant = true → ∀ x : ℝ, val q x ≠ 0 := by
    intro hcst x
    have e : val q x = val q (0 : ℝ) := by
      show MPoly.eval _ q = MPoly.eval _ q
      exact MPoly.eval_congr fun w hw => (isConstant_vars hcst w hw).elim
    rw [e, hval]
    simp only [ne_eq, OfNat.ofNat_ne_zero, not_false_eq_true, zero_pow, sub_zero]
    positivity
  have hmix : NotMixed ℝ (fun p => p ∈ [q]) := by
    by_cases hr : ∃ b : ℚ, val q (b : ℝ) = 0
    · obtain ⟨b, hb⟩ := hr
      right
      intro p hp _ z hz
      rw [List.mem_singleton] at hp
      subst hp
      rw [hval] at hb hz
      have := mono_roots ((hzero z hz).trans (hzero b hb).symm)
      rcases sq_eq_sq_iff_eq_or_eq_neg.1 this with h | h
      · exact ⟨b, h⟩
      · exact ⟨-b, by rw [h]; push_cast; rfl⟩
    · left
      intro p hp _ b hb
      rw [List.mem_singleton] at hp
      subst hp
      exact hr ⟨b, by rw [val_cast, hb, Rat.cast_zero]⟩
  obtain ⟨c, hc, hlink⟩ := stack_meets hE hu (ps := [namePoly']) (σ := fun _ => (a : ℝ)) (v := 0) (qs := [q])
    (by intro p hp; rw [List.mem_singleton] at hp; rw [hp]; exact ⟨hqc, hqv⟩)
    (by intro p hp; rw [List.mem_singleton] at hp; rw [hp]; exact ⟨q, List.mem_singleton.2 rfl, fun x => by rw [hval, hup]⟩)
    (by intro p hp; rw [List.mem_singleton] at hp; rw [hp]
        exact ⟨namePoly', List.mem_singleton.2 rfl, fun x => by rw [hval, hup]⟩)
    (by intro p hp; rw [List.mem_singleton] at hp; rw [hp]; exact hconst)
    hmix [a] numSps hn [] 0 (y := (a : ℝ) ^ 2 + 1) (by
      intro p hp
      rw [List.mem_singleton] at hp
      rw [hp, hup]
      exact hneg.ne)
  rw [← hq] at hc
  have hsg := linked_sg hlink (p := namePoly') fun τ hτ => hτ _ (by simp)
  rw [hup, hup, sg_neg' hneg] at hsg
  have hcn : namePoly'.eval (ptOf [(1, a), (0, c)]) < 0 := by
    have e0 : ptOf [(1, a), (0, c)] 0 = c := by simp [ptOf, List.lookup_cons]
    have e1 : ptOf [(1, a), (0, c)] 1 = a := by simp [ptOf]
    rw [eval_namePoly', e0, e1]
    by_contra hge
    rw [not_lt] at hge
    have hge' : (0 : ℝ) ≤ ((a : ℝ) ^ 2 + 1) ^ 2 * ((a : ℝ) ^ 2 + 1 - (c : ℝ) ^ 2 - (c : ℝ) ^ 4 - (c : ℝ) ^ 6) := by
      exact_mod_cast hge
    rcases hge'.lt_or_eq with h | h
    · rw [sg_pos h] at hsg; cases hsg
    · rw [← h] at hsg; simp [sg] at hsg
  have hfalse : (⟨⟨namePoly', .ge, [0, 1]⟩, [], []⟩ : Goal).evalOnDict S [(1, a), (0, c)] = .ok false := by
    have hcov : Covers [(1, a), (0, c)] ⟨namePoly', .ge, [0, 1]⟩ := by
      refine ⟨by simp, by simp, fun v hv => ?_⟩
      have : v = 0 ∨ v = 1 := by
        revert v
        decide +kernel
      rcases this with rfl | rfl <;> simp
    unfold Goal.evalOnDict
    simp only [bind, Except.bind]
    rw [evalOnDict_covered S hcov]
    have : Op.test .ge (MPoly.eval (ptOf [(1, a), (0, c)]) namePoly') = false := by
      rw [Bool.eq_false_iff, ne_eq, test_iff]
      exact not_le.2 hcn
    simp only [this]
    rfl
  have hin := h3 a ha [a, c] (FullTree.cons _ _ _ [a, c] _ (List.mem_map.2 ⟨c, hc, rfl⟩) (FullTree.nil _)) hfalse
  have hround := (C36_none (cadCore S E 2 numSps (fun _ _ => []) more solve) 0
    ⟨[], ⟨⟨namePoly', .ge, [0, 1]⟩, [], []⟩, []⟩ rfl ds hds
    (fun d => match (⟨⟨namePoly', .ge, [0, 1]⟩, [], []⟩ : Goal).evalOnDict S d with | .ok b => b | .error _ => false) (by
      intro d hd
      obtain ⟨b, hb⟩ := goal_noerr S (d := d) (by
        rintro rfl
        have := ((C58_assignments S E 2 _ _ _ _ ds hds [] hd).2.2 0).2 (by decide)
        simp at this) ⟨⟨namePoly', .ge, [0, 1]⟩, [], []⟩
      rw [hb]
      exact hb)).2 ⟨[(1, a), (0, c)], hin, by rw [hfalse]⟩
  unfold check
  rw [hround]
  rfl

/-- **C118** is violated: `⊢ (x0^2 + 1)^2*(x0^2 + 1 - x1^2 - x1^4 - x1^6) >= 0` is reported as proved, and with the names
`x0` and `x1` exchanged it is not, whatever Sage's (right) functions are, the random choices, the number of sample
points, the solver and the local search. (The sequent is false at `x0 = 0, x1 = 1`.) -/
theorem C118_violated (S : Sage ℚ) (E : CadEnv) (hE : RootsOK ℝ E) (hu : UniformOK E) (hel : TrueElim E) (numSps : ℕ)
    (hn : 1 ≤ numSps) (more) (solve) (fuel : ℕ) :
    ∃ main main' : Atom,
      mkAtom [([6], 1), ([4], 3), ([2], 3), ([], 1), ([4, 6], -1), ([4, 4], -1), ([4, 2], -1), ([2, 6], -2), ([2, 4], -2),
        ([2, 2], -2), ([0, 6], -1), ([0, 4], -1), ([0, 2], -1)] ">=" (MPoly.const 0) = .ok main ∧
      mkAtom [([0, 6], 1), ([0, 4], 3), ([0, 2], 3), ([], 1), ([6, 4], -1), ([4, 4], -1), ([2, 4], -1), ([6, 2], -2),
        ([4, 2], -2), ([2, 2], -2), ([6], -1), ([4], -1), ([2], -1)] ">=" (MPoly.const 0) = .ok main' ∧
      (∀ ρ : ℕ → ℝ, main'.holds ρ ↔ main.holds fun i => ρ (Equiv.swap 0 1 i)) ∧
      check (cadCore S E 2 numSps (fun _ _ => []) more solve) (fuel + 1) 0 ⟨[], ⟨main, [], []⟩, []⟩ =
        .ok ([], ⟨[], ⟨main, [], []⟩, []⟩) ∧
      check (cadCore S E 2 numSps (fun _ _ => []) more solve) (fuel + 1) 0 ⟨[], ⟨main', [], []⟩, []⟩ =
        .error .indexError := by
  refine ⟨⟨namePoly, .ge, [0, 1]⟩, ⟨namePoly', .ge, [0, 1]⟩, by decide +kernel, by decide +kernel, fun ρ => ?_,
    name_proved S E hel numSps more solve fuel, name_unproved S E hE hu numSps hn more solve fuel⟩
  show rel .ge (namePoly'.eval ρ) 0 ↔ rel .ge (namePoly.eval fun i => ρ (Equiv.swap 0 1 i)) 0
  rw [eval_namePoly, eval_namePoly', Equiv.swap_apply_left, Equiv.swap_apply_right]

/-- What holds of **C118** (and more generally when variables are renamed and hypotheses added): under the assumptions of
C72_partial and with right functions of Sage, if a sequent with hypotheses `<`, `>`, `!=` and a goal `<=`, `>=`, `=` is
reported as proved, then no counterexample is reported for the sequent with other names of the variables, and with
further hypotheses. -/
theorem C118_partial (S : Sage ℚ) (E : CadEnv) (hE : RootsOK ℝ E) (hu : UniformOK E) (hel : ElimOK E) (n numSps : ℕ)
    (hnpos : 0 < n) (hn : 1 ≤ numSps) (hS : SageOK S) (hR : RingOK S n) (extra : ℕ → State → List MPoly)
    (more : ℕ → State → Dict ℚ → Except GErr (List (Dict ℚ))) (solve)
    (hmore : ∀ k st d ds, (∀ v < n, (d.lookup v).isSome) → more k st d = .ok ds → ∀ e ∈ ds, ∀ v < n, (e.lookup v).isSome)
    (hraise : ∀ k st d, more k st d ≠ .error .counterexample)
    (hyps hyps' : List Atom) (main main' : Atom) (hseq : StrictSequentN n hyps main)
    (hextra : ∀ k st, ∀ p ∈ extra k st, Normal p ∧ ∀ w ∈ p.vars, w < n)
    (hlev : ∀ k (st : State), st.goal.main = main → (st.goal.hyps ++ st.hyps).Perm hyps →
      LevelsOK E n (extra k st ++ main.poly :: st.goal.hyps.map Atom.poly) numSps st.hyps)
    (hv : ∀ a ∈ main' :: hyps', ∀ v ∈ a.vars ++ a.poly.vars, v < n)
    (heq : hyps'.countP (fun a => decide (a.op = .eq)) ≤ 1)
    (σ : ℕ → ℕ) (hmain : ∀ ρ : ℕ → ℝ, main'.holds ρ ↔ main.holds fun i => ρ (σ i))
    (hhyps : ∀ a ∈ hyps, ∃ a' ∈ hyps', ∀ ρ : ℕ → ℝ, a'.holds ρ ↔ a.holds fun i => ρ (σ i))
    (fuel fuel' : ℕ) (ids ids' : List ℕ) (ret : List (List ℕ)) (st' : State)
    (h : check (cadCore S E n numSps extra more solve) fuel 0 ⟨hyps, ⟨main, [], []⟩, ids⟩ = .ok (ret, st')) :
    check (cadCore S E n numSps extra more solve) fuel' 0 ⟨hyps', ⟨main', [], []⟩, ids'⟩ ≠ .error .counterexample := by
  intro h'
  obtain ⟨ps, hp, _, hval⟩ := C72_partial S E hE hu hel n numSps hn extra more solve hyps main hseq hextra hlev fuel ids ret
    st' h
  obtain ⟨ρ, h1, h2⟩ := C105_cad_partial S E n numSps hnpos hS hR extra more solve hmore hraise hyps' main' hv heq fuel' ids' h'
  have hcast : ∀ a : Atom, a.holds (fun i => (ρ i : ℝ)) ↔ a.holds ρ := by
    intro a
    unfold Atom.holds
    rw [eval_ratCast, rel_ratCast]
  refine h2 ((hcast _).1 ((hmain _).2 (hval _ fun a ha => ?_)))
  obtain ⟨a', ha', he⟩ := hhyps a (hp.subset (by simp [ha]))
  exact (he _).1 ((hcast _).2 (h1 a' ha'))

/-- The assumptions of C118_violated are met, with Sage functions, local search and solver of an example. -/
example : ∃ E : CadEnv, RootsOK ℝ E ∧ UniformOK E ∧ TrueElim E ∧
    check (cadCore testSage E 2 1 (fun _ _ => []) (fun _ _ _ => .ok []) fun _ _ _ => some [0]) 1 0
      ⟨[], ⟨⟨namePoly', .ge, [0, 1]⟩, [], []⟩, []⟩ = .error .indexError := by
  obtain ⟨E, hE, hu, hel⟩ := C72_assumptions_met
  exact ⟨E, hE, hu, hel, name_unproved testSage E hE hu 1 le_rfl _ _ 0⟩

theorem testSage_ring (n : ℕ) : RingOK (testSage : Sage ℚ) n := by
  refine ⟨?_, fun ps h => h⟩
  intro p B hp _
  simp only [testSage]
  split
  · intro v hv; simp [MPoly.vars] at hv
  · exact hp

/-- The assumptions of C118_partial are met: `x0 > x1^2 ⊢ x0 >= 0` is reported as proved; with the names exchanged,
`x1 > x0^2, x0 > 0 ⊢ x1 >= 0`. -/
example (fuel : ℕ) : check (cadCore testSage ex2Env 2 1 (fun _ _ => []) (fun _ _ _ => .ok []) fun _ _ _ => some [0]) fuel 0
    ⟨[⟨[([2], -1), ([0, 1], 1)], .gt, [0, 1]⟩, ⟨[([1], 1)], .gt, [0]⟩], ⟨⟨[([0, 1], 1)], .ge, [1]⟩, [], []⟩, [0, 1]⟩ ≠
      .error .counterexample := by
  obtain ⟨h1, h2, -, h3, h4, h5, ret, st', h6, -⟩ := C72_example
  refine C118_partial testSage ex2Env h1 h2 h3 2 1 (by norm_num) le_rfl testSage_ok (testSage_ring 2) _ _ _ ?_ (by simp)
    [ex2Hyp] _ ex2Main _ h4 (by simp) h5 (by decide +kernel) (by decide +kernel) (Equiv.swap 0 1) ?_ ?_ 2 fuel [0] _ ret st' h6
  · intro k st d ds _ h
    cases h
    simp
  · intro ρ
    simp [Atom.holds, ex2Main, MPoly.eval, Mono.evalFrom]
  · intro a ha
    rw [List.mem_singleton] at ha
    subst ha
    refine ⟨_, List.mem_cons_self, fun ρ => ?_⟩
    simp [Atom.holds, ex2Hyp, MPoly.eval, Mono.evalFrom]

end Verif.Grf
