import Verif.Grf.PropsMulti
import Verif.Grf.PropsSelect

/-!
# C60 and C101: hypotheses reduced by a Gröbner basis and short-circuiting

When an equation is promoted, the polynomials of the promoted hypotheses are reduced, but the variables recorded for
them are not updated. The test that skips the stack over a cell then compares a polynomial with 0.
-/

set_option linter.unusedSectionVars false

namespace Verif.Grf

/-! ### A goal with a reduced hypothesis -/

/-- A hypothesis with the polynomial `p`, which contains a variable without a value, and whose recorded variables all
have values, makes the goal true when Sage says that `p` is positive and the hypothesis says that it is negative. -/
theorem evalHyps_stale (S : Sage ℚ) (d : Dict ℚ) (hd : d ≠ []) (p : MPoly) (vs : List ℕ)
    (hv : vs.all (inDict d) = true) (hp : p.vars.all (inDict d) = false) (hc : 0 < S.cmp p d) (hs : List Atom) :
    evalHyps S d (⟨p, .lt, vs⟩ :: hs) = .ok true := by
  have h : (⟨p, .lt, vs⟩ : Atom).evalOnDict S d = .ok (some false) := by
    unfold Atom.evalOnDict
    rw [if_pos hv]
    cases d with
    | nil => exact absurd rfl hd
    | cons x d =>
      simp only [hp, Op.test]
      rw [if_neg (by decide), decide_eq_false (not_lt.2 hc.le)]
  unfold evalHyps
  rw [h]
  rfl

/-- If the goal is true at all cells, there are no sample points at the next level. -/
theorem stackUnion_true {S : Sage ℚ} {E : CadEnv} {g : Goal} {ord : List ℕ} {next : List MPoly} {numSps : ℕ}
    {ambient : List Atom} : ∀ cells : List (List ℚ), (∀ c ∈ cells, g.evalOnDict S (spDict ord c) = .ok true) →
      stackUnion S E (some g) ord next numSps ambient cells = .ok []
  | [], _ => rfl
  | c :: cells, h => by
    have h1 : stackOverCell S E (some g) ord next numSps ambient c = .ok [] := by
      simp only [stackOverCell, bind, Except.bind]
      rw [h c (by simp)]
      rfl
    unfold stackUnion
    rw [h1, stackUnion_true cells fun c hc => h c (by simp [hc])]
    rfl

theorem liftAll_nil (S : Sage ℚ) (E : CadEnv) (g : Option Goal) (ord : List ℕ) (numSps : ℕ) (ambient : List Atom) :
    ∀ sets : List (List MPoly), liftAll S E g ord numSps ambient sets [] = .ok []
  | [] => rfl
  | _ :: sets => by
    unfold liftAll
    exact liftAll_nil S E g ord numSps ambient sets

/-- Two variables, the first one at the base: if the goal is true at all base points, there are no sample points. -/
theorem samplePtDicts_true (S : Sage ℚ) (E : CadEnv) (top : List MPoly) (g : Goal) (numSps : ℕ) (ambient : List Atom)
    (ho : projOrd (filterProjSet top) (List.range 2) = [0, 1])
    (ht : ∀ x : ℚ, g.evalOnDict S [(0, x)] = .ok true) :
    samplePtDicts S E 2 top (some g) numSps ambient = .ok [] := by
  unfold samplePtDicts
  have hp : projSets E [0, 1] (2 - 1) (filterProjSet top) =
      [bmProj E 1 (filterProjSet top), filterProjSet top] := rfl
  simp only [ho, hp]
  unfold liftAll liftLevel
  rw [stackUnion_true]
  · rfl
  · intro c hc
    obtain ⟨x, _, rfl⟩ := List.mem_map.1 hc
    exact ht x

/-! ### The polynomials and functions of the examples -/

/-- `x0^2 + x1` -/
def stM : MPoly := [([0, 1], 1), ([2], 1)]
/-- `x1 - x0` -/
def stE : MPoly := [([1], -1), ([0, 1], 1)]
/-- `x0 + 3/4` -/
def stH : MPoly := [([], 3 / 4), ([1], 1)]
/-- `x1 + 3/4` -/
def stH' : MPoly := [([], 3 / 4), ([0, 1], 1)]
/-- `x0 - 1` -/
def stL : MPoly := [([], -1), ([1], 1)]

/-- Sage functions for the examples: the generators as a basis, and the reductions of `x0 + 3/4` and of `x0` by
`x1 - x0` to `x1 + 3/4` and `x1`. Polynomials with a variable are compared with 0 by the sign of the leading
coefficient; only those used are given. -/
def stSage : Sage ℚ :=
  ⟨fun p B => if p = stH ∧ B = [stE] then stH' else if p = MPoly.var 0 ∧ B = [stE] then MPoly.var 1 else p,
    fun ps => ps, fun _ _ => 1⟩

theorem stSage_ok : SageOK stSage := by
  refine ⟨?_, fun ps ρ => Iff.rfl, fun ps h => h⟩
  intro p B ρ h
  simp only [stSage]
  split
  · next hp =>
    obtain ⟨rfl, rfl⟩ := hp
    have := h stE (by simp)
    simp [stE, stH, stH', MPoly.eval, Mono.evalFrom] at this ⊢
    linarith
  · split
    · next hp =>
      obtain ⟨rfl, rfl⟩ := hp
      have := h stE (by simp)
      rw [MPoly.eval_var, MPoly.eval_var]
      simp [stE, MPoly.eval, Mono.evalFrom] at this
      linarith
    · rfl

/-- The polynomials of the examples that are monic and linear in `x1`, with their constant coefficients. -/
def stLin : List (MPoly × MPoly) := [(stM, [([2], 1)]), (MPoly.var 1, []), (stE, [([1], -1)])]

/-- Right functions; for the polynomials of the examples they are given explicitly. -/
noncomputable def stEnv : CadEnv where
  roots := fun p =>
    if p = [([0, 1], 1)] then [(0, 1)] else if p = stH then [(-3 / 4, 1)]
    else if p = [([], 4), ([0, 1], 1)] then [(-4, 1)] else if p = [([1], 1)] then [(0, 1)]
    else if p = [([1], 1), ([2], 1)] then [(0, 1), (-1, 1)] else if p = [([2], -1), ([1], -1)] then [(0, 1), (-1, 1)]
    else if p = [([], 1 / 4), ([0, 1], 1)] then [(-1 / 4, 1)] else if p = [([0, 1], 1), ([], 1 / 2)] then [(-1 / 2, 1)]
    else (Classical.choose rootsOK_count).roots p
  rri := (Classical.choose rootsOK_count).rri
  uniform := fun _ _ _ _ l r => (l + r) / 2
  res := fun p q v =>
    if p.degreeIn v = 0 ∧ q.degreeIn v = 0 then [([], 1)]
    else match stLin.lookup p, stLin.lookup q with
      | some r, some s => if v = 1 then s.sub r else
        ofMv (Polynomial.resultant (inVar v (toMv p)) (inVar v (toMv q)))
      | _, _ => if v = 1 ∧ (p = stH ∧ q = stM ∨ p = stM ∧ q = stH) then stH
        else ofMv (Polynomial.resultant (inVar v (toMv p)) (inVar v (toMv q)))
  disc := fun p v =>
    if p.degreeIn v = 0 ∨ v = 1 ∧ (stLin.lookup p).isSome then [([], 1)] else ofMv (inVar v (toMv p)).discr

theorem stEnv_roots : RootsOK ℝ stEnv := by
  have hE := (Classical.choose_spec rootsOK_count).1
  refine ⟨?_, hE.cover, hE.has, hE.uniq, hE.sep⟩
  intro p hp a
  simp only [stEnv]
  split
  · next h =>
    subst h
    simp [val, MPoly.eval, Mono.evalFrom]
  split
  · next h =>
    subst h
    simp [val, MPoly.eval, Mono.evalFrom, stH]
    constructor <;> intro h <;> linarith
  split
  · next h =>
    subst h
    simp [val, MPoly.eval, Mono.evalFrom]
    constructor <;> intro h <;> linarith
  split
  · next h =>
    subst h
    simp [val, MPoly.eval, Mono.evalFrom]
  split
  · next h =>
    subst h
    simp [val, MPoly.eval, Mono.evalFrom]
    have : a + a ^ 2 = a * (a + 1) := by ring
    rw [this, mul_eq_zero, add_eq_zero_iff_eq_neg]
    aesop
  split
  · next h =>
    subst h
    simp [val, MPoly.eval, Mono.evalFrom]
    have : -a ^ 2 + -a = -(a * (a + 1)) := by ring
    rw [this, neg_eq_zero, mul_eq_zero, add_eq_zero_iff_eq_neg]
    aesop
  split
  · next h =>
    subst h
    simp [val, MPoly.eval, Mono.evalFrom]
    constructor <;> intro h <;> linarith
  split
  · next h =>
    subst h
    simp [val, MPoly.eval, Mono.evalFrom]
    constructor <;> intro h <;> linarith
  · exact hE.roots p hp a

theorem toMv_lin {p r : MPoly} (h : stLin.lookup p = some r) :
    inVar 1 (toMv p) = Polynomial.X + Polynomial.C (toMv r) ∧ (p, r) ∈ stLin := by
  have hm : (p, r) ∈ stLin := by
    unfold stLin at h ⊢
    simp only [List.lookup_cons, List.lookup_nil] at h
    split at h
    · next h1 => cases h; rw [eq_of_beq h1]; simp
    · split at h
      · next h1 => cases h; rw [eq_of_beq h1]; simp
      · split at h
        · next h1 => cases h; rw [eq_of_beq h1]; simp
        · cases h
  refine ⟨?_, hm⟩
  have h2 : toMv p = MvPolynomial.X 1 + toMv r ∧ ∃ c k, toMv r = MvPolynomial.C c * MvPolynomial.X 0 ^ k := by
    simp only [stLin, List.mem_cons, Prod.mk.injEq, List.not_mem_nil, or_false] at hm
    rcases hm with ⟨rfl, rfl⟩ | ⟨rfl, rfl⟩ | ⟨rfl, rfl⟩
    · refine ⟨?_, 1, 2, ?_⟩ <;> apply eq_of_aeval <;> intro ρ <;>
        simp [aeval_toMv, stM, MPoly.eval, Mono.evalFrom]
    · refine ⟨?_, 0, 0, ?_⟩ <;> apply eq_of_aeval <;> intro ρ <;>
        simp [aeval_toMv, MPoly.var, MPoly.eval, Mono.evalFrom]
    · refine ⟨?_, -1, 1, ?_⟩ <;> apply eq_of_aeval <;> intro ρ <;>
        simp [aeval_toMv, stE, MPoly.eval, Mono.evalFrom, add_comm]
  obtain ⟨h3, c, k, h4⟩ := h2
  rw [h3, h4]
  simp [inVar]

theorem toMv_stH : inVar 1 (toMv stH) = Polynomial.C (toMv stH) := by
  have : toMv stH = MvPolynomial.X 0 + MvPolynomial.C (3 / 4) := by
    apply eq_of_aeval
    intro ρ
    simp [aeval_toMv, stH, MPoly.eval, Mono.evalFrom]
    ring
  rw [this]
  simp [inVar]

theorem toMv_sub (p q : MPoly) : toMv (p.sub q) = toMv p - toMv q := by
  apply eq_of_aeval
  intro ρ
  rw [map_sub, aeval_toMv, aeval_toMv, aeval_toMv, MPoly.eval_sub]

theorem normal_stLin {p q r s : MPoly} (hp : (p, r) ∈ stLin) (hq : (q, s) ∈ stLin) : Normal (s.sub r) := by
  have h : ∀ a ∈ stLin, ∀ b ∈ stLin, (∀ t ∈ b.2.sub a.2, t.2 ≠ 0) ∧
      (∀ t ∈ b.2.sub a.2, t.1.getLast? ≠ some 0) ∧ ((b.2.sub a.2).map Prod.fst).Nodup := by decide +kernel
  obtain ⟨h1, h2, h3⟩ := h _ hp _ hq
  exact ⟨h1, h2, h3⟩

/-- The functions of the examples are right. -/
theorem stEnv_true : TrueElim stEnv where
  res := by
    intro p q v _ _ hd
    simp only [stEnv]
    rw [if_neg (by omega)]
    split
    · next r s hr hs =>
      split
      · next hv =>
        subst hv
        rw [(toMv_lin hr).1, (toMv_lin hs).1, toMv_sub, Polynomial.natDegree_X_add_C, Polynomial.natDegree_X_add_C,
          Polynomial.resultant_X_add_C_left _ _ _ (by simp)]
        simp
        ring
      · rw [toMv_ofMv]
    · split
      · next h =>
        obtain ⟨rfl, ⟨rfl, rfl⟩ | ⟨rfl, rfl⟩⟩ := h
        · rw [toMv_stH, (toMv_lin (p := stM) (r := [([2], 1)]) (by decide +kernel)).1, Polynomial.natDegree_C,
            Polynomial.natDegree_X_add_C, Polynomial.resultant_C_zero_left, pow_one]
        · rw [toMv_stH, (toMv_lin (p := stM) (r := [([2], 1)]) (by decide +kernel)).1, Polynomial.natDegree_C,
            Polynomial.natDegree_X_add_C, Polynomial.resultant_C_zero_right, pow_one]
      · rw [toMv_ofMv]
  disc := by
    intro p v _ hd
    simp only [stEnv]
    split
    · next h =>
      rcases h with h | ⟨rfl, h⟩
      · omega
      · obtain ⟨r, hr⟩ := Option.isSome_iff_exists.1 h
        rw [(toMv_lin hr).1, toMv_const_one, Polynomial.discr_of_degree_eq_one (Polynomial.degree_X_add_C _)]
    · rw [toMv_ofMv]
  resConst := by
    intro p q v _ _ h1 h2
    simp only [stEnv]
    rw [if_pos ⟨h1, h2⟩]; rfl
  discConst := by
    intro p v _ h
    simp only [stEnv]
    rw [if_pos (Or.inl h)]; rfl
  resNormal := by
    intro p q v _ _
    simp only [stEnv]
    split
    · exact normal_single _ (by decide) (by unfold Mono.Stripped; decide)
    · split
      · next r s hr hs =>
        split
        · exact normal_stLin (toMv_lin hr).2 (toMv_lin hs).2
        · exact normal_ofMv _
      · split
        · refine ⟨?_, ?_, by decide +kernel⟩
          · unfold NoZeroTerms; decide +kernel
          · unfold Mono.Stripped; decide +kernel
        · exact normal_ofMv _
  discNormal := by
    intro p v _
    simp only [stEnv]
    split
    · exact normal_single _ (by decide) (by unfold Mono.Stripped; decide)
    · exact normal_ofMv _

theorem stEnv_uniform : UniformOK stEnv := by
  intro tag b i j l r h
  constructor <;> simp only [stEnv] <;> linarith

/-! ### C60 -/

/-- The goal of the example for C60: the hypotheses `x0 < 0` and `x1 = x0` promoted, in this order. -/
def stGoal : Goal := ⟨⟨stM, .ge, stM.vars⟩, [⟨MPoly.var 1, .lt, [0]⟩, ⟨stE, .eq, stE.vars⟩], [stE]⟩

/-- **C60** is violated for goals with hypotheses that have been reduced: after `x0 < 0` and then `x1 = x0` have been
added to the goal `x0^2 + x1 >= 0`, the first one is `x1 < 0`, with the recorded variable `x0`. At every value of `x0`
the polynomial `x1` is compared with 0; it counts as greater, the goal counts as true, and the stack is not built: there
are no sample points at all. The complete tree has the point `x0 = x1 = -1/2`, where the goal is false. -/
theorem C60_violated : ∃ (S : Sage ℚ) (E : CadEnv), SageOK S ∧ RootsOK ℝ E ∧ TrueElim E ∧ UniformOK E ∧
    ∃ (main h₁ h₂ : Atom) (g₁ g : Goal),
      mkAtom [([2], 1), ([0, 1], 1)] ">=" (MPoly.const 0) = .ok main ∧
      mkAtom (MPoly.var 0) "<" (MPoly.const 0) = .ok h₁ ∧ mkAtom (MPoly.var 1) "=" (MPoly.var 0) = .ok h₂ ∧
      (⟨main, [], []⟩ : Goal).addHyp S h₁ = .ok g₁ ∧ g₁.addHyp S h₂ = .ok g ∧
      samplePtDicts S E 2 (main.poly :: g.hyps.map Atom.poly) (some g) 1 [] = .ok [] ∧
      ∃ v rest base sets, projOrd (filterProjSet (main.poly :: g.hyps.map Atom.poly)) (List.range 2) = v :: rest ∧
        projSets E (v :: rest) 1 (filterProjSet (main.poly :: g.hyps.map Atom.poly)) = base :: sets ∧
        ∃ x ∈ sectorSps E [] (isoRootIntvls E base) 1 [] v, ∃ s, FullTree E (v :: rest) 1 [] sets [x] s ∧
          g.evalOnDict S ((v :: rest).zip s) = .ok false := by
  refine ⟨stSage, stEnv, stSage_ok, stEnv_roots, stEnv_true, stEnv_uniform, ⟨stM, .ge, stM.vars⟩,
    ⟨MPoly.var 0, .lt, [0]⟩, ⟨stE, .eq, stE.vars⟩, ⟨⟨stM, .ge, stM.vars⟩, [⟨MPoly.var 0, .lt, [0]⟩], []⟩, stGoal,
    by decide +kernel, by decide +kernel, by decide +kernel, by decide +kernel, by decide +kernel, ?_, ?_⟩
  · refine samplePtDicts_true _ _ _ _ _ _ (by decide +kernel) fun x => ?_
    have hm : (⟨stM, .ge, stM.vars⟩ : Atom).evalOnDict stSage [(0, x)] = .ok none := rfl
    unfold Goal.evalOnDict
    rw [show stGoal.main = ⟨stM, .ge, stM.vars⟩ from rfl, hm]
    refine evalHyps_stale stSage [(0, x)] (by simp) (MPoly.var 1) [0] rfl rfl ?_ [⟨stE, .eq, stE.vars⟩]
    show (0 : ℚ) < 1
    norm_num
  · refine ⟨0, [1], bmProj stEnv 1 [stM, MPoly.var 1, stE], [[stM, MPoly.var 1, stE]], by decide +kernel,
      by decide +kernel, -1 / 2, by decide +kernel, [-1 / 2, -1 / 2],
      .cons _ _ _ _ _ (by decide +kernel) (.nil _), by decide +kernel⟩

/-! ### C101 -/

/-- The hypotheses and main goal of the example for C101. -/
def st1 : Atom := ⟨stH, .lt, [0]⟩
/-- `x1 = x0` -/
def st2 : Atom := ⟨stE, .eq, stE.vars⟩
/-- `x0 < 1` -/
def st3 : Atom := ⟨stL, .lt, [0]⟩
/-- `x0^2 + x1 >= 0` -/
def stMain : Atom := ⟨stM, .ge, stM.vars⟩

/-- The polynomials installed in the earlier rounds of the example. -/
def stExtra (k : ℕ) : List MPoly :=
  if k = 0 then [] else if k = 1 then [stM] else [stM, stH]

/-- The core of the example. -/
noncomputable def stCore : Core ℚ :=
  cadCore stSage stEnv 2 1 (fun k _ => stExtra k) (fun _ _ _ => .ok []) bruteSolve

theorem stCore_rounds : ∃ ret st', check stCore 3 0 ⟨[st1, st2, st3], ⟨stMain, [], []⟩, [0, 1, 2]⟩ = .ok (ret, st') ∧
    st'.goal.hyps.map Atom.poly = [stH', stE] := by
  have s1 : stCore.samples 0 ⟨[st1, st2, st3], ⟨stMain, [], []⟩, [0, 1, 2]⟩ =
      .ok [[(0, 0), (1, -1)], [(0, 0), (1, 0)], [(0, 0), (1, 1)]] := ok_of_toOption (by decide +kernel)
  have a1 : allBads stCore 0 ⟨[st1, st2, st3], ⟨stMain, [], []⟩, [0, 1, 2]⟩
      [[(0, 0), (1, -1)], [(0, 0), (1, 0)], [(0, 0), (1, 1)]] = .ok (false, [[2]]) :=
    ok_of_toOption (by decide +kernel)
  have g1 : goodHyps stCore ⟨[st1, st2, st3], ⟨stMain, [], []⟩, [0, 1, 2]⟩ [[2]] = .ok [0] :=
    ok_of_toOption (by decide +kernel)
  have p1 : State.promote stCore.toSage ⟨[st1, st2, st3], ⟨stMain, [], []⟩, [0, 1, 2]⟩ 0 =
      .ok ⟨[st2, st3], ⟨stMain, [st1], []⟩, [1, 2]⟩ := ok_of_toOption (by decide +kernel)
  have r1 : round stCore 0 ⟨[st1, st2, st3], ⟨stMain, [], []⟩, [0, 1, 2]⟩ =
      .ok ([[2]], some ⟨[st2, st3], ⟨stMain, [st1], []⟩, [1, 2]⟩) := by
    unfold round
    rw [s1]
    simp only [bind, Except.bind]
    rw [a1]
    have hs : sortCand ⟨[st1, st2, st3], ⟨stMain, [], []⟩, [0, 1, 2]⟩ [0] = [0] := List.mergeSort_singleton _
    simp only [g1, hs, p1]
    rfl
  have s2 : stCore.samples 1 ⟨[st2, st3], ⟨stMain, [st1], []⟩, [1, 2]⟩ =
      .ok [[(0, -2), (1, -5)], [(0, -2), (1, -4)], [(0, -2), (1, -3)]] := ok_of_toOption (by decide +kernel)
  have a2 : allBads stCore 1 ⟨[st2, st3], ⟨stMain, [st1], []⟩, [1, 2]⟩
      [[(0, -2), (1, -5)], [(0, -2), (1, -4)], [(0, -2), (1, -3)]] = .ok (false, [[1]]) :=
    ok_of_toOption (by decide +kernel)
  have g2 : goodHyps stCore ⟨[st2, st3], ⟨stMain, [st1], []⟩, [1, 2]⟩ [[1]] = .ok [0] :=
    ok_of_toOption (by decide +kernel)
  have p2 : State.promote stCore.toSage ⟨[st2, st3], ⟨stMain, [st1], []⟩, [1, 2]⟩ 0 =
      .ok ⟨[st3], ⟨stMain, [⟨stH', .lt, [0]⟩, st2], [stE]⟩, [2]⟩ := ok_of_toOption (by decide +kernel)
  have r2 : round stCore 1 ⟨[st2, st3], ⟨stMain, [st1], []⟩, [1, 2]⟩ =
      .ok ([[1]], some ⟨[st3], ⟨stMain, [⟨stH', .lt, [0]⟩, st2], [stE]⟩, [2]⟩) := by
    unfold round
    rw [s2]
    simp only [bind, Except.bind]
    rw [a2]
    have hs : sortCand ⟨[st2, st3], ⟨stMain, [st1], []⟩, [1, 2]⟩ [0] = [0] := List.mergeSort_singleton _
    simp only [g2, hs, p2]
    rfl
  have s3 : stCore.samples 2 ⟨[st3], ⟨stMain, [⟨stH', .lt, [0]⟩, st2], [stE]⟩, [2]⟩ = .ok [] := by
    refine samplePtDicts_true _ _ _ _ _ _ (by decide +kernel) fun x => ?_
    have hm : stMain.evalOnDict stSage [(0, x)] = .ok none := rfl
    unfold Goal.evalOnDict
    rw [hm]
    refine evalHyps_stale stSage [(0, x)] (by simp) stH' [0] rfl rfl ?_ [st2]
    show (0 : ℚ) < 1
    norm_num
  have c3 := check_true stCore 2 0 _ _ s3 (by simp)
  have c2 : check stCore 2 1 ⟨[st2, st3], ⟨stMain, [st1], []⟩, [1, 2]⟩ =
      .ok ([[1]], ⟨[st3], ⟨stMain, [⟨stH', .lt, [0]⟩, st2], [stE]⟩, [2]⟩) := by
    unfold check
    rw [r2]
    simp only [bind, Except.bind]
    rw [c3]
  refine ⟨[[2]], ⟨[st3], ⟨stMain, [⟨stH', .lt, [0]⟩, st2], [stE]⟩, [2]⟩, ?_, rfl⟩
  unfold check
  rw [r1]
  simp only [bind, Except.bind]
  rw [c2]

/-- **C101** is violated: the program reports the false sequent `x0 < -3/4, x1 = x0, x0 < 1 ⊢ x0^2 + x1 >= 0` as proved,
with right functions of Sage and an optimal solver. In the first round `x0 < -3/4` is promoted, in the second one
`x1 = x0`, which turns it into `x1 < -3/4`; its recorded variable is still `x0`. In the third round this hypothesis is
evaluated at values of `x0` alone: the polynomial `x1 + 3/4` counts as greater than 0, so that the goal counts as true at
every cell and no sample point is produced. The sequent is false at `x0 = x1 = -7/8`. (The local search finds no
further points here.) -/
theorem C101_violated : ∃ (S : Sage ℚ) (E : CadEnv) (extra : ℕ → State → List MPoly)
    (solve : ℕ → List (List ℕ) → List ℕ → Option (List ℕ)),
    SageOK S ∧ RootsOK ℝ E ∧ TrueElim E ∧ UniformOK E ∧
    SolverOpt (cadCore S E 2 1 extra (fun _ _ _ => .ok []) solve) ∧
    ∃ h₁ h₂ h₃ main : Atom, mkAtom (MPoly.var 0) "<" (MPoly.const (-3 / 4)) = .ok h₁ ∧
      mkAtom (MPoly.var 1) "=" (MPoly.var 0) = .ok h₂ ∧ mkAtom (MPoly.var 0) "<" (MPoly.const 1) = .ok h₃ ∧
      mkAtom [([2], 1), ([0, 1], 1)] ">=" (MPoly.const 0) = .ok main ∧
      (∃ ret st', check (cadCore S E 2 1 extra (fun _ _ _ => .ok []) solve) 3 0
        ⟨[h₁, h₂, h₃], ⟨main, [], []⟩, [0, 1, 2]⟩ = .ok (ret, st')) ∧
      ∃ ρ : ℕ → ℝ, h₁.holds ρ ∧ h₂.holds ρ ∧ h₃.holds ρ ∧ ¬ main.holds ρ := by
  obtain ⟨ret, st', hc, _⟩ := stCore_rounds
  refine ⟨stSage, stEnv, fun k _ => stExtra k, bruteSolve, stSage_ok, stEnv_roots, stEnv_true, stEnv_uniform,
    fun _ _ _ _ h => bruteSolve_opt h, st1, st2, st3, stMain, by decide +kernel, by decide +kernel, by decide +kernel,
    by decide +kernel, ⟨ret, st', hc⟩, fun _ => -7 / 8, ?_, ?_, ?_, ?_⟩ <;>
  · simp [Atom.holds, rel, st1, st2, st3, stMain, stH, stE, stL, stM, MPoly.eval, Mono.evalFrom]
    try norm_num

/-- What holds instead of **C101**: if the run ends, and the recorded variables of the promoted hypotheses still include
those of their polynomials (this is so when no equation is among the hypotheses, which then are not changed), then no
counterexample has been skipped in the last round: the goal holds at every point of the complete tree of its sample
points. -/
theorem C101_partial (S : Sage ℚ) (E : CadEnv) (n numSps : ℕ) (extra : ℕ → State → List MPoly) (more) (solve)
    (hyps : List Atom) (main : Atom) (fuel : ℕ) (ids : List ℕ) (ret : List (List ℕ)) (st' : State)
    (h : check (cadCore S E n numSps extra more solve) fuel 0 ⟨hyps, ⟨main, [], []⟩, ids⟩ = .ok (ret, st'))
    (hm : Fresh main)
    (hf : (∀ a ∈ hyps, Fresh a ∧ a.op ≠ .eq) ∨ ∀ a ∈ st'.goal.hyps, Fresh a) :
    ∃ k v rest base sets,
      projOrd (filterProjSet (extra k st' ++ main.poly :: st'.goal.hyps.map Atom.poly)) (List.range n) = v :: rest ∧
      projSets E (v :: rest) (n - 1) (filterProjSet (extra k st' ++ main.poly :: st'.goal.hyps.map Atom.poly)) =
        base :: sets ∧
      ∀ x ∈ sectorSps E [] (isoRootIntvls E base) 1 st'.hyps v, ∀ s,
        FullTree E (v :: rest) numSps st'.hyps sets [x] s →
        ∀ ρ : ℕ → ℚ, Extends ρ ((v :: rest).zip s) → (∀ a ∈ st'.goal.hyps, a.holds ρ) → main.holds ρ := by
  obtain ⟨k, ret', hr, hlast⟩ := check_rounds _ fuel 0 _ st' ret h
  obtain ⟨ds, hds, htrue⟩ := round_none hlast
  have inv : ∀ (i k : ℕ) (st st' : State), Rounds (cadCore S E n numSps extra more solve) i st k st' →
      st'.goal.main = st.goal.main ∧ (st.goal.gb = [] → (∀ a ∈ st.hyps, Fresh a ∧ a.op ≠ .eq) →
        (∀ a ∈ st.goal.hyps, Fresh a) → ∀ a ∈ st'.goal.hyps, Fresh a) := by
    intro i k st st' h
    induction h with
    | refl i st => exact ⟨rfl, fun _ _ h => h⟩
    | step i k st st₁ st' bads h hs ih =>
      obtain ⟨i, hi⟩ := round_some h
      obtain ⟨a, g, ha, hg, rfl⟩ := promote_ok hi
      obtain ⟨ih1, ih2⟩ := ih
      have hgm : g.main = st.goal.main := by
        unfold Goal.addHyp at hg
        simp only [bind, Except.bind] at hg
        split at hg
        · cases hg
        · split at hg
          · cases hg
          · cases hg; rfl
      refine ⟨ih1.trans hgm, fun h1 h2 h3 => ?_⟩
      have hop := (h2 a (List.mem_of_getElem? ha)).2
      have hg' : g = { st.goal with hyps := st.goal.hyps ++ [a] } := by
        unfold Goal.addHyp Goal.simplify Goal.simplifyNew at hg
        rw [if_neg hop, if_neg (by simp [h1])] at hg
        cases hg
        rfl
      subst hg'
      refine ih2 h1 ?_ ?_
      · intro b hb
        apply h2
        rcases List.mem_append.1 hb with hb | hb
        · exact List.mem_of_mem_take hb
        · exact List.mem_of_mem_drop hb
      · intro b hb
        rcases List.mem_append.1 hb with hb | hb
        · exact h3 b hb
        · rw [List.mem_singleton] at hb
          subst hb
          exact (h2 b (List.mem_of_getElem? ha)).1
  obtain ⟨e1, e2⟩ := inv 0 k _ st' hr
  have e1' : st'.goal.main = main := e1
  have hfr : ∀ a ∈ st'.goal.hyps, Fresh a := by
    rcases hf with hf | hf
    · exact e2 rfl hf (by simp)
    · exact hf
  have hds' : samplePtDicts S E n (extra (0 + k) st' ++ main.poly :: st'.goal.hyps.map Atom.poly) (some st'.goal)
      numSps st'.hyps = .ok ds := by rw [← e1']; exact hds
  obtain ⟨v, rest, base, sets, h1, h2, h3, -⟩ :=
    C60_partial S E n _ st'.goal numSps st'.hyps ds (by rw [e1']; exact hm) hfr hds'
  refine ⟨0 + k, v, rest, base, sets, h1, h2, ?_⟩
  intro x hx s hs ρ hρ hh
  have hne : (v :: rest).zip s ≠ [] := by
    obtain ⟨t, rfl⟩ := hs.prefix
    simp
  obtain ⟨b, hb⟩ := goal_noerr S hne st'.goal
  have hb' : st'.goal.evalOnDict S ((v :: rest).zip s) = .ok true := by
    cases b with
    | true => exact hb
    | false => exact htrue _ (h3 x hx s hs hb)
  rw [← e1']
  exact (C51_partial S).2.2 st'.goal _ (by rw [e1']; exact hm) hfr hb' ρ hρ hh

/-- The run of C72's example meets the hypotheses: `x0 > x1^2 ⊢ x0 >= 0` has no equation, and the recorded variables are
those of the polynomials. -/
example : Fresh ex2Main ∧ (∀ a ∈ [ex2Hyp], Fresh a ∧ a.op ≠ .eq) ∧ Fresh st1 ∧ ¬ Fresh (⟨stH', .lt, [0]⟩ : Atom) := by
  unfold Fresh
  decide +kernel

end Verif.Grf
