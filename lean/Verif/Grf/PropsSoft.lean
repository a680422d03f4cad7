import Mathlib.MeasureTheory.Measure.Lebesgue.Basic
import Mathlib.Analysis.SpecialFunctions.Exp
import Mathlib.Analysis.Complex.ExponentialBounds
import Verif.Grf.Soft
import Verif.Grf.PropsSearchStep

/-!
# C107, C108: choosing a hypothesis by its value, functions for making it false
-/

set_option linter.unusedSectionVars false

namespace Verif.Grf

open MeasureTheory

/-! ### the index that is chosen, for any arithmetic -/

theorem softLoop_lt {N : Type} (O : FloatOps N) : ∀ (P : List N) (i : ℕ) (r : N) (k : ℕ), softLoop O i r P = some k →
    i ≤ k ∧ k < i + P.length
  | [], i, r, k, h => by simp [softLoop] at h
  | p :: ps, i, r, k, h => by
    unfold softLoop at h
    split at h
    · have := softLoop_lt O ps _ _ _ h
      simp only [List.length_cons]
      omega
    · cases h
      simp

theorem divAll_length {N : Type} (O : FloatOps N) (z : N) : ∀ (l P : List N), divAll O z l = .ok P → P.length = l.length
  | [], P, h => by cases h; rfl
  | p :: ps, P, h => by
    unfold divAll at h
    split at h
    · cases h
    · simp only [bind, Except.bind] at h
      cases hq : divAll O z ps with
      | error e => rw [hq] at h; cases h
      | ok qs =>
        rw [hq] at h
        cases h
        simp [divAll_length O z ps qs hq]

/-- **C107** (range): whatever the rounding of the numbers, if the sampling of a list that is not empty returns, then it
returns an index of the list. -/
theorem C107_range {N : Type} (O : FloatOps N) (r : N) (F : List N) (hF : F ≠ []) (i : ℕ)
    (h : softzeroSample O r F = .ok i) : i < F.length := by
  unfold softzeroSample at h
  simp only [bind, Except.bind] at h
  cases hP : divAll O ((F.map O.expAbs).foldl O.add O.zero) (F.map O.expAbs) with
  | error e => rw [hP] at h; cases h
  | ok P =>
    rw [hP] at h
    have hl := divAll_length O _ _ _ hP
    rw [List.length_map] at hl
    have hpos : 0 < F.length := List.length_pos_iff.2 hF
    simp only [Except.ok.injEq] at h
    cases hs : softLoop O 0 r P with
    | none => rw [hs] at h; simp only [Option.getD_none] at h; omega
    | some k =>
      rw [hs] at h
      have := (softLoop_lt O P 0 r k hs).2
      simp only [Option.getD_some] at h
      omega

/-- **C107** is violated: when the exponentials of all values are rounded to zero (for double precision, from about 746
on), `ZeroDivisionError` is raised. -/
theorem C107_violated {N : Type} (O : FloatOps N) (hadd : O.add O.zero O.zero = O.zero) (hdiv : ∀ p, O.div p O.zero = none)
    (F : List N) (hF : F ≠ []) (hunder : ∀ f ∈ F, O.expAbs f = O.zero) (r : N) :
    softzeroSample O r F = .error .zeroDivision := by
  have h0 : ∀ l : List N, (∀ f ∈ l, f = O.zero) → l.foldl O.add O.zero = O.zero := by
    intro l
    induction l with
    | nil => simp
    | cons a l ih =>
      intro h
      rw [List.foldl_cons, h a (by simp), hadd]
      exact ih fun f hf => h f (by simp [hf])
  have hz : (F.map O.expAbs).foldl O.add O.zero = O.zero := h0 _ (by simpa using hunder)
  unfold softzeroSample
  simp only [bind, Except.bind, hz]
  cases F with
  | nil => exact absurd rfl hF
  | cons f F => simp [divAll, hdiv]

/-- The empty list gives the index 0, which is not an index of it. -/
theorem C107_empty {N : Type} (O : FloatOps N) (r : N) : softzeroSample O r [] = .ok 0 := rfl

/-! ### real numbers -/

open scoped Classical in
/-- Exact arithmetic. -/
noncomputable def realOps : FloatOps ℝ where
  zero := 0
  add := (· + ·)
  sub := (· - ·)
  div a b := if b = 0 then none else some (a / b)
  expAbs f := Real.exp (-|f|)
  gt a b := decide (b < a)

open scoped Classical in
/-- As `realOps`, but exponentials below the smallest positive double precision number (halved) are rounded to 0. -/
noncomputable def underflowOps : FloatOps ℝ :=
  { realOps with expAbs := fun f => if Real.exp (-|f|) < 2⁻¹ ^ 1075 then 0 else Real.exp (-|f|) }

/-- The hypotheses of `C107_violated` are met by `underflowOps` with the list `[2000]`. -/
example (r : ℝ) : softzeroSample underflowOps r [2000] = .error .zeroDivision := by
  refine C107_violated underflowOps (by simp [underflowOps, realOps]) (fun p => by simp [underflowOps, realOps]) [2000]
    (by simp) (fun f hf => ?_) r
  rw [List.mem_singleton] at hf
  subst hf
  show (if _ then _ else _) = _
  rw [if_pos]
  · rfl
  · have h2 : (2 : ℝ) < Real.exp 1 := lt_trans (by norm_num) Real.exp_one_gt_d9
    have h3 : Real.exp (-|2000|) = (Real.exp 1)⁻¹ ^ 2000 := by
      rw [← Real.exp_neg, ← Real.exp_nat_mul]
      congr 1
      rw [abs_of_pos (by norm_num)]
      norm_num
    rw [h3]
    calc (Real.exp 1)⁻¹ ^ 2000 < (2⁻¹ : ℝ) ^ 2000 := by
          apply pow_lt_pow_left₀
          · exact inv_strictAnti₀ (by norm_num) h2
          · positivity
          · norm_num
      _ ≤ 2⁻¹ ^ 1075 := pow_le_pow_of_le_one (by norm_num) (by norm_num) (by norm_num)

theorem softLoop_iff : ∀ (P : List ℝ), (∀ p ∈ P, 0 ≤ p) → ∀ (i j : ℕ) (r : ℝ), j < P.length →
    (softLoop realOps i r P = some (i + j) ↔ (j = 0 ∨ (P.take j).sum < r) ∧ r ≤ (P.take (j + 1)).sum)
  | [], _, i, j, r, h => by simp at h
  | p :: ps, hP, i, 0, r, h => by
    unfold softLoop
    by_cases hr : p < r
    · rw [if_pos (by simpa [realOps] using hr)]
      constructor
      · intro h'
        have := (softLoop_lt _ _ _ _ _ h').1
        omega
      · intro h'
        simp at h'
        exact absurd hr (not_lt.2 h')
    · rw [if_neg (by simpa [realOps] using hr)]
      simpa using hr
  | p :: ps, hP, i, j + 1, r, h => by
    unfold softLoop
    have hps : ∀ q ∈ ps, 0 ≤ q := fun q hq => hP q (by simp [hq])
    have hnn : 0 ≤ (ps.take j).sum := List.sum_nonneg fun q hq => hps q (List.mem_of_mem_take hq)
    by_cases hr : p < r
    · rw [if_pos (by simpa [realOps] using hr), show i + (j + 1) = i + 1 + j by omega,
        softLoop_iff ps hps (i + 1) j _ (by simpa using h)]
      simp only [realOps, List.take_succ_cons, List.sum_cons]
      constructor
      · rintro ⟨h1, h2⟩
        refine ⟨Or.inr ?_, by linarith⟩
        rcases h1 with rfl | h1
        · simpa using hr
        · linarith
      · rintro ⟨h1, h2⟩
        rcases h1 with h1 | h1
        · omega
        · exact ⟨Or.inr (by linarith), by linarith⟩
    · rw [if_neg (by simpa [realOps] using hr)]
      simp only [List.take_succ_cons, List.sum_cons]
      constructor
      · intro h'
        simp at h'
      · rintro ⟨h1, h2⟩
        rcases h1 with h1 | h1
        · omega
        · exact absurd (by linarith) hr

theorem divAll_real {z : ℝ} (hz : z ≠ 0) : ∀ l : List ℝ, divAll realOps z l = .ok (l.map (· / z))
  | [] => rfl
  | p :: ps => by
    unfold divAll
    have hd : realOps.div p z = some (p / z) := by simp [realOps, hz]
    simp only [hd, bind, Except.bind]
    rw [divAll_real hz ps]
    rfl

theorem weight_pos {F : List ℝ} (hF : F ≠ []) : 0 < (F.map fun f => Real.exp (-|f|)).sum := by
  refine List.sum_pos _ (fun x hx => ?_) (by simpa using hF)
  obtain ⟨f, _, rfl⟩ := List.mem_map.1 hx
  exact Real.exp_pos _

theorem sample_real {F : List ℝ} (hF : F ≠ []) (r : ℝ) : softzeroSample realOps r F =
    .ok ((softLoop realOps 0 r
      (F.map fun f => Real.exp (-|f|) / (F.map fun f => Real.exp (-|f|)).sum)).getD (F.length - 1)) := by
  have hz : (F.map realOps.expAbs).foldl realOps.add realOps.zero = (F.map fun f => Real.exp (-|f|)).sum := by
    rw [List.sum_eq_foldl]; rfl
  unfold softzeroSample
  simp only [bind, Except.bind, hz]
  rw [divAll_real (weight_pos hF).ne', List.map_map]
  rfl

theorem sum_div (z : ℝ) (l : List ℝ) : (l.map (· / z)).sum = l.sum / z := by
  induction l with
  | nil => simp
  | cons a l ih => simp [ih, add_div]

/-- **C107** (distribution), partial: with exact arithmetic, if the random number is uniformly distributed in the interval
from 0 to 1, then each index of the list is returned with the probability `exp(-|f|) / Z`, where `f` is the value at this
index and `Z` the sum of the exponentials of all values. With rounding it may raise, see `C107_violated`. -/
theorem C107_partial (F : List ℝ) (i : ℕ) (hi : i < F.length) :
    volume {r : ℝ | 0 ≤ r ∧ r < 1 ∧ softzeroSample realOps r F = .ok i} =
      ENNReal.ofReal (Real.exp (-|F[i]|) / (F.map fun f => Real.exp (-|f|)).sum) := by
  have hF : F ≠ [] := by rintro rfl; simp at hi
  set Z := (F.map fun f => Real.exp (-|f|)).sum with hZ
  have hZpos : 0 < Z := weight_pos hF
  set P := F.map fun f => Real.exp (-|f|) / Z with hPdef
  have hPpos : ∀ p ∈ P, 0 ≤ p := by
    intro p hp
    obtain ⟨f, _, rfl⟩ := List.mem_map.1 hp
    positivity
  have hPlen : P.length = F.length := by simp [hPdef]
  have hPsum : P.sum = 1 := by
    have : P = (F.map fun f => Real.exp (-|f|)).map (· / Z) := by simp [hPdef]
    rw [this, sum_div, ← hZ, div_self hZpos.ne']
  have hiP : i < P.length := hPlen ▸ hi
  have hPi : P[i] = Real.exp (-|F[i]|) / Z := by simp [hPdef]
  have htake : (P.take (i + 1)).sum = (P.take i).sum + P[i] := by
    rw [← List.take_concat_get' P i hiP, List.sum_append]
    simp
  have hle : (P.take (i + 1)).sum ≤ 1 := by
    rw [← hPsum]
    conv_rhs => rw [← List.take_append_drop (i + 1) P, List.sum_append]
    have : 0 ≤ (P.drop (i + 1)).sum := List.sum_nonneg fun q hq => hPpos q (List.mem_of_mem_drop hq)
    linarith
  have hge : 0 ≤ (P.take i).sum := List.sum_nonneg fun q hq => hPpos q (List.mem_of_mem_take hq)
  have hloop : ∀ r : ℝ, 0 ≤ r → r < 1 → (softzeroSample realOps r F = .ok i ↔ softLoop realOps 0 r P = some i) := by
    have key : ∀ (Q : List ℝ) (k : ℕ) (r : ℝ), 0 ≤ r → r < Q.sum → softLoop realOps k r Q ≠ none := by
      intro Q
      induction Q with
      | nil => intro k r h0 h; simp at h; linarith
      | cons q Q ih =>
        intro k r h0 h
        unfold softLoop
        by_cases hq : q < r
        · rw [if_pos (by simpa [realOps] using hq)]
          refine ih (k + 1) _ ?_ ?_
          · simp only [realOps]; linarith
          · simp only [realOps, List.sum_cons] at h ⊢
            linarith
        · rw [if_neg (by simpa [realOps] using hq)]
          simp
    intro r h0 h1
    rw [sample_real hF r, ← hZ, ← hPdef]
    cases hs : softLoop realOps 0 r P with
    | none => exact absurd hs (key P 0 r h0 (hPsum ▸ h1))
    | some k => simp
  have hset : ∀ r : ℝ, 0 ≤ r → r < 1 → (softzeroSample realOps r F = .ok i ↔
      (i = 0 ∨ (P.take i).sum < r) ∧ r ≤ (P.take (i + 1)).sum) := by
    intro r h0 h1
    rw [hloop r h0 h1]
    have := softLoop_iff P hPpos 0 i r hiP
    rwa [Nat.zero_add] at this
  have hval : ENNReal.ofReal (Real.exp (-|F[i]|) / Z) = ENNReal.ofReal ((P.take (i + 1)).sum - (P.take i).sum) := by
    rw [← hPi, htake]
    congr 1
    ring
  rw [hval]
  apply le_antisymm
  · rw [← Real.volume_Icc]
    apply measure_mono
    rintro r ⟨h0, h1, h⟩
    obtain ⟨h2, h3⟩ := (hset r h0 h1).1 h
    refine ⟨?_, h3⟩
    rcases h2 with rfl | h2
    · simpa using h0
    · exact h2.le
  · rw [← Real.volume_Ioo]
    apply measure_mono
    rintro r ⟨h2, h3⟩
    have h0 : 0 ≤ r := by linarith
    have h1 : r < 1 := by linarith
    exact ⟨h0, h1, (hset r h0 h1).2 ⟨Or.inr h2, h3.le⟩⟩

/-- The hypotheses are met: of the values 0 and 1, the first is chosen with probability `1 / (1 + exp (-1))`, which is more
than one half. -/
example : volume {r : ℝ | 0 ≤ r ∧ r < 1 ∧ softzeroSample realOps r [0, 1] = .ok 0} =
    ENNReal.ofReal (1 / (1 + Real.exp (-1))) ∧ (1 / 2 : ℝ) < 1 / (1 + Real.exp (-1)) := by
  refine ⟨by simpa using C107_partial [0, 1] 0 (by simp), ?_⟩
  have : Real.exp (-1) < 1 := by rw [Real.exp_lt_one_iff]; norm_num
  have h0 := Real.exp_pos (-1)
  apply one_div_lt_one_div_of_lt <;> linarith

/-- **C107** (bias), partial: of two values in the list, the one that is nearer to zero is chosen with a higher
probability. -/
theorem C107_bias_partial (F : List ℝ) (i j : ℕ) (hi : i < F.length) (hj : j < F.length) (h : |F[i]| < |F[j]|) :
    volume {r : ℝ | 0 ≤ r ∧ r < 1 ∧ softzeroSample realOps r F = .ok j} <
      volume {r : ℝ | 0 ≤ r ∧ r < 1 ∧ softzeroSample realOps r F = .ok i} := by
  have hF : F ≠ [] := by rintro rfl; simp at hi
  have hZ := weight_pos hF
  rw [C107_partial F i hi, C107_partial F j hj, ENNReal.ofReal_lt_ofReal_iff (by positivity)]
  exact div_lt_div_of_pos_right (Real.exp_lt_exp.2 (by linarith)) hZ

theorem atomValues_vec {o : List ℕ} {x : List ℝ} (ho : o ≠ []) (hx : x.length = o.length) : ∀ as : List Atom,
    (∀ a ∈ as, InVars o a) → atomValues (some o) x as = .ok (as.map fun a => a.poly.eval (vecPoint o x))
  | [], _ => rfl
  | a :: as, h => by
    unfold atomValues
    rw [evalPoly_vec ho hx (h a (by simp)).2]
    simp only [bind, Except.bind]
    rw [atomValues_vec ho hx as fun b hb => h b (by simp [hb])]
    rfl

/-- **C107** (hypotheses), partial: with exact arithmetic, `choose_atom_softzero` chooses, at a point that gives values to
all variables, each of the hypotheses of the problem, hidden or promoted, with the probability that belongs to the value
of its polynomial. -/
theorem C107_choose_partial (s : State) (o : List ℕ) (ho : o ≠ []) (x : List ℝ) (hx : x.length = o.length)
    (hv : ∀ a ∈ s.hyps ++ s.goal.hyps, InVars o a) (hnd : (s.hyps ++ s.goal.hyps).Nodup) (a : Atom)
    (ha : a ∈ s.hyps ++ s.goal.hyps) :
    volume {r : ℝ | 0 ≤ r ∧ r < 1 ∧ chooseSoftzero realOps r (some o) s x = .ok a} =
      ENNReal.ofReal (Real.exp (-|a.poly.eval (vecPoint o x)|) /
        ((s.hyps ++ s.goal.hyps).map fun b => Real.exp (-|b.poly.eval (vecPoint o x)|)).sum) := by
  obtain ⟨i, hi, hia⟩ := List.getElem_of_mem ha
  have h := C107_partial ((s.hyps ++ s.goal.hyps).map fun b => b.poly.eval (vecPoint o x)) i (by simpa using hi)
  simp only [List.getElem_map, hia, List.map_map] at h
  rw [show ((fun b : Atom => Real.exp (-|b.poly.eval (vecPoint o x)|))) =
    (fun f => Real.exp (-|f|)) ∘ fun b : Atom => b.poly.eval (vecPoint o x) from rfl, ← h]
  congr 1
  ext r
  simp only [Set.mem_ofPred_eq]
  refine and_congr_right fun h0 => and_congr_right fun h1 => ?_
  have hne : ((s.hyps ++ s.goal.hyps).map fun b => b.poly.eval (vecPoint o x)) ≠ [] := by
    intro h0
    rw [List.map_eq_nil_iff] at h0
    rw [h0] at ha
    cases ha
  unfold chooseSoftzero State.allHyps
  rw [vect2dict_ok ho hx, atomValues_vec ho hx _ hv]
  simp only [bind, Except.bind]
  rw [sample_real hne r]
  set k := (softLoop realOps 0 r _).getD _ with hk
  have hkl : k < (s.hyps ++ s.goal.hyps).length := by
    have := C107_range realOps r _ hne k (sample_real hne r)
    simpa using this
  simp only [List.getElem?_eq_getElem hkl, Except.ok.injEq]
  constructor
  · intro h
    rw [← hia] at h
    exact (List.Nodup.getElem_inj_iff hnd).1 h
  · intro h
    rw [← hia]
    simp [h]

/-- The hypotheses are met: a hidden hypothesis `x0 > 0` and a promoted one `x0 - 1 ≤ 0`, at the point 1. -/
example : let s : State := ⟨[⟨MPoly.var 0, .gt, [0]⟩], ⟨⟨MPoly.var 0, .lt, [0]⟩,
      [⟨(MPoly.var 0).sub (MPoly.const 1), .le, [0]⟩], []⟩, [0]⟩
    volume {r : ℝ | 0 ≤ r ∧ r < 1 ∧
      chooseSoftzero realOps r (some [0]) s [1] = .ok ⟨(MPoly.var 0).sub (MPoly.const 1), .le, [0]⟩} =
      ENNReal.ofReal (1 / (Real.exp (-1) + 1)) := by
  intro s
  have := C107_choose_partial s [0] (by simp) [1] rfl (by unfold InVars; decide +kernel) (by decide +kernel)
    ⟨(MPoly.var 0).sub (MPoly.const 1), .le, [0]⟩ (by decide +kernel)
  rw [this]
  simp [s, MPoly.eval_sub, MPoly.eval_var, MPoly.eval_const, vecPoint]

/-- Without a hypothesis `IndexError` is raised. -/
theorem C107_no_hypothesis {K : Type} [Field K] [LinearOrder K] (O : FloatOps K) (r : K) (o : List ℕ) (ho : o ≠ [])
    (x : List K) (hx : x.length = o.length) (main : Atom) (gb : List MPoly) (ids : List ℕ) :
    chooseSoftzero O r (some o) ⟨[], ⟨main, [], gb⟩, ids⟩ x = .error (.base .indexError) := by
  have h : vect2dict (some o) x = .ok (o.zip x) := by
    simp [vect2dict, ho, hx]
  unfold chooseSoftzero
  rw [h]
  rfl

/-! ### C108 -/

section

variable {K : Type} [Field K] [LinearOrder K] [IsStrictOrderedRing K]

/-- **C108** is violated: `get_num_falsifying_func` raises `NameError` for every atom and point, as `ineq_eps` is not
defined. -/
theorem C108_violated (c : K) (order : Option (List ℕ)) (a : Atom) (n : ℕ) :
    falsifyFunc ineqEps c order a n = .error .nameError := rfl

/-- **C108** (falsifying), partial: if `ineq_eps` were defined as a positive number, the atom would be false wherever the
returned function is zero, except for equations when 0 is chosen and inequations when something else is chosen. -/
theorem C108_partial (e : K) (he : 0 < e) (c : K) (hc : c = -1 ∨ c = 0 ∨ c = 1) (o : List ℕ) (ho : o ≠ []) (a : Atom)
    (ha : InVars o a) (n : ℕ) :
    ∃ f, falsifyFunc (some e) c (some o) a n = .ok f ∧
      (∀ y : List K, y.length = o.length → ∃ w, f y = .ok (w :: List.replicate (n - 1) 0) ∧
        (w = 0 → (¬ a.holds (vecPoint o y) ↔ (a.op = .eq → c ≠ 0) ∧ (a.op = .ne → c = 0)))) := by
  refine ⟨_, rfl, fun y hy => ⟨_, flipFunc_vec ho ha n _ hy, fun hw => ?_⟩⟩
  obtain ⟨p, op, vs⟩ := a
  simp only [Atom.holds] at hw ⊢
  have hval : p.eval (vecPoint o y) = -(if op = .lt ∨ op = .le then -e else if op = .gt ∨ op = .ge then e else e * c) := by
    linarith
  rw [hval]
  rcases hc with rfl | rfl | rfl <;> cases op <;> simp [rel, he.le, he, he.ne']

/-- The hypotheses are met by the atom `x0 ≥ 0`, with `ineq_eps = 1/1000`: the function is zero at `-1/1000`. -/
example : ∃ f, falsifyFunc (some (1 / 1000 : ℚ)) 1 (some [0]) ⟨MPoly.var 0, .ge, [0]⟩ 1 = .ok f ∧
    f [-1 / 1000] = .ok [0] ∧ ¬ Atom.holds ⟨MPoly.var 0, .ge, [0]⟩ (vecPoint [0] [(-1 / 1000 : ℚ)]) := by
  obtain ⟨f, hf, h⟩ := C108_partial (1 / 1000 : ℚ) (by norm_num) 1 (by simp) [0] (by simp) ⟨MPoly.var 0, .ge, [0]⟩
    (by unfold InVars; decide +kernel) 1
  obtain ⟨w, hw, h'⟩ := h [-1 / 1000] rfl
  refine ⟨f, hf, ?_, ?_⟩
  · cases hf
    decide +kernel
  · refine (h' ?_).2 (by simp)
    have : f [-1 / 1000] = .ok [0] := by
      cases hf
      decide +kernel
    rw [this] at hw
    simpa using hw.symm

/-- **C108** (squares), partial: the polynomial returned by `get_symb_flipping_func` is nowhere negative, and zero exactly
at the points at which the function given to the numerical solver is zero; there the polynomial of the atom does not have
the sign that it has at the given point. -/
theorem C108_symb_partial (margin : ℚ) (hm : 0 < margin) (side : Bool) (o : List ℕ) (ho : o ≠ []) (a : Atom)
    (ha : InVars o a) (x : List ℚ) (hx : x.length = o.length) :
    ∃ q, symbFlip (some o) a x margin side = .ok q ∧ ∃ eps : ℚ,
      (eps = margin ∨ eps = -margin) ∧
      ∀ ρ : ℕ → ℚ, 0 ≤ q.eval ρ ∧ (q.eval ρ = 0 ↔ a.poly.eval ρ + eps = 0) ∧
        (q.eval ρ = 0 → |a.poly.eval ρ| = margin ∧ ¬ 0 < a.poly.eval ρ * a.poly.eval (vecPoint o x)) := by
  have hv := evalPoly_vec ho hx ha.2
  have hval : symbFlip (some o) a x margin side = .ok (MPoly.mul
      (a.poly.add (MPoly.const (flipEps margin side (a.poly.eval (vecPoint o x)))))
      (a.poly.add (MPoly.const (flipEps margin side (a.poly.eval (vecPoint o x)))))) := by
    unfold symbFlip
    simp only [bind, Except.bind]
    rw [hv]
  refine ⟨_, hval, flipEps margin side (a.poly.eval (vecPoint o x)), ?_, fun ρ => ?_⟩
  · unfold flipEps
    split_ifs <;> simp
  · rw [MPoly.eval_mul, MPoly.eval_add, MPoly.eval_const]
    simp only [Rat.cast_id]
    refine ⟨mul_self_nonneg _, by simp, fun h => ?_⟩
    rw [mul_self_eq_zero] at h
    have h' : a.poly.eval ρ = -flipEps margin side (a.poly.eval (vecPoint o x)) := by linarith
    rw [h']
    unfold flipEps
    generalize a.poly.eval (vecPoint o x) = v
    split_ifs with h1 h2 h3
    · refine ⟨by simp [abs_of_pos hm], ?_⟩
      push Not
      nlinarith
    · refine ⟨by simp [abs_of_pos hm], ?_⟩
      push Not at h2 ⊢
      nlinarith
    · push Not at h1
      exact ⟨by simp [abs_of_pos hm], by simp [h1]⟩
    · push Not at h1
      exact ⟨by simp [abs_of_pos hm], by simp [h1]⟩

/-- The hypotheses are met by the polynomial `x0 - 2` at the point 3: the result is zero at `2 - 1/10`. -/
example : ∃ q, symbFlip (some [0]) ⟨(MPoly.var 0).sub (MPoly.const 2), .ge, [0]⟩ [3] (1 / 10) true = .ok q ∧
    q.eval (fun _ => (2 - 1 / 10 : ℚ)) = 0 := by
  obtain ⟨q, hq, -⟩ := C108_symb_partial (1 / 10) (by norm_num) true [0] (by simp)
    ⟨(MPoly.var 0).sub (MPoly.const 2), .ge, [0]⟩ (by unfold InVars; decide +kernel) [3] rfl
  refine ⟨q, hq, ?_⟩
  cases hq
  decide +kernel

open scoped Classical in
/-- **C108** (signature): where all variables have values, `truth_sig` is the list of the truth values of all
hypotheses, first the hidden and then the promoted ones. -/
theorem C108_signature (S : Sage K) (s : State) (o : List ℕ) (ho : o ≠ []) (x : List K) (hx : x.length = o.length)
    (hv : ∀ a ∈ s.hyps ++ s.goal.hyps, InVars o a) :
    truthSig S s (o.zip x) =
      .ok ((s.hyps.map fun a => some (decide (a.holds (vecPoint o x)))) ++
        s.goal.hyps.map fun a => some (decide (a.holds (vecPoint o x)))) := by
  have key : ∀ as : List Atom, (∀ a ∈ as, InVars o a) → as.mapM (fun a => a.evalOnDict S (o.zip x)) =
      .ok (as.map fun a => some (decide (a.holds (vecPoint o x)))) := by
    intro as
    induction as with
    | nil => intro _; rfl
    | cons a as ih =>
      intro h
      rw [List.mapM_cons, evalOnDict_vec S ho hx (h a (by simp)), ih fun b hb => h b (by simp [hb])]
      rfl
  unfold truthSig State.allHyps
  rw [key _ hv, List.map_append]

/-- **C108** (ball): `k_sample_points_in_ball` returns `k` points with the variables of the given one, each coordinate
changed by less than the bound of the random numbers; the given point itself is not changed. -/
theorem C108_ball (u : ℕ → ℕ → K) (eps : K) (hu : ∀ n v, |u n v| ≤ eps) (d : Dict K) (k : ℕ) :
    (ballPoints u d k).length = k ∧ ∀ d' ∈ ballPoints u d k, d'.map Prod.fst = d.map Prod.fst ∧
      ∀ v x, d.lookup v = some x → ∃ x', d'.lookup v = some x' ∧ |x' - x| ≤ eps := by
  refine ⟨by simp [ballPoints], fun d' hd' => ?_⟩
  obtain ⟨n, _, rfl⟩ := List.mem_map.1 hd'
  refine ⟨by simp, fun v x h => ?_⟩
  clear hd'
  induction d with
  | nil => simp at h
  | cons e d ih =>
    obtain ⟨w, y⟩ := e
    rw [List.map_cons, List.lookup_cons]
    rw [List.lookup_cons] at h
    by_cases hvw : v = w
    · subst hvw
      simp at h
      subst h
      exact ⟨y + u n v, by simp, by simpa using hu n v⟩
    · have : (v == w) = false := by simpa using hvw
      simp only [this] at h ⊢
      exact ih h

/-- The hypotheses are met. -/
example : (ballPoints (fun n _ => if n = 0 then (1 / 100 : ℚ) else -1 / 200) [(0, 1), (1, 2)] 2) =
    [[(0, 101 / 100), (1, 201 / 100)], [(0, 199 / 200), (1, 399 / 200)]] := by decide +kernel

/-- **C108** (sign): the sign function returns the sign. -/
theorem C108_sign (x : K) : signF x = (SignType.sign x : K) := by
  unfold signF
  rcases lt_trichotomy x 0 with h | rfl | h
  · simp [h, h.ne, sign_neg h]
  · simp
  · simp [h.ne', not_lt.2 h.le, sign_pos h]

end

end Verif.Grf
