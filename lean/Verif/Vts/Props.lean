import Verif.Vts.PropsAux

/-!
# Properties of `vts/uni_vts.py` and `vts/matrix_of_signs.py` (C01-C09, C12, C13)

`R` is the ring of coefficients (Python: `int`), `K` an ordered field with the intermediate value
property for polynomials (a real closed field; the examples use `ℝ`), `φ` the coercion. `EnvOK`
states what is assumed of `z3rcf.MkRoots` and `sympy.Matrix.inv`.
-/

set_option linter.unusedSectionVars false

open Polynomial Verif.Alg

namespace Verif.Vts

variable {R : Type} [CommRing R] [LinearOrder R] {K : Type} [Field K] [LinearOrder K]
  [IsStrictOrderedRing K]

/-- the coercion used in the examples -/
local notation "ιℝ" => Int.castRingHom ℝ

theorem normalized_int (l : List ℤ) (c : ℤ) (h : c ≠ 0) : Normalized (l ++ [c]) :=
  ⟨c, by simp, h⟩

/-! ## C01 -/

/-- **C01**. Whenever `internal_vts` returns a boolean on polynomials with nonzero leading
coefficients, it is `True` exactly when the system is satisfiable. -/
theorem C01_vts_decides [PolyIVT K] {E : Env R K} {φ : R →+* K} (hE : EnvOK E φ)
    (le lt eq ne : List (List R)) (hn : ∀ p ∈ le ++ lt ++ eq ++ ne, Normalized p) (b : Bool)
    (h : internalVts E le lt eq ne = .ok b) : b = true ↔ Satisfiable φ le lt eq ne :=
  (internalVts_spec hE le lt eq ne hn).1 b h

/-- the same over the reals with integer coefficients, written out -/
theorem C01_vts_decides_real {E : Env ℤ ℝ} (hE : EnvOK E ιℝ) (le lt eq ne : List (List ℤ))
    (hn : ∀ p ∈ le ++ lt ++ eq ++ ne, Normalized p) (b : Bool)
    (h : internalVts E le lt eq ne = .ok b) :
    b = true ↔ ∃ x : ℝ, (∀ p ∈ le, (denote ιℝ p).eval x ≤ 0) ∧
      (∀ p ∈ lt, (denote ιℝ p).eval x < 0) ∧ (∀ p ∈ eq, (denote ιℝ p).eval x = 0) ∧
      (∀ p ∈ ne, (denote ιℝ p).eval x ≠ 0) :=
  C01_vts_decides hE le lt eq ne hn b h

/-- The restriction to nonzero leading coefficients is needed: `[-1, 0]` denotes the constant `-1`,
`-1 < 0` is satisfiable, and `internal_vts` answers `False`. -/
theorem C01_needs_normalized {E : Env ℤ ℝ} (hE : EnvOK E ιℝ) :
    internalVts E [] [[-1, 0]] [] [] = .ok false ∧ Satisfiable ιℝ [] [[-1, 0]] [] [] := by
  have hd : denote ιℝ [-1, 0] = C (-1) := by simp [denote]
  constructor
  · obtain ⟨rs, h1, h2, h3⟩ := hE.roots [-1, 0] (by rw [hd]; simp)
    have hrs : rs = [] := by
      rw [List.eq_nil_iff_forall_not_mem]
      intro x hx
      have := (h3 x).1 hx
      rw [hd] at this; simp at this
    simp [internalVts, firstTrue, tryRoots, h1, hrs, getDiscriDerSigns, checkMinusInfinity, lastE,
      signFunc, signAllowed, signConditionsLookup, restrictTo, bind, Except.bind, pure,
      Except.pure]
  · exact ⟨0, by simp, by simp [hd], by simp, by simp⟩

/-! ## C02 -/

/-- **C02**. No exception if no polynomial has more than five distinct roots; otherwise the only
possible exception is the refusal of more than five polynomials. -/
theorem C02_vts_answers [PolyIVT K] {E : Env R K} {φ : R →+* K} (hE : EnvOK E φ)
    (le lt eq ne : List (List R)) (hn : ∀ p ∈ le ++ lt ++ eq ++ ne, Normalized p) :
    ((∀ p ∈ le ++ lt ++ eq ++ ne, (denote φ p).roots.toFinset.card ≤ 5) →
      ∃ b, internalVts E le lt eq ne = .ok b) ∧
    (∀ e, internalVts E le lt eq ne = .error e → e = .moreThan5) := by
  refine ⟨fun h5 => ?_, fun e he => ((internalVts_spec hE le lt eq ne hn).2 e he).1⟩
  cases h : internalVts E le lt eq ne with
  | ok b => exact ⟨b, rfl⟩
  | error e =>
    obtain ⟨_, p, hp, h6⟩ := (internalVts_spec hE le lt eq ne hn).2 e h
    exact absurd (h5 p hp) (by omega)

/-- Together: on such inputs the answer exists and is right. -/
theorem C02_total_correct [PolyIVT K] {E : Env R K} {φ : R →+* K} (hE : EnvOK E φ)
    (le lt eq ne : List (List R)) (hn : ∀ p ∈ le ++ lt ++ eq ++ ne, Normalized p)
    (h5 : ∀ p ∈ le ++ lt ++ eq ++ ne, (denote φ p).roots.toFinset.card ≤ 5)
    [Decidable (Satisfiable φ le lt eq ne)] :
    internalVts E le lt eq ne = .ok (decide (Satisfiable φ le lt eq ne)) := by
  obtain ⟨b, hb⟩ := (C02_vts_answers hE le lt eq ne hn).1 h5
  have := C01_vts_decides hE le lt eq ne hn b hb
  rw [hb]
  cases b
  · rw [decide_eq_false]; simpa using this
  · rw [decide_eq_true]; simpa using this

/-- polynomials of degree at most five satisfy the bound -/
theorem C02_degree [PolyIVT K] {E : Env R K} {φ : R →+* K} (hE : EnvOK E φ)
    (le lt eq ne : List (List R)) (hn : ∀ p ∈ le ++ lt ++ eq ++ ne, Normalized p)
    (h6 : ∀ p ∈ le ++ lt ++ eq ++ ne, p.length ≤ 6) :
    ∃ b, internalVts E le lt eq ne = .ok b := by
  classical
  refine (C02_vts_answers hE le lt eq ne hn).1 fun p hp => ?_
  have h1 := natDegree_denote hE.mono.injective (hn p hp)
  have h2 := (denote φ p).roots.toFinset_card_le
  have h3 := (denote φ p).card_roots'
  have := h6 p hp
  omega

-- the hypotheses are met: `x² - 2 ≤ 0`, `x - 1 < 0`, `x³ - x = 0`, `2x + 1 ≠ 0`
example : EnvOK stdEnv ιℝ ∧
    (∀ p ∈ [[-2, 0, 1]] ++ [[-1, 1]] ++ [[0, -1, 0, 1]] ++ [[1, 2]], Normalized (R := ℤ) p) ∧
    (∀ p ∈ [[-2, 0, 1]] ++ [[-1, 1]] ++ [[0, -1, 0, 1]] ++ [[1, (2 : ℤ)]], p.length ≤ 6) ∧
    internalVts stdEnv [[-2, 0, 1]] [[-1, 1]] [[0, -1, 0, 1]] [[1, 2]] = .ok true := by
  have hn : ∀ p ∈ [[-2, 0, 1]] ++ [[-1, 1]] ++ [[0, -1, 0, 1]] ++ [[1, 2]],
      Normalized (R := ℤ) p := by
    intro p hp; simp at hp; rcases hp with rfl | rfl | rfl | rfl <;>
      first | exact normalized_int [-2, 0] 1 (by decide) | exact normalized_int [-1] 1 (by decide) |
        exact normalized_int [0, -1, 0] 1 (by decide) | exact normalized_int [1] 2 (by decide)
  have h6 : ∀ p ∈ [[-2, 0, 1]] ++ [[-1, 1]] ++ [[0, -1, 0, 1]] ++ [[1, (2 : ℤ)]],
      p.length ≤ 6 := by decide
  refine ⟨stdEnv_ok, hn, h6, ?_⟩
  obtain ⟨b, hb⟩ := C02_degree stdEnv_ok _ _ _ _ hn h6
  have := C01_vts_decides stdEnv_ok _ _ _ _ hn b hb
  rw [hb, this.2]
  exact ⟨0, by simp [denote], by simp [denote], by simp [denote], by simp [denote]⟩

/-! ## C03 -/

/-- **C03**. `tarski_query(p, q)` is the number of distinct roots of `p` where `q > 0` minus the
number where `q < 0`; `q` is normalized, empty, or has only zero coefficients. -/
theorem C03_tarski_query [PolyIVT K] {φ : R →+* K} (hφ : StrictMono φ) (p q : List R)
    (hp : Normalized p) (hq : Normalized q ∨ ∀ c ∈ q, c = 0) :
    tarskiQuery p q = .ok
      (((denote φ p).roots.toFinset.filter fun x => 0 < (denote φ q).eval x).card -
       ((denote φ p).roots.toFinset.filter fun x => (denote φ q).eval x < 0).card : ℤ) := by
  have hsum : ∑ x ∈ (denote φ p).roots.toFinset, sg ((denote φ q).eval x) =
      (((denote φ p).roots.toFinset.filter fun x => 0 < (denote φ q).eval x).card -
       ((denote φ p).roots.toFinset.filter fun x => (denote φ q).eval x < 0).card : ℤ) := by
    rw [Finset.card_filter, Finset.card_filter]
    push_cast
    rw [← Finset.sum_sub_distrib]
    apply Finset.sum_congr rfl
    intro x _
    rcases sg_cases ((denote φ q).eval x) with ⟨h, e⟩ | ⟨h, e⟩ | ⟨h, e⟩ <;> rw [e]
    · simp [h, not_lt.2 h.le]
    · simp [h]
    · simp [h, not_lt.2 h.le]
  rw [← hsum]
  rcases hq with hq | hq
  · by_cases h2 : 2 ≤ p.length
    · exact tarskiQuery_spec hφ p q hp h2 hq
    · have hlen : p.length = 1 := by
        have := List.length_pos_iff.2 (normalized_ne_nil hp); omega
      have hd : derivative p = [] := by
        rw [← List.length_eq_zero_iff, length_derivative]; omega
      have hz : ∀ c ∈ multiply (derivative p) q, c = 0 := by
        rw [← denote_eq_zero_iff hφ, denote_multiply, hd]; simp [denote]
      have hr : (denote φ p).roots = 0 := by
        obtain ⟨c, rfl⟩ := List.length_eq_one_iff.1 hlen
        simp [denote]
      rw [tarskiQuery, cauchyIndex_zeros hφ _ _ hp hz, hr]
      simp
  · rw [tarskiQuery_zero hφ p q hp hq, (denote_eq_zero_iff hφ).2 hq]
    simp

-- `x² - 2` against `x - 1`: one root on each side
example : Normalized ([-2, 0, 1] : List ℤ) ∧ Normalized ([-1, 1] : List ℤ) ∧
    StrictMono (ιℝ : ℤ →+* ℝ) ∧ tarskiQuery ([-2, 0, 1] : List ℤ) [-1, 1] = .ok 0 ∧
    tarskiQuery ([-2, 0, 1] : List ℤ) [3, 1] = .ok 2 :=
  ⟨normalized_int [-2, 0] 1 (by decide), normalized_int [-1] 1 (by decide), stdEnv_ok.mono, by
    decide +kernel, by decide +kernel⟩

/-- **C03**, the empty list as first argument (it stands for the zero polynomial, which has infinitely many roots): the
answer is 0 for constant second arguments, and `IndexError` is raised for the others. -/
theorem C03_empty (q : List R) :
    tarskiQuery [] q = if q.length ≤ 1 then .ok 0 else .error .indexError := by
  have h1 : multiply (derivative ([] : List R)) q = List.replicate (q.length - 1) 0 := by
    simp [multiply, derivative, List.map_const']
  unfold tarskiQuery cauchyIndex
  rw [h1]
  by_cases h : q.length ≤ 1
  · rw [if_pos h, show q.length - 1 = 0 by omega]; rfl
  · obtain ⟨k, hk⟩ : ∃ k, q.length - 1 = k + 1 := ⟨q.length - 2, by omega⟩
    have h2 : signedRemainderSequence ([] : List R) (List.replicate (k + 1) 0) =
        .ok [[], List.replicate (k + 1) 0] := by
      have h3 : signedPseudoRemainder ([] : List R) (List.replicate (k + 1) 0) = .ok [] := by
        rw [signedPseudoRemainder]; rfl
      rw [signedRemainderSequence]
      split
      · next e he => rw [h3] at he; cases he
      · next rem he => rw [h3] at he; cases he; rfl
    rw [if_neg h, hk, if_neg (by simp [List.replicate_succ]), h2]
    rfl

example : tarskiQuery ([] : List ℤ) [0, 1] = .error .indexError ∧ tarskiQuery ([] : List ℤ) [7] = .ok 0 := by
  rw [C03_empty, C03_empty]; exact ⟨rfl, rfl⟩

/-! ## C04 -/

/-- **C04**, the identity. -/
theorem C04_pseudo_remainder {φ : R →+* K} (hφ : StrictMono φ) (f g : List R) (hg : Normalized g) :
    ∃ r, signedPseudoRemainder f g = .ok r ∧ (r = [] ∨ Normalized r) ∧ r.length < g.length ∧
      ∃ (c : R) (a : K[X]), 0 < c ∧ C (φ c) * denote φ f = a * denote φ g + denote φ r := by
  obtain ⟨r, h1, h2, h3⟩ := signedPseudoRemainder_spec hφ f g hg
  refine ⟨r, h1, h2, ?_, h3⟩
  rcases signedPseudoRemainder_length f g r h1 with rfl | h
  · exact List.length_pos_iff.2 (normalized_ne_nil hg)
  · exact h

/-- **C04**, the exception: raised exactly when `g` is empty and `f` is not. -/
theorem C04_raises_iff (f g : List R) :
    (∃ e, signedPseudoRemainder f g = .error e) ↔ g = [] ∧ f ≠ [] := by
  constructor
  · rintro ⟨e, h⟩
    by_cases hg : g = []
    · refine ⟨hg, ?_⟩
      rintro rfl
      rw [signedPseudoRemainder_nil_left] at h; simp at h
    · obtain ⟨r, h'⟩ := signedPseudoRemainder_no_error f g hg
      rw [h] at h'; simp at h'
  · rintro ⟨rfl, hf⟩
    exact ⟨_, signedPseudoRemainder_nil_right f hf⟩

/-- The identity fails for a divisor with a zero leading coefficient: `1 + x²` by `x` written
`[0, 1, 0]` gives `-x`. -/
theorem C04_needs_normalized : signedPseudoRemainder [1, 0, 1] ([0, 1, 0] : List ℤ) = .ok [0, -1] ∧
    ¬ ∃ (c : ℤ) (a : ℝ[X]), 0 < c ∧
      C (ιℝ c) * denote ιℝ [1, 0, 1] = a * denote ιℝ [0, 1, 0] + denote ιℝ [0, -1] := by
  refine ⟨by decide +kernel, ?_⟩
  rintro ⟨c, a, hc, h⟩
  have := congrArg (Polynomial.eval 0) h
  simp [denote] at this
  omega

example : Normalized ([1, 0, -2] : List ℤ) ∧
    signedPseudoRemainder [3, 1, 4, 1] ([1, 0, -2] : List ℤ) = .ok [20, 6] :=
  ⟨normalized_int [1, 0] (-2) (by decide), by decide +kernel⟩

/-! ## C05 -/

/-- **C05**. `signed_remainder_sequence(p, q)` terminates without exception; it starts with `p, q`,
consecutive triples satisfy the signed recurrence with strictly decreasing length, and the last
element divides its predecessor up to a positive constant. -/
theorem C05_remainder_sequence {φ : R →+* K} (hφ : StrictMono φ) (p q : List R)
    (hq : Normalized q) :
    ∃ l, signedRemainderSequence p q = .ok (p :: q :: l) ∧ (∀ f ∈ q :: l, Normalized f) ∧
      (∀ i f g h, (p :: q :: l)[i]? = some f → (p :: q :: l)[i + 1]? = some g →
        (p :: q :: l)[i + 2]? = some h → h.length < g.length ∧
        ∃ (c : R) (a : K[X]), 0 < c ∧ C (φ c) * denote φ f = a * denote φ g - denote φ h) ∧
      (∀ f g, (p :: q :: l)[l.length]? = some f → (p :: q :: l)[l.length + 1]? = some g →
        ∃ (c : R) (a : K[X]), 0 < c ∧ C (φ c) * denote φ f = a * denote φ g) :=
  signedRemainderSequence_chain hφ p q hq

example : Normalized ([-1, 0, 3] : List ℤ) ∧
    signedRemainderSequence [0, -1, 0, 1] ([-1, 0, 3] : List ℤ) =
      .ok [[0, -1, 0, 1], [-1, 0, 3], [0, 2], [2]] :=
  ⟨normalized_int [-1, 0] 3 (by decide), by decide +kernel⟩

/-! ## C06 -/

/-- **C06**. Descriptions of the roots: one per root, recorded polynomials are proper derivatives
with their true signs, and no other root has the same recorded signs. -/
theorem C06_root_descriptions [PolyIVT K] {φ : R →+* K} (hφ : StrictMono φ) (p : List R)
    (hp : Normalized p) (roots : List K) (hn : roots.Nodup)
    (hroot : ∀ x, x ∈ roots ↔ (denote φ p).eval x = 0) :
    ∃ ds, getDiscriDerSigns φ roots p = .ok ds ∧ (ds.map DDS.point).Perm roots ∧
      ∀ d ∈ ds,
        (∀ e ∈ d.recorded, ∃ k, 1 ≤ k ∧ denote φ e.1 = Polynomial.derivative^[k] (denote φ p)) ∧
        (∀ e ∈ d.recorded, IsSign ((denote φ e.1).eval d.point) e.2) ∧
        (∀ x, (denote φ p).eval x = 0 →
          (∀ e ∈ d.recorded, IsSign ((denote φ e.1).eval x) e.2) → x = d.point) ∧
        d.recorded.length < roots.length := by
  obtain ⟨ds, h1, h2, h3⟩ := getDiscriDerSigns_top hφ p hp roots hn hroot
  refine ⟨ds, h1, h2, fun d hd => ?_⟩
  obtain ⟨h4, h5, h6⟩ := h3 d hd
  refine ⟨h6, fun e he => (isSign_iff _ _).2 (h4.sign e he), fun x hx hall => ?_, by omega⟩
  exact h4.unique x ((hroot x).2 hx) fun e he => ((isSign_iff _ _).1 (hall e he)).symm

-- `x² - 1` with its two roots
example : Normalized ([-1, 0, 1] : List ℤ) ∧ ([1, -1] : List ℝ).Nodup ∧
    ∀ x : ℝ, x ∈ ([1, -1] : List ℝ) ↔ (denote ιℝ [-1, 0, 1]).eval x = 0 := by
  refine ⟨normalized_int [-1, 0] 1 (by decide), by norm_num, fun x => ?_⟩
  simp only [denote, List.mem_cons, List.not_mem_nil, or_false]
  simp
  constructor
  · rintro (rfl | rfl) <;> norm_num
  · intro h
    have : (x - 1) * (x + 1) = 0 := by linarith
    rcases mul_eq_zero.1 this with h | h
    · left; linarith
    · right; linarith

/-! ## C07 -/

/-- **C07**. For a description of a root produced by `get_discri_der_signs`,
`evaluate_single_on_sign_assignment` returns the sign of the goal at that root whenever it returns,
and it raises only if more than four derivatives are recorded (and then "more than 5 polies"). -/
theorem C07_sign_determination [PolyIVT K] {E : Env R K} {φ : R →+* K} (hE : EnvOK E φ)
    (p : List R) (hp : Normalized p) (roots : List K) (hn : roots.Nodup)
    (hroot : ∀ x, x ∈ roots ↔ (denote φ p).eval x = 0) (ds : List (DDS R K))
    (hds : getDiscriDerSigns φ roots p = .ok ds) (d : DDS R K) (hd : d ∈ ds) (goal : List R)
    (hg : Normalized goal) :
    (∀ s, evaluateSingle E p d goal = .ok s → IsSign ((denote φ goal).eval d.point) s) ∧
    (∀ e, evaluateSingle E p d goal = .error e → 4 < d.recorded.length ∧ e = .moreThan5) := by
  obtain ⟨ds', h1, h2, h3⟩ := getDiscriDerSigns_top hE.mono p hp roots hn hroot
  rw [hds] at h1
  simp only [Except.ok.injEq] at h1
  subst h1
  rw [evaluateSingle_spec hE hp hn hroot (h3 d hd).1 goal hg]
  split
  · refine ⟨fun s hs => ?_, by simp⟩
    simp only [Except.ok.injEq] at hs
    rw [isSign_iff, ← hs]; rfl
  · rename_i h
    refine ⟨by simp, fun e he => ?_⟩
    simp only [Except.error.injEq] at he
    push Not at h
    exact ⟨h.2, he.symm⟩

-- nonvacuous: descriptions exist for the roots of every normalized polynomial
example (p : List ℤ) (hp : Normalized p) : ∃ ds rs, stdEnv.mkRoots p = .ok rs ∧
    getDiscriDerSigns ιℝ rs p = .ok ds ∧ ds.length = (denote ιℝ p).roots.toFinset.card := by
  obtain ⟨rs, h1, h2, h3⟩ := stdEnv_ok.roots p (denote_ne_zero stdEnv_ok.mono.injective hp)
  obtain ⟨ds, h4, h5, _⟩ := C06_root_descriptions stdEnv_ok.mono p hp rs h2 h3
  refine ⟨ds, rs, h1, h4, ?_⟩
  have := h5.length_eq
  rw [List.length_map] at this
  have h6 : stdEnv.mkRoots p = .ok (denote ιℝ p).roots.toFinset.toList := rfl
  rw [h1] at h6
  simp only [Except.ok.injEq] at h6
  rw [this, h6, Finset.length_toList]

/-! ## C08 -/

/-- **C08**. `e_close_evaluate_single_on_sign_assignment` returns the sign on an interval
immediately to the right of the root. -/
theorem C08_sign_right [PolyIVT K] {E : Env R K} {φ : R →+* K} (hE : EnvOK E φ)
    (p : List R) (hp : Normalized p) (roots : List K) (hn : roots.Nodup)
    (hroot : ∀ x, x ∈ roots ↔ (denote φ p).eval x = 0) (ds : List (DDS R K))
    (hds : getDiscriDerSigns φ roots p = .ok ds) (d : DDS R K) (hd : d ∈ ds) (goal : List R)
    (hg : Normalized goal) :
    (∀ s, eCloseEvaluateSingle E p d goal = .ok s →
      ∃ δ > 0, ∀ y, d.point < y → y < d.point + δ → IsSign ((denote φ goal).eval y) s) ∧
    (∀ e, eCloseEvaluateSingle E p d goal = .error e →
      4 < d.recorded.length ∧ e = .moreThan5) := by
  obtain ⟨ds', h1, h2, h3⟩ := getDiscriDerSigns_top hE.mono p hp roots hn hroot
  rw [hds] at h1
  simp only [Except.ok.injEq] at h1
  subst h1
  have hs := eClose_spec hE hp hn hroot (h3 d hd).1 goal (Or.inr hg)
  by_cases h4 : d.recorded.length ≤ 4
  · obtain ⟨s, hs1, b, hb, hs2⟩ := hs.1 (Or.inl h4)
    rw [hs1]
    refine ⟨fun s' hs' => ?_, by simp⟩
    simp only [Except.ok.injEq] at hs'
    subst hs'
    refine ⟨b - d.point, by linarith, fun y hy1 hy2 => ?_⟩
    rw [isSign_iff]
    exact (hs2 y hy1 (by linarith)).symm
  · rw [hs.2 (by omega) (normalized_ne_nil hg)]
    refine ⟨by simp, fun e he => ?_⟩
    simp only [Except.error.injEq] at he
    exact ⟨by omega, he.symm⟩

-- the hypotheses are met by every root of every normalized polynomial (see C06, C07)
example : ∃ ds, getDiscriDerSigns ιℝ ([1, -1] : List ℝ) ([-1, 0, 1] : List ℤ) = .ok ds ∧
    ∃ d ∈ ds, d.point = -1 := by
  obtain ⟨ds, h1, h2, _⟩ := C06_root_descriptions (φ := ιℝ) stdEnv_ok.mono [-1, 0, 1]
    (normalized_int [-1, 0] 1 (by decide)) [1, -1] (by norm_num) (fun x => by
      simp only [denote, List.mem_cons, List.not_mem_nil, or_false]
      simp
      constructor
      · rintro (rfl | rfl) <;> norm_num
      · intro h
        have : (x - 1) * (x + 1) = 0 := by linarith
        rcases mul_eq_zero.1 this with h | h
        · left; linarith
        · right; linarith)
  refine ⟨ds, h1, ?_⟩
  have : (-1 : ℝ) ∈ ds.map DDS.point := by rw [h2.mem_iff]; simp
  obtain ⟨d, hd, he⟩ := List.mem_map.1 this
  exact ⟨d, hd, he⟩

/-! ## C09 -/

/-- **C09**. For every number of polynomials, the sign matrix times the vector whose entry number
`i` is the number of points at which the polynomials have sign vector number `i` is the vector of
the sums of signs of the products. -/
theorem C09_sign_matrix (φ : R →+* K) (ps : List (List R)) (points : List K) :
    matVec (signMatrix ps.length) ((List.range (3 ^ ps.length)).map fun i =>
      ((points.countP fun x => decide (ps.map (fun q => sg ((denote φ q).eval x))
        = signVec ps.length i) : ℕ) : ℚ)) =
    .ok ((makeProductList ps).map fun q =>
      (((points.map fun x => sg ((denote φ q).eval x)).sum : ℤ) : ℚ)) := by
  have h := mulV_counts φ ps points
  rw [counts_eq] at h
  rw [matVec_ok (isSquare_signMatrix _) (by simp)]
  exact congrArg Except.ok h

/-- **C09**. The matrix is square of size `3^n` and invertible, for every `n`. -/
theorem C09_invertible (n : ℕ) :
    IsSquare' (3 ^ n) (signMatrix n) ∧ IsUnit (toMatrix (3 ^ n) (signMatrix n)).det :=
  ⟨isSquare_signMatrix n, isUnit_det_signMatrix n⟩

/-- `get_matrix` returns that matrix for `1 ≤ n ≤ 5` and refuses all other sizes. -/
theorem C09_get_matrix (n : ℤ) :
    (1 ≤ n → n ≤ 5 → getMatrix n = .ok (signMatrix n.toNat)) ∧
    (n < 1 → getMatrix n = .error .lessThanOne) ∧ (5 < n → getMatrix n = .error .moreThan5) := by
  refine ⟨fun h1 h2 => ?_, fun h => ?_, fun h => ?_⟩
  · unfold getMatrix
    rw [if_neg (by omega)]
    split
    · rename_i h; subst h; rfl
    · rw [if_neg (by omega)]
  · unfold getMatrix; rw [if_pos h]
  · unfold getMatrix; rw [if_neg (by omega), if_neg (by omega), if_pos h]

/-- `get_matrix_inverse` returns the inverse matrix for `1 ≤ n ≤ 5`. -/
theorem C09_get_inverse {E : Env R K} {φ : R →+* K} (hE : EnvOK E φ) (n : ℤ) (h1 : 1 ≤ n)
    (h5 : n ≤ 5) : ∃ B, getMatrixInverse E.inv n = .ok B ∧ IsSquare' (3 ^ n.toNat) B ∧
      toMatrix (3 ^ n.toNat) B = (toMatrix (3 ^ n.toNat) (signMatrix n.toNat))⁻¹ := by
  obtain ⟨B, hB⟩ := hE.inv _ _ (isSquare_signMatrix n.toNat) (isUnit_det_signMatrix n.toNat)
  refine ⟨B, ?_, hB.2⟩
  unfold getMatrixInverse
  rw [if_neg (by omega)]
  split
  · rename_i h; subst h; exact hB.1
  · rw [if_neg (by omega)]; exact hB.1

example : signMatrix 2 = [[1, 1, 1, 1, 1, 1, 1, 1, 1], [0, 1, -1, 0, 1, -1, 0, 1, -1],
    [0, 1, 1, 0, 1, 1, 0, 1, 1], [0, 0, 0, 1, 1, 1, -1, -1, -1], [0, 0, 0, 0, 1, -1, 0, -1, 1],
    [0, 0, 0, 0, 1, 1, 0, -1, -1], [0, 0, 0, 1, 1, 1, 1, 1, 1], [0, 0, 0, 0, 1, -1, 0, 1, -1],
    [0, 0, 0, 0, 1, 1, 0, 1, 1]] := by decide +kernel

example : signVec 2 5 = [1, -1] := by decide

/-! ## C12 -/

/-- **C12**. -/
theorem C12_product_list (φ : R →+* K) (ps : List (List R)) :
    (makeProductList ps).length = 3 ^ ps.length ∧
    ∀ es : List ℕ, es.length = ps.length → (∀ e ∈ es, e ≤ 2) →
      ∃ q, (makeProductList ps)[digitsIndex es]? = some q ∧
        denote φ q = (List.zipWith (fun p e => denote φ p ^ e) ps es).prod :=
  ⟨length_makeProductList ps, fun es h1 h2 => makeProductList_get φ ps es h1 h2⟩

example : digitsIndex [2, 1] = 7 ∧ ([2, 1] : List ℕ).length = ([[1, 1], [5, 2]] : List (List ℤ)).length
    ∧ (makeProductList ([[1, 1], [5, 2]] : List (List ℤ)))[7]? = some [5, 12, 9, 2] := by
  decide +kernel

/-! ## C13 -/

/-- **C13**, multiplication. -/
theorem C13_multiply (φ : R →+* K) (p q : List R) :
    denote φ (multiply p q) = denote φ p * denote φ q := denote_multiply φ p q

/-- **C13**, differentiation. -/
theorem C13_derivative (φ : R →+* K) (p : List R) :
    denote φ (derivative p) = Polynomial.derivative (denote φ p) := denote_derivative φ p

/-- **C13**, evaluation. -/
theorem C13_evaluate (φ : R →+* K) (p : List R) (x : K) :
    evaluatePoly φ p x = (denote φ p).eval x := evaluatePoly_eq φ p x

/-- **C13**, normalization is preserved. -/
theorem C13_normalized {φ : R →+* K} (hφ : Function.Injective φ) (p q : List R)
    (hp : Normalized p) :
    (Normalized q → Normalized (multiply p q)) ∧
    (derivative p = [] ∨ Normalized (derivative p)) :=
  ⟨fun hq => normalized_multiply hφ hp hq, normalized_derivative hφ hp⟩

example : multiply ([1, 2] : List ℤ) [3, 0, 1] = [3, 6, 1, 2] ∧ derivative ([1, 2, 5] : List ℤ) = [2, 10] ∧
    Normalized ([1, 2] : List ℤ) ∧ Function.Injective (ιℝ : ℤ →+* ℝ) :=
  ⟨by decide +kernel, by decide +kernel, normalized_int [1] 2 (by decide),
    stdEnv_ok.mono.injective⟩

end Verif.Vts
