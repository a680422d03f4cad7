import Verif.Qe.FloatBad
import Verif.Qe.PropsPartial

/-!
# C87: real diagrams with floating point columns

The columns of real sign diagrams are doubles, and a new column is put halfway between two old ones. The
theorems of `PropsMuchnikReal.lean` and `PropsPartial.lean` speak about exact midpoints; here it is shown up to
which number of polynomials doubles behave like that, and what happens with one polynomial more.
-/

set_option linter.unusedSectionVars false

open Polynomial Verif.Alg

namespace Verif.Qe

variable {R : Type} [CommRing R] [DecidableEq R]

theorem double_exact (k : ℕ) (hk : k ≤ 52) (a b : ℚ) (ha : Dy k a) (hb : Dy k b) :
    doubleMid a b = (a + b) / 2 := Dy.double hk ha hb

/-- **C87** is violated: `1 - x < 0`, ..., `51 - x < 0`, `52 - x = 0`, `53 - x > 0` hold at `x = 52`, but
the procedure computing with doubles says that they are not satisfiable. -/
theorem C87_violated :
    (∃ N, ∀ fuel ≥ N, realFullDouble intAlg fuel
      ((List.range 51).map fun i => [((i + 1 : ℕ) : ℤ), -1]) [[52, -1]] [[53, -1]] = .ok ⟨[], false⟩) ∧
    (∀ q ∈ (List.range 51).map fun i => [((i + 1 : ℕ) : ℤ), -1], value (Int.castRingHom ℝ) q 52 < 0) ∧
    value (Int.castRingHom ℝ) [52, -1] 52 = 0 ∧ 0 < value (Int.castRingHom ℝ) [53, -1] 52 := by
  refine ⟨?_, ?_, by norm_num [value], by norm_num [value]⟩
  · exact full_collide (mid := doubleMid) (n := 52) (by decide) double_exact (by decide +kernel)
      (by decide +kernel)
  · intro q hq
    obtain ⟨i, hi, rfl⟩ := List.mem_map.1 hq
    have := List.mem_range.1 hi
    have h : (i : ℝ) ≤ 50 := by exact_mod_cast (by omega : i ≤ 50)
    simp only [value, eq_intCast, Nat.cast_add, Nat.cast_one, Int.cast_add,
      Int.cast_natCast, Int.cast_one, Int.cast_neg]
    linarith

/-- What holds instead of **C87**, for the diagrams: if at most 52 members of the sequence contain the
eliminated variable, the extension of a diagram with the three initial columns computes the same with
doubles as with exact midpoints. -/
theorem C87_diagram_partial (A : MAlg R) (ps : List (List R)) (hps : ps.length ≤ 52) (d : Diagram R ℚ)
    (hd : ∀ q, ∀ i ∈ (dRow d q).map Prod.fst, i = 0 ∨ i = 1/2 ∨ i = 1) :
    realExtendM doubleMid A d ps = realExtend A d ps := by
  refine realExtendM_eq_all (n := 52) double_exact A (k := 1) ?_ (by omega)
  intro q i hi
  rcases hd q i hi with rfl | rfl | rfl
  · exact dy_zero 1
  · exact dy_half
  · exact dy_one 1

/-- What holds instead of **C87** for `real_full` with parameters: if at most 52 members of the sequence
contain the eliminated variable, the returned disjunction is an equivalence (larger sequences are
missing; by `C87_violated` 53 are too many). -/
theorem C87_real_full_partial [IsDomain R] (A : MAlg R) (h0 : A.hasVar 0 = false)
    (hmul : ∀ (c : R) (n : ℕ), n ≠ 0 → A.hasVar c = true → A.hasVar (c * n) = true)
    (hsign : ∀ c, A.sign c = -1 ∨ A.sign c = 0 ∨ A.sign c = 1)
    (lesser eqs greater : List (List R)) (hn : ∀ p ∈ lesser ++ eqs ++ greater, Normal p)
    (hpar : ∃ p ∈ lesser ++ eqs ++ greater, ∃ c ∈ p, A.hasVar c = true) :
    ∃ (N : ℕ) (S : List (List R)),
      (∀ fuel ≥ N, muchnikSeq A fuel [[]] (lesser ++ eqs ++ greater) = .ok S) ∧
      ((S.filter fun q => 2 ≤ q.length).length ≤ 52 →
        ∃ out : QOut (List (List R) × List (List R) × List (List R)),
          (∀ fuel ≥ N, realFullDouble A fuel lesser eqs greater = .ok out) ∧
          (∀ z ∈ out.ret, ∀ c ∈ z.1 ++ z.2.1 ++ z.2.2, c.length ≤ 1) ∧
          ∀ {K : Type} [Field K] [LinearOrder K] [IsStrictOrderedRing K] [PolyIVT K] (φ : R →+* K),
            ScalarSigns A φ →
            ((∃ z ∈ out.ret, (∀ c ∈ z.1, value φ c 0 < 0) ∧ (∀ c ∈ z.2.1, value φ c 0 = 0) ∧
                ∀ c ∈ z.2.2, 0 < value φ c 0) ↔
              ∃ x, (∀ q ∈ lesser, value φ q x < 0) ∧ (∀ q ∈ eqs, value φ q x = 0) ∧
                ∀ q ∈ greater, 0 < value φ q x)) := by
  obtain ⟨N, out, h1, h2, h3⟩ := C23_real_full A h0 hmul hsign lesser eqs greater hn hpar
  obtain ⟨N', S, h1', -⟩ := muchnikSeq_total A (lesser ++ eqs ++ greater) fun p hp => canon_of_normal (hn p hp)
  refine ⟨max N N', S, fun fuel hf => h1' fuel (le_trans (le_max_right _ _) hf), ?_⟩
  intro hS
  refine ⟨out, ?_, h2, fun φ hφ => h3 φ hφ⟩
  intro fuel hf
  rw [← h1 fuel (le_trans (le_max_left _ _) hf)]
  refine realFullM_eq (n := 52) double_exact A (h1' fuel (le_trans (le_max_right _ _) hf)) ?_
  refine le_trans (le_of_eq (congrArg _ (List.filter_congr fun q _ => ?_))) hS
  rw [isConst, ← decide_not]
  exact decide_eq_decide.2 (by omega)

/-- What holds instead of **C87** for `real_full` without parameters: if at most 52 members of the sequence
contain the variable, the line printed at the end is right. -/
theorem C87_decision_partial [IsDomain R] (A : MAlg R) (hA : ∀ c, A.hasVar c = false)
    (hsign : ∀ c, A.sign c = -1 ∨ A.sign c = 0 ∨ A.sign c = 1)
    (lesser eqs greater : List (List R)) (hn : ∀ p ∈ lesser ++ eqs ++ greater, Normal p) :
    ∃ (N : ℕ) (S : List (List R)),
      (∀ fuel ≥ N, muchnikSeq A fuel [[]] (lesser ++ eqs ++ greater) = .ok S) ∧
      ((S.filter fun q => 2 ≤ q.length).length ≤ 52 →
        ∃ out : QOut (List (List R) × List (List R) × List (List R)),
          (∀ fuel ≥ N, realFullDouble A fuel lesser eqs greater = .ok out) ∧
          ∀ {K : Type} [Field K] [LinearOrder K] [IsStrictOrderedRing K] [PolyIVT K] (φ : R →+* K),
            ScalarSigns A φ →
            (out.satisfiable = true ↔
              ∃ x, (∀ q ∈ lesser, value φ q x < 0) ∧ (∀ q ∈ eqs, value φ q x = 0) ∧
                ∀ q ∈ greater, 0 < value φ q x)) := by
  obtain ⟨N, out, h1, -, h3⟩ := C26_real_partial A hA hsign lesser eqs greater hn
  obtain ⟨N', S, h1', -⟩ := muchnikSeq_total A (lesser ++ eqs ++ greater) fun p hp => canon_of_normal (hn p hp)
  refine ⟨max N N', S, fun fuel hf => h1' fuel (le_trans (le_max_right _ _) hf), ?_⟩
  intro hS
  refine ⟨out, ?_, fun φ hφ => h3 φ hφ⟩
  intro fuel hf
  rw [← h1 fuel (le_trans (le_max_left _ _) hf)]
  refine realFullM_eq (n := 52) double_exact A (h1' fuel (le_trans (le_max_right _ _) hf)) ?_
  refine le_trans (le_of_eq (congrArg _ (List.filter_congr fun q _ => ?_))) hS
  rw [isConst, ← decide_not]
  exact decide_eq_decide.2 (by omega)

theorem interactive_cols (A : MAlg R) : ∀ (cs : List (List R)) (lines : List String) (D D' : Diagram R ℚ),
    ColsIn (Dy 1) D → rInteractiveLoop A cs lines D = .ok D' → ColsIn (Dy 1) D'
  | [], _, D, D', h, e => by
    unfold rInteractiveLoop at e
    cases e; exact h
  | c :: cs, lines, D, D', h, e => by
    unfold rInteractiveLoop at e
    split at e
    · cases hv : interactiveValue [("-1", -1), ("0", 0), ("1", 1)] lines with
      | error err => rw [hv] at e; cases e
      | ok r =>
        rw [hv] at e
        exact interactive_cols A cs _ _ D' (h.write3 c _) e
    · exact interactive_cols A cs _ _ D' (h.write3 c _) e

theorem all_cols (A : MAlg R) (s : ℤ) (cs : List (List R)) : ColsIn (Dy 1) (rAssignmentAll A s cs) := by
  unfold rAssignmentAll
  have : ∀ (cs : List (List R)) (D : Diagram R ℚ), ColsIn (Dy 1) D → ColsIn (Dy 1) (cs.foldl (fun D c =>
    write3 D c (if hasVariable A c then s else A.sign (c.headD 0))) D) := by
    intro cs
    induction cs with
    | nil => intro D h; exact h
    | cons c cs ih => intro D h; exact ih _ (h.write3 c _)
  exact this cs [] (colsIn_nil _)

theorem partial_eq (A : MAlg R) (ps : List (List R)) (f : List (List R) → Except PErr (Diagram R ℚ))
    (hf : ∀ cs d, f cs = .ok d → ColsIn (Dy 1) d) (fuel : ℕ) (S : List (List R))
    (hS : muchnikSeq A fuel [[]] ps = .ok S) (hl : (S.filter fun q => 2 ≤ q.length).length ≤ 52) :
    realPartialM doubleMid A fuel ps (some f) = realPartial A fuel ps (some f) := by
  unfold realPartialM realPartial
  simp only [hS, liftQ, bind, Except.bind, assignWith]
  cases hd : f (S.filter fun p => isConst p) with
  | error e => rfl
  | ok d =>
    simp only
    rw [realExtendM_eq_all (n := 52) double_exact A (k := 1) (hf _ d hd)]
    have : (S.filter fun p => !isConst p) = S.filter fun q => 2 ≤ q.length := by
      refine List.filter_congr fun q _ => ?_
      rw [isConst, ← decide_not]
      exact decide_eq_decide.2 (by omega)
    rw [this]; omega

/-- What holds instead of **C87** for `real_partial`: with the interactive assignment and with the
automatic ones, if at most 52 members of the sequence contain the variable, the result is the one of exact
midpoints, about which **C69** speaks. -/
theorem C87_real_partial_partial (A : MAlg R) (ps S : List (List R)) (fuel : ℕ)
    (hS : muchnikSeq A fuel [[]] ps = .ok S) (hl : (S.filter fun q => 2 ≤ q.length).length ≤ 52) :
    (∀ lines, realPartialM doubleMid A fuel ps (some (rAssignmentInteractive A lines)) =
      realPartial A fuel ps (some (rAssignmentInteractive A lines))) ∧
    ∀ s : ℤ, realPartialM doubleMid A fuel ps (some fun cs => .ok (rAssignmentAll A s cs)) =
      realPartial A fuel ps (some fun cs => .ok (rAssignmentAll A s cs)) := by
  constructor
  · intro lines
    exact partial_eq A ps _ (fun cs d h => interactive_cols A cs lines [] d (colsIn_nil _) h) fuel S hS hl
  · intro s
    refine partial_eq A ps _ (fun cs d h => ?_) fuel S hS hl
    cases h; exact all_cols A s cs

/-- `x² - 2 = 0`, `x - 1 > 0`: the sequence has 3 members containing `x`, and the answer with doubles is
right. -/
example : (do
      let S ← muchnikSeq intAlg 60 [[]] [[-2, 0, 1], [-1, 1]]
      let o ← realFullDouble intAlg 60 [] [[-2, 0, 1]] [[-1, 1]]
      .ok ((S.filter fun q => 2 ≤ q.length).length, o.satisfiable) : Except QErr (ℕ × Bool)).toOption =
        some (3, true) := by
  decide +kernel

/-- The hypotheses of `C87_decision_partial` hold for integer coefficients. -/
example : (∀ c : ℤ, intAlg.hasVar c = false) ∧
    (∀ c : ℤ, intAlg.sign c = -1 ∨ intAlg.sign c = 0 ∨ intAlg.sign c = 1) ∧
    ∀ p ∈ [] ++ [[(-2 : ℤ), 0, 1]] ++ [[-1, 1]], Normal p := by
  refine ⟨fun _ => rfl, fun c => ?_, ?_⟩
  · show Int.sign c = -1 ∨ Int.sign c = 0 ∨ Int.sign c = 1
    rcases Int.sign_trichotomy c with h | h | h <;> simp [h]
  · intro p hp h
    simp only [List.nil_append, List.cons_append, List.mem_cons, List.not_mem_nil, or_false] at hp
    rcases hp with rfl | rfl <;> simp

/-- The extension of `1 - x, 2 - x, 3 - x` with doubles: the three initial columns become nine. -/
example : (do
      let D ← realExtendM doubleMid intAlg
        (([[], [1], [-1], [2], [-2]] : List (List ℤ)).map fun q =>
          (q, [(0, signZ (q.headD 0)), (1/2, signZ (q.headD 0)), (1, signZ (q.headD 0))]))
        [[1, -1], [2, -1], [3, -1]]
      .ok ((dRow D []).map Prod.fst) : Except QErr (List ℚ)).toOption =
        some [0, 1/2, 1, 1/4, 3/4, 5/8, 7/8, 13/16, 15/16] := by
  decide +kernel

end Verif.Qe
