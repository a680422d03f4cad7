import Verif.Qe.OldMain
import Verif.Qe.PropsCohenHormander

/-!
# Properties of the earlier version of the Cohen-Hörmander procedure (`cohenhorm - Copy.py`)
-/

set_option linter.unusedSectionVars false

namespace Verif.Qe

open Polynomial Verif.Alg

variable {R : Type} [CommRing R] [DecidableEq R]

/-- the exception -/
def oldErr {α : Type} : Except OldErr α → Option OldErr
  | .ok _ => none
  | .error e => some e

theorem oldErr_some {α : Type} {x : Except OldErr α} {e : OldErr} (h : oldErr x = some e) : x = .error e := by
  cases x with
  | ok _ => cases h
  | error e' => cases h; rfl

/-! ### C121 -/

/-- **C121** is violated: `real_full` raises an exception on every input. -/
theorem C121_violated (A : MAlg R) (equalities : List (List R)) :
    ∃ e, oldFull A equalities = .error e := ⟨.iter, rfl⟩

/-- **C121** is violated: with any bound on the recursion `_real_table` raises an exception on `x³ - 3x` (the
remainders by the derivative are not kept). -/
theorem C121_cubic_violated (iter : ℤ) : ∃ e, oldTable intAlg [[0, -3, 0, 1]] [] iter = .error e := by
  unfold oldTable
  generalize (iter + 1).toNat = n
  have key : oldTableN intAlg 10 [[0, -3, 0, 1]] [] = .error (.other .keyError) :=
    oldErr_some (by decide +kernel)
  rcases le_total 10 n with hn | hn
  · exact ⟨_, (oldTableN_mono intAlg 10 n _ _ hn (by rw [key]; simp)).trans key⟩
  · by_cases h : oldTableN intAlg n [[0, -3, 0, 1]] [] = .error .iter
    · exact ⟨_, h⟩
    · exact ⟨_, (oldTableN_mono intAlg n 10 _ _ hn h).symm.trans key⟩

/-- The result of `_real_table` does not depend on the bound, as long as the bound is not reached. -/
theorem C121_bound_partial (A : MAlg R) (polys : List (List R)) (c : Ctx R) (i j : ℤ)
    (hi : oldTable A polys c i ≠ .error .iter) (hj : oldTable A polys c j ≠ .error .iter) :
    oldTable A polys c i = oldTable A polys c j := by
  unfold oldTable at hi hj ⊢
  rcases le_total (i + 1).toNat (j + 1).toNat with h | h
  · exact (oldTableN_mono A _ _ _ _ h hi).symm
  · exact oldTableN_mono A _ _ _ _ h hj

/-- For `x² - 2` and the bounds 4 and 9 this applies. -/
example : oldTable intAlg [[-2, 0, 1]] [] 4 ≠ .error .iter ∧ oldTable intAlg [[-2, 0, 1]] [] 9 ≠ .error .iter := by
  refine ⟨fun h => ?_, fun h => ?_⟩
  · exact absurd (congrArg oldErr h) (by decide +kernel)
  · exact absurd (congrArg oldErr h) (by decide +kernel)

/-- What holds instead of **C121**: a table that `_real_table` returns for polynomials without parameters is
right. Its rows are the given polynomials and some others; its columns `cols` are in increasing order the sign
vector of these polynomials at `-∞`, on the interval before the first root `xs[0]`, at `xs[0]`, on the interval up
to `xs[1]`, ..., on the interval after the last root, and at `+∞`. The `xs` are exactly the roots of the
nonzero ones among them. When the given polynomials are nonzero there is exactly one table. -/
theorem C121_partial [IsDomain R] [CharZero R] (A : MAlg R) (hA : GoodScalars A)
    (hpar : ∀ c, A.hasVar c = false) (polys : List (List R)) (hn : ∀ p ∈ polys, Normal p) (iter : ℤ)
    (out : List (Table R × Ctx R)) (hrun : oldTable A polys [] iter = .ok out) :
    (polys ≠ [] → [] ∉ polys → out.length = 1) ∧
      ∀ t ∈ out, (∀ q ∈ polys, q ∈ t.1.map Prod.fst) ∧
      ∀ {K : Type} [Field K] [LinearOrder K] [IsStrictOrderedRing K] [PolyIVT K] (φ : R →+* K),
        ScalarSigns A φ →
        ∃ (cols : List ℚ) (xs : List K),
          cols.length = 2 * xs.length + 3 ∧ cols.Pairwise (· < ·) ∧ xs.Pairwise (· < ·) ∧
          (∀ q ∈ t.1.map Prod.fst,
            ((dRow t.1 q).map Prod.fst).Nodup ∧ ∀ i, i ∈ (dRow t.1 q).map Prod.fst ↔ i ∈ cols) ∧
          (∀ x, x ∈ xs ↔ ∃ q ∈ t.1.map Prod.fst, (∃ y, value φ q y ≠ 0) ∧ value φ q x = 0) ∧
          (∃ M, ∀ q ∈ t.1.map Prod.fst, ∀ x < M,
            dRead t.1 q (cols.getD 0 0) = .ok (signZ (value φ q x))) ∧
          (∀ i ≤ xs.length, ∀ x, (∀ y ∈ xs.take i, y < x) → (∀ y ∈ xs.drop i, x < y) →
            ∀ q ∈ t.1.map Prod.fst, dRead t.1 q (cols.getD (2 * i + 1) 0) = .ok (signZ (value φ q x))) ∧
          (∀ i < xs.length, ∀ q ∈ t.1.map Prod.fst,
            dRead t.1 q (cols.getD (2 * i + 2) 0) = .ok (signZ (value φ q (xs.getD i 0)))) ∧
          (∃ M, ∀ q ∈ t.1.map Prod.fst, ∀ x > M,
            dRead t.1 q (cols.getD (2 * xs.length + 2) 0) = .ok (signZ (value φ q x))) := by
  have hcan : ∀ p ∈ polys, Canon p := fun p hp => canon_of_normal (hn p hp)
  unfold oldTable at hrun
  refine ⟨(oldTableN_ok (K := ℝ) hA.algOK hpar _ polys [] out (ctxOK_nil A) hcan hrun).2, ?_⟩
  intro t ht
  constructor
  · obtain ⟨_, rows, gs, h1, _, h2, _⟩ :=
      (oldTableN_ok (K := ℝ) hA.algOK hpar _ polys [] out (ctxOK_nil A) hcan hrun).1 t ht
    exact fun q hq => (h2.keys q).2 (h1 q hq)
  · intro K _ _ _ _ φ hφ
    obtain ⟨_, rows, gs, h1, _, h2, h3⟩ :=
      (oldTableN_ok (K := K) hA.algOK hpar _ polys [] out (ctxOK_nil A) hcan hrun).1 t ht
    obtain ⟨cols, xs, k1, k2, k3, k4, k5, ⟨M, k6⟩, k7, k8, M', k9⟩ :=
      h2.columns (h3 φ ⟨hφ.rval hA, by simp [dGet]⟩)
    have hk := fun q => h2.keys q
    refine ⟨cols, xs, k1, k2, k3, fun q hq => k4 q ((hk q).1 hq), fun x => ?_,
      ⟨M, fun q hq => k6 q ((hk q).1 hq)⟩, fun i hi x h h' q hq => k7 i hi x h h' q ((hk q).1 hq),
      fun i hi q hq => k8 i hi q ((hk q).1 hq), M', fun q hq => k9 q ((hk q).1 hq)⟩
    rw [k5]
    exact ⟨fun ⟨q, hq, h⟩ => ⟨q, (hk q).2 hq, h⟩, fun ⟨q, hq, h⟩ => ⟨q, (hk q).1 hq, h⟩⟩

/-- The hypotheses of C121 hold for `x² - 2` and `x² - 1`: there is a table. It also has a row for the derivative
of the first one, and 13 columns (five roots). -/
example : GoodScalars intAlg ∧ (∀ c, intAlg.hasVar c = false) ∧
    (∀ p ∈ [[(-2 : ℤ), 0, 1], [-1, 0, 1]], Normal p) ∧
    ((oldTable intAlg [[(-2 : ℤ), 0, 1], [-1, 0, 1]] [] 10).toOption.map fun out =>
      out.map fun t => (t.1.map Prod.fst, (dRow t.1 [-2, 0, 1]).length)) =
        some [([[-1, 0, 1], [0, 2], [-2, 0, 1]], 13)] := by
  refine ⟨.intAlg, fun _ => rfl, ?_, by decide +kernel⟩
  intro p hp h
  fin_cases hp <;> simp

end Verif.Qe
