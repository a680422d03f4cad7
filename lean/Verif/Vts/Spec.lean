import Mathlib.Algebra.Polynomial.Eval.Defs
import Mathlib.Algebra.Polynomial.Basic
import Mathlib.LinearAlgebra.Matrix.NonsingularInverse
import Mathlib.Data.Matrix.Basic
import Verif.Vts.Model

/-!
# Specification vocabulary for the `vts` package

Independent of the model's functions: what a coefficient list denotes, and what is assumed of the
external libraries.
-/

open Polynomial

namespace Verif.Vts

variable {R : Type} [CommRing R] [LinearOrder R] {K : Type} [Field K] [LinearOrder K]

/-- The polynomial over `K` denoted by a coefficient list (index = power). -/
noncomputable def denote (φ : R →+* K) : List R → K[X]
  | [] => 0
  | c :: l => C (φ c) + X * denote φ l

/-- The coefficient list is nonempty and its leading coefficient is not zero. -/
def Normalized (p : List R) : Prop := ∃ c, p.getLast? = some c ∧ c ≠ 0

/-- A list of rows read as an `n × n` matrix. -/
def toMatrix (n : ℕ) (A : List (List ℚ)) : Matrix (Fin n) (Fin n) ℚ :=
  fun i j => (A.getD i []).getD j 0

/-- `A` has `n` rows of length `n`. -/
def IsSquare' (n : ℕ) (A : List (List ℚ)) : Prop := A.length = n ∧ ∀ r ∈ A, r.length = n

/-- Assumptions on the external libraries: `φ` embeds coefficients, `MkRoots` lists the distinct
roots of a nonzero polynomial in `K`, `Matrix.inv` computes the inverse of an invertible matrix. -/
structure EnvOK (E : Env R K) (φ : R →+* K) : Prop where
  φ_eq : ∀ c, E.φ c = φ c
  mono : StrictMono φ
  roots : ∀ p, denote φ p ≠ 0 →
    ∃ rs, E.mkRoots p = .ok rs ∧ rs.Nodup ∧ ∀ x, x ∈ rs ↔ (denote φ p).eval x = 0
  inv : ∀ n A, IsSquare' n A → IsUnit (toMatrix n A).det →
    ∃ B, E.inv A = .ok B ∧ IsSquare' n B ∧ toMatrix n B = (toMatrix n A)⁻¹

/-- `s` is the sign (`1`, `0`, `-1`) of `v`. -/
def IsSign (v : K) (s : ℤ) : Prop := (0 < v ∧ s = 1) ∨ (v = 0 ∧ s = 0) ∨ (v < 0 ∧ s = -1)

/-- The `n` base-3 digits of `i`, most significant first, digit 0, 1, 2 standing for sign
`0`, `1`, `-1`: the sign vector with number `i`. -/
def signVec : ℕ → ℕ → List ℤ
  | 0, _ => []
  | n + 1, i => (if i / 3 ^ n = 0 then 0 else if i / 3 ^ n = 1 then 1 else -1) :: signVec n (i % 3 ^ n)

/-- The number with the given base-3 digits, most significant first. -/
def digitsIndex (es : List ℕ) : ℕ := es.foldl (fun acc e => 3 * acc + e) 0

/-- Satisfiability of a constraint system over `K`. -/
def Satisfiable (φ : R →+* K) (le lt eq ne : List (List R)) : Prop :=
  ∃ x : K, (∀ p ∈ le, (denote φ p).eval x ≤ 0) ∧ (∀ p ∈ lt, (denote φ p).eval x < 0) ∧
    (∀ p ∈ eq, (denote φ p).eval x = 0) ∧ (∀ p ∈ ne, (denote φ p).eval x ≠ 0)

end Verif.Vts
