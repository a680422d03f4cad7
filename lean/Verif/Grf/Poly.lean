import Mathlib.Algebra.Order.Field.Rat
import Mathlib.Algebra.Field.Basic
import Mathlib.Data.Rat.Cast.CharZero
import Mathlib.Algebra.Order.Ring.Cast
import Mathlib.Data.Rat.Cast.Order
import Mathlib.Tactic.Ring
import Mathlib.Tactic.Linarith
import Mathlib.Tactic.LinearCombination

/-!
# Polynomials over ℚ in the variables `x0, x1, ...`

A computable stand-in for the Sage polynomials over `PolynomialRing(QQ, 'x', n)` used in `GRF/grf.sage`
(`grf.sage:271-288`): distributed representation, like terms combined and zero terms dropped. The number of
variables of the ring is not part of a polynomial (Sage coerces between the rings,
`smt2.py:71-75`, `grf.sage:97`).
-/

set_option linter.unusedSectionVars false

namespace Verif.Grf

/-- A monomial: the exponents of `x0, x1, ...` (without trailing zeros). -/
abbrev Mono := List ℕ

/-- Product of monomials. -/
def Mono.mul : Mono → Mono → Mono
  | [], b => b
  | a, [] => a
  | x :: a, y :: b => (x + y) :: Mono.mul a b

/-- A polynomial: monomials with nonzero coefficients. -/
abbrev MPoly := List (Mono × ℚ)

/-- Add one term. -/
def addTerm (m : Mono) (c : ℚ) : MPoly → MPoly
  | [] => if c = 0 then [] else [(m, c)]
  | (m', c') :: p =>
    if m' = m then (if c + c' = 0 then p else (m, c + c') :: p) else (m', c') :: addTerm m c p

/-- Sum. -/
def MPoly.add (p q : MPoly) : MPoly := p.foldr (fun t r => addTerm t.1 t.2 r) q

/-- Product with a term. -/
def MPoly.mulTerm (m : Mono) (c : ℚ) (p : MPoly) : MPoly :=
  p.foldr (fun t r => addTerm (m.mul t.1) (c * t.2) r) []

/-- Product. -/
def MPoly.mul (p q : MPoly) : MPoly := p.foldr (fun t r => (MPoly.mulTerm t.1 t.2 q).add r) []

/-- Negation. -/
def MPoly.neg (p : MPoly) : MPoly := p.map fun t => (t.1, -t.2)

/-- Difference. -/
def MPoly.sub (p q : MPoly) : MPoly := p.add q.neg

/-- Constants. -/
def MPoly.const (c : ℚ) : MPoly := if c = 0 then [] else [([], c)]

/-- Variables. -/
def MPoly.var (i : ℕ) : MPoly := [(List.replicate i 0 ++ [1], 1)]

/-- Exponent of a variable. -/
def Mono.exp (m : Mono) (i : ℕ) : ℕ := m.getD i 0

/-- The variables of a monomial. -/
def Mono.vars (m : Mono) : List ℕ := (List.range m.length).filter fun i => decide (0 < m.exp i)

/-- `p.variables()`: the variables that occur, in increasing order. -/
def MPoly.vars (p : MPoly) : List ℕ :=
  (List.range ((p.map fun t => t.1.length).foldr max 0)).filter fun i => p.any fun t => decide (0 < t.1.exp i)

/-- Total degree of a monomial. -/
def Mono.deg (m : Mono) : ℕ := m.sum

/-- `p.total_degree()` (0 for the zero polynomial, where Sage gives -1 or 0 depending on the version). -/
def MPoly.totalDegree (p : MPoly) : ℕ := (p.map fun t => t.1.deg).foldr max 0

/-- `p.degree(v)`. -/
def MPoly.degreeIn (p : MPoly) (v : ℕ) : ℕ := (p.map fun t => t.1.exp v).foldr max 0

/-- `p.is_constant()` -/
def MPoly.isConstant (p : MPoly) : Bool := p.all fun t => decide (t.1.deg = 0)

section
variable {K : Type*} [Field K]

/-- Value of a monomial whose first exponent belongs to variable `i`. -/
def Mono.evalFrom (ρ : ℕ → K) : ℕ → Mono → K
  | _, [] => 1
  | i, e :: m => ρ i ^ e * Mono.evalFrom ρ (i + 1) m

/-- Value of a polynomial at a point. -/
def MPoly.eval (ρ : ℕ → K) (p : MPoly) : K := (p.map fun t => (t.2 : K) * Mono.evalFrom ρ 0 t.1).sum

theorem Mono.evalFrom_mul (ρ : ℕ → K) : ∀ (a b : Mono) (i : ℕ),
    Mono.evalFrom ρ i (a.mul b) = Mono.evalFrom ρ i a * Mono.evalFrom ρ i b
  | [], b, i => by simp [Mono.mul, Mono.evalFrom]
  | x :: a, [], i => by simp [Mono.mul, Mono.evalFrom]
  | x :: a, y :: b, i => by
    simp only [Mono.mul, Mono.evalFrom]
    rw [Mono.evalFrom_mul ρ a b, pow_add]; ring

theorem MPoly.eval_nil (ρ : ℕ → K) : MPoly.eval ρ [] = 0 := rfl

theorem MPoly.eval_cons (ρ : ℕ → K) (t : Mono × ℚ) (p : MPoly) :
    MPoly.eval ρ (t :: p) = (t.2 : K) * Mono.evalFrom ρ 0 t.1 + MPoly.eval ρ p := by
  simp [MPoly.eval]

variable [CharZero K]

theorem eval_addTerm (ρ : ℕ → K) (m : Mono) (c : ℚ) (p : MPoly) :
    MPoly.eval ρ (addTerm m c p) = (c : K) * Mono.evalFrom ρ 0 m + MPoly.eval ρ p := by
  induction p with
  | nil =>
    unfold addTerm
    split
    · next h => subst h; simp [MPoly.eval]
    · rw [MPoly.eval_cons]
  | cons t p ih =>
    obtain ⟨m', c'⟩ := t
    unfold addTerm
    split
    · next h =>
      subst h
      rw [MPoly.eval_cons]
      split
      · next h =>
        have : (c : K) + (c' : K) = 0 := by exact_mod_cast h
        linear_combination (-Mono.evalFrom ρ 0 m') * this
      · rw [MPoly.eval_cons]; push_cast; ring
    · rw [MPoly.eval_cons, ih, MPoly.eval_cons]; ring

theorem MPoly.eval_add (ρ : ℕ → K) (p q : MPoly) : MPoly.eval ρ (p.add q) = p.eval ρ + q.eval ρ := by
  induction p with
  | nil => simp [MPoly.add, MPoly.eval_nil]
  | cons t p ih =>
    show MPoly.eval ρ (addTerm t.1 t.2 (MPoly.add p q)) = _
    rw [eval_addTerm, ih, MPoly.eval_cons]; ring

theorem MPoly.eval_neg (ρ : ℕ → K) (p : MPoly) : MPoly.eval ρ p.neg = -p.eval ρ := by
  induction p with
  | nil => simp [MPoly.neg, MPoly.eval_nil]
  | cons t p ih =>
    show MPoly.eval ρ ((t.1, -t.2) :: MPoly.neg p) = _
    rw [MPoly.eval_cons, MPoly.eval_cons, ih]; push_cast; ring

theorem MPoly.eval_sub (ρ : ℕ → K) (p q : MPoly) : MPoly.eval ρ (p.sub q) = p.eval ρ - q.eval ρ := by
  rw [MPoly.sub, MPoly.eval_add, MPoly.eval_neg]; ring

theorem MPoly.eval_mulTerm (ρ : ℕ → K) (m : Mono) (c : ℚ) (p : MPoly) :
    MPoly.eval ρ (MPoly.mulTerm m c p) = (c : K) * Mono.evalFrom ρ 0 m * p.eval ρ := by
  induction p with
  | nil => simp [MPoly.mulTerm, MPoly.eval_nil]
  | cons t p ih =>
    show MPoly.eval ρ (addTerm (m.mul t.1) (c * t.2) (MPoly.mulTerm m c p)) = _
    rw [eval_addTerm, ih, MPoly.eval_cons, Mono.evalFrom_mul]; push_cast; ring

theorem MPoly.eval_mul (ρ : ℕ → K) (p q : MPoly) : MPoly.eval ρ (p.mul q) = p.eval ρ * q.eval ρ := by
  induction p with
  | nil => simp [MPoly.mul, MPoly.eval_nil]
  | cons t p ih =>
    show MPoly.eval ρ ((MPoly.mulTerm t.1 t.2 q).add (MPoly.mul p q)) = _
    rw [MPoly.eval_add, MPoly.eval_mulTerm, ih, MPoly.eval_cons]; ring

theorem MPoly.eval_const (ρ : ℕ → K) (c : ℚ) : MPoly.eval ρ (MPoly.const c) = c := by
  unfold MPoly.const
  split
  · next h => subst h; simp [MPoly.eval_nil]
  · simp [MPoly.eval, Mono.evalFrom]

theorem MPoly.eval_var (ρ : ℕ → K) (i : ℕ) : MPoly.eval ρ (MPoly.var i) = ρ i := by
  have : ∀ (n j : ℕ), Mono.evalFrom ρ j (List.replicate n 0 ++ [1]) = ρ (j + n) := by
    intro n
    induction n with
    | zero => intro j; simp [Mono.evalFrom]
    | succ n ih =>
      intro j
      rw [List.replicate_succ, List.cons_append, Mono.evalFrom, ih, pow_zero, one_mul]
      congr 1; ring
  simp [MPoly.var, MPoly.eval, this]

end

theorem le_foldr_max {l : List ℕ} {a : ℕ} (h : a ∈ l) : a ≤ l.foldr max 0 := by
  induction l with
  | nil => simp at h
  | cons b l ih =>
    rw [List.foldr_cons]
    rcases List.mem_cons.1 h with rfl | h
    · exact le_max_left _ _
    · exact (ih h).trans (le_max_right _ _)

theorem Mono.exp_pos_lt {m : Mono} {i : ℕ} (h : 0 < m.exp i) : i < m.length := by
  by_contra hn
  unfold Mono.exp at h
  rw [List.getD_eq_getElem?_getD, List.getElem?_eq_none (by omega)] at h
  simp at h

theorem MPoly.mem_vars {p : MPoly} {i : ℕ} : i ∈ p.vars ↔ ∃ t ∈ p, 0 < t.1.exp i := by
  unfold MPoly.vars
  rw [List.mem_filter, List.mem_range, List.any_eq_true]
  constructor
  · rintro ⟨_, t, ht, h⟩; exact ⟨t, ht, by simpa using h⟩
  · rintro ⟨t, ht, h⟩
    exact ⟨(Mono.exp_pos_lt h).trans_le (le_foldr_max (List.mem_map.2 ⟨t, ht, rfl⟩)), t, ht, by simpa using h⟩

section
variable {K : Type*} [Field K]

theorem Mono.evalFrom_congr {ρ σ : ℕ → K} : ∀ (m : Mono) (j : ℕ),
    (∀ i, 0 < m.exp i → ρ (j + i) = σ (j + i)) → Mono.evalFrom ρ j m = Mono.evalFrom σ j m
  | [], _, _ => rfl
  | e :: m, j, h => by
    have h1 : Mono.evalFrom ρ (j + 1) m = Mono.evalFrom σ (j + 1) m := by
      apply Mono.evalFrom_congr m (j + 1)
      intro i hi
      have := h (i + 1) (by simpa [Mono.exp] using hi)
      rwa [show j + (i + 1) = j + 1 + i by ring] at this
    have h2 : ρ j ^ e = σ j ^ e := by
      rcases Nat.eq_zero_or_pos e with rfl | he
      · simp
      · have : ρ j = σ j := h 0 (by simpa [Mono.exp] using he)
        rw [this]
    rw [Mono.evalFrom, Mono.evalFrom, h1, h2]

/-- The value of a polynomial depends on its variables only. -/
theorem MPoly.eval_congr {ρ σ : ℕ → K} {p : MPoly} (h : ∀ i ∈ p.vars, ρ i = σ i) :
    p.eval ρ = p.eval σ := by
  unfold MPoly.eval
  congr 1
  apply List.map_congr_left
  intro t ht
  have : Mono.evalFrom ρ 0 t.1 = Mono.evalFrom σ 0 t.1 := by
    apply Mono.evalFrom_congr t.1 0
    intro i hi
    rw [zero_add]
    exact h i (MPoly.mem_vars.2 ⟨t, ht, hi⟩)
  rw [this]

end

end Verif.Grf
