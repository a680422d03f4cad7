import Verif.Vts.Model
import Mathlib.Algebra.Field.Rat

/-!
# C07: ambiguous sign tables are refused

`pick_sign_of_goal` is given a table of counts. The theorems of `Props.lean` say what it returns on the tables that
occur in sign determination. Here the table is arbitrary.
-/

set_option linter.unusedSectionVars false

namespace Verif.Vts

variable {R K : Type} [CommRing R] [LinearOrder R] [Field K] [LinearOrder K]

/-- **C07**. Whatever the table of counts is, a sign is returned exactly if the three entries for the signs 0, 1, -1
of the goal (at the position `shift` given by the known signs) are one 1, at the place of this sign, and two 0. In
every other case an exception is raised: no sign is guessed. -/
theorem C07_never_guesses (polies : List (Poly R)) (d : DDS R K) (table : List ℚ) (shift : ℕ)
    (hs : totalShift polies d polies.dropLast = .ok shift) (s : ℤ) :
    pickSignOfGoal polies d table = .ok s ↔
      (s = 0 ∧ table[shift]? = some 1 ∧ table[shift + 1]? = some 0 ∧ table[shift + 2]? = some 0) ∨
      (s = 1 ∧ table[shift]? = some 0 ∧ table[shift + 1]? = some 1 ∧ table[shift + 2]? = some 0) ∨
      (s = -1 ∧ table[shift]? = some 0 ∧ table[shift + 1]? = some 0 ∧ table[shift + 2]? = some 1) := by
  have e0 : offValue 0 = .ok 0 := rfl
  have e1 : offValue 1 = .ok 1 := rfl
  have e2 : offValue (-1) = .ok 2 := rfl
  unfold pickSignOfGoal
  rw [hs]
  simp only [bind, Except.bind, pickLoop, e0, e1, e2, Nat.add_zero]
  rcases table[shift]? with _ | a
  · simp
  rcases table[shift + 1]? with _ | b
  · by_cases ha : a = 1 <;> by_cases ha' : a = 0 <;> simp_all
  rcases table[shift + 2]? with _ | c
  · by_cases ha : a = 1 <;> by_cases ha' : a = 0 <;> by_cases hb : b = 1 <;> by_cases hb' : b = 0 <;> simp_all
  by_cases ha : a = 1 <;> by_cases ha' : a = 0 <;> by_cases hb : b = 1 <;> by_cases hb' : b = 0 <;>
    by_cases hc : c = 1 <;> by_cases hc' : c = 0 <;> simp_all [eq_comm]

-- one polynomial, the goal itself: the table has three entries
example : pickSignOfGoal (K := ℚ) ([[1, 1]] : List (Poly ℤ)) ⟨0, []⟩ [0, 1, 0] = .ok 1 :=
  (C07_never_guesses (K := ℚ) ([[1, 1]] : List (Poly ℤ)) ⟨0, []⟩ [0, 1, 0] 0 rfl 1).2 (by simp)
example : ∀ s, pickSignOfGoal (K := ℚ) ([[1, 1]] : List (Poly ℤ)) ⟨0, []⟩ [0, 1, 1] ≠ .ok s := fun s h => by
  have := (C07_never_guesses (K := ℚ) ([[1, 1]] : List (Poly ℤ)) ⟨0, []⟩ [0, 1, 1] 0 rfl s).1 h
  simp at this

end Verif.Vts
