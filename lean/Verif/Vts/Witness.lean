import Verif.Alg.Basic
import Verif.Vts.MatrixLemmas
import Verif.Vts.PolyLemmas

/-!
# A concrete environment

The assumptions `EnvOK` on the external libraries can be met: an environment over `ℤ → ℝ`.
It is used only to show that the hypotheses of the property theorems are satisfiable.
-/

open Polynomial

namespace Verif.Vts

/-- `MkRoots` and `inv` given by their mathematical meaning. -/
noncomputable def stdEnv : Env ℤ ℝ where
  mkRoots p := .ok (denote (Int.castRingHom ℝ) p).roots.toFinset.toList
  inv A := .ok (List.ofFn fun i => List.ofFn fun j => (toMatrix A.length A)⁻¹ i j)
  φ c := c

theorem stdEnv_ok : EnvOK stdEnv (Int.castRingHom ℝ) where
  φ_eq _ := rfl
  mono := Int.cast_strictMono
  roots p hp := ⟨_, rfl, Finset.nodup_toList _, fun x => by simp [hp]⟩
  inv n A hA _ := by
    obtain ⟨h1, h2⟩ := hA
    subst h1
    refine ⟨_, rfl, ⟨by simp, by simp⟩, ?_⟩
    ext i j
    simp [toMatrix]

end Verif.Vts
