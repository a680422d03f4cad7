import Mathlib.Data.Rat.Defs
import Mathlib.Algebra.Order.Ring.Rat
import Verif.Vts.Err

/-!
# Model of `vts/matrix_of_signs.py` (the pure part)

Matrices are lists of rows of rationals.  The caches are modelled in `Verif/Vts/CacheModel.lean`.
-/

namespace Verif.Vts

/-- Model of `sympy.Matrix` values: list of rows. -/
abbrev Mat := List (List ℚ)

/-- `vts/matrix_of_signs.py:49` the literal `sympy.Matrix([[1, 1, 1], [0, 1, -1], [0, 1, 1]])`. -/
def baseMatrix : Mat := [[1, 1, 1], [0, 1, -1], [0, 1, 1]]

/-- `sympy.physics.quantum.TensorProduct` on two matrices, used in
`vts/matrix_of_signs.py:89`: the Kronecker product, row `(i, i')` column `(j, j')` holds
`A[i, j] * B[i', j']`, first index most significant. -/
def kron (A B : Mat) : Mat :=
  A.flatMap fun ra => B.map fun rb => ra.flatMap fun a => rb.map fun b => a * b

/-- What a call of `new_get_matrix(n)` (`vts/matrix_of_signs.py:54-93`) computes when no cache
holds the matrix of size `n`: tensor product of the previous matrix with the first. Defined for all
`n`; the refusals (`n < 1`, `n > 5`) are in `getMatrix`. `n = 0` is never requested. -/
def signMatrix : ℕ → Mat
  | 0 => [[1]]
  | 1 => baseMatrix
  | n + 2 => kron (signMatrix (n + 1)) baseMatrix

/-- `vts/matrix_of_signs.py:54-93` `new_get_matrix` / 140 `get_matrix`, seen from outside (the
caches are shown to be transparent in `Verif/Vts/PropsCache.lean`). `n` is an `int`; the
non-`int` branch of line 66 cannot occur for typed `n`. -/
def getMatrix (n : ℤ) : Except Err Mat :=
  if n < 1 then .error .lessThanOne
  else if n = 1 then .ok baseMatrix
  else if n > 5 then .error .moreThan5
  else .ok (signMatrix n.toNat)

/-- `vts/matrix_of_signs.py:95-138` `new_get_matrix_inverse` / 177 `get_matrix_inverse` seen from
outside. `inv` is the oracle for `sympy.Matrix.inv()`. -/
def getMatrixInverse (inv : Mat → Except Err Mat) (n : ℤ) : Except Err Mat :=
  if n < 1 then .error .lessThanOne
  else if n = 1 then inv baseMatrix
  else if n > 5 then .error .moreThan5
  else inv (signMatrix n.toNat)

/-- Product of a matrix with a column, `M_inv * taq_column` in `vts/uni_vts.py:514`; sympy raises
`ShapeError` when the sizes do not fit. -/
def matVec (A : Mat) (v : List ℚ) : Except Err (List ℚ) :=
  if A.all (fun r => r.length = v.length) then
    .ok (A.map fun r => (List.zipWith (· * ·) r v).sum)
  else .error .shape

end Verif.Vts
