import Verif.Model.Py
import Mathlib.Analysis.SpecialFunctions.Log.Basic
import Mathlib.Analysis.Real.Sqrt
import Mathlib.Algebra.Polynomial.Roots
import Mathlib.LinearAlgebra.Matrix.Charpoly.Basic
import Mathlib.LinearAlgebra.Matrix.NonsingularInverse

/-!
# Model of `src/rigeo/unused/geodesic.py`
-/

namespace Rigeo

open Matrix

open Classical in
/-- src/rigeo/unused/geodesic.py:4-26 `positive_definite_distance(A, B)`. `np.linalg.solve` raises `LinAlgError`
(a `ValueError`) if `A` is singular. `np.linalg.eigvals` is replaced by the exact eigenvalues with their
multiplicities, the roots of the characteristic polynomial. If they are not all real and positive the logarithm
is `nan`, `-inf` or complex; these cases are not told apart. The assertion on shapes holds by typing. -/
noncomputable def positiveDefiniteDistance {n : ℕ} (A B : Matrix (Fin n) (Fin n) ℝ) : Py ℝ :=
  if A.det = 0 then .error .value
  else
    let C := A⁻¹ * B
    let eigs := C.charpoly.roots
    if Multiset.card eigs = n ∧ ∀ x ∈ eigs, 0 < x then
      .ok (Real.sqrt ((1 / 2) * (eigs.map fun x => Real.log x ^ 2).sum))
    else .error .nonfinite

end Rigeo
