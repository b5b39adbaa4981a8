import Verif.Model.Ellipsoid

/-!
# Model of the parts of `ellipsoid.py` that call `eigh` and `lstsq`

The two routines are parameters; `Verif.Spec.Numerics` states what a correct implementation returns.
-/

namespace Rigeo

open Matrix

/-- The type of `np.linalg.eigh`. -/
abbrev Eigh := (n : ℕ) → Matrix (Fin n) (Fin n) ℝ → (Fin n → ℝ) × Matrix (Fin n) (Fin n) ℝ

/-- The type of `np.linalg.lstsq(A, b)[0]` for square `A`. -/
abbrev Lstsq := (n : ℕ) → Matrix (Fin n) (Fin n) ℝ → (Fin n → ℝ) → Fin n → ℝ

namespace Ellipsoid
variable {d : ℕ}

/-- src/rigeo/shape/ellipsoid.py:136-144 `from_shape_matrix(S, center)` -/
noncomputable def fromShapeMatrix (eigh : Eigh) (S : Matrix (Fin d) (Fin d) ℝ)
    (center : Option (Fin d → ℝ) := none) : Py (Ellipsoid ℝ d) :=
  fromEigh (eigh d S).1 (eigh d S).2 center

/-- src/rigeo/shape/ellipsoid.py:146-154 `from_affine(A, b, rcond)`; the cut-off `rcond` is not
modelled. -/
noncomputable def fromAffine (eigh : Eigh) (lstsq : Lstsq) (A : Matrix (Fin d) (Fin d) ℝ)
    (b : Fin d → ℝ) : Py (Ellipsoid ℝ d) :=
  fromShapeMatrix eigh (A * A) (some (lstsq d A (-b)))

end Ellipsoid
end Rigeo
