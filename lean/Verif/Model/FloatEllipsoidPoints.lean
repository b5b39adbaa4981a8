import Verif.Model.FloatRandom
import Verif.Model.FloatRealize

/-!
# Random points of an ellipsoid with rounding

`fl` is the rounding of the result of one operation. The order of the terms of a product of matrices is left open.
-/

namespace Rigeo

open Matrix

section
variable (fl : ℝ → ℝ)

/-- src/rigeo/shape/ellipsoid.py:458-460: the point that `random_points` makes of a point `X` of the unit ball. `T` is
`rotation @ np.diag(half_extents)`, `A` is `Ainv`. -/
def Ellipsoid.mapBallFloat (e : Ellipsoid ℝ 3) (X p : Fin 3 → ℝ) : Prop :=
  ∃ (T A : Matrix (Fin 3) (Fin 3) ℝ) (v : Fin 3 → ℝ), matMulFloat fl e.rotation (Matrix.diagonal e.halfExtents) T ∧
    matMulFloat fl T e.rotationᵀ A ∧ (∀ i, FlDot fl (List.ofFn fun j => (X j, A j i)) (v i)) ∧ ∀ i, p i = fl (v i + e.center i)

/-- src/rigeo/shape/ellipsoid.py:451-460 `random_points` for one point with the normal draws `N` and the uniform draw `c` of
`random_points_in_ball` -/
def Ellipsoid.randomPointFloat (pow : ℝ → ℝ → ℝ) (e : Ellipsoid ℝ 3) (N : Fin 3 → ℝ) (c : ℝ) (p : Fin 3 → ℝ) : Prop :=
  ∃ X, ballFloat fl pow N c X ∧ e.mapBallFloat fl X p

end

end Rigeo
