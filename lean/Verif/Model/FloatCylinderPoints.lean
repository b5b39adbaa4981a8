import Verif.Model.FloatRandom
import Verif.Model.FloatCylinder

/-!
# Random points of a cylinder with rounding

`fl` is the rounding of the result of one operation. The order of the terms of a product of matrices is left open.
-/

namespace Rigeo

open Matrix

section
variable (fl : ℝ → ℝ)

/-- src/rigeo/shape/cylinder.py:235-240: the point that `random_points` makes of the uniform draw `U` in `[-1/2, 1/2]` and a point `X`
of the unit disk -/
def Cylinder.mapDiskFloat (c : Cylinder ℝ) (U : ℝ) (X : Fin 2 → ℝ) (p : Fin 3 → ℝ) : Prop :=
  ∃ v : Fin 3 → ℝ, (∀ i, FlDot fl
      (List.ofFn fun j => ((![fl (c.radius * X 0), fl (c.radius * X 1), fl (c.length * U)] : Fin 3 → ℝ) j, c.rotation i j)) (v i)) ∧
    ∀ i, p i = fl (v i + c.center i)

/-- src/rigeo/shape/cylinder.py:233-240 `random_points` for one point, with the draws `U`, and `N` and `a` of
`random_points_in_ball` -/
def Cylinder.randomPointFloat (pow : ℝ → ℝ → ℝ) (c : Cylinder ℝ) (U : ℝ) (N : Fin 2 → ℝ) (a : ℝ) (p : Fin 3 → ℝ) : Prop :=
  ∃ X, ballFloat fl pow N a X ∧ c.mapDiskFloat fl U X p

end

end Rigeo
