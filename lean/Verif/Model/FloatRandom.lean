import Verif.Model.FloatContains
import Mathlib.Analysis.SpecialFunctions.Pow.Real
import Mathlib.Analysis.Real.Sqrt

/-!
# Random weights, directions and points of the ball with rounding

`fl` is the rounding of the result of one operation. The order of the terms of a sum is left open, so the results are relations: each
holds for every result that some order gives. The draws are parameters.
-/

namespace Rigeo

section
variable (fl : ℝ → ℝ)

/-- src/rigeo/random.py:45-47 `random_weight_vectors` for one vector of draws `w`. -/
def weightsFloat {n : ℕ} (w out : Fin n → ℝ) : Prop :=
  ∃ s, FlSum fl (List.ofFn w) s ∧ ∀ i, out i = fl (w i / s)

/-- src/rigeo/random.py:63-66 `random_points_on_hypersphere` for one point with the normal draws `X`: the norm is the rounded root of the
sum of the squares. -/
def sphereFloat {d : ℕ} (X point : Fin d → ℝ) : Prop :=
  ∃ q, FlDot fl (List.ofFn fun j => (X j, X j)) q ∧ ∀ i, point i = fl (X i / fl (Real.sqrt q))

/-- src/rigeo/random.py:82-84 `random_points_in_ball` for one point with the normal draws `X` and the uniform draw `c`. `pow` is the
power function of the C library. -/
def ballFloat (pow : ℝ → ℝ → ℝ) {d : ℕ} (X : Fin d → ℝ) (c : ℝ) (point : Fin d → ℝ) : Prop :=
  ∃ s, sphereFloat fl X s ∧ ∀ i, point i = fl (pow c (fl (1 / d)) * s i)

end

end Rigeo
