import Verif.Model.FloatInertial
import Verif.Model.FloatTransform

/-!
# Transforms of inertial parameters with rounding

`fl` is the rounding of the result of one operation. The order of the terms of a product of matrices is left open.
-/

namespace Rigeo

open Matrix

section
variable (fl : ℝ → ℝ)

/-- src/rigeo/inertial.py:95-98 `Hc`: two products and a subtraction for every entry -/
def IP.HcFloat (p : IP ℝ) : Matrix (Fin 3) (Fin 3) ℝ :=
  Matrix.of fun i j => fl (p.H i j - fl (p.mass * fl (p.com i * p.com j)))

/-- src/rigeo/inertial.py:228-239 `transform`: the parameters that may result. `Y` is `rotation @ self.Hc`, `Z` is
`rotation @ self.Hc @ rotation.T`. -/
def IP.transformFloat (p : IP ℝ) (R : Matrix (Fin 3) (Fin 3) ℝ) (t : Fin 3 → ℝ) (q : IP ℝ) : Prop :=
  q.mass = p.mass ∧
    (∃ v : Fin 3 → ℝ, (∀ i, FlDot fl (List.ofFn fun j => (R i j, p.com j)) (v i)) ∧ ∀ i, q.com i = fl (v i + t i)) ∧
    ∃ Y Z, matMulFloat fl R (p.HcFloat fl) Y ∧ matMulFloat fl Y Rᵀ Z ∧
      ∀ i j, q.H i j = fl (Z i j + fl (p.mass * fl (q.com i * q.com j)))

end

end Rigeo
