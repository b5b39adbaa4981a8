import Verif.Model.FloatRealize
import Verif.Model.Box
import Verif.Model.Cylinder

/-!
# Transforms of shapes with rounding

`fl` is the rounding of the result of one operation. The order of the terms of a product of matrices is left open, so the results are
relations.
-/

namespace Rigeo

open Matrix

section
variable (fl : ℝ → ℝ)

/-- `rotation @ self.rotation` and `rotation @ self.center + translation` (src/rigeo/shape/box.py:292-293,
src/rigeo/shape/ellipsoid.py:516-517, src/rigeo/shape/cylinder.py:201-202) -/
def poseFloat (R : Matrix (Fin 3) (Fin 3) ℝ) (t : Fin 3 → ℝ) (rotation : Matrix (Fin 3) (Fin 3) ℝ) (center : Fin 3 → ℝ)
    (rotation' : Matrix (Fin 3) (Fin 3) ℝ) (center' : Fin 3 → ℝ) : Prop :=
  matMulFloat fl R rotation rotation' ∧
    ∃ v : Fin 3 → ℝ, (∀ i, FlDot fl (List.ofFn fun j => (R i j, center j)) (v i)) ∧ ∀ i, center' i = fl (v i + t i)

/-- src/rigeo/shape/box.py:288-297 `transform`: the boxes that may result -/
def Box.transformFloat (b : Box ℝ) (R : Matrix (Fin 3) (Fin 3) ℝ) (t : Fin 3 → ℝ) (b' : Box ℝ) : Prop :=
  b'.halfExtents = b.halfExtents ∧ poseFloat fl R t b.rotation b.center b'.rotation b'.center

/-- src/rigeo/shape/ellipsoid.py:512-521 `transform` in three dimensions -/
def Ellipsoid.transformFloat (e : Ellipsoid ℝ 3) (R : Matrix (Fin 3) (Fin 3) ℝ) (t : Fin 3 → ℝ) (e' : Ellipsoid ℝ 3) : Prop :=
  e'.halfExtents = e.halfExtents ∧ poseFloat fl R t e.rotation e.center e'.rotation e'.center

/-- src/rigeo/shape/cylinder.py:197-208 `transform` -/
def Cylinder.transformFloat (c : Cylinder ℝ) (R : Matrix (Fin 3) (Fin 3) ℝ) (t : Fin 3 → ℝ) (c' : Cylinder ℝ) : Prop :=
  c'.length = c.length ∧ c'.radius = c.radius ∧ poseFloat fl R t c.rotation c.center c'.rotation c'.center

/-- One call after the other: the results of `a.transform(*m1).transform(*m2)…` -/
def calls {α β : Type} (step : α → β → α → Prop) : α → List β → α → Prop
  | a, [], a' => a' = a
  | a, m :: l, a' => ∃ b, step a m b ∧ calls step b l a'

end

end Rigeo
