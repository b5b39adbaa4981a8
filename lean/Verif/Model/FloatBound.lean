import Verif.Model.FloatInertial
import Verif.Model.Box

/-!
# Axis-aligned bounding boxes with rounding

`fl` is the rounding of the result of one operation. Minimum and maximum do not round.
-/

namespace Rigeo

open Matrix

section
variable (fl : ℝ → ℝ)

/-- src/rigeo/shape/box.py:92-99 `from_two_vertices` -/
noncomputable def Box.fromTwoVerticesFloat (v1 v2 : Fin 3 → ℝ) : Py (Box ℝ) :=
  Box.init (fun i => fl ((1 / 2) * fl (max (v1 i) (v2 i) - min (v1 i) (v2 i))))
    (center := some fun i => fl ((1 / 2) * fl (v1 i + v2 i)))

/-- src/rigeo/shape/box.py:101-106 `from_points_to_bound`; also `aabb` of a polyhedron with these vertices
(src/rigeo/shape/poly.py:193-196) -/
noncomputable def Box.fromPointsToBoundFloat (points : List (Fin 3 → ℝ)) : Py (Box ℝ) := do
  let vmin ← Box.pointsMin points
  let vmax ← Box.pointsMax points
  Box.fromTwoVerticesFloat fl vmin vmax

/-- src/rigeo/shape/box.py:11-15 `_box_vertices`: the lists that may result. The products with `1` and `-1` in `box_vertices` are
exact; the order of the terms in `rotation @ v.T` is left open. -/
def Box.verticesFloat (b : Box ℝ) (vs : List (Fin 3 → ℝ)) : Prop :=
  List.Forall₂ (fun v w => ∃ x : Fin 3 → ℝ, (∀ i, FlDot fl (List.ofFn fun j => (b.rotation i j, v j)) (x i)) ∧
    ∀ i, w i = fl (x i + b.center i)) (boxVertices b.halfExtents) vs

/-- `aabb`, inherited from src/rigeo/shape/poly.py:193-196: the results it may give -/
def Box.aabbFloat (b : Box ℝ) (result : Py (Box ℝ)) : Prop :=
  ∃ vs, b.verticesFloat fl vs ∧ result = Box.fromPointsToBoundFloat fl vs

end

end Rigeo
