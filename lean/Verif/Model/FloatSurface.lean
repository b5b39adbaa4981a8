import Verif.Model.FloatSampling

/-!
# Points on the surface and the edges of a box with rounding

`fl` is the rounding of the result of one operation. The order of the terms of a product of matrices is left open.
-/

namespace Rigeo

open Matrix

section
variable (fl : ℝ → ℝ)

/-- src/rigeo/shape/box.py:221-257: the answers `on_surface` may give for one point. `np.isclose` with `rtol=0` compares the rounded
difference with `atol`. -/
def Box.onSurfaceFloat (b : Box ℝ) (p : Fin 3 → ℝ) (tol : ℝ) (answer : Bool) : Prop :=
  ∃ (contained : Bool) (ps : Fin 3 → ℝ), b.containsFloat fl p tol contained ∧
    (∀ i, FlDot fl (List.ofFn fun j => (fl (p j - b.center j), b.rotation j i)) (ps i)) ∧
    (answer = true ↔ contained = true ∧ ∃ i, |fl (|ps i| - b.halfExtents i)| ≤ tol)

/-- src/rigeo/shape/box.py:177-219 `random_points_on_edges`: one point, on the edge along direction `k` with the signs `s` of the other
two coordinates, given the draw `U` in `[-1, 1]` -/
def Box.edgePointFloat (b : Box ℝ) (k : Fin 3) (s : Fin 3 → Bool) (U : ℝ) (p : Fin 3 → ℝ) : Prop :=
  b.placeFloat fl (fun i => if i = k then fl (b.halfExtents i * U) else if s i then b.halfExtents i else -b.halfExtents i) p

/-- src/rigeo/shape/box.py:139-175 `random_points_on_surface`: one point, made of the random point of the draw `U` in `[-1, 1]^3` by
setting coordinate `k` to plus or minus the half extent. As in the code, the random point is placed twice. -/
def Box.surfacePointFloat (b : Box ℝ) (k : Fin 3) (s : Bool) (U p : Fin 3 → ℝ) : Prop :=
  ∃ q, b.randomPointFloat fl U q ∧
    b.placeFloat fl (fun i => if i = k then if s then b.halfExtents i else -b.halfExtents i else q i) p

end

end Rigeo
