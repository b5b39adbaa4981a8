import Verif.Model.FloatContains
import Verif.Model.Cylinder

/-!
# The containment tests of cylinders and capsules with rounding

See `Verif.Model.FloatContains`. Cylinders first compute the coordinates of the point and of the center along the axes, each with
rounding, and then test lower-dimensional ellipsoids.
-/

namespace Rigeo

open Matrix

section
variable (fl : ℝ → ℝ)

/-- src/rigeo/shape/cylinder.py:52-60, 122-127: the answers `Cylinder.contains` may give for one point. `c1`, `c2` are the centers
of the two ellipsoids, `p1`, `p2` the projections of the point. As in the source, `tol` is not passed on to the ellipsoids. -/
def Cylinder.containsFloat (c : Cylinder ℝ) (p : Fin 3 → ℝ) (answer : Bool) : Prop :=
  ∃ (c1 p1 : Fin 1 → ℝ) (c2 p2 : Fin 2 → ℝ) (a1 a2 : Bool),
    (∀ i, FlDot fl (List.ofFn fun j => (c.longitudinalAxis j, c.center j)) (c1 i)) ∧
    (∀ i, FlDot fl (List.ofFn fun j => (p j, c.longitudinalAxis j)) (p1 i)) ∧
    (∀ i, FlDot fl (List.ofFn fun j => (c.transverseAxes j i, c.center j)) (c2 i)) ∧
    (∀ i, FlDot fl (List.ofFn fun j => (p j, c.transverseAxes j i)) (p2 i)) ∧
    (⟨fun _ => fl (c.length / 2), 1, c1⟩ : Ellipsoid ℝ 1).containsFloat fl p1 (fl (1 / 100000000)) a1 ∧
    (⟨fun _ => c.radius, 1, c2⟩ : Ellipsoid ℝ 2).containsFloat fl p2 (fl (1 / 100000000)) a2 ∧
    answer = (a1 && a2)

/-- src/rigeo/shape/cylinder.py:210-213 `endpoints` with rounding -/
noncomputable def Cylinder.endpointsFloat (c : Cylinder ℝ) : List (Fin 3 → ℝ) :=
  [fun j => fl (fl (fl (1 / 2 * c.length) * c.longitudinalAxis j) + c.center j),
   fun j => fl (-fl (fl (1 / 2 * c.length) * c.longitudinalAxis j) + c.center j)]

/-- src/rigeo/shape/capsule.py:19-26, 53-55: the answers `Capsule.contains` may give for one point -/
def Capsule.containsFloat (c : Capsule ℝ) (p : Fin 3 → ℝ) (tol : ℝ) (answer : Bool) : Prop :=
  ∃ (a : (Fin 3 → ℝ) → Bool) (a3 : Bool),
    (∀ e ∈ c.cylinder.endpointsFloat fl, (⟨fun _ => c.cylinder.radius, 1, e⟩ : Ellipsoid ℝ 3).containsFloat fl p tol (a e)) ∧
    c.cylinder.containsFloat fl p a3 ∧
    answer = ((c.cylinder.endpointsFloat fl).any a || a3)

end

end Rigeo
