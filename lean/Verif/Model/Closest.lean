import Verif.Model.Optim
import Verif.Model.RigidBody

/-!
# Model of `src/rigeo/closest.py`
-/

namespace Rigeo

open Matrix

/-- `shape.must_contain(point)` for an object of any shape class (src/rigeo/shape/poly.py:167-170,
ellipsoid.py:374-394, cylinder.py:129-136, capsule.py:57-71), with the default scale one. -/
def AnyShape.mustContain {K : Type} [Field K] [LinearOrder K] (s : AnyShape K) (point : Fin 3 → K) : Py Prop :=
  match s with
  | .ellipsoid e => .ok (e.mustContain point)
  | .box b => .ok (b.mustContain point)
  | .poly P => .ok (P.mustContain point)
  | .cylinder c => .ok (c.mustContain point)
  | .capsule c => c.mustContain point

/-- src/rigeo/closest.py:8-24 `ClosestPointInfo` -/
structure ClosestPointInfo where
  p1 : Fin 3 → ℝ
  p2 : Fin 3 → ℝ
  dist : ℝ

/-- src/rigeo/closest.py:55: the constraints on the variables `p1` and `p2`. -/
noncomputable def closestConstraints (s1 s2 : AnyShape ℝ) (p1 p2 : Fin 3 → ℝ) : Py Prop := do
  let c1 ← s1.mustContain p1
  let c2 ← s2.mustContain p2
  pure (c1 ∧ c2)

/-- src/rigeo/closest.py:27-59 `closest_points(shape1, shape2, solver)`. The solver is a function from the
objective and the constraints to values of the variables. Building the constraints can raise an error,
but does not depend on the values of the variables, so this is tried at zero. -/
noncomputable def closestPoints
    (solver : ((Fin 3 → ℝ) → (Fin 3 → ℝ) → ℝ) → ((Fin 3 → ℝ) → (Fin 3 → ℝ) → Prop) → (Fin 3 → ℝ) × (Fin 3 → ℝ))
    (s1 s2 : AnyShape ℝ) : Py ClosestPointInfo := do
  let _ ← closestConstraints s1 s2 0 0
  let objective : (Fin 3 → ℝ) → (Fin 3 → ℝ) → ℝ := fun p1 p2 => norm2 (p2 - p1)
  let p := solver objective fun p1 p2 => Py.Holds (closestConstraints s1 s2 p1 p2)
  pure { p1 := p.1, p2 := p.2, dist := objective p.1 p.2 }

end Rigeo
