import Verif.Model.RigidBody
import Verif.Spec.Shapes

/-!
# Specification: the point set of a shape object and of a rigid body
-/

namespace Spec

open Rigeo

variable {K : Type} [Field K] [LinearOrder K]

/-- The point set a shape object stands for. -/
def region : AnyShape K → Set (Fin 3 → K)
  | .ellipsoid e => ellipsoid e.halfExtents e.rotation e.center
  | .box b => box b.halfExtents b.rotation b.center
  | .poly P => halfspaces P.faceForm.faces
  | .cylinder c => cylinder c.length c.radius c.rotation c.center
  | .capsule c => capsule c.cylinder.length c.cylinder.radius c.cylinder.rotation c.cylinder.center

/-- The union of the shapes of a body. -/
def bodyRegion (shapes : List (AnyShape K)) : Set (Fin 3 → K) := {p | ∃ s ∈ shapes, p ∈ region s}

end Spec
