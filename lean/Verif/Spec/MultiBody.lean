import Verif.Model.MultiBody
import Verif.Spec.Bodies

/-!
# Specification: collision geometries, link parameters and stacked parameter vectors
-/

namespace Spec

open Rigeo Matrix

variable {K : Type} [Field K] [LinearOrder K]

/-- The points of a collision geometry, in its own frame: the documentation of hppfcl. Meshes and unknown geometries
have none here. -/
def geomPoints : Geom K → Set (Fin 3 → K)
  | .box halfSide => {x | ∀ i, |x i| ≤ halfSide i}
  | .sphere radius => {x | x ⬝ᵥ x ≤ radius ^ 2}
  | .cylinder halfLength radius => {x | |x 2| ≤ halfLength ∧ x 0 ^ 2 + x 1 ^ 2 ≤ radius ^ 2}
  | .convex => ∅
  | .other => ∅

/-- A geometry `MultiBody` supports, with non-negative dimensions. -/
def GeomOk : Geom K → Prop
  | .box halfSide => ∀ i, 0 ≤ halfSide i
  | .sphere radius => 0 ≤ radius
  | .cylinder halfLength radius => 0 ≤ halfLength ∧ 0 ≤ radius
  | .convex => False
  | .other => False

/-- The inertia matrix about the origin of the joint frame (parallel axis theorem). -/
def originInertia (x : PinInertia K) : Matrix (Fin 3) (Fin 3) K :=
  x.inertia + x.mass • ((x.lever ⬝ᵥ x.lever) • (1 : Matrix (Fin 3) (Fin 3) K) - vecMulVec x.lever x.lever)

/-- The parameter vector of a link in pinocchio's order `m, hx, hy, hz, Ixx, Ixy, Iyy, Ixz, Iyz, Izz`. -/
def pinVec (x : PinInertia K) : Fin 10 → K :=
  let I := originInertia x
  ![x.mass, x.mass * x.lever 0, x.mass * x.lever 1, x.mass * x.lever 2, I 0 0, I 0 1, I 1 1, I 0 2, I 1 2, I 2 2]

/-- Parameter vectors stacked above each other. -/
def stack {α : Type} {nb : ℕ} (θ : Fin nb → Fin 10 → α) (c : Fin (nb * 10)) : α := θ c.divNat c.modNat

end Spec
