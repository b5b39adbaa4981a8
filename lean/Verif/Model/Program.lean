import Verif.Model.Body

/-!
# Programs that build bodies

A program is a term over the ways to construct a `RigidBody` and its operations; `run` evaluates it with the functions of the model.
-/

namespace Rigeo

variable {K : Type} [Field K] [LinearOrder K]

/-- The expressions a caller can write with the class `RigidBody` (src/rigeo/rigidbody.py:28-45, 110-135). -/
inductive BodyProgram (K : Type)
  /-- `RigidBody(shapes)` -/
  | empty (shapes : List (AnyShape K))
  /-- `RigidBody(shapes, InertialParameters.from_point_masses(masses, points))` -/
  | masses (shapes : List (AnyShape K)) (values : List K) (points : List (Fin 3 → K))
  /-- `RigidBody(shapes, params)` with parameters obtained in some other way, say from a density -/
  | given (shapes : List (AnyShape K)) (params : IP K)
  /-- `a + b` -/
  | add (a b : BodyProgram K)
  /-- `a.transform(rotation, translation)` -/
  | transform (rotation : Matrix (Fin 3) (Fin 3) K) (translation : Fin 3 → K) (a : BodyProgram K)

/-- The value of a program: `RigidBody.__init__`, `__add__` and `transform` (src/rigeo/rigidbody.py:28-40, 110-135) and
`from_point_masses` (src/rigeo/inertial.py:159-178), the left operand of `+` first. -/
def BodyProgram.run (cdd : CddLib K) : BodyProgram K → Py (RigidBody K)
  | .empty shapes => RigidBody.init shapes
  | .masses shapes values points => do
    let params ← IP.fromPointMasses values points
    RigidBody.init shapes (some params)
  | .given shapes params => RigidBody.init shapes (some params)
  | .add a b => do
    let x ← a.run cdd
    let y ← b.run cdd
    x.add y
  | .transform R t a => do
    let x ← a.run cdd
    x.transform cdd (some R) (some t)

end Rigeo
