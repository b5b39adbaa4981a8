import Verif.Model.RigidBody
import Verif.Model.Optim

/-!
# Model of `src/rigeo/rigidbody.py`: transforms and bounding ellipsoids of a body
-/

namespace Rigeo

open Matrix

section Field
variable {K : Type} [Field K] [LinearOrder K]

/-- `shape.transform(rotation, translation)` for an object of any shape class (src/rigeo/shape/box.py:288-297,
ellipsoid.py:512-521, poly.py:312-317, cylinder.py:197-208, capsule.py:73-76). -/
def AnyShape.transform (cdd : CddLib K) (s : AnyShape K) (rotation : Option (Matrix (Fin 3) (Fin 3) K) := none)
    (translation : Option (Fin 3 → K) := none) : Py (AnyShape K) :=
  match s with
  | .ellipsoid e => (e.transform rotation translation).map .ellipsoid
  | .box b => (b.transform rotation translation).map .box
  | .poly P => (P.transform cdd rotation translation).map .poly
  | .cylinder c => (c.transform rotation translation).map .cylinder
  | .capsule c => (c.transform rotation translation).map .capsule

/-- src/rigeo/rigidbody.py:28-35 `__init__(shape, params)` for one shape, which is not iterable. -/
def RigidBody.initOne (shape : AnyShape K) (params : Option (IP K) := none) : Py (RigidBody K) :=
  RigidBody.init [shape] params

/-- src/rigeo/rigidbody.py:110-135 `transform(rotation, translation)`; `clean_transform` fills in the defaults. -/
def RigidBody.transform (cdd : CddLib K) (body : RigidBody K) (rotation : Option (Matrix (Fin 3) (Fin 3) K) := none)
    (translation : Option (Fin 3 → K) := none) : Py (RigidBody K) := do
  let R := rotation.getD 1
  let t := translation.getD 0
  let shapes ← body.shapes.mapM fun s => s.transform cdd (some R) (some t)
  let params ← body.params.transform (some R) (some t)
  RigidBody.init shapes (some params)

end Field

/-- `shape.mbe(sphere=sphere, solver=solver)` for an object of any shape class, as called by `mbes`
(src/rigeo/shape/box.py:332-343, ellipsoid.py:418-422, poly.py:198-204, cylinder.py:230-231, capsule.py:82-83).
`Ellipsoid.mbe` has no parameter `solver`. -/
noncomputable def AnyShape.mbe (eigh : Eigh) (lstsq : Lstsq) (orth : Orth) (nullSpace : NullSpace)
    (solver : (n : ℕ) → List (Fin n → ℝ) → Bool → MbeVars n)
    (solver' : List (Matrix (Fin 3) (Fin 3) ℝ × (Fin 3 → ℝ)) → Bool → MbeeVars 3)
    (s : AnyShape ℝ) (sphere : Bool) : Py (MbeResult 3) :=
  match s with
  | .ellipsoid e => (e.mbe sphere (solverGiven := true)).map .numeric
  | .box b => (b.mbe sphere).map .numeric
  | .poly P => P.mbe eigh lstsq orth nullSpace solver sphere
  | .cylinder c => (c.mbe sphere).map .numeric
  | .capsule c => (c.mbe eigh solver' sphere).map .numeric

/-- The body returned by `mbes`: its shapes are ellipsoids, possibly with a symbolic center. -/
structure MbesBody where
  shapes : List (MbeResult 3)
  params : IP ℝ

/-- src/rigeo/rigidbody.py:88-108 `mbes(sphere, solver)` -/
noncomputable def RigidBody.mbes (eigh : Eigh) (lstsq : Lstsq) (orth : Orth) (nullSpace : NullSpace)
    (solver : (n : ℕ) → List (Fin n → ℝ) → Bool → MbeVars n)
    (solver' : List (Matrix (Fin 3) (Fin 3) ℝ × (Fin 3 → ℝ)) → Bool → MbeeVars 3)
    (body : RigidBody ℝ) (sphere : Bool := false) : Py MbesBody := do
  let shapes ← body.shapes.mapM fun s => s.mbe eigh lstsq orth nullSpace solver solver' sphere
  pure ⟨shapes, body.params⟩

end Rigeo
