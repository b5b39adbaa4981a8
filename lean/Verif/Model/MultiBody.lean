import Verif.Model.Body
import Verif.Model.Moment

/-!
# Model of `src/rigeo/unused/multibody.py`

The objects of pinocchio and hppfcl are data here: a geometry object with its placement and parent joint, the list of
link inertias of the model, the lists of joint and frame names. The numerical algorithms of pinocchio
(`forwardKinematics`, `rnea`, `computeJointTorqueRegressor`, frame velocities and Jacobians) are not modelled; the
regressor matrix they return is a parameter.
-/

namespace Rigeo

open Matrix

/-- The geometries of hppfcl that `_hppfcl_to_shape` distinguishes (src/rigeo/unused/multibody.py:19-28). -/
inductive Geom (K : Type)
  | convex
  | box (halfSide : Fin 3 → K)
  | sphere (radius : K)
  | cylinder (halfLength radius : K)
  | other

/-- A pinocchio `GeometryObject`: `geometry`, `placement` and `parentJoint`. -/
structure GeomObj (K : Type) where
  geometry : Geom K
  rotation : Matrix (Fin 3) (Fin 3) K
  translation : Fin 3 → K
  parentJoint : ℕ

/-- A pinocchio `Inertia`: `mass`, `lever` (centre of mass) and `inertia` (about the centre of mass). -/
structure PinInertia (K : Type) where
  mass : K
  lever : Fin 3 → K
  inertia : Matrix (Fin 3) (Fin 3) K

/-- The parts of `pinocchio.Model` and `pinocchio.GeometryModel` read by `MultiBody.__init__`. -/
structure PinModel (K : Type) where
  jointNames : List String
  frameNames : List String
  inertias : List (PinInertia K)
  geoms : List (GeomObj K)
  gravity : Fin 3 → K

section Field
variable {K : Type} [Field K] [LinearOrder K]

/-- src/rigeo/unused/multibody.py:15-28 `_hppfcl_to_shape(geom)` -/
def hppfclToShape : Geom K → Py (AnyShape K)
  | .convex => .error .notImplemented
  | .box halfSide => (Box.init halfSide).map .box
  | .sphere radius => (Ellipsoid.sphere radius 0).map .ellipsoid
  | .cylinder halfLength radius => (Cylinder.init (2 * halfLength) radius).map .cylinder
  | .other => .error .value

/-- src/rigeo/unused/multibody.py:31-35 `_pin_to_shape(geom_obj)` -/
def pinToShape (cdd : CddLib K) (g : GeomObj K) : Py (AnyShape K) := do
  let shape ← hppfclToShape g.geometry
  shape.transform cdd (some g.rotation) (some g.translation)

/-- `l[i]` on a sequence. -/
def listGet {α : Type} (l : List α) (i : ℕ) : Py α :=
  match l[i]? with
  | some a => .ok a
  | none => .error .index

/-- `d[k]` on a dictionary. -/
def dictItem {α β : Type} [DecidableEq α] (d : List (α × β)) (k : α) : Py β :=
  match dictGet d k with
  | some v => .ok v
  | none => .error .key

/-- src/rigeo/unused/multibody.py:79-84, the parameters of a new body. -/
def PinInertia.params (x : PinInertia K) : Py (IP K) :=
  IP.init x.mass (com := some x.lever) (I := some x.inertia) (translateFromCom := true)

/-- src/rigeo/unused/multibody.py:70-85, one pass of the loop over the geometries. -/
def addGeom (cdd : CddLib K) (inertias : List (PinInertia K)) (bodies : List (ℕ × RigidBody K)) (g : GeomObj K) :
    Py (List (ℕ × RigidBody K)) := do
  let inertia ← listGet inertias g.parentJoint
  let shape ← pinToShape cdd g
  match dictGet bodies g.parentJoint with
  | some body => pure (dictSet bodies g.parentJoint ⟨body.shapes ++ [shape], body.params⟩)
  | none => do
    let params ← inertia.params
    let body ← RigidBody.init [shape] (some params)
    pure (dictSet bodies g.parentJoint body)

/-- src/rigeo/unused/multibody.py:66-85: the dictionary `bodies`. -/
def geomBodies (cdd : CddLib K) (inertias : List (PinInertia K)) (geoms : List (GeomObj K)) :
    Py (List (ℕ × RigidBody K)) :=
  geoms.foldlM (addGeom cdd inertias) []

end Field

/-- The attributes of a `MultiBody` that are not pinocchio's (src/rigeo/unused/multibody.py:41-85). -/
structure MultiBody (K : Type) where
  model : PinModel K
  toolIdx : Option ℕ
  bodies : List (ℕ × RigidBody K)

namespace MultiBody

/-- src/rigeo/unused/multibody.py:125-145, 147-167 `get_joint_index`, `get_frame_index`; `getJointId` and `getFrameId`
return the position of the first entry of that name. -/
def nameIndex (names : List String) (name : String) : Py ℕ :=
  if name ∈ names then .ok (names.idxOf name) else .error .value

section Field
variable {K : Type} [Field K] [LinearOrder K]

/-- src/rigeo/unused/multibody.py:49-54 -/
def toolIndex (model : PinModel K) : Option String → Py (Option ℕ)
  | some name => (nameIndex model.frameNames name).map some
  | none => .ok none

/-- src/rigeo/unused/multibody.py:56-60. `gravity` is a list of numbers of any length. -/
def setGravity (model : PinModel K) : Option (List K) → Py (PinModel K)
  | some [x, y, z] => .ok { model with gravity := ![x, y, z] }
  | some _ => .error .assertion
  | none => .ok model

/-- src/rigeo/unused/multibody.py:41-85 `__init__(model, geom_model, tool_link_name, gravity)` -/
def init (cdd : CddLib K) (model : PinModel K) (toolLinkName : Option String := none)
    (gravity : Option (List K) := none) : Py (MultiBody K) := do
  let toolIdx ← toolIndex model toolLinkName
  let model ← setGravity model gravity
  let bodies ← geomBodies cdd model.inertias model.geoms
  pure ⟨model, toolIdx, bodies⟩

/-- src/rigeo/unused/multibody.py:169-173 `_resolve_joint_index(joint)`, an index or a name. -/
def resolveJointIndex (mb : MultiBody K) : ℕ ⊕ String → Py ℕ
  | .inl i => .ok i
  | .inr name => nameIndex mb.model.jointNames name

/-- src/rigeo/unused/multibody.py:175-181 `_resolve_frame_index(frame)`: `None`, an index or a name. -/
def resolveFrameIndex (mb : MultiBody K) : Option (ℕ ⊕ String) → Py (Option ℕ)
  | none => .ok mb.toolIdx
  | some (.inl i) => .ok (some i)
  | some (.inr name) => (nameIndex mb.model.frameNames name).map some

/-- src/rigeo/unused/multibody.py:183-198 `get_bodies(joints)` -/
def getBodies (mb : MultiBody K) (joints : List (ℕ ⊕ String)) : Py (List (RigidBody K)) := do
  let indices ← joints.mapM mb.resolveJointIndex
  indices.mapM (dictItem mb.bodies)

end Field

section Regressor
variable {K : Type} {nr nb : ℕ}

/-- src/rigeo/unused/multibody.py:304-306, one pass of the loop. The matrix has ten columns for each of `nb` bodies. -/
def swapColumns (Ypin Y : Matrix (Fin nr) (Fin (nb * 10)) K) (i : ℕ) : Py (Matrix (Fin nr) (Fin (nb * 10)) K) :=
  if h : i * 10 + 7 < nb * 10 then
    let c6 : Fin (nb * 10) := ⟨i * 10 + 6, by omega⟩
    let c7 : Fin (nb * 10) := ⟨i * 10 + 7, h⟩
    .ok ((Y.updateCol c6 fun r => Ypin r c7).updateCol c7 fun r => Ypin r c6)
  else .error .index

/-- src/rigeo/unused/multibody.py:277-307 `compute_joint_torque_regressor`, as a function of pinocchio's regressor
`Ypin`. The loop runs over `range(model.nv)`. -/
def jointTorqueRegressor (nv : ℕ) (Ypin : Matrix (Fin nr) (Fin (nb * 10)) K) : Py (Matrix (Fin nr) (Fin (nb * 10)) K) :=
  (List.range nv).foldlM (swapColumns Ypin) Ypin

end Regressor
end MultiBody
end Rigeo
