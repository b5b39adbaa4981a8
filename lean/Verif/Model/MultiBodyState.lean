import Verif.Model.MultiBody
import Verif.Model.NdArray

/-!
# Model of the methods of `MultiBody` that use pinocchio's data

pinocchio keeps intermediate results in an object `data`; its algorithms are parameters here (`PinLib`). The model covers what
rigeo adds: the checks, the defaults, the resolution of frames, and which results are read from `data` after which calls.
-/

namespace Rigeo

open Matrix

/-- `pinocchio.ReferenceFrame` -/
inductive RefFrame
  | world
  | localFrame
  | localWorldAligned

/-- The algorithms of pinocchio that `MultiBody` calls. `D` is the type of `pinocchio.Data`; an algorithm returns its result and the
changed data. Frame indices out of range are errors. -/
structure PinLib (K D : Type) where
  createData : PinModel K → D
  forwardKinematics : PinModel K → D → NdArray K → NdArray K → NdArray K → D
  updateFramePlacements : PinModel K → D → D
  rnea : PinModel K → D → NdArray K → NdArray K → NdArray K → NdArray K × D
  frameVelocity : PinModel K → D → ℕ → RefFrame → Py ((Fin 3 → K) × (Fin 3 → K) × D)
  frameClassicalAcceleration : PinModel K → D → ℕ → RefFrame → Py ((Fin 3 → K) × (Fin 3 → K) × D)
  frameAcceleration : PinModel K → D → ℕ → RefFrame → Py ((Fin 3 → K) × (Fin 3 → K) × D)
  frameJacobian : PinModel K → D → NdArray K → ℕ → RefFrame → Py (NdArray K × D)
  /-- `data.oMf[idx]` -/
  oMf : D → ℕ → Option (Matrix (Fin 3) (Fin 3) K × (Fin 3 → K))

/-- A frame argument: `None`, an index or a name. -/
abbrev FrameArg := Option (ℕ ⊕ String)

/-- The calls of methods that read or change `data`. -/
inductive Call (K : Type)
  | forwardKinematics (q : NdArray K) (v a : Option (NdArray K))
  | jointTorques (q v a : NdArray K)
  | framePose (frame : FrameArg)
  | frameVelocity (frame : FrameArg) (rf : RefFrame)
  | frameClassicalAcceleration (frame : FrameArg) (rf : RefFrame)
  | frameSpatialAcceleration (frame : FrameArg) (rf : RefFrame)
  | frameJacobian (q : NdArray K) (frame : FrameArg) (rf : RefFrame)

/-- What a method returns; a pair of vectors or of a matrix and a vector in the order of the tuple. -/
inductive Answer (K : Type)
  | none
  | array (x : NdArray K)
  | vecs (first second : Fin 3 → K)
  | pose (first : Matrix (Fin 3) (Fin 3) K) (second : Fin 3 → K)

/-- A `MultiBody` with its sizes (src/rigeo/unused/multibody.py:46-47) and its data (line 43). -/
structure MultiBodyState (K D : Type) where
  body : MultiBody K
  nq : ℕ
  nv : ℕ
  data : D

namespace MultiBodyState
section Field
variable {K D : Type} [Field K] [LinearOrder K]

/-- `np.zeros(n)` -/
def zeros (n : ℕ) : NdArray K := ⟨[n], fun _ => 0⟩

/-- src/rigeo/unused/multibody.py:175-181 `_resolve_frame_index`, and pinocchio's `TypeError` for the index `None`. -/
def frameIndex (s : MultiBodyState K D) (frame : FrameArg) : Py ℕ := do
  match ← s.body.resolveFrameIndex frame with
  | some i => pure i
  | none => throw .type

/-- src/rigeo/unused/multibody.py:225-250 `compute_forward_kinematics(q, v, a)`: the new data. -/
def computeForwardKinematics (lib : PinLib K D) (s : MultiBodyState K D) (q : NdArray K) (v a : Option (NdArray K)) : Py D := do
  let v := v.getD (zeros s.nv)
  let a := a.getD (zeros s.nv)
  pyAssert (decide (q.shape = [s.nq]))
  pyAssert (decide (v.shape = [s.nv]))
  pyAssert (decide (a.shape = [s.nv]))
  pure (lib.updateFramePlacements s.body.model (lib.forwardKinematics s.body.model s.data q v a))

/-- src/rigeo/unused/multibody.py:252-275 `compute_joint_torques(q, v, a)` -/
def computeJointTorques (lib : PinLib K D) (s : MultiBodyState K D) (q v a : NdArray K) : Py (NdArray K × D) := do
  pyAssert (decide (q.shape = [s.nq]))
  pyAssert (decide (v.shape = [s.nv]))
  pyAssert (decide (a.shape = [s.nv]))
  pure (lib.rnea s.body.model s.data q v a)

/-- src/rigeo/unused/multibody.py:309-330 `get_frame_pose(frame)` -/
def getFramePose (lib : PinLib K D) (s : MultiBodyState K D) (frame : FrameArg) : Py (Matrix (Fin 3) (Fin 3) K × (Fin 3 → K)) := do
  let idx ← s.frameIndex frame
  match lib.oMf s.data idx with
  | some pose => pure pose
  | none => throw .index

/-- src/rigeo/unused/multibody.py:332-341, 343-352, 354-363 `get_frame_velocity`, `get_frame_classical_acceleration`,
`get_frame_spatial_acceleration`: linear part, angular part, data. -/
def getFrameMotion (f : PinModel K → D → ℕ → RefFrame → Py ((Fin 3 → K) × (Fin 3 → K) × D)) (s : MultiBodyState K D)
    (frame : FrameArg) (rf : RefFrame) : Py ((Fin 3 → K) × (Fin 3 → K) × D) := do
  let idx ← s.frameIndex frame
  f s.body.model s.data idx rf

/-- src/rigeo/unused/multibody.py:365-374 `compute_frame_jacobian(q, frame, expressed_in)` -/
def computeFrameJacobian (lib : PinLib K D) (s : MultiBodyState K D) (q : NdArray K) (frame : FrameArg) (rf : RefFrame) :
    Py (NdArray K × D) := do
  let idx ← s.frameIndex frame
  lib.frameJacobian s.body.model s.data q idx rf

/-- One call: what it returns or raises together with the data afterwards. pinocchio changes the data only when it succeeds. -/
def call (lib : PinLib K D) (s : MultiBodyState K D) : Call K → Py (Answer K × D)
  | .forwardKinematics q v a => (s.computeForwardKinematics lib q v a).map fun d => (.none, d)
  | .jointTorques q v a => (s.computeJointTorques lib q v a).map fun x => (.array x.1, x.2)
  | .framePose frame => (s.getFramePose lib frame).map fun x => (.pose x.1 x.2, s.data)
  | .frameVelocity frame rf => (s.getFrameMotion lib.frameVelocity frame rf).map fun x => (.vecs x.1 x.2.1, x.2.2)
  | .frameClassicalAcceleration frame rf =>
    (s.getFrameMotion lib.frameClassicalAcceleration frame rf).map fun x => (.vecs x.1 x.2.1, x.2.2)
  | .frameSpatialAcceleration frame rf => (s.getFrameMotion lib.frameAcceleration frame rf).map fun x => (.vecs x.1 x.2.1, x.2.2)
  | .frameJacobian q frame rf => (s.computeFrameJacobian lib q frame rf).map fun x => (.array x.1, x.2)

/-- The state after a call; exceptions are caught by the caller. -/
def step (lib : PinLib K D) (s : MultiBodyState K D) (c : Call K) : MultiBodyState K D :=
  match s.call lib c with
  | .ok x => { s with data := x.2 }
  | .error _ => s

/-- The state after a sequence of calls. -/
def run (lib : PinLib K D) (s : MultiBodyState K D) (calls : List (Call K)) : MultiBodyState K D := calls.foldl (step lib) s

/-- src/rigeo/unused/multibody.py:41-85 `__init__`: the fresh data. -/
def init (lib : PinLib K D) (body : MultiBody K) (nq nv : ℕ) : MultiBodyState K D := ⟨body, nq, nv, lib.createData body.model⟩

end Field
end MultiBodyState
end Rigeo
