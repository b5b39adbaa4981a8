import Verif.Model.MultiBodyState

/-! # Specification: what is assumed of pinocchio's algorithms, and well-formed calls -/

namespace Spec

open Rigeo

variable {K D : Type}

/-- What pinocchio documents: after `forwardKinematics` and `updateFramePlacements` the placements of the frames are those at the
configuration `q`, given by `pose`; new data hold identities for all frames; the inverse dynamics and the functions that return
velocities and accelerations do not change the placements. Nothing is assumed of the Jacobian. -/
structure PinContract [Zero K] [One K] (lib : PinLib K D)
    (pose : PinModel K → NdArray K → ℕ → Option (Matrix (Fin 3) (Fin 3) K × (Fin 3 → K))) : Prop where
  kinematics : ∀ model d q v a i,
    lib.oMf (lib.updateFramePlacements model (lib.forwardKinematics model d q v a)) i = pose model q i
  initial : ∀ model i, lib.oMf (lib.createData model) i = if i < model.frameNames.length then some (1, 0) else none
  rnea : ∀ model d q v a, lib.oMf (lib.rnea model d q v a).2 = lib.oMf d
  velocity : ∀ model d i rf x, lib.frameVelocity model d i rf = .ok x → lib.oMf x.2.2 = lib.oMf d
  classical : ∀ model d i rf x, lib.frameClassicalAcceleration model d i rf = .ok x → lib.oMf x.2.2 = lib.oMf d
  acceleration : ∀ model d i rf x, lib.frameAcceleration model d i rf = .ok x → lib.oMf x.2.2 = lib.oMf d

/-- The call is of `compute_forward_kinematics` with arrays of the right shapes. -/
def IsKinematics (nq nv : ℕ) : Call K → Prop
  | .forwardKinematics q v a => q.shape = [nq] ∧ (∀ x ∈ v, x.shape = [nv]) ∧ ∀ x ∈ a, x.shape = [nv]
  | _ => False

/-- The call is of `compute_frame_jacobian`. -/
def IsJacobian : Call K → Prop
  | .frameJacobian _ _ _ => True
  | _ => False

end Spec
