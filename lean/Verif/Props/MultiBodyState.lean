import Verif.Spec.MultiBodyState
import Mathlib.Algebra.Field.Rat
import Mathlib.Algebra.Order.Ring.Rat

/-! # C110: the queries of a multibody read the last forward kinematics -/

namespace Rigeo

open Matrix

variable {K D : Type} [Field K] [LinearOrder K]

omit [LinearOrder K] in
/-- C110: `compute_forward_kinematics` succeeds exactly when the arrays have the right shapes, otherwise it raises
`AssertionError`; velocities and accelerations that are left out count as zero. -/
theorem C110_kinematics (lib : PinLib K D) (s : MultiBodyState K D) (q : NdArray K) (v a : Option (NdArray K)) :
    (Spec.IsKinematics s.nq s.nv (.forwardKinematics q v a) → s.computeForwardKinematics lib q v a =
      .ok (lib.updateFramePlacements s.body.model (lib.forwardKinematics s.body.model s.data q
        (v.getD ⟨[s.nv], fun _ => 0⟩) (a.getD ⟨[s.nv], fun _ => 0⟩)))) ∧
      (¬ Spec.IsKinematics s.nq s.nv (.forwardKinematics q v a) → s.computeForwardKinematics lib q v a = .error .assertion) := by
  have hv : (v.getD (MultiBodyState.zeros s.nv)).shape = [s.nv] ↔ ∀ x ∈ v, x.shape = [s.nv] := by
    cases v <;> simp [MultiBodyState.zeros]
  have ha : (a.getD (MultiBodyState.zeros s.nv)).shape = [s.nv] ↔ ∀ x ∈ a, x.shape = [s.nv] := by
    cases a <;> simp [MultiBodyState.zeros]
  unfold Spec.IsKinematics MultiBodyState.computeForwardKinematics pyAssert
  dsimp only
  rw [← hv, ← ha]
  by_cases h1 : q.shape = [s.nq]
  · by_cases h2 : (v.getD (MultiBodyState.zeros s.nv)).shape = [s.nv]
    · by_cases h3 : (a.getD (MultiBodyState.zeros s.nv)).shape = [s.nv]
      · refine ⟨fun _ => ?_, fun h => absurd ⟨h1, h2, h3⟩ h⟩
        simp only [h1, h2, h3, decide_true, if_true]; rfl
      · exact ⟨fun h => absurd h.2.2 h3, fun _ => by simp only [h1, h2, h3, decide_true, decide_false, if_true]; rfl⟩
    · exact ⟨fun h => absurd h.2.1 h2, fun _ => by simp only [h1, h2, decide_true, decide_false, if_true]; rfl⟩
  · exact ⟨fun h => absurd h.1 h1, fun _ => by simp only [h1, decide_false]; rfl⟩

/-- C110: a call that raises an exception changes nothing. -/
theorem C110_failed (lib : PinLib K D) (s : MultiBodyState K D) (c : Call K) (e : PyErr) (h : s.call lib c = .error e) :
    s.step lib c = s := by
  unfold MultiBodyState.step; rw [h]

/-- C110: which frame is meant: an index is taken as it is, a name is the first frame of that name or `ValueError`, and without an
argument it is the tool, or `TypeError` if the multibody has none. -/
theorem C110_frame (s : MultiBodyState K D) :
    (∀ i, s.frameIndex (some (.inl i)) = .ok i) ∧
    (∀ name, name ∉ s.body.model.frameNames → s.frameIndex (some (.inr name)) = .error .value) ∧
    (∀ name, name ∈ s.body.model.frameNames → ∃ i, s.frameIndex (some (.inr name)) = .ok i ∧
      s.body.model.frameNames[i]? = some name ∧ ∀ k < i, s.body.model.frameNames[k]? ≠ some name) ∧
    (∀ i, s.body.toolIdx = some i → s.frameIndex none = .ok i) ∧
    (s.body.toolIdx = none → s.frameIndex none = .error .type) := by
  refine ⟨fun i => rfl, fun name h => ?_, fun name h => ?_, fun i h => ?_, fun h => ?_⟩
  · simp only [MultiBodyState.frameIndex, MultiBody.resolveFrameIndex, MultiBody.nameIndex, if_neg h]; rfl
  · refine ⟨s.body.model.frameNames.idxOf name, ?_, ?_, fun k hk hk' => ?_⟩
    · simp only [MultiBodyState.frameIndex, MultiBody.resolveFrameIndex, MultiBody.nameIndex, if_pos h]; rfl
    · exact List.getElem?_idxOf h
    · obtain ⟨hlt, he⟩ := List.getElem?_eq_some_iff.mp hk'
      have := List.not_of_lt_findIdx (p := (· == name)) hk
      simp [he] at this
  · simp only [MultiBodyState.frameIndex, MultiBody.resolveFrameIndex, h]; rfl
  · simp only [MultiBodyState.frameIndex, MultiBody.resolveFrameIndex, h]; rfl

/-- C110: `compute_joint_torques` returns pinocchio's torques for `(q, v, a)` in this order exactly when the arrays have the right shapes;
otherwise it raises `AssertionError`. -/
theorem C110_torques (lib : PinLib K D) (s : MultiBodyState K D) (q v a : NdArray K) :
    (q.shape = [s.nq] ∧ v.shape = [s.nv] ∧ a.shape = [s.nv] → ∀ tau d, lib.rnea s.body.model s.data q v a = (tau, d) →
      s.call lib (.jointTorques q v a) = .ok (.array tau, d)) ∧
    (¬ (q.shape = [s.nq] ∧ v.shape = [s.nv] ∧ a.shape = [s.nv]) → s.call lib (.jointTorques q v a) = .error .assertion) := by
  unfold MultiBodyState.call MultiBodyState.computeJointTorques pyAssert
  dsimp only
  by_cases h1 : q.shape = [s.nq]
  · by_cases h2 : v.shape = [s.nv]
    · by_cases h3 : a.shape = [s.nv]
      · refine ⟨fun _ tau d e => ?_, fun h => absurd ⟨h1, h2, h3⟩ h⟩
        simp only [h1, h2, h3, decide_true, if_true, e]; rfl
      · exact ⟨fun h => absurd h.2.2 h3, fun _ => by simp only [h1, h2, h3, decide_true, decide_false, if_true]; rfl⟩
    · exact ⟨fun h => absurd h.2.1 h2, fun _ => by simp only [h1, h2, decide_true, decide_false, if_true]; rfl⟩
  · exact ⟨fun h => absurd h.1 h1, fun _ => by simp only [h1, decide_false]; rfl⟩

/-- C110: the queries for a frame return what pinocchio computes for the index of that frame and the given reference frame, with the
linear part first and the rotation before the translation, and a query for the pose changes nothing. -/
theorem C110_query (lib : PinLib K D) (s : MultiBodyState K D) (frame : FrameArg) (i : ℕ) (hi : s.frameIndex frame = .ok i)
    (rf : RefFrame) (d : D) :
    (∀ R t, lib.oMf s.data i = some (R, t) → s.call lib (.framePose frame) = .ok (.pose R t, s.data)) ∧
    (lib.oMf s.data i = none → s.call lib (.framePose frame) = .error .index) ∧
    (∀ v w, lib.frameVelocity s.body.model s.data i rf = .ok (v, w, d) →
      s.call lib (.frameVelocity frame rf) = .ok (.vecs v w, d)) ∧
    (∀ v w, lib.frameClassicalAcceleration s.body.model s.data i rf = .ok (v, w, d) →
      s.call lib (.frameClassicalAcceleration frame rf) = .ok (.vecs v w, d)) ∧
    (∀ v w, lib.frameAcceleration s.body.model s.data i rf = .ok (v, w, d) →
      s.call lib (.frameSpatialAcceleration frame rf) = .ok (.vecs v w, d)) ∧
    (∀ q J, lib.frameJacobian s.body.model s.data q i rf = .ok (J, d) →
      s.call lib (.frameJacobian q frame rf) = .ok (.array J, d)) := by
  refine ⟨fun R t h => ?_, fun h => ?_, fun v w h => ?_, fun v w h => ?_, fun v w h => ?_, fun q J h => ?_⟩ <;>
    simp [MultiBodyState.call, MultiBodyState.getFramePose, MultiBodyState.getFrameMotion, MultiBodyState.computeFrameJacobian, hi, h,
      bind, Except.bind, Except.map, pure, Except.pure, throw, throwThe, MonadExceptOf.throw]

/-- C110: every query for a frame that cannot be resolved raises the exception of the resolution, whatever the data are. -/
theorem C110_unresolved (lib : PinLib K D) (s : MultiBodyState K D) (frame : FrameArg) (e : PyErr) (he : s.frameIndex frame = .error e)
    (rf : RefFrame) (q : NdArray K) :
    s.call lib (.framePose frame) = .error e ∧ s.call lib (.frameVelocity frame rf) = .error e ∧
    s.call lib (.frameClassicalAcceleration frame rf) = .error e ∧ s.call lib (.frameSpatialAcceleration frame rf) = .error e ∧
    s.call lib (.frameJacobian q frame rf) = .error e := by
  refine ⟨?_, ?_, ?_, ?_, ?_⟩ <;>
    simp [MultiBodyState.call, MultiBodyState.getFramePose, MultiBodyState.getFrameMotion, MultiBodyState.computeFrameJacobian, he,
      bind, Except.bind, Except.map]

theorem step_body (lib : PinLib K D) (s : MultiBodyState K D) (c : Call K) :
    (s.step lib c).body = s.body ∧ (s.step lib c).nq = s.nq ∧ (s.step lib c).nv = s.nv := by
  unfold MultiBodyState.step
  split <;> exact ⟨rfl, rfl, rfl⟩

theorem run_body (lib : PinLib K D) (s : MultiBodyState K D) (calls : List (Call K)) :
    (s.run lib calls).body = s.body ∧ (s.run lib calls).nq = s.nq ∧ (s.run lib calls).nv = s.nv := by
  induction calls generalizing s with
  | nil => exact ⟨rfl, rfl, rfl⟩
  | cons c cs ih =>
    obtain ⟨h1, h2, h3⟩ := ih (s.step lib c)
    obtain ⟨g1, g2, g3⟩ := step_body lib s c
    exact ⟨h1.trans g1, h2.trans g2, h3.trans g3⟩

variable {pose : PinModel K → NdArray K → ℕ → Option (Matrix (Fin 3) (Fin 3) K × (Fin 3 → K))}

theorem motion_keeps {lib : PinLib K D} {f : PinModel K → D → ℕ → RefFrame → Py ((Fin 3 → K) × (Fin 3 → K) × D)}
    (hf : ∀ model d i rf x, f model d i rf = .ok x → lib.oMf x.2.2 = lib.oMf d) {s : MultiBodyState K D} {frame : FrameArg}
    {rf : RefFrame} {x} (h : s.getFrameMotion f frame rf = .ok x) : lib.oMf x.2.2 = lib.oMf s.data := by
  unfold MultiBodyState.getFrameMotion at h
  cases hi : s.frameIndex frame with
  | error e => rw [hi] at h; cases h
  | ok i => rw [hi] at h; exact hf _ _ _ _ _ h

/-- Calls that are neither kinematics nor Jacobians keep the placements. -/
theorem step_keeps {lib : PinLib K D} (hc : Spec.PinContract lib pose) (s : MultiBodyState K D) (c : Call K)
    (h1 : ¬ Spec.IsKinematics s.nq s.nv c) (h2 : ¬ Spec.IsJacobian c) : lib.oMf (s.step lib c).data = lib.oMf s.data := by
  unfold MultiBodyState.step
  cases hcall : s.call lib c with
  | error e => rfl
  | ok x =>
    change lib.oMf x.2 = lib.oMf s.data
    cases c with
    | forwardKinematics q v a =>
      rw [MultiBodyState.call, (C110_kinematics lib s q v a).2 h1] at hcall; cases hcall
    | jointTorques q v a =>
      simp only [MultiBodyState.call, MultiBodyState.computeJointTorques, pyAssert] at hcall
      split_ifs at hcall <;> first
        | (cases hcall; exact hc.rnea _ _ _ _ _)
        | cases hcall
    | framePose frame =>
      simp only [MultiBodyState.call] at hcall
      cases hp : s.getFramePose lib frame with
      | error e => rw [hp] at hcall; cases hcall
      | ok y => rw [hp] at hcall; cases hcall; rfl
    | frameVelocity frame rf =>
      simp only [MultiBodyState.call] at hcall
      cases hp : s.getFrameMotion lib.frameVelocity frame rf with
      | error e => rw [hp] at hcall; cases hcall
      | ok y => rw [hp] at hcall; cases hcall; exact motion_keeps hc.velocity hp
    | frameClassicalAcceleration frame rf =>
      simp only [MultiBodyState.call] at hcall
      cases hp : s.getFrameMotion lib.frameClassicalAcceleration frame rf with
      | error e => rw [hp] at hcall; cases hcall
      | ok y => rw [hp] at hcall; cases hcall; exact motion_keeps hc.classical hp
    | frameSpatialAcceleration frame rf =>
      simp only [MultiBodyState.call] at hcall
      cases hp : s.getFrameMotion lib.frameAcceleration frame rf with
      | error e => rw [hp] at hcall; cases hcall
      | ok y => rw [hp] at hcall; cases hcall; exact motion_keeps hc.acceleration hp
    | frameJacobian q frame rf => exact absurd trivial h2

theorem run_keeps {lib : PinLib K D} (hc : Spec.PinContract lib pose) (s : MultiBodyState K D) (calls : List (Call K))
    (h : ∀ c ∈ calls, ¬ Spec.IsKinematics s.nq s.nv c ∧ ¬ Spec.IsJacobian c) :
    lib.oMf (s.run lib calls).data = lib.oMf s.data := by
  induction calls generalizing s with
  | nil => rfl
  | cons c cs ih =>
    obtain ⟨-, g2, g3⟩ := step_body lib s c
    have h0 := h c (by simp)
    refine (ih (s.step lib c) fun c' hc' => ?_).trans (step_keeps hc s c h0.1 h0.2)
    rw [g2, g3]; exact h c' (by simp [hc'])

/-- C110: after any sequence of calls, whichever of them raise exceptions, `get_frame_pose` returns the pose of the frame at the
configuration of the last successful `compute_forward_kinematics`, if no Jacobian was computed since: the tuple is the rotation
and then the translation. -/
theorem C110_pose {lib : PinLib K D} (hc : Spec.PinContract lib pose) (s : MultiBodyState K D) (before after : List (Call K))
    (q : NdArray K) (v a : Option (NdArray K)) (hq : Spec.IsKinematics s.nq s.nv (.forwardKinematics q v a))
    (hafter : ∀ c ∈ after, ¬ Spec.IsKinematics s.nq s.nv c ∧ ¬ Spec.IsJacobian c) (frame : FrameArg) (i : ℕ)
    (hi : s.frameIndex frame = .ok i) (R : Matrix (Fin 3) (Fin 3) K) (t : Fin 3 → K) (hp : pose s.body.model q i = some (R, t)) :
    (s.run lib (before ++ .forwardKinematics q v a :: after)).getFramePose lib frame = .ok (R, t) := by
  set s1 := s.run lib before with hs1
  obtain ⟨b1, b2, b3⟩ := run_body lib s before
  rw [← hs1] at b1 b2 b3
  set s2 := s1.step lib (.forwardKinematics q v a) with hs2
  obtain ⟨c1, c2, c3⟩ := step_body lib s1 (.forwardKinematics q v a)
  rw [← hs2] at c1 c2 c3
  have hrun : s.run lib (before ++ .forwardKinematics q v a :: after) = s2.run lib after := by
    simp only [MultiBodyState.run, List.foldl_append, List.foldl_cons]; rfl
  rw [hrun]
  have hkin := (C110_kinematics lib s1 q v a).1 (by rw [b2, b3]; exact hq)
  have hdata : lib.oMf s2.data i = some (R, t) := by
    have : s2.data = lib.updateFramePlacements s1.body.model (lib.forwardKinematics s1.body.model s1.data q
        (v.getD ⟨[s1.nv], fun _ => 0⟩) (a.getD ⟨[s1.nv], fun _ => 0⟩)) := by
      rw [hs2]; unfold MultiBodyState.step; rw [MultiBodyState.call, hkin]; rfl
    rw [this, hc.kinematics, b1, hp]
  have hkeep := run_keeps hc s2 after (by rw [c2, c3, b2, b3]; exact hafter)
  obtain ⟨d1, -, -⟩ := run_body lib s2 after
  have hidx : (s2.run lib after).frameIndex frame = .ok i := by
    rw [← hi]; unfold MultiBodyState.frameIndex; rw [d1, c1, b1]
  unfold MultiBodyState.getFramePose
  rw [hidx]
  change (match lib.oMf (s2.run lib after).data i with | some pose => pure pose | none => throw PyErr.index) = _
  rw [hkeep, hdata]; rfl

/-- C110: nothing checks that `compute_forward_kinematics` was called: before the first successful one `get_frame_pose` returns the
identity for every frame. -/
theorem C110_initial {lib : PinLib K D} (hc : Spec.PinContract lib pose) (body : MultiBody K) (nq nv : ℕ) (calls : List (Call K))
    (hcalls : ∀ c ∈ calls, ¬ Spec.IsKinematics nq nv c ∧ ¬ Spec.IsJacobian c) (i : ℕ) (hi : i < body.model.frameNames.length) :
    ((MultiBodyState.init lib body nq nv).run lib calls).getFramePose lib (some (.inl i)) = .ok (1, 0) := by
  have hkeep := run_keeps hc (MultiBodyState.init lib body nq nv) calls hcalls
  unfold MultiBodyState.getFramePose
  change (match lib.oMf ((MultiBodyState.init lib body nq nv).run lib calls).data i with
    | some pose => pure pose | none => throw PyErr.index) = _
  rw [hkeep]
  change (match lib.oMf (lib.createData body.model) i with | some pose => pure pose | none => throw PyErr.index) = _
  rw [hc.initial, if_pos hi]; rfl

/-! A library that meets the contract: the data are the placements, each frame moves along the first axis by the first joint
position. -/

/-- The placements as data. -/
def simplePin : PinLib ℚ (ℕ → Option (Matrix (Fin 3) (Fin 3) ℚ × (Fin 3 → ℚ))) where
  createData model i := if i < model.frameNames.length then some (1, 0) else none
  forwardKinematics model _ q _ _ i := if i < model.frameNames.length then some (1, ![q.data [0], 0, 0]) else none
  updateFramePlacements _ d := d
  rnea _ d _ v _ := (v, d)
  frameVelocity _ d _ _ := .ok (0, 0, d)
  frameClassicalAcceleration _ d _ _ := .ok (0, 0, d)
  frameAcceleration _ d _ _ := .ok (0, 0, d)
  frameJacobian _ d q _ _ := .ok (q, d)
  oMf d i := d i

theorem simplePin_contract : Spec.PinContract simplePin
    (fun model q i => if i < model.frameNames.length then some (1, ![q.data [0], 0, 0]) else none) where
  kinematics _ _ _ _ _ _ := rfl
  initial _ _ := rfl
  rnea _ _ _ _ _ := rfl
  velocity _ _ _ _ _ h := by cases h; rfl
  classical _ _ _ _ _ h := by cases h; rfl
  acceleration _ _ _ _ _ h := by cases h; rfl

/-- A model with two frames, the second of them the tool. -/
def simpleBody : MultiBody ℚ := ⟨⟨["universe", "joint"], ["base", "tool"], [], [], 0⟩, some 1, []⟩

example : ((MultiBodyState.init simplePin simpleBody 1 1).run simplePin
    ([.framePose none] ++ .forwardKinematics ⟨[1], fun _ => 5⟩ none none ::
      [.forwardKinematics ⟨[2], fun _ => 7⟩ none none, .frameVelocity none .world])).getFramePose simplePin none =
    .ok (1, ![5, 0, 0]) :=
  C110_pose simplePin_contract (MultiBodyState.init simplePin simpleBody 1 1) [.framePose none]
    [.forwardKinematics ⟨[2], fun _ => 7⟩ none none, .frameVelocity none .world] ⟨[1], fun _ => 5⟩ none none
    ⟨rfl, by simp, by simp⟩ (by
      intro c hc
      simp only [List.mem_cons, List.not_mem_nil, or_false] at hc
      rcases hc with rfl | rfl
      · exact ⟨fun h => by simp [Spec.IsKinematics, MultiBodyState.init] at h, fun h => h⟩
      · exact ⟨fun h => h, fun h => h⟩)
    none 1 rfl 1 ![5, 0, 0] rfl

example := C110_initial simplePin_contract simpleBody 1 1 [.framePose none] (by
  intro c hc
  simp only [List.mem_cons, List.not_mem_nil, or_false] at hc
  subst hc
  exact ⟨fun h => h, fun h => h⟩) 1 (by decide)

example := C110_failed simplePin (MultiBodyState.init simplePin simpleBody 1 1) (.framePose (some (.inr "hand"))) .value rfl

example := C110_kinematics simplePin (MultiBodyState.init simplePin simpleBody 1 1) ⟨[2], fun _ => 7⟩ none none

example := (C110_frame (MultiBodyState.init simplePin simpleBody 1 1)).2.2.1 "tool" (by decide)

example : (MultiBodyState.init simplePin simpleBody 1 1).call simplePin
    (.jointTorques ⟨[1], fun _ => 5⟩ ⟨[1], fun _ => 3⟩ ⟨[1], fun _ => 0⟩) =
    .ok (.array ⟨[1], fun _ => 3⟩, simplePin.createData simpleBody.model) :=
  (C110_torques simplePin (MultiBodyState.init simplePin simpleBody 1 1) ⟨[1], fun _ => 5⟩ ⟨[1], fun _ => 3⟩ ⟨[1], fun _ => 0⟩).1
    ⟨rfl, rfl, rfl⟩ _ _ rfl

example : (MultiBodyState.init simplePin simpleBody 1 1).call simplePin (.framePose none) =
    .ok (.pose 1 0, simplePin.createData simpleBody.model) :=
  (C110_query simplePin (MultiBodyState.init simplePin simpleBody 1 1) none 1 rfl .world (simplePin.createData simpleBody.model)).1
    1 0 rfl

example := C110_unresolved simplePin (MultiBodyState.init simplePin simpleBody 1 1) (some (.inr "hand")) .value rfl .world
  ⟨[1], fun _ => 5⟩

end Rigeo
