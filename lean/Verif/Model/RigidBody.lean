import Verif.Model.Realize

/-!
# Model of `src/rigeo/rigidbody.py`: realizability constraints of a body made of several shapes
-/

namespace Rigeo

open Matrix

/-- A shape object, by class. -/
inductive AnyShape (K : Type)
  | ellipsoid (e : Ellipsoid K 3)
  | box (b : Box K)
  | poly (P : Poly K 3)
  | cylinder (c : Cylinder K)
  | capsule (c : Capsule K)

/-- src/rigeo/rigidbody.py:28-35: the attributes of a `RigidBody`. -/
structure RigidBody (K : Type) where
  shapes : List (AnyShape K)
  params : IP K

section Field
variable {K : Type} [Field K] [LinearOrder K]

/-- src/rigeo/rigidbody.py:67-70, the local function `moment_constraints(shape, J, eps)`. The class
`Capsule` has no `moment_sdp_constraints`, hence the `AttributeError`. -/
def AnyShape.momentConstraints (s : AnyShape K) (x : ParamVar K) (eps : K) (d : ℕ) : Py Prop :=
  match s with
  | .ellipsoid e => e.momentConstraints x eps
  | .box b => b.momentSdpConstraints x eps d
  | .poly P => P.momentSdpConstraints x eps d
  | .cylinder c => c.momentSdpConstraints x eps d
  | .capsule _ => .error .attribute

namespace RigidBody

/-- src/rigeo/rigidbody.py:28-35 `__init__(shapes, params)` for a list of shapes. -/
def init (shapes : List (AnyShape K)) (params : Option (IP K) := none) : Py (RigidBody K) := do
  let params ← match params with
    | some p => pure p
    | none => IP.zero
  pure ⟨shapes, params⟩

/-- src/rigeo/rigidbody.py:37-40 `__add__` -/
def add (a b : RigidBody K) : Py (RigidBody K) := do
  let params ← a.params.add b.params
  init (a.shapes ++ b.shapes) (some params)

/-- src/rigeo/rigidbody.py:42-45 `__radd__`: the left operand is an integer or a body. Adding a nonzero
integer reaches `other.shapes`, an `AttributeError`. -/
def radd (a : RigidBody K) : ℤ ⊕ RigidBody K → Py (RigidBody K)
  | .inl k => if k = 0 then .ok a else .error .attribute
  | .inr b => a.add b

/-- Python's builtin `sum(bodies)`: starts from the integer `0` and evaluates `acc + b`, which is
`b.__radd__(acc)` for an integer and `acc.__add__(b)` otherwise. -/
def pySum (bs : List (RigidBody K)) : Py (ℤ ⊕ RigidBody K) :=
  bs.foldlM (init := .inl 0) fun acc b =>
    match acc with
    | .inl k => (b.radd (.inl k)).map .inr
    | .inr a => (a.add b).map .inr

/-- src/rigeo/rigidbody.py:47-86 `moment_sdp_constraints(param_var, eps, d)`. The loop variable `J` of
the list comprehension is local to it, so `J == cp.sum(Js)` refers to the matrix of `param_var`. The
constraints of the individual shapes are built with their default `eps=0`. -/
def momentSdpConstraints (body : RigidBody K) (x : ParamVar K) (eps : K := 0) (d : ℕ := 2) : Py Prop :=
  match body.shapes with
  | [s] => s.momentConstraints x eps d
  | shapes => do
    let (J, psd) ← pimMustEqualParamVar x eps
    -- the exceptions do not depend on the values of the variables
    let _ ← shapes.mapM fun s => s.momentConstraints (.mat 0) 0 d
    pure (∃ Js : List (Matrix (Fin 4) (Fin 4) K), Js.length = shapes.length ∧
      (∀ J ∈ Js, cvxPsdVar J) ∧
      (∀ sJ ∈ shapes.zip Js, Py.Holds (sJ.1.momentConstraints (.mat sJ.2) 0 d)) ∧
      J = Js.sum ∧ psd)

end RigidBody
end Field
end Rigeo
