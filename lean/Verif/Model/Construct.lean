import Verif.Model.NdArray
import Verif.Model.Ellipsoid
import Verif.Model.Box
import Verif.Model.Cylinder
import Verif.Model.Inertial

/-!
# The constructors on arrays of any shape

`Model/Ellipsoid.lean`, `Model/Box.lean`, `Model/Cylinder.lean` and `Model/Inertial.lean` take vectors and matrices of the right size.
Here the arguments are numbers or arrays of any shape, as a caller may pass them, and the assertions on shapes are executed. Nested
lists that are not rectangular are not modelled.
-/

namespace Rigeo

open Matrix NdArray

/-- An argument that the code turns into an array: a number, or an array (or nested list). -/
inductive ArrayArg (K : Type)
  | scalar (x : K)
  | array (a : NdArray K)

namespace ArrayArg
variable {K : Type}

/-- `np.array(x)` -/
def toArray : ArrayArg K → NdArray K
  | .scalar x => ⟨[], fun _ => x⟩
  | .array a => a

/-- `np.array([x] if np.isscalar(x) else x)` -/
def toArray1 : ArrayArg K → NdArray K
  | .scalar x => ⟨[1], fun _ => x⟩
  | .array a => a

end ArrayArg

namespace NdArray

/-- All indices of an array of the given shape. -/
def allIndices : List ℕ → List (List ℕ)
  | [] => [[]]
  | n :: s => (List.range n).flatMap fun k => (allIndices s).map (k :: ·)

/-- `np.all(a >= 0)` -/
def allNonneg {K : Type} [Zero K] [LE K] [DecidableLE K] (a : NdArray K) : Bool :=
  (allIndices a.shape).all fun i => decide (0 ≤ a.data i)

/-- Whether numpy can assign an array to a slice, both shapes written with the last axis first: axes are matched from the last one on,
an axis of length 1 is repeated, and surplus leading axes must have length 1. -/
def fitsRev : List ℕ → List ℕ → Bool
  | [], _ => true
  | a :: s, [] => a == 1 && fitsRev s []
  | a :: s, b :: t => (a == b || a == 1) && fitsRev s t

/-- The value assigned at index `i` by `target[...] = a`. -/
def assignedAt {α : Type} (a : NdArray α) (i : List ℕ) : α :=
  a.data (List.replicate (a.ndim - i.length) 0 ++ clip a.shape i)

/-- `target[...] = a` for a slice of the given shape: the new entries, or `ValueError`. -/
def assign {α : Type} (a : NdArray α) (shape : List ℕ) : Py (List ℕ → α) :=
  if fitsRev a.shape.reverse shape.reverse then .ok (assignedAt a) else .error .value

/-- `np.outer(a, b)`: both arrays are flattened. -/
def outer {K : Type} [Mul K] (a b : NdArray K) : NdArray K :=
  ⟨[a.shape.prod, b.shape.prod], fun i => a.data (unravel a.shape (i.headD 0)) * b.data (unravel b.shape (i.getLastD 0))⟩

end NdArray

section Field
variable {K : Type} [Field K]

/-- The array attributes that a box, an ellipsoid or a cylinder stores. -/
structure PoseArrays (K : Type) where
  halfExtents : NdArray K
  rotation : NdArray K
  center : NdArray K

/-- `np.eye(dim)` in place of a rotation that is `None`. -/
def rotationArray (rotation : Option (ArrayArg K)) (dim : ℕ) : NdArray K :=
  match rotation with
  | none => ofMatrix (1 : Matrix (Fin dim) (Fin dim) K)
  | some r => r.toArray

/-- `np.zeros(dim)` in place of a position that is `None`. -/
def positionArray (position : Option (ArrayArg K)) (dim : ℕ) : NdArray K :=
  match position with
  | none => ofVec (0 : Fin dim → K)
  | some t => t.toArray

/-- src/rigeo/util.py:182-195 `clean_transform(rotation, translation, dim)`; like `cleanTransform`, for arrays of any shape. -/
def cleanTransformArray (rotation translation : Option (ArrayArg K)) (dim : ℕ) : Py (NdArray K × NdArray K) := do
  let R := rotationArray rotation dim
  pyAssert (R.shape == [dim, dim])
  let t := positionArray translation dim
  pyAssert (t.shape == [dim])
  pure (R, t)

/-- `a.shape[0]`; `IndexError` for an array without axes. -/
def firstLength (a : NdArray K) : Py ℕ :=
  match a.shape with
  | [] => .error .index
  | n :: _ => .ok n

/-- src/rigeo/shape/ellipsoid.py:79-83 the argument `center`. -/
def centerArray (center : Option (ArrayArg K)) (dim : ℕ) : NdArray K :=
  match center with
  | none => ofVec (0 : Fin dim → K)
  | some c => c.toArray1

section Order
variable [LinearOrder K]

/-- src/rigeo/shape/ellipsoid.py:62-88 `Ellipsoid(half_extents, rotation, center)`; `dim` is `half_extents.shape[0]`. -/
def Ellipsoid.initArray (halfExtents : ArrayArg K) (rotation center : Option (ArrayArg K) := none) : Py (PoseArrays K) := do
  let a := halfExtents.toArray1
  pyAssert a.allNonneg
  let dim ← firstLength a
  let R := rotationArray rotation dim
  pyAssert (R.shape == [dim, dim])
  let c := centerArray center dim
  pyAssert (c.shape == [dim])
  pure ⟨a, R, c⟩

/-- src/rigeo/shape/ellipsoid.py:116-134 `Ellipsoid.sphere(radius, center)` -/
def Ellipsoid.sphereArray (radius : K) (center : Option (ArrayArg K) := none) : Py (PoseArrays K) := do
  let c := positionArray center 3
  let dim ← firstLength c
  Ellipsoid.initArray (.array ⟨[dim], fun _ => radius * 1⟩) none (some (.array c))

/-- src/rigeo/shape/box.py:56-66 `Box(half_extents, center, rotation)`, the attributes set before the vertices and faces. -/
def Box.initArray (halfExtents : ArrayArg K) (center rotation : Option (ArrayArg K) := none) : Py (PoseArrays K) := do
  let a := halfExtents.toArray
  pyAssert (a.shape == [3])
  pyAssert a.allNonneg
  let (R, c) ← cleanTransformArray rotation center 3
  pyAssert (R.shape == [3, 3])
  pyAssert (c.shape == [3])
  pure ⟨a, R, c⟩

/-- src/rigeo/shape/cylinder.py:31-47 `Cylinder(length, radius, rotation, center)` for numbers `length` and `radius`, the attributes
`rotation` and `center`. -/
def Cylinder.initArray (length radius : K) (rotation center : Option (ArrayArg K) := none) : Py (NdArray K × NdArray K) := do
  pyAssert (decide (0 ≤ length))
  pyAssert (decide (0 ≤ radius))
  let R := rotationArray rotation 3
  pyAssert (R.shape == [3, 3])
  let c := positionArray center 3
  pyAssert (c.shape == [3])
  pure (R, c)

end Order

/-- src/rigeo/spatial.py:11-13, 14-16 one part of a spatial vector: `len(x)` of a number or of an array without axes raises `TypeError`. -/
def spatialPart (x : Option (ArrayArg K)) : Py (Fin 3 → K) :=
  match x with
  | none => .ok 0
  | some (.scalar _) => .error .type
  | some (.array a) =>
    match a.shape with
    | [] => .error .type
    | n :: _ => do
      pyAssert (n == 3)
      let v ← a.assign [3]
      pure fun i => v [i]

/-- src/rigeo/spatial.py:9-16 `SpatialVector(linear, angular)`: the parts `angular` and `linear` of `vec`. -/
def spatialArray (linear angular : Option (ArrayArg K) := none) : Py ((Fin 3 → K) × (Fin 3 → K)) := do
  let a ← spatialPart angular
  let l ← spatialPart linear
  pure (a, l)

/-- Inertial parameters with the arrays `com` and `H` as they are stored. -/
structure IPArrays (K : Type) where
  mass : K
  com : NdArray K
  H : NdArray K

namespace IPArrays

/-- src/rigeo/inertial.py:13-16 `I2H(I)` -/
def I2H (I : NdArray K) : Py (NdArray K) := do
  pyAssert (I.shape == [3, 3])
  let tr := I.data [0, 0] + I.data [1, 1] + I.data [2, 2]
  pure ⟨[3, 3], fun i => (1 / 2) * tr * (if i.headD 0 = i.getLastD 0 then 1 else 0) - I.data i⟩

variable [LinearOrder K]

/-- src/rigeo/inertial.py:49-55 the attribute `com`. -/
def comArray (mass : K) (h com : Option (NdArray K)) : Py (NdArray K) :=
  match com, h with
  | some c, _ => .ok c
  | none, none => .ok (ofVec (0 : Fin 3 → K))
  | none, some h => if mass = 0 then .error .nonfinite else .ok (h.map (· / mass))

/-- src/rigeo/inertial.py:59-66 the second moment matrix before it is translated. -/
def momentArray (mass : K) (com : NdArray K) (H I : Option (NdArray K)) (translate : Bool) : Py (NdArray K) :=
  match H, I with
  | some H, _ => .ok H
  | none, some I => I2H I
  | none, none => .ok (if translate then ofMatrix (0 : Matrix (Fin 3) (Fin 3) K) else (NdArray.outer com com).map (mass * ·))

/-- src/rigeo/inertial.py:43-72 `InertialParameters(mass, h, com, H, I, translate_from_com)`. As in `IP.init`, dividing by a zero mass
does not raise in numpy, so the second check on the arguments comes before that result. -/
def init (mass : K) (h com H I : Option (NdArray K) := none) (translateFromCom : Bool := false) : Py (IPArrays K) := do
  pyAssert (decide (0 ≤ mass))
  if h.isSome && com.isSome then throw .value
  if H.isSome && I.isSome then throw .value
  let com ← comArray mass h com
  let H ← momentArray mass com H I translateFromCom
  if translateFromCom then
    let H ← H.zip (· + ·) ((NdArray.outer com com).map (mass * ·))
    pure ⟨mass, com, H⟩
  else pure ⟨mass, com, H⟩

omit [LinearOrder K] in
/-- src/rigeo/inertial.py:104-112 `J`: the slices of a four by four matrix are assigned. -/
def J (p : IPArrays K) : Py (Matrix (Fin 4) (Fin 4) K) := do
  let h := p.com.map (p.mass * ·)
  let A ← p.H.assign [3, 3]
  let v ← h.assign [3]
  pure (Matrix.of fun i j =>
    if (i : ℕ) < 3 ∧ (j : ℕ) < 3 then A [i, j] else if (i : ℕ) < 3 then v [i] else if (j : ℕ) < 3 then v [j] else p.mass)

end IPArrays
end Field
end Rigeo
