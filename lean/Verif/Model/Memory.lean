import Verif.Model.MultiBody
import Mathlib.Control.Monad.Basic

/-!
# Objects and references

The rest of the model treats Python objects as values. Here the functions that build or change dictionaries, lists and
arrays in place are modelled a second time, on a memory of mutable objects, so that it can be said which objects they
change and which objects their results share with their arguments.

The memory holds the objects of one kind in the order of their creation; a reference is a position. A program returns
a value or an exception and the memory it leaves: an exception does not undo what was written before it.
-/

namespace Rigeo

open Matrix

/-- A Python computation on a memory of objects of kind `D`. -/
abbrev Prog (D α : Type) := ExceptT PyErr (StateM (List D)) α

namespace Prog
variable {D α : Type}

/-- The outcome and the memory after the computation. -/
def exec (p : Prog D α) (m : List D) : Py α × List D := p.run.run m

/-- A new object. -/
def new (x : D) : Prog D ℕ := fun m => (.ok m.length, m ++ [x])

/-- The object at a reference. -/
def read (r : ℕ) : Prog D D := fun m =>
  match m[r]? with
  | some x => (.ok x, m)
  | none => (.error .key, m)

/-- Change the object at a reference. -/
def write (r : ℕ) (x : D) : Prog D Unit := fun m => (.ok (), m.set r x)

/-- A computation that does not use the memory. -/
def pure' (x : Py α) : Prog D α := fun m => (x, m)

end Prog

/-! ### moment.py: the dictionary of a polynomial

A polynomial is the reference of its dictionary `coefficients`, an attribute that is never rebound. -/

namespace PolyRef
section Field
variable {K : Type} [Field K] [LinearOrder K] {n : ℕ}

/-- The dictionaries. -/
abbrev Dicts (K : Type) (n : ℕ) := List ((Fin n → ℕ) × K)

/-- src/rigeo/moment.py:47-54 `__init__(coefficients, tol=0)`: the items go into a new dictionary, one by one. -/
def init (coefficients : ℕ) (tol : K := 0) : Prog (Dicts K n) ℕ := do
  let self ← Prog.new []
  let items ← Prog.read coefficients
  items.forM fun kc => do
    if isclose kc.2 0 0 tol then pure ()
    else
      let d ← Prog.read self
      Prog.write self (dictSet d kc.1 kc.2)
  pure self

/-- src/rigeo/moment.py:90-97 `__add__(other)` -/
def add (self other : ℕ) : Prog (Dicts K n) ℕ := do
  let d ← Prog.read self
  let coefficients ← Prog.new d
  let items ← Prog.read other
  items.forM fun kc => do
    let d ← Prog.read coefficients
    match dictGet d kc.1 with
    | some v => Prog.write coefficients (dictSet d kc.1 (v + kc.2))
    | none => Prog.write coefficients (dictSet d kc.1 kc.2)
  init coefficients

/-- src/rigeo/moment.py:99-103 `localize(idx)`: a dictionary comprehension is a new dictionary. -/
def localize (self : ℕ) (idx : Fin n → ℕ) : Prog (Dicts K n) ℕ := do
  let d ← Prog.read self
  let coefficients ← Prog.new (d.foldl (fun acc kc => dictSet acc (kc.1 + idx) kc.2) [])
  init coefficients

end Field
end PolyRef

/-! ### moment.py: the array of indices of a moment matrix -/

/-- An element of an array of objects: a moment index or a polynomial. -/
inductive Cell (K : Type) (n : ℕ)
  | index (v : Fin n → ℕ)
  | poly (p : Polynomial K n)

namespace MomentMatrixRef
section Field
variable {K : Type} [Field K] [LinearOrder K] {n : ℕ}

/-- src/rigeo/moment.py:180-182, one pass of the loops: `M[i, j] = poly.localize(self.indices[i, j])`. Adding a polynomial to
an index raises `AttributeError` (it has no attribute `value`). -/
def localizeEntry (indices M : ℕ) (p : Polynomial K n) (ij : ℕ × ℕ) : Prog (ℕ × ℕ → Cell K n) Unit := do
  let a ← Prog.read indices
  match a ij with
  | .index v => do
    let b ← Prog.read M
    Prog.write M (Function.update b ij (.poly (p.localize v)))
  | .poly _ => Prog.pure' (.error .attribute)

/-- src/rigeo/moment.py:176-183 `localizing_matrix(d, poly)` on the array `indices` of the moment matrix, with `r` for
`Polynomial.dim(self.n, d)`. An array is a function of its two indices; the entries beyond the slice are not used. -/
def localizingMatrix (indices r : ℕ) (p : Polynomial K n) : Prog (ℕ × ℕ → Cell K n) ℕ := do
  let a ← Prog.read indices
  let M ← Prog.new a
  ((List.range r).product (List.range r)).forM (localizeEntry indices M p)
  pure M

end Field
end MomentMatrixRef

/-! ### rigidbody.py: the list of shapes of a body -/

/-- A body with the reference of its list `shapes` (src/rigeo/rigidbody.py:34-35). The parameters and the shapes are not
changed by any function and stay values. -/
structure BodyRef (K : Type) where
  shapes : ℕ
  params : IP K

namespace BodyRef
section Field
variable {K : Type} [Field K] [LinearOrder K]

/-- The body as a value. -/
def view (m : List (List (AnyShape K))) (b : BodyRef K) : Option (RigidBody K) := m[b.shapes]?.map fun l => ⟨l, b.params⟩

/-- src/rigeo/rigidbody.py:28-35 `__init__(shapes, params)` for a list (the list itself is stored) or one shape. -/
def init (shapes : ℕ ⊕ AnyShape K) (params : Option (IP K) := none) : Prog (List (AnyShape K)) (BodyRef K) := do
  let shapes ← match shapes with
    | .inl list => pure list
    | .inr shape => Prog.new [shape]
  let params ← match params with
    | some p => pure p
    | none => Prog.pure' IP.zero
  pure ⟨shapes, params⟩

/-- src/rigeo/rigidbody.py:37-40 `__add__(other)`: `+` of two lists is a new list. -/
def add (self other : BodyRef K) : Prog (List (AnyShape K)) (BodyRef K) := do
  let l ← Prog.read self.shapes
  let l' ← Prog.read other.shapes
  let shapes ← Prog.new (l ++ l')
  let params ← Prog.pure' (self.params.add other.params)
  init (.inl shapes) (some params)

/-- One step of Python's `sum(bodies)`. `none` is the integer `0` from which it starts: src/rigeo/rigidbody.py:42-45
`__radd__(0)` returns the body itself. -/
def sumStep (acc : Option (BodyRef K)) (b : BodyRef K) : Prog (List (AnyShape K)) (Option (BodyRef K)) :=
  match acc with
  | none => pure (some b)
  | some a => do
    let c ← a.add b
    pure (some c)

/-- Python's `sum(bodies)` -/
def sum (bodies : List (BodyRef K)) : Prog (List (AnyShape K)) (Option (BodyRef K)) := bodies.foldlM sumStep none

/-- src/rigeo/rigidbody.py:110-135 `transform(rotation, translation)`: a list comprehension is a new list, made when all of
its elements are there. -/
def transform (cdd : CddLib K) (self : BodyRef K) (rotation : Option (Matrix (Fin 3) (Fin 3) K) := none)
    (translation : Option (Fin 3 → K) := none) : Prog (List (AnyShape K)) (BodyRef K) := do
  let R := rotation.getD 1
  let t := translation.getD 0
  let l ← Prog.read self.shapes
  let l' ← Prog.pure' (l.mapM fun s => s.transform cdd (some R) (some t))
  let shapes ← Prog.new l'
  let params ← Prog.pure' (self.params.transform (some R) (some t))
  init (.inl shapes) (some params)

/-! ### unused/multibody.py: the loop over the geometries -/

/-- src/rigeo/unused/multibody.py:70-85, one pass of the loop: the shape is appended in place to the list of the body of its
joint. -/
def addGeom (cdd : CddLib K) (inertias : List (PinInertia K)) (bodies : List (ℕ × BodyRef K)) (g : GeomObj K) :
    Prog (List (AnyShape K)) (List (ℕ × BodyRef K)) := do
  let inertia ← Prog.pure' (listGet inertias g.parentJoint)
  let shape ← Prog.pure' (pinToShape cdd g)
  match dictGet bodies g.parentJoint with
  | some body => do
    let l ← Prog.read body.shapes
    Prog.write body.shapes (l ++ [shape])
    pure bodies
  | none => do
    let params ← Prog.pure' inertia.params
    let list ← Prog.new [shape]
    let body ← init (.inl list) (some params)
    pure (dictSet bodies g.parentJoint body)

/-- src/rigeo/unused/multibody.py:68-85: the dictionary `bodies`. -/
def geomBodies (cdd : CddLib K) (inertias : List (PinInertia K)) (geoms : List (GeomObj K)) :
    Prog (List (AnyShape K)) (List (ℕ × BodyRef K)) :=
  geoms.foldlM (addGeom cdd inertias) []

end Field
end BodyRef

/-- A `MultiBody` with the reference of the pinocchio model it was given (src/rigeo/unused/multibody.py:42). -/
structure MultiBodyRef (K : Type) where
  model : ℕ
  toolIdx : Option ℕ
  bodies : List (ℕ × RigidBody K)

namespace MultiBodyRef
section Field
variable {K : Type} [Field K] [LinearOrder K]

/-- The multibody as a value. -/
def view (m : List (PinModel K)) (mb : MultiBodyRef K) : Option (MultiBody K) :=
  m[mb.model]?.map fun model => ⟨model, mb.toolIdx, mb.bodies⟩

/-- src/rigeo/unused/multibody.py:41-85 `__init__(model, geom_model, tool_link_name, gravity)`: line 60 writes into the
model that was passed. The bodies are values here. -/
def init (cdd : CddLib K) (model : ℕ) (toolLinkName : Option String := none) (gravity : Option (List K) := none) :
    Prog (PinModel K) (MultiBodyRef K) := do
  let x ← Prog.read model
  let toolIdx ← Prog.pure' (MultiBody.toolIndex x toolLinkName)
  let x' ← Prog.pure' (MultiBody.setGravity x gravity)
  Prog.write model x'
  let bodies ← Prog.pure' (Rigeo.geomBodies cdd x'.inertias x'.geoms)
  pure ⟨model, toolIdx, bodies⟩

end Field
end MultiBodyRef

/-! ### inertial.py and shape/box.py: arrays -/

/-- An array of three numbers or of three times three numbers. -/
inductive Array3 (K : Type)
  | vec (v : Fin 3 → K)
  | mat (M : Matrix (Fin 3) (Fin 3) K)

namespace Array3
variable {K : Type}

/-- The array at a reference as a vector. -/
def readVec (r : ℕ) : Prog (Array3 K) (Fin 3 → K) := do
  match ← Prog.read r with
  | .vec v => pure v
  | .mat _ => Prog.pure' (.error .type)

/-- The array at a reference as a matrix. -/
def readMat (r : ℕ) : Prog (Array3 K) (Matrix (Fin 3) (Fin 3) K) := do
  match ← Prog.read r with
  | .mat M => pure M
  | .vec _ => Prog.pure' (.error .type)

/-- The vector at a reference, if there is one. -/
def vec? (m : List (Array3 K)) (r : ℕ) : Option (Fin 3 → K) :=
  match m[r]? with
  | some (.vec v) => some v
  | _ => none

/-- The matrix at a reference, if there is one. -/
def mat? (m : List (Array3 K)) (r : ℕ) : Option (Matrix (Fin 3) (Fin 3) K) :=
  match m[r]? with
  | some (.mat M) => some M
  | _ => none

/-- src/rigeo/util.py:189-193: `np.array` copies its argument; without one a default array is made. -/
def copyVec (v : Fin 3 → K) : Option ℕ → Prog (Array3 K) ℕ
  | none => Prog.new (.vec v)
  | some r => do
    let v ← readVec r
    Prog.new (.vec v)

/-- src/rigeo/util.py:183-187, the same for a matrix. -/
def copyMat (M : Matrix (Fin 3) (Fin 3) K) : Option ℕ → Prog (Array3 K) ℕ
  | none => Prog.new (.mat M)
  | some r => do
    let M ← readMat r
    Prog.new (.mat M)

end Array3

/-- Inertial parameters with the references of their arrays (src/rigeo/inertial.py:45-72). -/
structure IPRef (K : Type) where
  mass : K
  com : ℕ
  H : ℕ

namespace IPRef
section Field
variable {K : Type} [Field K] [LinearOrder K]

/-- The parameters as a value. -/
def view (m : List (Array3 K)) (p : IPRef K) : Option (IP K) := do
  let com ← Array3.vec? m p.com
  let H ← Array3.mat? m p.H
  pure ⟨p.mass, com, H⟩

/-- src/rigeo/inertial.py:49-54: the array `com`. As in `IP.init`, dividing by a zero mass is an error. -/
def comArray (mass : K) : (h com : Option ℕ) → Prog (Array3 K) ℕ
  | _, some c => pure c
  | none, none => Prog.new (.vec 0)
  | some h, none => do
    let h ← Array3.readVec h
    let c ← Prog.pure' (vdiv h mass)
    Prog.new (.vec c)

/-- src/rigeo/inertial.py:58-65: the array `H` before it is translated. -/
def secondArray (mass : K) (c : Fin 3 → K) (translateFromCom : Bool) : (H I : Option ℕ) → Prog (Array3 K) ℕ
  | some H, _ => pure H
  | none, none => if translateFromCom then Prog.new (.mat 0) else Prog.new (.mat (mass • outer c c))
  | none, some I => do
    let I ← Array3.readMat I
    Prog.new (.mat (I2H I))

/-- src/rigeo/inertial.py:67-70: the translated array `H`. -/
def translated (mass : K) (c : Fin 3 → K) (H : ℕ) : Bool → Prog (Array3 K) ℕ
  | true => do
    let M ← Array3.readMat H
    Prog.new (.mat (M + mass • outer c c))
  | false => pure H

/-- src/rigeo/inertial.py:43-72 `__init__`: `com` and, unless it is translated, `H` are stored as they are; every arithmetic
operation makes a new array. As in `IP.init`, line 56 is checked before the division by the mass. -/
def init (mass : K) (h com H I : Option ℕ := none) (translateFromCom : Bool := false) : Prog (Array3 K) (IPRef K) := do
  Prog.pure' (pyAssert (decide (0 ≤ mass)))
  Prog.pure' (if h.isSome && com.isSome then .error .value else .ok ())
  Prog.pure' (if H.isSome && I.isSome then .error .value else .ok ())
  let com ← comArray mass h com
  let c ← Array3.readVec com
  let H ← secondArray mass c translateFromCom H I
  let H ← translated mass c H translateFromCom
  pure ⟨mass, com, H⟩

end Field
end IPRef

/-- A box with the references of its arrays (src/rigeo/shape/box.py:57-63). -/
structure BoxRef where
  halfExtents : ℕ
  rotation : ℕ
  center : ℕ

namespace BoxRef
section Field
variable {K : Type} [Field K] [LinearOrder K]

/-- The box as a value. -/
def view (m : List (Array3 K)) (b : BoxRef) : Option (Box K) := do
  let h ← Array3.vec? m b.halfExtents
  let R ← Array3.mat? m b.rotation
  let c ← Array3.vec? m b.center
  pure ⟨h, R, c⟩

/-- src/rigeo/shape/box.py:56-63 `__init__(half_extents, center, rotation)` -/
def init (halfExtents : ℕ) (center rotation : Option ℕ := none) : Prog (Array3 K) BoxRef := do
  let h ← Array3.readVec halfExtents
  let halfExtents ← Prog.new (.vec h)
  Prog.pure' (pyAssert (decide (∀ i, 0 ≤ h i)))
  let rotation ← Array3.copyMat 1 rotation
  let center ← Array3.copyVec 0 center
  pure ⟨halfExtents, rotation, center⟩

end Field
end BoxRef
end Rigeo
