import Verif.Model.Polydd
import Verif.Model.Constraint

/-!
# Model of `src/rigeo/shape/poly.py` (geometry) and of the shared code in `src/rigeo/shape/base.py`

The moment-based constraints of `poly.py` are in `Verif.Model.Realize`.
-/

namespace Rigeo

open Matrix

/-- The stored attributes of a `ConvexPolyhedron` (src/rigeo/shape/poly.py:57-58). A bounded span form
always has vertices and no rays, so only the vertex rows are kept. -/
structure Poly (K : Type) (d : ℕ) where
  vertices : List (Fin d → K)
  faceForm : FaceForm K d

namespace Poly
section Field
variable {K : Type} [Field K] [LinearOrder K] {d : ℕ}

/-- src/rigeo/shape/poly.py:48-60 `__init__`. With neither form given, `span_form.to_face_form()` is an
attribute access on `None`; an empty polyhedron gives `span_form = None`, and `None.bounded()` fails
in the same way. -/
def init (cdd : CddLib K) (faceForm : Option (FaceForm K d)) (spanForm : Option (SpanForm K d)) :
    Py (Poly K d) := do
  let ff ← match faceForm with
    | some f => pure f
    | none => match spanForm with
      | some s => s.toFaceForm cdd
      | none => throw .attribute
  let sf ← match spanForm with
    | some s => pure (some s)
    | none => ff.toSpanForm cdd
  match sf with
  | none => throw .attribute
  | some s =>
    if s.bounded then pure ⟨s.vertices.getD [], ff⟩ else throw .value

/-- src/rigeo/shape/poly.py:62-77 `from_vertices(vertices, prune)` -/
def fromVertices (cdd : CddLib K) (vertices : List (Fin d → K)) (prune : Bool := false) :
    Py (Poly K d) := do
  let s := SpanForm.init (some vertices)
  if prune then do
    let s ← s.canonical cdd
    init cdd none s
  else init cdd none (some s)

/-- src/rigeo/shape/poly.py:79-100 `from_halfspaces(A, b, prune)` -/
def fromHalfspaces (cdd : CddLib K) (faces : List ((Fin d → K) × K)) (prune : Bool := false) :
    Py (Poly K d) := do
  let f := FaceForm.init faces
  let f ← if prune then f.canonical cdd else pure f
  init cdd (some f) none

/-- src/rigeo/shape/poly.py:102-126 `simplex(extents)`: rows of `vstack((zeros(dim), diag(extents)))` -/
def simplex (cdd : CddLib K) (extents : Fin d → K) : Py (Poly K d) := do
  pyAssert (decide (∀ i, 0 < extents i))
  fromVertices cdd ((0 : Fin d → K) :: (List.finRange d).map fun i => Matrix.diagonal extents i)

/-- src/rigeo/shape/poly.py:161-165 `contains` for a single point -/
def contains (P : Poly K d) (p : Fin d → K) (tol : K := tol8) : Bool :=
  P.faceForm.faces.all fun ab => decide (ab.1 ⬝ᵥ p ≤ ab.2 + tol)

/-- src/rigeo/shape/poly.py:167-170 `must_contain` for a single point -/
def mustContain (P : Poly K d) (p : Fin d → K) (scale : K := 1) : Prop :=
  ∀ ab ∈ P.faceForm.faces, ab.1 ⬝ᵥ p ≤ scale * ab.2

/-- src/rigeo/shape/base.py:25-40 `contains_polyhedron(poly)` for a shape with membership test
`contains`; `poly.vertices` is passed as a list of points. -/
def containsPolyhedron (contains : (Fin d → K) → Bool) (vertices : List (Fin d → K)) : Bool :=
  vertices.all contains

/-- src/rigeo/shape/poly.py:172-177 `is_same` when both arguments are plain `ConvexPolyhedron`s. -/
def isSame (P Q : Poly K d) (tol : K := tol8) : Bool :=
  containsPolyhedron (fun p => P.contains p tol) Q.vertices &&
    containsPolyhedron (fun p => Q.contains p tol) P.vertices

/-- src/rigeo/shape/poly.py:179-191 `random_points`: one point, given the weight vector drawn. -/
def randomPoint (P : Poly K d) (w : Fin P.vertices.length → K) : Fin d → K :=
  ∑ i, w i • P.vertices.get i

/-- src/rigeo/shape/poly.py:243-262 `intersect`. The result `None` is the inner `none`. -/
def intersect (cdd : CddLib K) (P Q : Poly K d) : Py (Option (Poly K d)) := do
  match ← (P.faceForm.stack Q.faceForm).toSpanForm cdd with
  | none => return none
  | some s => return some (← init cdd none (some s))

/-- src/rigeo/shape/poly.py:312-317 `transform`: `vertices @ R.T + t`, then `from_vertices`. -/
def transform (cdd : CddLib K) (P : Poly K d) (rotation : Option (Matrix (Fin d) (Fin d) K) := none)
    (translation : Option (Fin d → K) := none) : Py (Poly K d) :=
  let R := rotation.getD 1
  let t := translation.getD 0
  fromVertices cdd (P.vertices.map fun v => v ᵥ* Rᵀ + t)

/-- src/rigeo/shape/poly.py:319-345 `vertex_point_mass_params(mass)`; `mass` is a scalar (total mass,
spread evenly) or one mass per vertex. -/
def vertexPointMassParams (P : Poly K 3) (mass : K ⊕ List K) : Py (IP K) := do
  let masses := match mass with
    | .inl m => P.vertices.map fun _ => m / (P.vertices.length : K)
    | .inr ms => ms
  pyAssert (masses.length == P.vertices.length)
  pyAssert (masses.all fun m => decide (0 ≤ m))
  IP.fromPointMasses masses P.vertices

/-- src/rigeo/shape/poly.py:347-351 and src/rigeo/shape/base.py:169-172: a grid of a shape is the grid
of its bounding box filtered by `contains`. -/
def filterGrid (contains : (Fin d → K) → Bool) (boxGrid : List (Fin d → K)) : List (Fin d → K) :=
  boxGrid.filter contains

end Field
end Poly
end Rigeo
