import Verif.Model.Poly

/-!
# Programs that build polyhedra

A program is a term over the ways to construct a `ConvexPolyhedron` and its operations; `run` evaluates it with the functions of the
model.
-/

namespace Rigeo

variable {K : Type} [Field K] [LinearOrder K] {d : ℕ}

/-- The expressions a caller can write with the class `ConvexPolyhedron` (src/rigeo/shape/poly.py:62-126, 243-262, 312-317). -/
inductive PolyhedronProgram (K : Type) (d : ℕ)
  /-- `ConvexPolyhedron.from_vertices(vertices, prune)` -/
  | vertices (points : List (Fin d → K)) (prune : Bool)
  /-- `ConvexPolyhedron.from_halfspaces(A, b)` -/
  | halfspaces (faces : List ((Fin d → K) × K))
  /-- `ConvexPolyhedron.simplex(extents)` -/
  | simplex (extents : Fin d → K)
  /-- `a.intersect(b)` -/
  | intersect (a b : PolyhedronProgram K d)
  /-- `a.transform(rotation, translation)` -/
  | transform (rotation : Matrix (Fin d) (Fin d) K) (translation : Fin d → K) (a : PolyhedronProgram K d)

/-- The value of a program, which may be `None`: `from_vertices`, `from_halfspaces`, `simplex`, `intersect` and `transform`
(src/rigeo/shape/poly.py:62-126, 243-262, 312-317).  `None.intersect` and
`None.transform` raise an `AttributeError` (for `intersect` before the argument is evaluated), and `intersect(None)` fails its
assertion. -/
def PolyhedronProgram.run (cdd : CddLib K) : PolyhedronProgram K d → Py (Option (Poly K d))
  | .vertices points prune => do
    let P ← Poly.fromVertices cdd points prune
    return some P
  | .halfspaces faces => do
    let P ← Poly.fromHalfspaces cdd faces
    return some P
  | .simplex extents => do
    let P ← Poly.simplex cdd extents
    return some P
  | .intersect a b => do
    match ← a.run cdd with
    | none => throw .attribute
    | some P =>
      match ← b.run cdd with
      | none => throw .assertion
      | some Q => P.intersect cdd Q
  | .transform R t a => do
    match ← a.run cdd with
    | none => throw .attribute
    | some P =>
      let S ← P.transform cdd (some R) (some t)
      return some S

end Rigeo
