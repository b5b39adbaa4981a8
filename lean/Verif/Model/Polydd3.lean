import Verif.Model.Polydd

/-!
# Model of `src/rigeo/unused/polydd_pycddlib3.py`

The variant of `polydd.py` for version 3 of pycddlib. Here a matrix of the library is a rectangular array whose rows have one
entry more than the dimension, and the functions of the source are followed mask by mask, as they are written. The classes of
the two files have the same attributes, so the types `SpanForm` and `FaceForm` are shared; `__init__`, `nv`, `nr`, `nf`, `bounded`,
`is_cone`, `stack` and `transform` are the same text in both files (lines 17-46, 87-107, 154-183, 213-216, 247-264, 279-287 here) and
are modelled in `Model/Polydd.lean`.
-/

namespace Rigeo

open Matrix

/-- A matrix of pycddlib 3: `mat.array` and `mat.lin_set`. -/
structure Cdd3Mat (K : Type) (d : ℕ) where
  array : List (Fin (d + 1) → K)
  linSet : List ℕ

/-- The functions of pycddlib 3 that are called: `copy_inequalities(polyhedron_from_matrix(·))`,
`copy_generators(polyhedron_from_matrix(·))` and `matrix_canonicalize` on matrices of either representation type. -/
structure Cdd3Lib (K : Type) where
  inequalities : {d : ℕ} → Cdd3Mat K d → Cdd3Mat K d
  generators : {d : ℕ} → Cdd3Mat K d → Cdd3Mat K d
  canonicalizeGen : {d : ℕ} → Cdd3Mat K d → Cdd3Mat K d
  canonicalizeIneq : {d : ℕ} → Cdd3Mat K d → Cdd3Mat K d

/-- `a[idx] = value` for a list of positions -/
def setAt {α : Type} (a : List α) (idx : List ℕ) (value : α) : List α := idx.foldl (fun a k => a.set k value) a

/-- `a[idx]` for a list of positions; `IndexError` outside of the array -/
def takeAt {α : Type} (a : List α) (idx : List ℕ) : Py (List α) :=
  idx.mapM fun k => match a[k]? with
    | some x => (.ok x : Py α)
    | none => .error .index

/-- `M[mask, 1:] if np.any(mask) else None` -/
def maskRows {K : Type} {d : ℕ} (M : List (Fin (d + 1) → K)) (mask : List Bool) : Option (List (Fin d → K)) :=
  if mask.any id then some (((M.zip mask).filter fun xb => xb.2).map fun xb => Fin.tail xb.1) else none

section Field
variable {K : Type} [Field K]

namespace SpanForm
variable {d : ℕ}

/-- src/rigeo/unused/polydd_pycddlib3.py:57-85 `SpanForm.from_cdd_matrix`; `M.size` is the number of entries. -/
def fromCdd3 [LinearOrder K] (mat : Cdd3Mat K d) : Py (Option (SpanForm K d)) := do
  let M := mat.array
  if M.length * (d + 1) = 0 then return none
  let t := M.map fun row => row 0
  let vMask := t.map fun x => isclose x 1 rtol5 tol8
  let rMask := t.map fun x => isclose x 0 rtol5 tol8
  let sMask := rMask.map fun _ => false
  if 0 < mat.linSet.length then
    let tl ← takeAt t mat.linSet
    pyAssert (tl.all fun x => isclose x 0 rtol5 tol8)
    let sMask := setAt sMask mat.linSet true
    let rMask := setAt rMask mat.linSet false
    return some (init (maskRows M vMask) (maskRows M rMask) (maskRows M sMask))
  return some (init (maskRows M vMask) (maskRows M rMask) (maskRows M sMask))

/-- src/rigeo/unused/polydd_pycddlib3.py:109-125 `SpanForm.to_cdd_matrix` -/
def toCdd3 (s : SpanForm K d) : Py (Cdd3Mat K d) :=
  if s.vertices.isNone && s.rays.isNone then .error .type
  else
    .ok ⟨(s.vertices.getD []).map (fun v => Fin.cons 1 v) ++ (s.rays.getD []).map (fun r => Fin.cons 0 r), []⟩

end SpanForm

namespace FaceForm
variable {d : ℕ}

/-- src/rigeo/unused/polydd_pycddlib3.py:188-211 `FaceForm.from_cdd_matrix`. `np.array([])` cannot be indexed with two indices and
is a float array, which cannot be used as an index (`IndexError` in both cases). -/
def fromCdd3 (mat : Cdd3Mat K d) : Py (FaceForm K d) := do
  let M := mat.array
  if M.length = 0 then throw .index
  let ineqIdx := (List.range M.length).filter fun k => !decide (k ∈ mat.linSet)
  let eqIdx := mat.linSet
  if ineqIdx.isEmpty then throw .index
  let row := fun r : Fin (d + 1) → K => ((-Fin.tail r : Fin d → K), r 0)
  let ineq ← takeAt (M.map row) ineqIdx
  if 0 < eqIdx.length then
    let eq ← takeAt (M.map row) eqIdx
    return init ineq (some eq)
  return init ineq none

/-- src/rigeo/unused/polydd_pycddlib3.py:223-233 `FaceForm.to_cdd_matrix` -/
def toCdd3 (f : FaceForm K d) : Cdd3Mat K d := ⟨f.faces.map fun ab => Fin.cons ab.2 (-ab.1), []⟩

/-- src/rigeo/unused/polydd_pycddlib3.py:235-245 `FaceForm.canonical` -/
def canonical3 (cdd : Cdd3Lib K) (f : FaceForm K d) : Py (FaceForm K d) := fromCdd3 (cdd.canonicalizeIneq f.toCdd3)

/-- src/rigeo/unused/polydd_pycddlib3.py:266-277 `FaceForm.to_span_form` -/
def toSpanForm3 [LinearOrder K] (cdd : Cdd3Lib K) (f : FaceForm K d) : Py (Option (SpanForm K d)) :=
  SpanForm.fromCdd3 (cdd.generators f.toCdd3)

end FaceForm

namespace SpanForm
variable {d : ℕ} [LinearOrder K]

/-- src/rigeo/unused/polydd_pycddlib3.py:127-139 `SpanForm.canonical` -/
def canonical3 (cdd : Cdd3Lib K) (s : SpanForm K d) : Py (Option (SpanForm K d)) := do
  let m ← s.toCdd3
  fromCdd3 (cdd.canonicalizeGen m)

/-- src/rigeo/unused/polydd_pycddlib3.py:141-152 `SpanForm.to_face_form` -/
def toFaceForm3 (cdd : Cdd3Lib K) (s : SpanForm K d) : Py (FaceForm K d) := do
  let m ← s.toCdd3
  FaceForm.fromCdd3 (cdd.inequalities m)

end SpanForm

/-- src/rigeo/unused/polydd_pycddlib3.py:290-313 `convex_hull(points)` -/
def convexHullPoints3 [LinearOrder K] {d : ℕ} (cdd : Cdd3Lib K) (points : List (Fin d → K)) : Py (Option (List (Fin d → K))) :=
  if points.length ≤ 1 then .ok (some points)
  else do
    match ← (SpanForm.init (some points)).canonical3 cdd with
    | none => throw .attribute
    | some s => return s.vertices

end Field
end Rigeo
