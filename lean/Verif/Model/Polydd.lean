import Verif.Model.Util

/-!
# Model of `src/rigeo/polydd.py`

Arrays of points are lists of rows. The double description library `cdd` is an oracle: `CddLib` is
the interface rigeo uses; what a correct implementation guarantees is specified in
`Verif.Spec.Cdd`.
-/

namespace Rigeo

open Matrix

/-- A `cdd.Matrix`: rows `[t, x...]` and the set `lin_set` of linearity rows. -/
structure CddMat (K : Type) (d : ℕ) where
  rows : List (K × (Fin d → K))
  lin : List ℕ

/-- The part of pycddlib that rigeo calls. `inequalities`/`generators` are
`cdd.Polyhedron(mat).get_inequalities()` / `.get_generators()`; the `canonicalize` functions are
`mat.canonicalize()` on matrices of either representation type. -/
structure CddLib (K : Type) where
  inequalities : {d : ℕ} → CddMat K d → CddMat K d
  generators : {d : ℕ} → CddMat K d → CddMat K d
  canonicalizeGen : {d : ℕ} → CddMat K d → CddMat K d
  canonicalizeIneq : {d : ℕ} → CddMat K d → CddMat K d

/-- src/rigeo/polydd.py:6-32: a span form; `None` attributes are `none`. -/
structure SpanForm (K : Type) (d : ℕ) where
  vertices : Option (List (Fin d → K))
  rays : Option (List (Fin d → K))

/-- src/rigeo/polydd.py:172-185: a face form; rows of `A` paired with entries of `b`. -/
structure FaceForm (K : Type) (d : ℕ) where
  faces : List ((Fin d → K) × K)

section Field
variable {K : Type} [Field K]

namespace SpanForm
variable {d : ℕ}

/-- src/rigeo/polydd.py:17-32 `SpanForm.__init__` -/
def init (vertices rays span : Option (List (Fin d → K)) := none) : SpanForm K d :=
  match span with
  | none => ⟨vertices, rays⟩
  | some s =>
    let spanRays := s ++ s.map (fun v => -v)
    match rays with
    | none => ⟨vertices, some spanRays⟩
    | some r => ⟨vertices, some (r ++ spanRays)⟩

/-- src/rigeo/polydd.py:37-40 `nv` -/
def nv (s : SpanForm K d) : ℕ := (s.vertices.map List.length).getD 0

/-- src/rigeo/polydd.py:42-45 `nr` -/
def nr (s : SpanForm K d) : ℕ := (s.rays.map List.length).getD 0

/-- `M[mask, 1:] if np.any(mask) else None` (src/rigeo/polydd.py:82-84) -/
def orNone {α : Type} (l : List α) : Option (List α) := if l.isEmpty then none else some l

/-- src/rigeo/polydd.py:57-85 `SpanForm.from_cdd_matrix`. The result `None` is the inner `none`. -/
def fromCdd [LinearOrder K] (mat : CddMat K d) : Py (Option (SpanForm K d)) := do
  if mat.rows.length = 0 then return none
  let irows := mat.rows.zipIdx
  let isLin := fun k : ℕ => decide (k ∈ mat.lin)
  -- numpy raises IndexError if a linearity index is out of range
  if !(mat.lin.all fun k => decide (k < mat.rows.length)) then throw .index
  pyAssert (mat.lin.isEmpty ||
    irows.all fun rk => !isLin rk.2 || isclose rk.1.1 0 rtol5 tol8)
  let vs := (irows.filter fun rk => isclose rk.1.1 1 rtol5 tol8).map fun rk => rk.1.2
  let rs := (irows.filter fun rk => isclose rk.1.1 0 rtol5 tol8 && !isLin rk.2).map fun rk => rk.1.2
  let ss := (irows.filter fun rk => isLin rk.2).map fun rk => rk.1.2
  return some (init (orNone vs) (orNone rs) (orNone ss))

/-- src/rigeo/polydd.py:87-94 `bounded` -/
def bounded (s : SpanForm K d) : Bool := s.rays.isNone && s.vertices.isSome

/-- src/rigeo/polydd.py:96-107 `is_cone` -/
def isCone (s : SpanForm K d) : Bool := s.rays.isSome && s.vertices.isNone

/-- src/rigeo/polydd.py:109-127 `SpanForm.to_cdd_matrix`. With neither vertices nor rays,
`self.dim + 1` is `None + 1`, a `TypeError`. -/
def toCdd (s : SpanForm K d) : Py (CddMat K d) :=
  if s.vertices.isNone && s.rays.isNone then .error .type
  else .ok ⟨(s.vertices.getD []).map (fun v => (1, v)) ++ (s.rays.getD []).map (fun r => (0, r)), []⟩

/-- src/rigeo/polydd.py:156-169 `SpanForm.transform`. As in the source, the translation is added to
the rays as well. -/
def transform (s : SpanForm K d) (rotation : Option (Matrix (Fin d) (Fin d) K) := none)
    (translation : Option (Fin d → K) := none) : SpanForm K d :=
  let R := rotation.getD 1
  let t := translation.getD 0
  init (s.vertices.map fun l => l.map fun v => R *ᵥ v + t)
    (s.rays.map fun l => l.map fun v => R *ᵥ v + t)

end SpanForm

namespace FaceForm
variable {d : ℕ}

/-- src/rigeo/polydd.py:175-185 `FaceForm.__init__` -/
def init (ineq : List ((Fin d → K) × K)) (eq : Option (List ((Fin d → K) × K)) := none) :
    FaceForm K d :=
  match eq with
  | none => ⟨ineq⟩
  | some e => ⟨ineq ++ e ++ e.map fun f => (-f.1, -f.2)⟩

/-- src/rigeo/polydd.py:190-213 `FaceForm.from_cdd_matrix`. With no rows at all `M[:, 0]` raises
`IndexError`; with no inequality rows `np.array([])` is a float array, which cannot be used as an
index (`IndexError`). -/
def fromCdd (mat : CddMat K d) : Py (FaceForm K d) := do
  if mat.rows.length = 0 then throw .index
  if !(mat.lin.all fun k => decide (k < mat.rows.length)) then throw .index
  let irows := mat.rows.zipIdx
  let isLin := fun k : ℕ => decide (k ∈ mat.lin)
  let row := fun (rk : (K × (Fin d → K)) × ℕ) => ((-rk.1.2 : Fin d → K), rk.1.1)
  let ineq := (irows.filter fun rk => !isLin rk.2).map row
  let eq := (irows.filter fun rk => isLin rk.2).map row
  if ineq.isEmpty then throw .index
  return init ineq (if eq.isEmpty then none else some eq)

/-- src/rigeo/polydd.py:215-218 `nf` -/
def nf (f : FaceForm K d) : ℕ := f.faces.length

/-- src/rigeo/polydd.py:225-237 `FaceForm.to_cdd_matrix`: rows `[b, -A]` -/
def toCdd (f : FaceForm K d) : CddMat K d := ⟨f.faces.map fun ab => (ab.2, -ab.1), []⟩

/-- src/rigeo/polydd.py:239-249 `FaceForm.canonical` -/
def canonical (cdd : CddLib K) (f : FaceForm K d) : Py (FaceForm K d) :=
  fromCdd (cdd.canonicalizeIneq f.toCdd)

/-- src/rigeo/polydd.py:251-268 `stack` -/
def stack (f g : FaceForm K d) : FaceForm K d := init (f.faces ++ g.faces)

/-- src/rigeo/polydd.py:270-281 `FaceForm.to_span_form` (`None` for an empty polyhedron) -/
def toSpanForm [LinearOrder K] (cdd : CddLib K) (f : FaceForm K d) : Py (Option (SpanForm K d)) :=
  SpanForm.fromCdd (cdd.generators f.toCdd)

/-- src/rigeo/polydd.py:283-291 `FaceForm.transform`: `A' = A @ R.T`, `b' = b + A' @ t` -/
def transform (f : FaceForm K d) (rotation : Option (Matrix (Fin d) (Fin d) K) := none)
    (translation : Option (Fin d → K) := none) : FaceForm K d :=
  let R := rotation.getD 1
  let t := translation.getD 0
  init (f.faces.map fun ab => (ab.1 ᵥ* Rᵀ, ab.2 + (ab.1 ᵥ* Rᵀ) ⬝ᵥ t))

end FaceForm

namespace SpanForm
variable {d : ℕ} [LinearOrder K]

/-- src/rigeo/polydd.py:129-141 `SpanForm.canonical` -/
def canonical (cdd : CddLib K) (s : SpanForm K d) : Py (Option (SpanForm K d)) := do
  let m ← s.toCdd
  fromCdd (cdd.canonicalizeGen m)

/-- src/rigeo/polydd.py:143-154 `SpanForm.to_face_form` -/
def toFaceForm (cdd : CddLib K) (s : SpanForm K d) : Py (FaceForm K d) := do
  let m ← s.toCdd
  FaceForm.fromCdd (cdd.inequalities m)

end SpanForm

/-- src/rigeo/polydd.py:294-317 `convex_hull(points)`. `canonical()` may return `None`, whose
`.vertices` does not exist. -/
def convexHullPoints [LinearOrder K] {d : ℕ} (cdd : CddLib K) (points : List (Fin d → K)) :
    Py (Option (List (Fin d → K))) :=
  if points.length ≤ 1 then .ok (some points)
  else do
    match ← (SpanForm.init (some points)).canonical cdd with
    | none => throw .attribute
    | some s => return s.vertices

end Field
end Rigeo
