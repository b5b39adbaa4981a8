import Verif.Model.Ellipsoid

/-!
# Model of `src/rigeo/shape/cylinder.py` and `src/rigeo/shape/capsule.py`

Realizability constraints of the cylinder are in `Verif.Model.Realize`.
-/

namespace Rigeo

open Matrix

/-- The stored attributes of a `Cylinder` (src/rigeo/shape/cylinder.py:34-48). The derived ellipsoids,
disks and polynomials (lines 50-97) are functions of these. -/
@[ext] structure Cylinder (K : Type) where
  length : K
  radius : K
  rotation : Matrix (Fin 3) (Fin 3) K
  center : Fin 3 → K

namespace Cylinder
section Field
variable {K : Type} [Field K]

/-- src/rigeo/shape/cylinder.py:99-101 `longitudinal_axis` -/
def longitudinalAxis (c : Cylinder K) : Fin 3 → K := fun i => c.rotation i 2

/-- src/rigeo/shape/cylinder.py:103-105 `transverse_axes` -/
def transverseAxes (c : Cylinder K) : Matrix (Fin 3) (Fin 2) K :=
  Matrix.of fun i j => c.rotation i (Fin.castLE (by decide) j)

/-- src/rigeo/shape/cylinder.py:52-55 the one-dimensional ellipsoid `ell1` -/
def ell1 (c : Cylinder K) : Ellipsoid K 1 :=
  ⟨fun _ => c.length / 2, 1, fun _ => c.longitudinalAxis ⬝ᵥ c.center⟩

/-- src/rigeo/shape/cylinder.py:56-59 the two-dimensional ellipsoid `ell2` -/
def ell2 (c : Cylinder K) : Ellipsoid K 2 :=
  ⟨fun _ => c.radius, 1, c.transverseAxesᵀ *ᵥ c.center⟩

/-- src/rigeo/shape/cylinder.py:71-86 the two disks `disk0s` bounding the cylinder at the origin -/
def disk0s (c : Cylinder K) : List (Ellipsoid K 3) :=
  [⟨![c.radius, c.radius, 0], 1, ![0, 0, (1 / 2) * c.length]⟩,
   ⟨![c.radius, c.radius, 0], 1, ![0, 0, -((1 / 2) * c.length)]⟩]

/-- src/rigeo/shape/cylinder.py:210-213 `endpoints` -/
def endpoints (c : Cylinder K) : List (Fin 3 → K) :=
  let h : Fin 3 → K := ((1 / 2) * c.length) • c.longitudinalAxis
  [h + c.center, -h + c.center]

variable [LinearOrder K]

/-- src/rigeo/shape/cylinder.py:30-97 `__init__`. All derived ellipsoids have non-negative half extents
once the two assertions hold. -/
def init (length radius : K) (rotation : Option (Matrix (Fin 3) (Fin 3) K) := none)
    (center : Option (Fin 3 → K) := none) : Py (Cylinder K) := do
  pyAssert (decide (0 ≤ length))
  pyAssert (decide (0 ≤ radius))
  pure ⟨length, radius, rotation.getD 1, center.getD 0⟩

/-- src/rigeo/shape/cylinder.py:112-120 `is_same` between two cylinders; it takes no `tol`. -/
def isSame (c c' : Cylinder K) : Bool :=
  isclose c.length c'.length rtol5 tol8 && isclose c.radius c'.radius rtol5 tol8 &&
    decide (∀ i, isclose (c.center i) (c'.center i) rtol5 tol8 = true) &&
    decide (∀ i j, isclose (c.rotation i j) (c'.rotation i j) rtol5 tol8 = true)

/-- src/rigeo/shape/cylinder.py:122-127 `contains(points, tol)` for a single point. As in the source,
`tol` is not passed on: the two ellipsoids use their default `1e-8`. -/
def contains (c : Cylinder K) (p : Fin 3 → K) (_tol : K := tol8) : Bool :=
  c.ell1.contains (fun _ => p ⬝ᵥ c.longitudinalAxis) && c.ell2.contains (p ᵥ* c.transverseAxes)

/-- src/rigeo/shape/cylinder.py:129-136 `must_contain` for a single point -/
def mustContain (c : Cylinder K) (p : Fin 3 → K) (scale : K := 1) : Prop :=
  c.ell1.mustContain (fun _ => p ⬝ᵥ c.longitudinalAxis) scale ∧
    c.ell2.mustContain (p ᵥ* c.transverseAxes) scale

/-- src/rigeo/shape/cylinder.py:197-208 `transform` -/
def transform (c : Cylinder K) (rotation : Option (Matrix (Fin 3) (Fin 3) K) := none)
    (translation : Option (Fin 3 → K) := none) : Py (Cylinder K) :=
  let R := rotation.getD 1
  let t := translation.getD 0
  init c.length c.radius (rotation := some (R * c.rotation)) (center := some (R *ᵥ c.center + t))

omit [LinearOrder K] in
/-- src/rigeo/shape/cylinder.py:233-240 `random_points`: one point, given the uniform draw `u` in
`[-1/2, 1/2)` and the point `x` drawn in the unit disk. -/
def randomPoint (c : Cylinder K) (u : K) (x : Fin 2 → K) : Fin 3 → K :=
  (![c.radius * x 0, c.radius * x 1, c.length * u] : Fin 3 → K) ᵥ* c.rotationᵀ + c.center

/-- src/rigeo/shape/cylinder.py:251-257 `mbb` -/
def mbb (c : Cylinder K) : Py (Box K) :=
  Box.init ![c.radius, c.radius, c.length / 2] (center := some c.center) (rotation := some c.rotation)

/-- src/rigeo/shape/cylinder.py:259-281 `uniform_density_params` -/
def uniformDensityParams (c : Cylinder K) (mass : K) : Py (IP K) := do
  pyAssert (decide (0 ≤ mass))
  let Hxy := mass * c.radius ^ 2 / 4
  let Hz := mass * c.length ^ 2 / 12
  let p ← IP.init mass (h := some 0) (H := some (Matrix.diagonal ![Hxy, Hxy, Hz]))
  p.transform (rotation := some c.rotation) (translation := some c.center)

end Field

/-- src/rigeo/shape/cylinder.py:107-110 `volume` -/
noncomputable def volume (c : Cylinder ℝ) : ℝ := Real.pi * c.radius ^ 2 * c.length

/-- src/rigeo/shape/cylinder.py:215-228 `aabb`: the bounding box of the corners of the bounding boxes
of the two end disks. -/
noncomputable def aabb (c : Cylinder ℝ) : Py (Box ℝ) := do
  let corners ← c.endpoints.mapM fun e => do
    let disk ← Ellipsoid.init ![c.radius, c.radius, 0] (rotation := some c.rotation) (center := some e)
    let box ← disk.aabb
    pure box.vertices
  Box.fromPointsToBound corners.flatten

/-- src/rigeo/shape/cylinder.py:242-249 `mib` -/
noncomputable def mib (c : Cylinder ℝ) : Py (Box ℝ) :=
  let r := c.radius / Real.sqrt 2
  Box.init ![r, r, c.length / 2] (center := some c.center) (rotation := some c.rotation)

/-- src/rigeo/shape/cylinder.py:230-231 `mbe` -/
noncomputable def mbe (c : Cylinder ℝ) (sphere : Bool := false) : Py (Ellipsoid ℝ 3) := do
  let box ← c.mib
  box.mbe sphere

end Cylinder

/-! ## capsule.py -/

/-- src/rigeo/shape/capsule.py:19-26: a capsule stores its cylinder; the caps are functions of it. -/
@[ext] structure Capsule (K : Type) where
  cylinder : Cylinder K

namespace Capsule
section Field
variable {K : Type} [Field K]

/-- src/rigeo/shape/capsule.py:44-46 `full_length` -/
def fullLength (c : Capsule K) : K := c.cylinder.length + 2 * c.cylinder.radius

variable [LinearOrder K]

/-- src/rigeo/shape/capsule.py:21-24 the two spherical caps -/
def caps (c : Capsule K) : Py (List (Ellipsoid K 3)) :=
  c.cylinder.endpoints.mapM fun e => Ellipsoid.sphere c.cylinder.radius e

/-- src/rigeo/shape/capsule.py:53-55 `contains` for a single point -/
def contains (c : Capsule K) (p : Fin 3 → K) (tol : K := tol8) : Py Bool := do
  let caps ← c.caps
  pure (caps.any (fun e => e.contains p tol) || c.cylinder.contains p tol)

/-- src/rigeo/shape/base.py:25-40 `contains_polyhedron(poly, tol)` on a capsule -/
def containsPolyhedron (c : Capsule K) (vertices : List (Fin 3 → K)) (tol : K := tol8) : Py Bool := do
  let bs ← vertices.mapM fun p => c.contains p tol
  pure (bs.all id)

/-- src/rigeo/shape/capsule.py:57-71 `must_contain` for a single point; `p1`, `p2`, `t` are cvxpy
variables, hence existentially quantified. -/
def mustContain (c : Capsule K) (point : Fin 3 → K) (scale : K := 1) : Py Prop := do
  let caps ← c.caps
  match caps with
  | [e1, e2] =>
    pure (∃ (p1 p2 : Fin 3 → K) (t : K), e1.mustContain p1 t ∧ e2.mustContain p2 (scale - t) ∧
      0 ≤ t ∧ t ≤ scale ∧ point = p1 + p2)
  | _ => throw .index

/-- src/rigeo/shape/capsule.py:73-76 `transform` -/
def transform (c : Capsule K) (rotation : Option (Matrix (Fin 3) (Fin 3) K) := none)
    (translation : Option (Fin 3 → K) := none) : Py (Capsule K) := do
  let cyl ← c.cylinder.transform rotation translation
  pure ⟨cyl⟩

/-- src/rigeo/shape/capsule.py:85-91 `mbb` -/
def mbb (c : Capsule K) : Py (Box K) :=
  Box.init ![c.cylinder.radius, c.cylinder.radius, c.fullLength / 2]
    (center := some c.cylinder.center) (rotation := some c.cylinder.rotation)

end Field

/-- src/rigeo/shape/capsule.py:78-80 `aabb` -/
noncomputable def aabb (c : Capsule ℝ) : Py (Box ℝ) := do
  let caps ← c.caps
  let corners ← caps.mapM fun e => do
    let box ← e.aabb
    pure box.vertices
  Box.fromPointsToBound corners.flatten

end Capsule
end Rigeo
