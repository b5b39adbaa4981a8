import Verif.Model.Box
import Mathlib.Analysis.Real.Sqrt
import Mathlib.Analysis.Real.Pi.Bounds
import Mathlib.Data.Fintype.Card

/-!
# Model of `src/rigeo/shape/ellipsoid.py` and of the ellipsoids built by `box.py`

Realizability tests and constraints are in `Verif.Model.Realize`.
-/

namespace Rigeo

open Matrix

/-- The stored attributes of an `Ellipsoid` (src/rigeo/shape/ellipsoid.py:65-83).
`half_extents_inv` is a function of `half_extents`, see `hInv`. -/
@[ext] structure Ellipsoid (K : Type) (d : ℕ) where
  halfExtents : Fin d → K
  rotation : Matrix (Fin d) (Fin d) K
  center : Fin d → K

/-- src/rigeo/shape/ellipsoid.py:28-53 `_Q_matrix(S, c, bound=1)` -/
def qMatrix {K : Type} [Field K] {d : ℕ} (S : Matrix (Fin d) (Fin d) K) (c : Fin d → K)
    (bound : K := 1) : Matrix (Fin (d + 1)) (Fin (d + 1)) K :=
  bordered (-S) (S *ᵥ c) (S *ᵥ c) (bound - (c ᵥ* S) ⬝ᵥ c)

namespace Ellipsoid
section Field
variable {K : Type} [Field K] [LinearOrder K] {d : ℕ}

/-- src/rigeo/shape/ellipsoid.py:62-84 `__init__` on arrays of matching shape. -/
def init (halfExtents : Fin d → K) (rotation : Option (Matrix (Fin d) (Fin d) K) := none)
    (center : Option (Fin d → K) := none) : Py (Ellipsoid K d) := do
  pyAssert (decide (∀ i, 0 ≤ halfExtents i))
  pure ⟨halfExtents, rotation.getD 1, center.getD 0⟩

/-- src/rigeo/shape/ellipsoid.py:17-25 `_inv_with_zeros(a, tol=1e-8)`, entrywise; `none` is
`np.inf`. -/
def invWithZero (a : K) : Option K := if isclose a 0 0 tol8 then none else some (1 / a)

/-- attribute `half_extents_inv` (src/rigeo/shape/ellipsoid.py:72) -/
def hInv (e : Ellipsoid K d) (i : Fin d) : Option K := invWithZero (e.halfExtents i)

/-- The mask `np.isclose(self.half_extents, 0)` (src/rigeo/shape/ellipsoid.py:199, 217, 271, 310). -/
def z (e : Ellipsoid K d) (i : Fin d) : Bool := isclose (e.halfExtents i) 0 rtol5 tol8

/-- `half_extents_inv[i]` at positions outside the mask, where it is finite (`hInv_eq_none` in
`Verif.Lemmas.Shapes` proves that the two masks agree, so the default is never used). -/
def hInvNz (e : Ellipsoid K d) (i : Fin d) : K := (e.hInv i).getD 0

/-- `half_extents_inv` when it is to be used as a finite vector; otherwise every entry of the
matrices computed from it is `inf` or `nan`. -/
def hInvFin (e : Ellipsoid K d) : Py (Fin d → K) :=
  if ∀ i, (e.hInv i).isSome then .ok e.hInvNz else .error .nonfinite

/-- src/rigeo/shape/ellipsoid.py:90-97 `S` -/
def S (e : Ellipsoid K d) : Py (Matrix (Fin d) (Fin d) K) := do
  let inv ← e.hInvFin
  pure (e.rotation * Matrix.diagonal (fun i => inv i ^ 2) * e.rotationᵀ)

omit [LinearOrder K] in
/-- src/rigeo/shape/ellipsoid.py:99-102 `E` -/
def E (e : Ellipsoid K d) : Matrix (Fin d) (Fin d) K :=
  e.rotation * Matrix.diagonal (fun i => e.halfExtents i ^ 2) * e.rotationᵀ

/-- src/rigeo/shape/ellipsoid.py:104-106 `rank`: `np.count_nonzero` is an exact test. -/
def rank (e : Ellipsoid K d) : ℕ := (Finset.univ.filter fun i => e.halfExtents i ≠ 0).card

/-- src/rigeo/shape/ellipsoid.py:116-134 `sphere(radius, center)` (`center` defaults to `zeros(3)`) -/
def sphere (radius : K) (center : Fin d → K) : Py (Ellipsoid K d) :=
  init (fun _ => radius * 1) (center := some center)

/-- src/rigeo/shape/ellipsoid.py:167-176 `A` -/
def A (e : Ellipsoid K d) : Py (Matrix (Fin d) (Fin d) K) := do
  let inv ← e.hInvFin
  pure (e.rotation * Matrix.diagonal inv * e.rotationᵀ)

/-- src/rigeo/shape/ellipsoid.py:178-186 `b` -/
def b (e : Ellipsoid K d) : Py (Fin d → K) := do
  let A ← e.A
  pure ((-A) *ᵥ e.center)

/-- src/rigeo/shape/ellipsoid.py:188-195 `Q` -/
def Q (e : Ellipsoid K d) : Py (Matrix (Fin (d + 1)) (Fin (d + 1)) K) := do
  let S ← e.S
  pure (qMatrix S e.center)

/-- src/rigeo/shape/ellipsoid.py:201-214 `_Q_degenerate()` as the pair `(Qnz, Qz)`. Selecting columns
by a mask and multiplying `X @ X.T` is the sum over the selected columns. -/
def qDegenerate (e : Ellipsoid K d) :
    Matrix (Fin (d + 1)) (Fin (d + 1)) K × Matrix (Fin (d + 1)) (Fin (d + 1)) K :=
  let col := fun (k : Fin d) (i : Fin d) => e.rotation i k
  let Snz := ∑ k ∈ Finset.univ.filter (fun k => e.z k = false),
    outer (e.hInvNz k • col k) (e.hInvNz k • col k)
  let Sz := ∑ k ∈ Finset.univ.filter (fun k => e.z k = true), outer (col k) (col k)
  (qMatrix Snz e.center, qMatrix Sz e.center 0)

/-- src/rigeo/shape/ellipsoid.py:231-242 `is_degenerate` -/
def isDegenerate (e : Ellipsoid K d) : Bool := decide (e.rank < d)

/-- src/rigeo/shape/ellipsoid.py:250-291 `contains` for a single point -/
def contains (e : Ellipsoid K d) (p : Fin d → K) (tol : K := tol8) : Bool :=
  let ps := (p - e.center) ᵥ* e.rotation
  decide (∀ i, e.z i = true → isclose (ps i) 0 0 tol = true) &&
    decide (∑ i ∈ Finset.univ.filter (fun i => e.z i = false), (e.hInvNz i ^ 2 * ps i) * ps i ≤ 1 + tol)

/-- src/rigeo/shape/ellipsoid.py:293-328 `on_surface` for a single point -/
def onSurface (e : Ellipsoid K d) (p : Fin d → K) (tol : K := tol8) : Bool :=
  if ∃ i, e.z i = true then e.contains p tol
  else
    let ps := (p - e.center) ᵥ* e.rotation
    isclose (∑ i, (e.hInvNz i ^ 2 * ps i) * ps i) 1 0 tol

/-- src/rigeo/shape/ellipsoid.py:330-341 `must_contain` for a single point -/
def mustContain (e : Ellipsoid K d) (point : Fin d → K) (scale : K := 1) : Prop :=
  let p := e.rotationᵀ *ᵥ (point - scale • e.center)
  cvxPsd (schur (scale • Matrix.diagonal (fun i => e.halfExtents i ^ 2)) p scale)

/-- `np.max` of the half extents; numpy raises `ValueError` on an empty array. -/
def maxExtent : {d : ℕ} → (Fin d → K) → Py K
  | 0, _ => .error .value
  | _ + 1, h => .ok (Finset.univ.sup' Finset.univ_nonempty h)

/-- `np.min` of the half extents. -/
def minExtent : {d : ℕ} → (Fin d → K) → Py K
  | 0, _ => .error .value
  | _ + 1, h => .ok (Finset.univ.inf' Finset.univ_nonempty h)

/-- src/rigeo/shape/ellipsoid.py:418-422 `mbe(rcond, sphere)`. There is no `solver` parameter: passing
one (as `RigidBody.mbes` does) raises `TypeError`. -/
def mbe (e : Ellipsoid K d) (sphere : Bool := false) (solverGiven : Bool := false) :
    Py (Ellipsoid K d) :=
  if solverGiven then .error .type
  else if !sphere then .ok e
  else do
    let radius ← maxExtent e.halfExtents
    Ellipsoid.sphere radius e.center

/-- src/rigeo/shape/ellipsoid.py:424-432 `mbb` -/
def mbb (e : Ellipsoid K 3) : Py (Box K) :=
  Box.init e.halfExtents (center := some e.center) (rotation := some e.rotation)

/-- src/rigeo/shape/ellipsoid.py:512-521 `transform` -/
def transform (e : Ellipsoid K d) (rotation : Option (Matrix (Fin d) (Fin d) K) := none)
    (translation : Option (Fin d → K) := none) : Py (Ellipsoid K d) :=
  let R := rotation.getD 1
  let t := translation.getD 0
  init e.halfExtents (rotation := some (R * e.rotation)) (center := some (R *ᵥ e.center + t))

/-- src/rigeo/shape/ellipsoid.py:523-541 `rotate_about_center` -/
def rotateAboutCenter (e : Ellipsoid K d) (R : Matrix (Fin d) (Fin d) K) : Py (Ellipsoid K d) :=
  init e.halfExtents (rotation := some (R * e.rotation)) (center := some e.center)

omit [LinearOrder K] in
/-- src/rigeo/shape/ellipsoid.py:451-460 `random_points`: one point, given the point `X` drawn in the
unit ball. -/
def randomPoint (e : Ellipsoid K d) (X : Fin d → K) : Fin d → K :=
  X ᵥ* (e.rotation * Matrix.diagonal e.halfExtents * e.rotationᵀ) + e.center

omit [LinearOrder K] in
/-- src/rigeo/shape/ellipsoid.py:462-510 `random_points_on_surface`: the value returned for an accepted
unit vector `p`; as in the source the rotation is applied as `points @ rotation`. The acceptance loop
only selects among candidate vectors. -/
def randomSurfacePoint (e : Ellipsoid K d) (p : Fin d → K) : Fin d → K :=
  (p * e.halfExtents) ᵥ* e.rotation + e.center

/-- src/rigeo/shape/ellipsoid.py:543-559 `contains_ellipsoid(other)`: the feasibility problem posed to
the solver, for a value `t` of its variable. As in the source, it mixes `other.A`, `self.b`. -/
def containsEllipsoidProblem (self other : Ellipsoid K d) (t : K) : Py Prop := do
  let S ← self.S
  let Ao ← other.A
  let A ← self.A
  let b ← self.b
  let bo ← other.b
  pure (0 ≤ t ∧ cvxPsd (-(schur (S - t • Ao) (A *ᵥ b - t • b) (b ⬝ᵥ b - 1 - t * (bo ⬝ᵥ bo - 1)))))

/-- src/rigeo/shape/ellipsoid.py:561-581 `uniform_density_params` -/
def uniformDensityParams (e : Ellipsoid K 3) (mass : K) : Py (IP K) := do
  pyAssert (decide (0 ≤ mass))
  let H : Matrix (Fin 3) (Fin 3) K :=
    Matrix.of fun i j => mass * Matrix.diagonal (fun i => e.halfExtents i ^ 2) i j / 5
  let p ← IP.init mass (h := some 0) (H := some H)
  p.transform (rotation := some e.rotation) (translation := some e.center)

/-- src/rigeo/shape/ellipsoid.py:583-610 `hollow_density_params` -/
def hollowDensityParams (e : Ellipsoid K 3) (mass : K) : Py (IP K) := do
  pyAssert (decide (0 ≤ mass))
  let x := e.halfExtents 0
  let y := e.halfExtents 1
  let z := e.halfExtents 2
  let d := 5 * (x * y + x * z + y * z)
  let Hxx ← pdiv (x ^ 2 * (x * y + x * z + 3 * y * z)) d
  let Hyy ← pdiv (y ^ 2 * (x * y + 3 * x * z + y * z)) d
  let Hzz ← pdiv (z ^ 2 * (3 * x * y + x * z + y * z)) d
  let p ← IP.init mass (h := some 0) (H := some (mass • Matrix.diagonal ![Hxx, Hyy, Hzz]))
  p.transform (rotation := some e.rotation) (translation := some e.center)

end Field

/-! ### Parts that need square roots, `π` or an eigendecomposition -/

section Real
variable {d : ℕ}

/-- src/rigeo/shape/ellipsoid.py:108-111 `volume` (the formula for three dimensions, whatever `dim`) -/
noncomputable def volume (e : Ellipsoid ℝ d) : ℝ := 4 * Real.pi * (∏ i, e.halfExtents i) / 3

/-- src/rigeo/shape/ellipsoid.py:434-442 `mib` -/
noncomputable def mib (e : Ellipsoid ℝ 3) : Py (Box ℝ) :=
  Box.init (fun i => e.halfExtents i / Real.sqrt 3) (center := some e.center) (rotation := some e.rotation)

/-- src/rigeo/shape/ellipsoid.py:444-449 `aabb` -/
noncomputable def aabb (e : Ellipsoid ℝ 3) : Py (Box ℝ) :=
  Box.fromTwoVertices (fun i => e.center i - Real.sqrt (e.E i i)) (fun i => e.center i + Real.sqrt (e.E i i))

/-- src/rigeo/shape/ellipsoid.py:136-144 `from_shape_matrix(S, center)`, given the output
`(eigs, rotation)` of `np.linalg.eigh(S)`. An eigenvalue whose root is at most `1e-8` gives an infinite
half extent, which the constructor rejects (line 72); a negative eigenvalue gives `nan`, and
`nan >= 0` fails the first assertion. -/
noncomputable def fromEigh (eigs : Fin d → ℝ) (rotation : Matrix (Fin d) (Fin d) ℝ)
    (center : Option (Fin d → ℝ)) : Py (Ellipsoid ℝ d) := do
  pyAssert (decide (∀ i, 0 ≤ eigs i))
  let hinv : Fin d → ℝ := fun i => Real.sqrt (eigs i)
  pyAssert (decide (∀ i, (invWithZero (hinv i)).isSome))
  init (fun i => (invWithZero (hinv i)).getD 0) (rotation := some rotation) (center := center)

/-- src/rigeo/shape/box.py:320-330 `Box.mie` -/
def _root_.Rigeo.Box.mie {K : Type} [Field K] [LinearOrder K] (b : Box K) (sphere : Bool := false) :
    Py (Ellipsoid K 3) :=
  if sphere then do
    let radius ← minExtent b.halfExtents
    Ellipsoid.sphere radius b.center
  else Ellipsoid.init b.halfExtents (center := some b.center) (rotation := some b.rotation)

/-- src/rigeo/shape/box.py:332-343 `Box.mbe` -/
noncomputable def _root_.Rigeo.Box.mbe (b : Box ℝ) (sphere : Bool := false) : Py (Ellipsoid ℝ 3) :=
  let h : Fin 3 → ℝ := fun i => b.halfExtents i * Real.sqrt 3
  if sphere then do
    let radius ← maxExtent h
    Ellipsoid.sphere radius b.center
  else Ellipsoid.init h (center := some b.center) (rotation := some b.rotation)

end Real
end Ellipsoid
end Rigeo
