import Verif.Model.Poly

/-!
# Model of `src/rigeo/shape/box.py` (geometry, sampling and densities)

Functions of `box.py` that return ellipsoids are in `Verif.Model.Ellipsoid`, the realizability
constraints in `Verif.Model.Realize`.
-/

namespace Rigeo

open Matrix

/-- The stored attributes of a `Box` (src/rigeo/shape/box.py:57-67). The inherited span and face form
(lines 68-76) are functions of these, see `Box.toPoly`. -/
@[ext] structure Box (K : Type) where
  halfExtents : Fin 3 → K
  rotation : Matrix (Fin 3) (Fin 3) K
  center : Fin 3 → K

namespace Box
section Field
variable {K : Type} [Field K]

/-- src/rigeo/shape/box.py:11-15 `_box_vertices(half_extents, rotation, center)` -/
def boxVerts (h : Fin 3 → K) (R : Matrix (Fin 3) (Fin 3) K) (c : Fin 3 → K) : List (Fin 3 → K) :=
  (boxVertices h).map fun v => R *ᵥ v + c

/-- src/rigeo/shape/box.py:18-30 `_box_inequalities`: `A @ R.T` and `b + (A @ R.T) @ c`, row by row. -/
def boxIneqs (h : Fin 3 → K) (R : Matrix (Fin 3) (Fin 3) K) (c : Fin 3 → K) : List ((Fin 3 → K) × K) :=
  [(![1, 0, 0], h 0), (![-1, 0, 0], h 0), (![0, 1, 0], h 1), (![0, -1, 0], h 1),
   (![0, 0, 1], h 2), (![0, 0, -1], h 2)].map fun ab => (ab.1 ᵥ* Rᵀ, ab.2 + (ab.1 ᵥ* Rᵀ) ⬝ᵥ c)

/-- src/rigeo/shape/box.py:68-76: the box as a `ConvexPolyhedron`. Both forms are passed to the
constructor, so cdd is not involved. -/
def toPoly (b : Box K) : Poly K 3 :=
  ⟨boxVerts b.halfExtents b.rotation b.center,
    FaceForm.init (boxIneqs b.halfExtents b.rotation b.center)⟩

/-- attribute `vertices` (src/rigeo/shape/poly.py:146-149 on a box) -/
def vertices (b : Box K) : List (Fin 3 → K) := b.toPoly.vertices

variable [LinearOrder K]

/-- src/rigeo/shape/box.py:56-76 `__init__(half_extents, center, rotation)` on three-dimensional
arrays (the shape assertions hold by typing). -/
def init (halfExtents : Fin 3 → K) (center : Option (Fin 3 → K) := none)
    (rotation : Option (Matrix (Fin 3) (Fin 3) K) := none) : Py (Box K) := do
  pyAssert (decide (∀ i, 0 ≤ halfExtents i))
  pure ⟨halfExtents, rotation.getD 1, center.getD 0⟩

/-- src/rigeo/shape/box.py:78-83 `cube` -/
def cube (halfExtent : K) (center : Option (Fin 3 → K) := none)
    (rotation : Option (Matrix (Fin 3) (Fin 3) K) := none) : Py (Box K) := do
  pyAssert (decide (0 ≤ halfExtent))
  init (fun _ => halfExtent * 1) center rotation

/-- src/rigeo/shape/box.py:85-90 `from_side_lengths` -/
def fromSideLengths (sideLengths : Fin 3 → K) (center : Option (Fin 3 → K) := none)
    (rotation : Option (Matrix (Fin 3) (Fin 3) K) := none) : Py (Box K) :=
  init (fun i => (1 / 2) * sideLengths i) center rotation

/-- src/rigeo/shape/box.py:92-99 `from_two_vertices` -/
def fromTwoVertices (v1 v2 : Fin 3 → K) : Py (Box K) :=
  init (fun i => (1 / 2) * (max (v1 i) (v2 i) - min (v1 i) (v2 i)))
    (center := some fun i => (1 / 2) * (v1 i + v2 i))

/-- `np.min(points, axis=0)`; numpy raises `ValueError` on an empty array. -/
def pointsMin {d : ℕ} : List (Fin d → K) → Py (Fin d → K)
  | [] => .error .value
  | p :: ps => .ok fun i => ps.foldl (fun acc q => min acc (q i)) (p i)

/-- `np.max(points, axis=0)`; numpy raises `ValueError` on an empty array. -/
def pointsMax {d : ℕ} : List (Fin d → K) → Py (Fin d → K)
  | [] => .error .value
  | p :: ps => .ok fun i => ps.foldl (fun acc q => max acc (q i)) (p i)

/-- src/rigeo/shape/box.py:101-106 `from_points_to_bound` -/
def fromPointsToBound (points : List (Fin 3 → K)) : Py (Box K) := do
  let vmin ← pointsMin points
  let vmax ← pointsMax points
  fromTwoVertices vmin vmax

omit [LinearOrder K] in
/-- src/rigeo/shape/box.py:111-114 `side_lengths` -/
def sideLengths (b : Box K) : Fin 3 → K := fun i => 2 * b.halfExtents i

omit [LinearOrder K] in
/-- src/rigeo/shape/box.py:116-119 `volume` -/
def volume (b : Box K) : K := ∏ i, b.sideLengths i

/-- src/rigeo/shape/box.py:121-124 `diaglen` -/
noncomputable def diaglen (b : Box ℝ) : ℝ := 2 * Real.sqrt (b.halfExtents ⬝ᵥ b.halfExtents)

/-- `contains`, inherited from src/rigeo/shape/poly.py:161-165 -/
def contains (b : Box K) (p : Fin 3 → K) (tol : K := tol8) : Bool := b.toPoly.contains p tol

/-- `must_contain`, inherited from src/rigeo/shape/poly.py:167-170 -/
def mustContain (b : Box K) (p : Fin 3 → K) (scale : K := 1) : Prop := b.toPoly.mustContain p scale

/-- `aabb`, inherited from src/rigeo/shape/poly.py:193-196 -/
def aabb (b : Box K) : Py (Box K) := fromPointsToBound b.vertices

omit [LinearOrder K] in
/-- src/rigeo/shape/box.py:126-137 `random_points`: one point, given the draw `u` in `[-1, 1)^3`. -/
def randomPoint (b : Box K) (u : Fin 3 → K) : Fin 3 → K :=
  b.rotation *ᵥ (u * b.halfExtents) + b.center

/-- src/rigeo/shape/box.py:221-257 `on_surface` for a single point -/
def onSurface (b : Box K) (p : Fin 3 → K) (tol : K := tol8) : Bool :=
  let y := (p - b.center) ᵥ* b.rotation
  b.contains p tol &&
    (isclose |y 0| (b.halfExtents 0) 0 tol || isclose |y 1| (b.halfExtents 1) 0 tol ||
      isclose |y 2| (b.halfExtents 2) 0 tol)

omit [LinearOrder K] in
/-- `np.linspace(L, U, n)` -/
def linspace (L U : K) (n : ℕ) : List K :=
  (List.range n).map fun i : ℕ => L + (i : K) * ((U - L) / ((n : K) - 1))

omit [LinearOrder K] in
/-- src/rigeo/shape/box.py:259-286 `grid(n)`. `np.meshgrid` with its default `xy` indexing and C-order
`flatten` runs through `y`, then `x`, then `z`. For `n = 1` numpy's `linspace` returns `[L]`, as does
the formula above (`0 * (_ / 0) = 0`). -/
def grid (b : Box K) (n : Fin 3 → ℕ) : List (Fin 3 → K) :=
  let x := linspace (-b.halfExtents 0) (b.halfExtents 0) (n 0)
  let y := linspace (-b.halfExtents 1) (b.halfExtents 1) (n 1)
  let z := linspace (-b.halfExtents 2) (b.halfExtents 2) (n 2)
  (y.flatMap fun yj => x.flatMap fun xi => z.map fun zk => ![xi, yj, zk]).map
    fun p => b.rotation *ᵥ p + b.center

/-- src/rigeo/shape/base.py:153-172 `Shape.grid(n)`, the grid of any shape that does not override it,
given the shape's bounding box and membership test. -/
def shapeGrid (aabb : Py (Box K)) (contains : (Fin 3 → K) → Bool) (n : ℕ) : Py (List (Fin 3 → K)) := do
  pyAssert (decide (0 < n))
  let box ← aabb
  pure (Poly.filterGrid contains (box.grid fun _ => n))

/-- src/rigeo/shape/poly.py:347-351 `ConvexPolyhedron.grid(n)`, which does not assert `n > 0` -/
def polyGrid (P : Poly K 3) (n : ℕ) : Py (List (Fin 3 → K)) := do
  let box ← fromPointsToBound P.vertices
  pure (Poly.filterGrid (fun p => P.contains p) (box.grid fun _ => n))

/-- src/rigeo/shape/box.py:288-297 `transform` -/
def transform (b : Box K) (rotation : Option (Matrix (Fin 3) (Fin 3) K) := none)
    (translation : Option (Fin 3 → K) := none) : Py (Box K) :=
  let R := rotation.getD 1
  let t := translation.getD 0
  init b.halfExtents (center := some (R *ᵥ b.center + t)) (rotation := some (R * b.rotation))

/-- src/rigeo/shape/box.py:299-318 `rotate_about_center` -/
def rotateAboutCenter (b : Box K) (R : Matrix (Fin 3) (Fin 3) K) : Py (Box K) :=
  init b.halfExtents (center := some b.center) (rotation := some (R * b.rotation))

/-- src/rigeo/shape/box.py:345-352 `as_poly` -/
def asPoly (cdd : CddLib K) (b : Box K) : Py (Poly K 3) := Poly.fromVertices cdd b.vertices

/-! ### Densities -/

/-- src/rigeo/shape/box.py:381-401 `uniform_density_params` -/
def uniformDensityParams (b : Box K) (mass : K) : Py (IP K) := do
  pyAssert (decide (0 ≤ mass))
  let H : Matrix (Fin 3) (Fin 3) K :=
    Matrix.of fun i j => mass * Matrix.diagonal (fun i => b.halfExtents i ^ 2) i j / 3
  let p ← IP.init mass (h := some 0) (H := some H)
  p.transform (rotation := some b.rotation) (translation := some b.center)

/-- src/rigeo/shape/box.py:403-430 `hollow_density_params` -/
def hollowDensityParams (b : Box K) (mass : K) : Py (IP K) := do
  pyAssert (decide (0 ≤ mass))
  let x := b.halfExtents 0
  let y := b.halfExtents 1
  let z := b.halfExtents 2
  let d := 3 * (x * y + x * z + y * z)
  let Hxx ← pdiv (x ^ 2 * (x * y + x * z + 3 * y * z)) d
  let Hyy ← pdiv (y ^ 2 * (x * y + 3 * x * z + y * z)) d
  let Hzz ← pdiv (z ^ 2 * (3 * x * y + x * z + y * z)) d
  let p ← IP.init mass (h := some 0) (H := some (mass • Matrix.diagonal ![Hxx, Hyy, Hzz]))
  p.transform (rotation := some b.rotation) (translation := some b.center)

/-- src/rigeo/shape/box.py:432-459 `wireframe_density_params` -/
def wireframeDensityParams (b : Box K) (mass : K) : Py (IP K) := do
  pyAssert (decide (0 ≤ mass))
  let x := b.halfExtents 0
  let y := b.halfExtents 1
  let z := b.halfExtents 2
  let d := x + y + z
  let Hxx ← pdiv (x ^ 2 * (x / 3 + y + z)) d
  let Hyy ← pdiv (y ^ 2 * (x + y / 3 + z)) d
  let Hzz ← pdiv (z ^ 2 * (x + y + z / 3)) d
  let p ← IP.init mass (h := some 0) (H := some (mass • Matrix.diagonal ![Hxx, Hyy, Hzz]))
  p.transform (rotation := some b.rotation) (translation := some b.center)

/-! ### Sampling on the surface and on the edges -/

omit [LinearOrder K] in
/-- `points[lo:hi, k] = v` for rows selected by index range (numpy slices clip at the end). -/
def setCoord (points : List (Fin 3 → K)) (lo hi : ℕ) (k : Fin 3) (v : K) : List (Fin 3 → K) :=
  points.mapIdx fun i p => if lo ≤ i ∧ i < hi then Function.update p k v else p

/-- src/rigeo/shape/box.py:151-156, `pvals`: the probabilities of the six faces. -/
def facePvals (b : Box K) : Fin 6 → K :=
  let x := b.halfExtents 0
  let y := b.halfExtents 1
  let z := b.halfExtents 2
  let Ax := 4 * y * z
  let Ay := 4 * x * z
  let Az := 4 * x * y
  let A := 2 * (Ax + Ay + Az)
  fun i => ![Ax, Ax, Ay, Ay, Az, Az] i / A

/-- src/rigeo/shape/box.py:186-188, `pvals`: the probabilities of the twelve edges. -/
def edgePvals (b : Box K) : Fin 12 → K :=
  let x := b.halfExtents 0
  let y := b.halfExtents 1
  let z := b.halfExtents 2
  let L := 4 * (x + y + z)
  fun i => ![x, x, x, x, y, y, y, y, z, z, z, z] i / L

/-- src/rigeo/shape/box.py:139-175 `random_points_on_surface` for a request of `n` points. The draws
are parameters: `us` are the `n` uniform draws used by `random_points`, `counts` the multinomial
counts (for the probabilities `facePvals`), `shuffle` the shuffled list. `rng.multinomial` raises `ValueError` when the probabilities are
`nan`, i.e. when the total area is zero; for `n = 1` the array returned by `random_points` has been
squeezed to one dimension and the two-index assignment raises `IndexError`. -/
def randomPointsOnSurface (b : Box K) (us : List (Fin 3 → K)) (counts : Fin 6 → ℕ)
    (shuffle : List (Fin 3 → K) → List (Fin 3 → K)) : Py (List (Fin 3 → K)) :=
  let points := us.map b.randomPoint
  let x := b.halfExtents 0
  let y := b.halfExtents 1
  let z := b.halfExtents 2
  let Ax := 4 * y * z
  let Ay := 4 * x * z
  let Az := 4 * x * y
  if 2 * (Ax + Ay + Az) = 0 then .error .value
  else if us.length = 1 then .error .index
  else
    let idx : Fin 6 → ℕ := fun k => ∑ i ∈ Finset.univ.filter (· ≤ k), counts i
    let points := setCoord points 0 (idx 0) 0 x
    let points := setCoord points (idx 0) (idx 1) 0 (-x)
    let points := setCoord points (idx 1) (idx 2) 1 y
    let points := setCoord points (idx 2) (idx 3) 1 (-y)
    let points := setCoord points (idx 3) (idx 4) 2 z
    let points := setCoord points (idx 4) points.length 2 (-z)
    .ok ((shuffle points).map fun p => b.rotation *ᵥ p + b.center)

/-- src/rigeo/shape/box.py:177-219 `random_points_on_edges` for a request of `n` points. `counts` are
the multinomial counts for the twelve edges (for the probabilities `edgePvals`; they add up to `n`), `u i` is the uniform draw on
`[-1, 1)` used for row `i`, `shuffle` the shuffled list. -/
def randomPointsOnEdges (b : Box K) (n : ℕ) (counts : Fin 12 → ℕ) (u : ℕ → K)
    (shuffle : List (Fin 3 → K) → List (Fin 3 → K)) : Py (List (Fin 3 → K)) :=
  let x := b.halfExtents 0
  let y := b.halfExtents 1
  let z := b.halfExtents 2
  if 4 * (x + y + z) = 0 then .error .value
  else
    -- `idx k` is the sum of the first `k` counts
    let idx : ℕ → ℕ := fun k => ∑ i ∈ Finset.univ.filter (fun i : Fin 12 => (i : ℕ) < k), counts i
    let row : ℕ → Fin 3 → K := fun i =>
      if i < idx 4 then
        let yz : K × K := if i < idx 1 then (y, z) else if i < idx 2 then (y, -z)
          else if i < idx 3 then (-y, -z) else (-y, z)
        ![x * u i, yz.1, yz.2]
      else if i < idx 8 then
        let xz : K × K := if i < idx 5 then (x, z) else if i < idx 6 then (x, -z)
          else if i < idx 7 then (-x, -z) else (-x, z)
        ![xz.1, y * u i, xz.2]
      else
        let xy : K × K := if i < idx 9 then (x, y) else if i < idx 10 then (x, -y)
          else if i < idx 11 then (-x, -y) else (-x, y)
        ![xy.1, xy.2, z * u i]
    .ok ((shuffle ((List.range n).map row)).map fun p => b.rotation *ᵥ p + b.center)

end Field
end Box
end Rigeo
