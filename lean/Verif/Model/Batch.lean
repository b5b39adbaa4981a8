import Verif.Model.NdArray
import Verif.Model.Random

/-!
# The sampling functions and membership tests on whole arrays

The rest of the model computes one row at a time. Here the same functions are modelled as the array programs
they are, with the shapes numpy gives to every intermediate result. The draws are parameters: the entry of
`rng.random(size)` at index `i` is `draw i`.

Not modelled: `shape` given as a list rather than a tuple (then `shape + (3,)` in `Box` and `Ellipsoid` raises
`TypeError`), and negative or non-integer sizes.
-/

namespace Rigeo

open Matrix NdArray

section Field
variable {K : Type} [Field K] [LinearOrder K]

omit [LinearOrder K] in
/-- src/rigeo/random.py:28-47 `random_weight_vectors(shape)` -/
def randomWeightVectorsArray (shape : List ℕ) (draw : List ℕ → K) : Py (NdArray K) := do
  let w : NdArray K := ⟨shape, draw⟩
  -- `axis=-1` needs at least one axis
  let s ← w.reduce NdArray.sum (w.ndim - 1)
  let s ← s.expandDims (w.ndim - 1)
  w.zip (· / ·) s

/-- src/rigeo/shape/poly.py:179-191 `ConvexPolyhedron.random_points(shape)`; the vertices are the rows of
`self.vertices`. -/
def Poly.randomPointsArray {d : ℕ} (P : Poly K d) (shape : ShapeArg) (draw : List ℕ → K) : Py (NdArray K) := do
  let full := shape.toTuple ++ [P.vertices.length]
  let w ← randomWeightVectorsArray full draw
  let points ← w.matmul (ofMatrix (Matrix.of fun i : Fin P.vertices.length => P.vertices.get i))
  if shape.toTuple = [1] then pure points.squeeze else pure points

omit [LinearOrder K] in
/-- src/rigeo/shape/box.py:126-137 `Box.random_points(shape)`. For the empty tuple `np.prod` is the float `1.0`,
which `rng.uniform` refuses with a `TypeError`. -/
def Box.randomPointsArray (b : Box K) (shape : ShapeArg) (draw : List ℕ → K) : Py (NdArray K) := do
  let s := shape.toTuple
  if s = [] then throw .type
  let n := s.prod
  let points : NdArray K := ⟨[n, 3], draw⟩
  let points ← points.zip (· * ·) (ofVec b.halfExtents)
  let points ← (ofMatrix b.rotation).matmul points.T
  let points ← points.T.zip (· + ·) (ofVec b.center)
  if s = [1] then pure points.squeeze else points.reshape (s ++ [3])

/-- The last lines of `Box.random_points_on_surface` (src/rigeo/shape/box.py:172-175), `Box.random_points_on_edges`
(216-219), `Ellipsoid.random_points_on_surface` (src/rigeo/shape/ellipsoid.py:507-510) and `rejection_sample`
(src/rigeo/random.py:133-137): the rows found so far become an array of the requested shape. -/
def backToShape {d : ℕ} (rows : List (Fin d → K)) (shape : ShapeArg) : Py (NdArray K) := do
  let points := ofMatrix (Matrix.of fun i : Fin rows.length => rows.get i)
  if shape.toTuple = [1] then pure points.squeeze else points.reshape (shape.toTuple ++ [d])

/-- src/rigeo/shape/poly.py:161-165 `ConvexPolyhedron.contains(points, tol)` -/
def Poly.containsArray {d : ℕ} (P : Poly K d) (points : NdArray K) (tol : K := tol8) : Py (NdArray Bool) := do
  let A := ofMatrix (Matrix.of fun i : Fin P.faceForm.faces.length => (P.faceForm.faces.get i).1)
  let b := (ofVec fun i : Fin P.faceForm.faces.length => (P.faceForm.faces.get i).2).map (· + tol)
  if points.ndim = 1 then
    let r ← A.matmul points
    let c ← r.zip (fun x y => decide (x ≤ y)) b
    c.reduce NdArray.all 0
  else
    let r ← points.matmul A.T
    let c ← r.zip (fun x y => decide (x ≤ y)) b
    c.reduce NdArray.all 1

/-- src/rigeo/shape/ellipsoid.py:272-288, the body of `Ellipsoid.contains` after `np.atleast_2d`. -/
def Ellipsoid.containsRows {d : ℕ} (e : Ellipsoid K d) (points : NdArray K) (tol : K) : Py (NdArray Bool) := do
  -- the positions at which the masks `z` and `nz` hold
  let z := (List.finRange d).filter fun i => e.z i
  let nz := (List.finRange d).filter fun i => !e.z i
  let s := ofVec fun i : Fin nz.length => e.hInvNz (nz.get i) ^ 2
  let ps ← points.zip (· - ·) (ofVec e.center)
  let ps ← ps.matmul (ofMatrix e.rotation)
  let pz ← ps.cols (z.map Fin.val)
  let pnz ← ps.cols (nz.map Fin.val)
  let resZ ← (pz.map fun x => isclose x 0 0 tol).reduce NdArray.all 1
  let q ← s.zip (· * ·) pnz
  let q ← q.zip (· * ·) pnz
  let q ← q.reduce NdArray.sum 1
  resZ.zip (· && ·) (q.map fun x => decide (x ≤ 1 + tol))

/-- src/rigeo/shape/ellipsoid.py:250-291 `Ellipsoid.contains(points, tol)` -/
def Ellipsoid.containsArray {d : ℕ} (e : Ellipsoid K d) (points : NdArray K) (tol : K := tol8) :
    Py (NdArray Bool) := do
  pyAssert (decide (points.ndim ≤ 2))
  let res ← e.containsRows points.atleast2d tol
  if points.ndim = 1 then res.head else pure res

/-- src/rigeo/shape/ellipsoid.py:320-325, the body of `Ellipsoid.on_surface` after `np.atleast_2d`. -/
def Ellipsoid.onSurfaceRows {d : ℕ} (e : Ellipsoid K d) (points : NdArray K) (tol : K) : Py (NdArray Bool) := do
  let s := ofVec fun i => e.hInvNz i ^ 2
  let ps ← points.zip (· - ·) (ofVec e.center)
  let ps ← ps.matmul (ofMatrix e.rotation)
  let q ← s.zip (· * ·) ps
  let q ← q.zip (· * ·) ps
  let q ← q.reduce NdArray.sum 1
  pure (q.map fun x => isclose x 1 0 tol)

/-- src/rigeo/shape/ellipsoid.py:293-328 `Ellipsoid.on_surface(points, tol)` -/
def Ellipsoid.onSurfaceArray {d : ℕ} (e : Ellipsoid K d) (points : NdArray K) (tol : K := tol8) :
    Py (NdArray Bool) :=
  if ∃ i, e.z i = true then e.containsArray points tol
  else do
    pyAssert (decide (points.ndim ≤ 2))
    let res ← e.onSurfaceRows points.atleast2d tol
    if points.ndim = 1 then res.head else pure res

/-- src/rigeo/shape/box.py:242-254, the body of `Box.on_surface` after `np.atleast_2d`. -/
def Box.onSurfaceRows (b : Box K) (points : NdArray K) (tol : K) : Py (NdArray Bool) := do
  let contained ← b.toPoly.containsArray points tol
  let ps ← points.zip (· - ·) (ofVec b.center)
  let ps ← ps.matmul (ofMatrix b.rotation)
  let x ← ps.col 0
  let y ← ps.col 1
  let z ← ps.col 2
  let m ← (x.map fun t => isclose |t| (b.halfExtents 0) 0 tol).zip (· || ·) (y.map fun t => isclose |t| (b.halfExtents 1) 0 tol)
  let m ← m.zip (· || ·) (z.map fun t => isclose |t| (b.halfExtents 2) 0 tol)
  contained.zip (· && ·) m

/-- src/rigeo/shape/box.py:221-257 `Box.on_surface(points, tol)` -/
def Box.onSurfaceArray (b : Box K) (points : NdArray K) (tol : K := tol8) : Py (NdArray Bool) := do
  pyAssert (decide (points.ndim ≤ 2))
  let res ← b.onSurfaceRows points.atleast2d tol
  if points.ndim = 1 then res.head else pure res

/-- src/rigeo/shape/cylinder.py:122-127 `Cylinder.contains(points, tol)`: `tol` is not used; the two arrays of
results have the same shape, so that `np.all([..], axis=0)` is the elementwise conjunction. -/
def Cylinder.containsArray (c : Cylinder K) (points : NdArray K) (_tol : K := tol8) : Py (NdArray Bool) := do
  let P1 ← points.matmul (ofMatrix (Matrix.of fun (i : Fin 3) (_ : Fin 1) => c.longitudinalAxis i))
  let P2 ← points.matmul (ofMatrix c.transverseAxes)
  let r1 ← c.ell1.containsArray P1
  let r2 ← c.ell2.containsArray P2
  r1.zip (· && ·) r2

/-- src/rigeo/shape/capsule.py:53-55 `Capsule.contains(points, tol)`; `self._shapes` are the two caps and the cylinder
(src/rigeo/shape/capsule.py:27-29). -/
def Capsule.containsArray (c : Capsule K) (points : NdArray K) (tol : K := tol8) : Py (NdArray Bool) := do
  let caps ← c.caps
  let r ← caps.mapM fun e => e.containsArray points tol
  let rc ← c.cylinder.containsArray points tol
  r.foldrM (fun a acc => a.zip (· || ·) acc) rc

end Field

/-- src/rigeo/random.py:50-71 `random_points_on_hypersphere(shape, dim)` -/
noncomputable def hypersphereArray (shape : ShapeArg) (dim : ℕ) (normal : List ℕ → ℝ) : Py (NdArray ℝ) := do
  pyAssert (decide (1 ≤ dim))
  let X : NdArray ℝ := ⟨shape.toTuple ++ [dim + 1], normal⟩
  let r ← X.reduce (fun n g => Real.sqrt (∑ k ∈ Finset.range n, g k ^ 2)) (X.ndim - 1)
  let r ← r.expandDims (X.ndim - 1)
  let points ← X.zip (· / ·) r
  if shape.toTuple = [1] then pure points.squeeze else pure points

/-- src/rigeo/random.py:74-89 `random_points_in_ball(shape, dim)` -/
noncomputable def ballArray (shape : ShapeArg) (dim : ℕ) (normal uniform : List ℕ → ℝ) : Py (NdArray ℝ) := do
  pyAssert (decide (1 ≤ dim))
  let s ← hypersphereArray shape (dim - 1) normal
  let c ← (NdArray.mk shape.toTuple uniform).expandDims (s.ndim - 1)
  let points ← (c.map fun x => x ^ (1 / (dim : ℝ))).zip (· * ·) s
  if shape.isOne then pure points.squeeze else pure points

/-- src/rigeo/shape/ellipsoid.py:451-460 `Ellipsoid.random_points(shape)` -/
noncomputable def Ellipsoid.randomPointsArray {d : ℕ} (e : Ellipsoid ℝ d) (shape : ShapeArg)
    (normal uniform : List ℕ → ℝ) : Py (NdArray ℝ) := do
  let X ← ballArray shape d normal uniform
  let Y ← X.matmul (ofMatrix (e.rotation * Matrix.diagonal e.halfExtents * e.rotationᵀ))
  Y.zip (· + ·) (ofVec e.center)

/-- src/rigeo/shape/cylinder.py:233-240 `Cylinder.random_points(shape)`; `height` are the draws for `P_z`. -/
noncomputable def Cylinder.randomPointsArray (c : Cylinder ℝ) (shape : ShapeArg)
    (height normal uniform : List ℕ → ℝ) : Py (NdArray ℝ) := do
  let Pz := (NdArray.mk shape.toTuple height).map fun u => c.length * u
  let Pxy := (← ballArray shape 2 normal uniform).map fun x => c.radius * x
  let Pz ← if shape.isOne then pure Pz else Pz.expandDims Pz.ndim
  let P ← Pxy.concatLast Pz
  let Q ← P.matmul (ofMatrix c.rotationᵀ)
  Q.zip (· + ·) (ofVec c.center)

end Rigeo
