import Verif.Model.Cylinder
import Mathlib.Analysis.SpecialFunctions.Pow.Real

/-!
# Model of `src/rigeo/random.py` and of the `random_points` methods built on it

The values drawn from the generator are parameters. Every function here produces one row of the returned
array, `rejection_sample` the list of all rows; `Model/Batch.lean` models the same functions on arrays, with
shapes and squeezing.
-/

namespace Rigeo

open Matrix

section Field
variable {K : Type} [Field K]

/-- src/rigeo/random.py:5-25 `random_psd_matrix(n)`, given the uniform draw `A`. -/
def randomPsdMatrix {n : ℕ} (A : Matrix (Fin n) (Fin n) K) : Matrix (Fin n) (Fin n) K := Aᵀ * A

variable [LinearOrder K]

/-- src/rigeo/random.py:28-47 `random_weight_vectors`: one vector, given the uniform draw `w`. -/
def randomWeightVector {n : ℕ} (w : Fin n → K) : Py (Fin n → K) := vdiv w (∑ i, w i)

/-- src/rigeo/shape/poly.py:179-191 `ConvexPolyhedron.random_points`: one point, given the draw `w`. -/
def Poly.randomPoints {d : ℕ} (P : Poly K d) (w : Fin P.vertices.length → K) : Py (Fin d → K) := do
  let w ← randomWeightVector w
  pure (P.randomPoint w)

/-- src/rigeo/random.py:104-131, the `while` loop of `rejection_sample`. `draw k c` is what
`bounding_shape.random_points(c)` returns in round `k`, `fuel` the number of rounds left before the
`ValueError`, `acc` the rows of `points` filled so far. A round in which nothing is accepted takes the
`continue` branch, which appends nothing either. -/
def rejectionLoop (accept : (Fin 3 → K) → Bool) (draw : ℕ → ℕ → List (Fin 3 → K)) (n : ℕ) :
    (fuel : ℕ) → (round : ℕ) → (acc : List (Fin 3 → K)) → Py (List (Fin 3 → K))
  | fuel, round, acc =>
    if acc.length < n then
      match fuel with
      | 0 => .error .value
      | fuel + 1 =>
        let candidates := draw round (n - acc.length)
        rejectionLoop accept draw n fuel (round + 1) (acc ++ candidates.filter accept)
    else .ok acc

/-- src/rigeo/random.py:92-137 `rejection_sample(actual_shapes, bounding_shape, n, max_tries)`, given the
membership tests of the shapes. With an empty list of shapes `np.sum` is the scalar `0.0`, so nothing is
ever accepted, as here. -/
def rejectionSample (actual : List ((Fin 3 → K) → Bool)) (draw : ℕ → ℕ → List (Fin 3 → K)) (n : ℕ)
    (maxTries : ℕ := 10000) : Py (List (Fin 3 → K)) :=
  rejectionLoop (fun p => actual.any fun contains => contains p) draw n maxTries 0 []

/-- src/rigeo/shape/capsule.py:93-100 `Capsule.random_points`: rejection sampling in `self.mbb()`; `draw` are
the uniform draws in `[-1, 1)³` that the box uses. -/
def Capsule.randomPoints (c : Capsule K) (draw : ℕ → ℕ → List (Fin 3 → K)) (n : ℕ) : Py (List (Fin 3 → K)) := do
  let box ← c.mbb
  let _ ← c.caps
  rejectionSample [fun p => (c.contains p).toOption.getD false] (fun k m => (draw k m).map box.randomPoint) n

end Field

/-- src/rigeo/random.py:50-71 `random_points_on_hypersphere(dim=dim)`: one point, given the normal draw
`X`. -/
noncomputable def hyperspherePoint (dim : ℕ) (X : Fin (dim + 1) → ℝ) : Py (Fin (dim + 1) → ℝ) := do
  pyAssert (decide (1 ≤ dim))
  vdiv X (Real.sqrt (X ⬝ᵥ X))

/-- src/rigeo/random.py:74-89 `random_points_in_ball(dim=dim)`: one point, given the normal draw `X` and
the uniform draw `c`. -/
noncomputable def ballPoint : (dim : ℕ) → (Fin dim → ℝ) → ℝ → Py (Fin dim → ℝ)
  | 0, _, _ => .error .assertion
  | k + 1, X, c => do
    let s ← hyperspherePoint k X
    pure (c ^ (1 / ((k + 1 : ℕ) : ℝ)) • s)

/-- src/rigeo/shape/ellipsoid.py:451-460 `Ellipsoid.random_points`: one point. -/
noncomputable def Ellipsoid.randomPoints {d : ℕ} (e : Ellipsoid ℝ d) (X : Fin d → ℝ) (c : ℝ) : Py (Fin d → ℝ) := do
  let x ← ballPoint d X c
  pure (e.randomPoint x)

/-- src/rigeo/shape/cylinder.py:233-240 `Cylinder.random_points`: one point. -/
noncomputable def Cylinder.randomPoints (cyl : Cylinder ℝ) (u : ℝ) (X : Fin 2 → ℝ) (c : ℝ) : Py (Fin 3 → ℝ) := do
  let x ← ballPoint 2 X c
  pure (cyl.randomPoint u x)

/-- src/rigeo/shape/ellipsoid.py:462-510 `Ellipsoid.random_points_on_surface`: the row returned for an
accepted normal draw `X`, and the acceptance test `u <= g` of lines 494-497. -/
noncomputable def Ellipsoid.randomPointsOnSurface {k : ℕ} (e : Ellipsoid ℝ (k + 1)) (X : Fin (k + 1) → ℝ) :
    Py (Fin (k + 1) → ℝ) := do
  pyAssert (decide (∀ i, 0 < e.halfExtents i))
  let p ← hyperspherePoint k X
  pure (e.randomSurfacePoint p)

@[inherit_doc Ellipsoid.randomPointsOnSurface]
noncomputable def Ellipsoid.surfaceAccept {k : ℕ} (e : Ellipsoid ℝ (k + 1)) (p : Fin (k + 1) → ℝ) (u : ℝ) : Bool :=
  let m := Finset.univ.inf' Finset.univ_nonempty e.halfExtents
  decide (u ≤ m * Real.sqrt (∑ i, (p i * e.halfExtents i) ^ 2 * (1 / e.halfExtents i ^ 4)))

/-- src/rigeo/shape/ellipsoid.py:489-501, one row of a round of `Ellipsoid.random_points_on_surface`: the scaled vector
for the normal draw `q.1` if the uniform draw `q.2` accepts it. A zero normal draw gives a row of NaN, for which `u <= g`
is false. -/
noncomputable def Ellipsoid.surfaceRow {k : ℕ} (e : Ellipsoid ℝ (k + 1)) (q : (Fin (k + 1) → ℝ) × ℝ) :
    Option (Fin (k + 1) → ℝ) :=
  match hyperspherePoint k q.1 with
  | .ok p => if e.surfaceAccept p q.2 then some (p * e.halfExtents) else none
  | .error _ => none

/-- src/rigeo/shape/ellipsoid.py:484-502, the loop of `Ellipsoid.random_points_on_surface`. `draw k m` are the `m` draws of
round `k`; `none` if `n` rows are not reached after `fuel` rounds. -/
noncomputable def Ellipsoid.surfaceLoop {k : ℕ} (e : Ellipsoid ℝ (k + 1))
    (draw : ℕ → ℕ → List ((Fin (k + 1) → ℝ) × ℝ)) (n : ℕ) :
    (fuel : ℕ) → (round : ℕ) → (acc : List (Fin (k + 1) → ℝ)) → Option (List (Fin (k + 1) → ℝ))
  | fuel, round, acc =>
    if acc.length < n then
      match fuel with
      | 0 => none
      | fuel + 1 => e.surfaceLoop draw n fuel (round + 1) (acc ++ (draw round (n - acc.length)).filterMap e.surfaceRow)
    else some acc

/-- src/rigeo/shape/ellipsoid.py:462-510 `Ellipsoid.random_points_on_surface`, all of it. The second assertion is that of
`random_points_on_hypersphere`. -/
noncomputable def Ellipsoid.randomSurfacePoints {k : ℕ} (e : Ellipsoid ℝ (k + 1))
    (draw : ℕ → ℕ → List ((Fin (k + 1) → ℝ) × ℝ)) (n fuel : ℕ) : Py (Option (List (Fin (k + 1) → ℝ))) := do
  pyAssert (decide (∀ i, 0 < e.halfExtents i))
  pyAssert (decide (0 < n → 1 ≤ k))
  pure ((e.surfaceLoop draw n fuel 0 []).map fun rows => rows.map fun r => r ᵥ* e.rotation + e.center)

end Rigeo
