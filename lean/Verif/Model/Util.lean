import Verif.Model.Py
import Mathlib.Analysis.Real.Sqrt
import Mathlib.Algebra.Order.Floor.Ring
import Mathlib.Algebra.Order.Floor.Semiring

/-!
# Model of `src/rigeo/util.py` and `src/rigeo/spatial.py`
-/

namespace Rigeo

open Matrix

/-! ## util.py -/

/-- `np.triu_indices(n, k=k)`: the pairs `(i, j)` with `j - i >= k`, in row-major order
(library function used at src/rigeo/util.py:30 and 85). -/
def triuIndices (n : ℕ) (k : ℤ) : List (Fin n × Fin n) :=
  (List.finRange n).flatMap fun i : Fin n =>
    ((List.finRange n).filter fun j : Fin n => decide (((i : ℕ) : ℤ) + k ≤ ((j : ℕ) : ℤ))).map fun j => (i, j)

/-- src/rigeo/util.py:9-31 `vech(A, k=0)`. The assertion `n == m` holds by typing. -/
def vech {K : Type} {n : ℕ} (A : Matrix (Fin n) (Fin n) K) (k : ℤ := 0) : List K :=
  (triuIndices n k).map fun p => A p.1 p.2

open Classical in
/-- src/rigeo/util.py:34-56 `is_triangular_number(x)`. `x` is the (exact) number passed, an int or a
float; the square root is exact. `int(n)` truncates a number that is `>= 1` here, i.e. `floor`. -/
noncomputable def isTriangularNumber (x : ℝ) : Bool × ℤ :=
  if ¬ (∃ k : ℤ, x = k) ∨ x < 1 then (false, -1)
  else
    let n : ℝ := (1 / 2) * (Real.sqrt (1 + 8 * x) - 1)
    (decide (∃ k : ℤ, n = k), ⌊n⌋)

/-- `A[idx] = a` for a list of index pairs: assignments are carried out in order
(src/rigeo/util.py:86). -/
def assignAt {K : Type} {n : ℕ} (A : Matrix (Fin n) (Fin n) K)
    (idx : List (Fin n × Fin n)) (a : List K) : Matrix (Fin n) (Fin n) K :=
  (idx.zip a).foldl
    (fun B px => Matrix.of fun i j => if i = px.1.1 ∧ j = px.1.2 then px.2 else B i j) A

/-- src/rigeo/util.py:84-92, the part of `unvech` after the size `n` is known: fill the upper
triangle with `a`, then mirror it (`idxl = tril_indices(n, k=-1); A[idxl] = A.T[idxl]`). numpy raises
`ValueError` if the index list and `a` have different lengths. -/
def unvechFill {K : Type} [Zero K] (n : ℕ) (a : List K) : Py (Σ n : ℕ, Matrix (Fin n) (Fin n) K) :=
  let idx := triuIndices n 0
  if idx.length ≠ a.length then .error .value
  else
    let A := assignAt (0 : Matrix (Fin n) (Fin n) K) idx a
    .ok ⟨n, Matrix.of fun i j => if j < i then A j i else A i j⟩

/-- src/rigeo/util.py:59-92 `unvech(a)` for a one-dimensional `a` (the `ndim` assertion holds by
typing). The result carries its own size. -/
noncomputable def unvech {K : Type} [Zero K] (a : List K) :
    Py (Σ n : ℕ, Matrix (Fin n) (Fin n) K) :=
  let r := isTriangularNumber (a.length : ℝ)
  if r.1 = false then .error .assertion else unvechFill r.2.toNat a

section Field
variable {K : Type} [Field K]

/-- src/rigeo/util.py:95-113 `skew3(v)`. -/
def skew3 (v : Fin 3 → K) : Matrix (Fin 3) (Fin 3) K :=
  !![0, -(v 2), v 1; v 2, 0, -(v 0); -(v 1), v 0, 0]

/-- src/rigeo/util.py:116-125 `lift3(x)`. -/
def lift3 (x : Fin 3 → K) : Matrix (Fin 3) (Fin 6) K :=
  !![x 0, x 1, x 2, 0, 0, 0;
     0, x 0, 0, x 1, x 2, 0;
     0, 0, x 0, 0, x 1, x 2]

end Field

/-! ## spatial.py -/

/-- src/rigeo/spatial.py:6-16: a spatial vector stores the 6-vector `vec`,
angular part first (`vec[:3]`), linear part second (`vec[3:]`). -/
@[ext] structure SV (K : Type) where
  vec : Fin 6 → K

namespace SV
section Field
variable {K : Type} [Field K]

/-- src/rigeo/spatial.py:9-16 `SpatialVector(linear=None, angular=None)`; missing parts are zero. -/
def mk' (linear angular : Option (Fin 3 → K)) : SV K :=
  let a := angular.getD 0
  let l := linear.getD 0
  ⟨![a 0, a 1, a 2, l 0, l 1, l 2]⟩

/-- src/rigeo/spatial.py:52-54 `linear` -/
def linear (V : SV K) : Fin 3 → K := ![V.vec 3, V.vec 4, V.vec 5]

/-- src/rigeo/spatial.py:56-58 `angular` -/
def angular (V : SV K) : Fin 3 → K := ![V.vec 0, V.vec 1, V.vec 2]

/-- src/rigeo/spatial.py:18-21 `from_vec` -/
def fromVec (vec : Fin 6 → K) : SV K :=
  mk' (some ![vec 3, vec 4, vec 5]) (some ![vec 0, vec 1, vec 2])

/-- src/rigeo/spatial.py:23-25 `zero` -/
def zero : SV K := mk' none none

/-- src/rigeo/spatial.py:30-34 `__add__` -/
def add (V W : SV K) : SV K := mk' (some (V.linear + W.linear)) (some (V.angular + W.angular))

/-- src/rigeo/spatial.py:36-40 `__sub__` -/
def sub (V W : SV K) : SV K := mk' (some (V.linear - W.linear)) (some (V.angular - W.angular))

/-- src/rigeo/spatial.py:42-45 `__mul__` by a scalar -/
def mul (V : SV K) (s : K) : SV K :=
  mk' (some fun i => V.linear i * s) (some fun i => V.angular i * s)

/-- src/rigeo/spatial.py:47-50 `__truediv__` by a scalar; numpy yields `inf`/`nan` on zero. -/
def truediv [DecidableEq K] (V : SV K) (s : K) : Py (SV K) :=
  if s = 0 then .error .nonfinite
  else .ok (mk' (some fun i => V.linear i / s) (some fun i => V.angular i / s))

/-- src/rigeo/spatial.py:68-71 `adjoint`: `[[Sω, 0], [Sv, Sω]]` -/
def adjoint (V : SV K) : Matrix (Fin 6) (Fin 6) K :=
  let Sv := skew3 V.linear
  let Sω := skew3 V.angular
  (vcat (hcat Sω 0) (hcat Sv Sω) : Matrix (Fin (3 + 3)) (Fin (3 + 3)) K)

end Field
end SV

section Field
variable {K : Type} [Field K]

/-- src/rigeo/util.py:128-140 `lift6(V)`:
`[[0, -skew3(a), lift3(b)], [a, skew3(b), 0]]` with `a` linear and `b` angular. -/
def lift6 (V : SV K) : Matrix (Fin 6) (Fin 10) K :=
  let a := V.linear
  let b := V.angular
  (vcat (hcat (hcat (0 : Matrix (Fin 3) (Fin 1) K) (-skew3 a)) (lift3 b))
        (hcat (hcat (colMat a) (skew3 b)) (0 : Matrix (Fin 3) (Fin 6) K)) :
    Matrix (Fin (3 + 3)) (Fin (1 + 3 + 6)) K)

/-- src/rigeo/util.py:143-166 `compute_evaluation_times(duration, step)`. -/
def computeEvaluationTimes [LinearOrder K] [FloorSemiring K]
    (duration step : K) : Py (ℕ × List K) := do
  pyAssert (decide (0 < duration))
  pyAssert (decide (0 < step))
  let n := ⌈duration / step⌉₊
  pure (n, (List.range n).map fun i : ℕ => step * (i : K))

end Field

/-- src/rigeo/util.py:169-179 `validation_rmse(Ys, ws, θ, W=None)` for `n` samples of
`m`-dimensional wrenches and `p` parameters. `W` is accepted and never used. The mean of an empty
array is `nan`. -/
noncomputable def validationRmse {n m p : ℕ} (Ys : Fin n → Matrix (Fin m) (Fin p) ℝ)
    (ws : Fin n → Fin m → ℝ) (θ : Fin p → ℝ) (_W : Option (Matrix (Fin m) (Fin m) ℝ)) : Py ℝ :=
  let error : Fin n → Fin m → ℝ := fun i => Ys i *ᵥ θ - ws i
  let square : Fin n → ℝ := fun i => ∑ j, error i j ^ 2
  if n = 0 then .error .nonfinite else .ok (Real.sqrt ((∑ i, square i) / n))

section Field
variable {K : Type} [Field K]

/-- A two-dimensional array whose shape is only known at run time. -/
structure Arr2 (K : Type) where
  rows : ℕ
  cols : ℕ
  val : Matrix (Fin rows) (Fin cols) K

/-- A one-dimensional array whose length is only known at run time. -/
structure Arr1 (K : Type) where
  len : ℕ
  val : Fin len → K

/-- src/rigeo/util.py:182-195 `clean_transform(rotation, translation, dim=3)` on arrays of dynamic
shape. Note that orthogonality of `rotation` is not checked. -/
def cleanTransform (rotation : Option (Arr2 K)) (translation : Option (Arr1 K)) (dim : ℕ) :
    Py (Matrix (Fin dim) (Fin dim) K × (Fin dim → K)) := do
  let R ← match rotation with
    | none => pure (1 : Matrix (Fin dim) (Fin dim) K)
    | some A =>
      if h : A.rows = dim ∧ A.cols = dim then
        pure (Matrix.of fun i j => A.val (Fin.cast h.1.symm i) (Fin.cast h.2.symm j))
      else .error .assertion
  let t ← match translation with
    | none => pure (0 : Fin dim → K)
    | some v =>
      if h : v.len = dim then pure fun i => v.val (Fin.cast h.symm i) else .error .assertion
  pure (R, t)

/-- src/rigeo/util.py:201-204, body of `transform_matrix` once the inputs are cleaned:
`T = eye(dim+1); T[:dim,:dim] = R; T[:dim,-1] = t`. -/
def transformMatrix {d : ℕ} (R : Matrix (Fin d) (Fin d) K) (t : Fin d → K) :
    Matrix (Fin (d + 1)) (Fin (d + 1)) K :=
  bordered R t 0 1

/-- src/rigeo/util.py:207-213, body of `transform_matrix_inv` for `dim=3` inputs (generic size):
`transform_matrix(R.T, -R.T @ t)`. -/
def transformMatrixInv {d : ℕ} (R : Matrix (Fin d) (Fin d) K) (t : Fin d → K) :
    Matrix (Fin (d + 1)) (Fin (d + 1)) K :=
  transformMatrix Rᵀ (-Rᵀ *ᵥ t)

/-- src/rigeo/util.py:198-204 `transform_matrix` on arrays of dynamic shape. -/
def transformMatrixDyn (rotation : Option (Arr2 K)) (translation : Option (Arr1 K)) (dim : ℕ) :
    Py (Matrix (Fin (dim + 1)) (Fin (dim + 1)) K) := do
  let (R, t) ← cleanTransform rotation translation dim
  pure (transformMatrix R t)

/-- src/rigeo/util.py:207-213 `transform_matrix_inv` on arrays of dynamic shape. As in the source,
the call to `transform_matrix` does not pass `dim`, so its default `3` is used. -/
def transformMatrixInvDyn (rotation : Option (Arr2 K)) (translation : Option (Arr1 K)) (dim : ℕ) :
    Py (Matrix (Fin 4) (Fin 4) K) := do
  let (R, t) ← cleanTransform rotation translation dim
  transformMatrixDyn (some ⟨dim, dim, Rᵀ⟩) (some ⟨dim, -Rᵀ *ᵥ t⟩) 3

/-- `itertools.product([1, -1], repeat=dim)` (src/rigeo/util.py:230). -/
def signCombos (K : Type) [Field K] : (dim : ℕ) → List (Fin dim → K)
  | 0 => [Fin.elim0]
  | dim + 1 => [1, -1].flatMap fun s => (signCombos K dim).map fun c => Fin.cons s c

/-- src/rigeo/util.py:216-231 `box_vertices(half_extents)`. -/
def boxVertices {dim : ℕ} (halfExtents : Fin dim → K) : List (Fin dim → K) :=
  (signCombos K dim).map fun c => c * halfExtents

/-- src/rigeo/util.py:234-248 `contact_jacobian(point)`. -/
def contactJacobian (point : Fin 3 → K) : Matrix (Fin 6) (Fin 3) K :=
  (vcat (skew3 point) (1 : Matrix (Fin 3) (Fin 3) K) : Matrix (Fin (3 + 3)) (Fin 3) K)

end Field
end Rigeo
