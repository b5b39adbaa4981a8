import Verif.Model.Numerics
import Verif.Model.Cylinder
import Verif.Model.Poly
import Mathlib.LinearAlgebra.Matrix.NonsingularInverse
import Mathlib.Data.Matrix.ColumnRowPartitioned

/-!
# Model of the convex programs of `ellipsoid.py` and `poly.py` that compute bounding and inscribed
ellipsoids

For each program there is the predicate `…Feasible` (the constraints passed to cvxpy, together with the
domain of the `log_det` in the objective) and the code that post-processes the values of the variables.
The solver is a parameter: a function from the problem data to values of the variables. Nothing is
assumed about it in this file. The routines `eigh`, `lstsq`, `orth`, `null_space` are parameters too;
`rcond` (a numerical cut-off passed to them) is not modelled.
-/

namespace Rigeo

open Matrix

/-- The type of `scipy.linalg.orth`: a matrix with as many rows as the argument and some number of
columns. -/
abbrev Orth := (d n : ℕ) → Matrix (Fin d) (Fin n) ℝ → (r : ℕ) × Matrix (Fin d) (Fin r) ℝ

/-- The type of `scipy.linalg.null_space`. -/
abbrev NullSpace := (r d : ℕ) → Matrix (Fin r) (Fin d) ℝ → (k : ℕ) × Matrix (Fin d) (Fin k) ℝ

/-- cvxpy's `X << 0` for a matrix indexed by any finite type. -/
def cvxNsd {ι : Type} [Fintype ι] (X : Matrix ι ι ℝ) : Prop := ∀ v : ι → ℝ, v ⬝ᵥ (X *ᵥ v) ≤ 0

/-- `cp.norm2` -/
noncomputable def norm2 {n : ℕ} (v : Fin n → ℝ) : ℝ := Real.sqrt (v ⬝ᵥ v)

/-! ### `mbe_of_ellipsoids` -/

/-- src/rigeo/shape/ellipsoid.py:613-626 `_mbee_con_mat(S, d, Ai, bi, ti)`. The rows and columns of the
`3 x 3` block matrix are indexed by the disjoint union of the three blocks. -/
def mbeeConMat {n : ℕ} (S : Matrix (Fin n) (Fin n) ℝ) (d : Fin n → ℝ) (Ai : Matrix (Fin n) (Fin n) ℝ)
    (bi : Fin n → ℝ) (ti : ℝ) : Matrix (Fin n ⊕ Unit ⊕ Fin n) (Fin n ⊕ Unit ⊕ Fin n) ℝ :=
  let ci := bi ⬝ᵥ bi - 1
  let f := -1 - ti * ci
  let e := d - ti • bi
  Matrix.fromBlocks (S - ti • Ai) (Matrix.fromCols (Matrix.replicateCol Unit e) 0)
    (Matrix.fromRows (Matrix.replicateRow Unit e) 0)
    (Matrix.fromBlocks (Matrix.of fun _ _ => f) (Matrix.replicateRow Unit d) (Matrix.replicateCol Unit d) (-S))

/-- The variables of the program in `mbe_of_ellipsoids`. -/
structure MbeeVars (n : ℕ) where
  S : Matrix (Fin n) (Fin n) ℝ
  d : Fin n → ℝ
  ts : List ℝ

/-- src/rigeo/shape/ellipsoid.py:650-663: the constraints, for ellipsoids given by their attributes
`(A, b)`. `0 < det S` is the domain of the objective `-log_det(S)`. -/
def mbeeFeasible {n : ℕ} (Es : List (Matrix (Fin n) (Fin n) ℝ × (Fin n → ℝ))) (sphere : Bool)
    (x : MbeeVars n) : Prop :=
  cvxPsdVar x.S ∧ 0 < x.S.det ∧ x.ts.length = Es.length ∧ (∀ t ∈ x.ts, 0 ≤ t) ∧
    (∀ Et ∈ Es.zip x.ts, cvxNsd (mbeeConMat x.S x.d Et.1.1 Et.1.2 Et.2)) ∧
    (sphere = true → ∃ a : ℝ, x.S = a • (1 : Matrix (Fin n) (Fin n) ℝ))

/-- src/rigeo/shape/ellipsoid.py:629-667 `mbe_of_ellipsoids(ellipsoids, sphere, solver)`.
`np.linalg.solve` raises `LinAlgError` (a `ValueError`) on a singular matrix. -/
noncomputable def mbeOfEllipsoids {n : ℕ} (eigh : Eigh)
    (solver : List (Matrix (Fin n) (Fin n) ℝ × (Fin n → ℝ)) → Bool → MbeeVars n)
    (ellipsoids : List (Ellipsoid ℝ n)) (sphere : Bool := false) : Py (Ellipsoid ℝ n) := do
  if ellipsoids.isEmpty then throw .index
  let Es ← ellipsoids.mapM fun E => do
    let A ← E.A
    let b ← E.b
    pure (A, b)
  let x := solver Es sphere
  if x.S.det = 0 then throw .value
  Ellipsoid.fromShapeMatrix eigh x.S (some (x.S⁻¹ *ᵥ (-x.d)))

/-- src/rigeo/shape/capsule.py:82-83 `Capsule.mbe` -/
noncomputable def Capsule.mbe (eigh : Eigh)
    (solver : List (Matrix (Fin 3) (Fin 3) ℝ × (Fin 3 → ℝ)) → Bool → MbeeVars 3)
    (c : Capsule ℝ) (sphere : Bool := false) : Py (Ellipsoid ℝ 3) := do
  let caps ← c.caps
  mbeOfEllipsoids eigh solver caps sphere

/-! ### `mbe_of_points` -/

/-- The variables of the program in `mbe_of_points`; `a` is the variable named `r` that only exists if a
sphere is asked for. -/
structure MbeVars (n : ℕ) where
  A : Matrix (Fin n) (Fin n) ℝ
  b : Fin n → ℝ
  a : ℝ

/-- src/rigeo/shape/ellipsoid.py:701-709: the constraints, for the projected points `P`. `0 < det A` is
the domain of the objective `-log_det(A)`. -/
def mbeFeasible {n : ℕ} (P : List (Fin n → ℝ)) (sphere : Bool) (x : MbeVars n) : Prop :=
  cvxPsdVar x.A ∧ 0 < x.A.det ∧ (∀ p ∈ P, norm2 (x.A *ᵥ p + x.b) ≤ 1) ∧
    (sphere = true → x.A = x.a • (1 : Matrix (Fin n) (Fin n) ℝ))

/-- The result of `mbe_of_points`. With `sphere=True` the name `r` of the first point is rebound to a
cvxpy variable, so the `center` of the ellipsoid returned is not an array of numbers but an array of
cvxpy expressions; `symbolic` records the ellipsoid with the values of these expressions. -/
inductive MbeResult (n : ℕ)
  | numeric (e : Ellipsoid ℝ n)
  | symbolic (e : Ellipsoid ℝ n)

/-- `np.hstack((X, Y))` passed as the `rotation` of an ellipsoid in `d` dimensions, which the
constructor checks (src/rigeo/shape/ellipsoid.py:77). -/
def hstackSquare {d a b : ℕ} (X : Matrix (Fin d) (Fin a) ℝ) (Y : Matrix (Fin d) (Fin b) ℝ) :
    Py (Matrix (Fin d) (Fin d) ℝ) :=
  if h : a + b = d then .ok ((hcat X Y).submatrix id (Fin.cast h.symm)) else .error .assertion

/-- `np.zeros(d)` with its leading entries replaced by those of `v`; too many entries raise an error. -/
def padZeros {r : ℕ} (d : ℕ) (v : Fin r → ℝ) : Py (Fin d → ℝ) :=
  if r ≤ d then .ok fun i => if h : (i : ℕ) < r then v ⟨i, h⟩ else 0 else .error .index

/-- `(points - r).T` for a list of points (src/rigeo/shape/ellipsoid.py:692, poly.py:216) -/
def centred {d : ℕ} (points : List (Fin d → ℝ)) (r : Fin d → ℝ) : Matrix (Fin d) (Fin points.length) ℝ :=
  Matrix.of fun i k => points.get k i - r i

/-- `(points - r) @ R`: the coordinates of the points in the basis `R = orth((points - r).T)` of their
row space (src/rigeo/shape/ellipsoid.py:691-698, poly.py:215-222) -/
def project {d : ℕ} (orth : Orth) (points : List (Fin d → ℝ)) (r : Fin d → ℝ) :
    List (Fin (orth _ _ (centred points r)).1 → ℝ) :=
  points.map fun p => (p - r) ᵥ* (orth _ _ (centred points r)).2

/-- src/rigeo/shape/ellipsoid.py:670-728 `mbe_of_points(points, rcond, sphere, solver)`. -/
noncomputable def mbeOfPoints {d : ℕ} (eigh : Eigh) (lstsq : Lstsq) (orth : Orth) (nullSpace : NullSpace)
    (solver : (n : ℕ) → List (Fin n → ℝ) → Bool → MbeVars n) (points : List (Fin d → ℝ))
    (sphere : Bool := false) : Py (MbeResult d) :=
  match points with
  | [] => .error .index
  | r :: rest => do
    let points := r :: rest
    let R := (orth _ _ (centred points r)).2
    let x := solver _ (project orth points r) sphere
    let eigs := (eigh _ x.A).1
    let V := (eigh _ x.A).2
    let halfExtents ← padZeros d fun i => if eigs i = 0 then 0 else 1 / eigs i
    let N := (nullSpace _ _ (R * V)ᵀ).2
    let rotation ← hstackSquare (R * V) N
    let c := R *ᵥ lstsq _ x.A (-x.b)
    if sphere then
      let e ← Ellipsoid.init halfExtents (rotation := some rotation) (center := some (c + fun _ => x.a))
      pure (.symbolic e)
    else
      let e ← Ellipsoid.init halfExtents (rotation := some rotation) (center := some (c + r))
      pure (.numeric e)

/-- src/rigeo/shape/poly.py:198-204 `ConvexPolyhedron.mbe` -/
noncomputable def Poly.mbe {d : ℕ} (eigh : Eigh) (lstsq : Lstsq) (orth : Orth) (nullSpace : NullSpace)
    (solver : (n : ℕ) → List (Fin n → ℝ) → Bool → MbeVars n) (P : Poly ℝ d) (sphere : Bool := false) :
    Py (MbeResult d) :=
  mbeOfPoints eigh lstsq orth nullSpace solver P.vertices sphere

/-! ### `mie_inequality_form` -/

/-- The variables of the program in `mie_inequality_form`. -/
structure MieVars (n : ℕ) where
  B : Matrix (Fin n) (Fin n) ℝ
  c : Fin n → ℝ

/-- src/rigeo/shape/ellipsoid.py:743-753: the constraints. `0 < det B` is the domain of the objective
`log_det(B)`. -/
def mieFeasible {n : ℕ} (faces : List ((Fin n → ℝ) × ℝ)) (sphere : Bool) (x : MieVars n) : Prop :=
  cvxPsdVar x.B ∧ 0 < x.B.det ∧ (∀ f ∈ faces, norm2 (x.B *ᵥ f.1) + f.1 ⬝ᵥ x.c ≤ f.2) ∧
    (sphere = true → ∃ r : ℝ, x.B = r • (1 : Matrix (Fin n) (Fin n) ℝ))

/-- src/rigeo/shape/ellipsoid.py:731-758 `mie_inequality_form(A, b, sphere, solver)`. `np.linalg.inv`
raises `LinAlgError` (a `ValueError`) on a singular matrix. -/
noncomputable def mieInequalityForm {n : ℕ} (eigh : Eigh)
    (solver : (n : ℕ) → List ((Fin n → ℝ) × ℝ) → Bool → MieVars n) (faces : List ((Fin n → ℝ) × ℝ))
    (sphere : Bool := false) : Py (Ellipsoid ℝ n) :=
  let x := solver n faces sphere
  let E := x.B * x.B
  if E.det = 0 then .error .value
  else Ellipsoid.fromShapeMatrix eigh E⁻¹ (some x.c)

/-- src/rigeo/shape/poly.py:206-241 `ConvexPolyhedron.mie`. -/
noncomputable def Poly.mie {d : ℕ} (cdd : CddLib ℝ) (eigh : Eigh) (orth : Orth) (nullSpace : NullSpace)
    (solver : (n : ℕ) → List ((Fin n → ℝ) × ℝ) → Bool → MieVars n) (poly : Poly ℝ d)
    (sphere : Bool := false) : Py (Ellipsoid ℝ d) :=
  match poly.vertices with
  | [] => .error .index
  | r :: rest => do
    let vertices := r :: rest
    let R := (orth _ _ (centred vertices r)).2
    let faceForm ← (SpanForm.init (some (project orth vertices r))).toFaceForm cdd
    let ell ← mieInequalityForm eigh solver faceForm.faces sphere
    let halfExtents ← padZeros d ell.halfExtents
    let N := (nullSpace _ _ Rᵀ).2
    let rotation ← hstackSquare (R * ell.rotation) N
    Ellipsoid.init halfExtents (rotation := some rotation) (center := some (R *ᵥ ell.center + r))

end Rigeo
