import Mathlib.Algebra.Order.Field.Basic
import Mathlib.Data.Matrix.Mul
import Mathlib.LinearAlgebra.Matrix.Notation
import Mathlib.LinearAlgebra.Matrix.Trace
import Mathlib.Data.Fin.Tuple.Basic

/-!
# Python and numpy conventions used by the model

Every model file is written in these terms. Nothing here is specific to rigeo.
-/

namespace Rigeo

/-- The ways in which a call can fail to return a finite, well formed value.
`nonfinite` stands for numpy silently producing `inf` or `nan` (division by zero),
the other constructors are Python exception classes. -/
inductive PyErr
  | assertion
  | value
  | type
  | index
  | key
  | attribute
  | nonfinite
  | notImplemented
  deriving DecidableEq, Repr

/-- Result of a Python call: an exception or a value. -/
abbrev Py := Except PyErr

/-- A call that builds a list of cvxpy constraints succeeds and the constraints are satisfied by the
values under consideration. -/
def Py.Holds (c : Py Prop) : Prop := ∃ p : Prop, c = .ok p ∧ p

/-- Python's `assert b`. -/
def pyAssert (b : Bool) : Py Unit := if b then .ok () else .error .assertion

section Field
variable {K : Type} [Field K] [LinearOrder K]

/-- The default absolute tolerance `1e-8` of numpy's `isclose` and of most rigeo signatures. -/
def tol8 : K := 1 / 100000000

/-- The default relative tolerance `1e-5` of numpy's `isclose`. -/
def rtol5 : K := 1 / 100000

/-- `np.isclose(a, b, rtol, atol)` on finite numbers: `|a - b| <= atol + rtol * |b|`. -/
def isclose (a b rtol atol : K) : Bool := decide (|a - b| ≤ atol + rtol * |b|)

/-- Scalar division as numpy performs it: dividing by zero silently yields `inf`/`nan`. -/
def pdiv (a b : K) : Py K := if b = 0 then .error .nonfinite else .ok (a / b)

/-- `v / s` for a vector and a scalar. -/
def vdiv {n : ℕ} (v : Fin n → K) (s : K) : Py (Fin n → K) :=
  if s = 0 then .error .nonfinite else .ok (fun i => v i / s)

end Field

/-- `np.outer(u, v)`. -/
def outer {K : Type} [Mul K] {m n : ℕ} (u : Fin m → K) (v : Fin n → K) :
    Matrix (Fin m) (Fin n) K := Matrix.of fun i j => u i * v j

/-- `np.hstack` / horizontal part of `np.block` for matrices with equal row counts. -/
def hcat {K : Type} {m a b : ℕ} (A : Matrix (Fin m) (Fin a) K) (B : Matrix (Fin m) (Fin b) K) :
    Matrix (Fin m) (Fin (a + b)) K := Matrix.of fun i => Fin.append (A i) (B i)

/-- `np.vstack` / vertical part of `np.block` for matrices with equal column counts. -/
def vcat {K : Type} {m a b : ℕ} (A : Matrix (Fin a) (Fin m) K) (B : Matrix (Fin b) (Fin m) K) :
    Matrix (Fin (a + b)) (Fin m) K := Matrix.of fun i j => Fin.append (fun k => A k j) (fun k => B k j) i

/-- A one-column matrix `a[:, None]`. -/
def colMat {K : Type} {m : ℕ} (a : Fin m → K) : Matrix (Fin m) (Fin 1) K := Matrix.of fun i _ => a i

/-- Assembling a `(d+1) x (d+1)` matrix from slices, the pattern
`T[:d, :d] = A; T[:d, -1] = b; T[-1, :d] = c; T[-1, -1] = e` that the code uses for homogeneous
transforms, pseudo-inertia matrices, Schur matrices and ellipsoid `Q` matrices. -/
def bordered {K : Type} {d : ℕ} (A : Matrix (Fin d) (Fin d) K) (b c : Fin d → K) (e : K) :
    Matrix (Fin (d + 1)) (Fin (d + 1)) K :=
  Matrix.of fun i j =>
    Fin.lastCases (motive := fun _ => K)
      (Fin.lastCases (motive := fun _ => K) e (fun j' => c j') j)
      (fun i' => Fin.lastCases (motive := fun _ => K) (b i') (fun j' => A i' j') j) i

end Rigeo
