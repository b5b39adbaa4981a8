import Verif.Model.NdArray
import Verif.Model.Constraint

/-!
# `schur` on arguments of any kind

`Model/Constraint.lean` has `schur` for the shapes in which rigeo calls it. Here the arguments are numbers, arrays or cvxpy expressions
with one or two axes (expressions also without axes) of any lengths, an expression being given by its value. Arrays without axes and
arrays with more than two axes are not modelled.
-/

namespace Rigeo

open Matrix

/-- An argument of `schur`. -/
inductive SchurArg (K : Type)
  | number (x : K)
  | array (a : NdArray K)
  | expr (a : NdArray K)

namespace SchurArg
variable {K : Type}

/-- `cp.reshape(X, (X.shape[0], 1), order="C")` for one axis, otherwise `X` itself: src/rigeo/constraint.py:9-11. -/
def toColumn (a : NdArray K) : NdArray K :=
  match a.shape with
  | [n] => ⟨[n, 1], fun i => a.data [i.headD 0]⟩
  | _ => a

/-- src/rigeo/constraint.py:5-11 `_shape_schur_var(X)` -/
def toBlock : SchurArg K → NdArray K
  | .number x => ⟨[1, 1], fun _ => x⟩
  | .array a => toColumn a
  | .expr a => if a.shape.prod = 1 then ⟨[1, 1], fun _ => a.data (List.replicate a.ndim 0)⟩ else toColumn a

end SchurArg

section Blocks
variable {K : Type}

/-- `X.T` for two axes. -/
def transposeArray (a : NdArray K) : NdArray K := ⟨a.shape.reverse, fun i => a.data i.reverse⟩

/-- cvxpy's `hstack` of two expressions with two axes: `ValueError` if the numbers of rows differ. -/
def cvxHstack (a b : NdArray K) : Py (NdArray K) :=
  match a.shape, b.shape with
  | [r, c], [r', c'] => if r = r' then
      .ok ⟨[r, c + c'], fun i => let k := i.getLastD 0; if k < c then a.data [i.headD 0, k] else b.data [i.headD 0, k - c]⟩
    else .error .value
  | _, _ => .error .value

/-- cvxpy's `vstack` of two expressions with two axes: `ValueError` if the numbers of columns differ. -/
def cvxVstack (a b : NdArray K) : Py (NdArray K) :=
  match a.shape, b.shape with
  | [r, c], [r', c'] => if c = c' then
      .ok ⟨[r + r', c], fun i => let k := i.headD 0; if k < r then a.data [k, i.getLastD 0] else b.data [k - r, i.getLastD 0]⟩
    else .error .value
  | _, _ => .error .value

/-- src/rigeo/constraint.py:14-34 `schur(A, B, C)`; `cp.bmat` stacks the rows, each of them stacked from its blocks. -/
def schurArray (A B C : SchurArg K) : Py (NdArray K) := do
  let A := A.toBlock
  let B := B.toBlock
  let C := C.toBlock
  let top ← cvxHstack A B
  let bottom ← cvxHstack (transposeArray B) C
  cvxVstack top bottom

end Blocks
end Rigeo
