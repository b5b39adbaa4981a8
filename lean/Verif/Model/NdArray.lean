import Verif.Model.Py
import Mathlib.Algebra.BigOperators.Fin
import Mathlib.Data.List.InsertIdx

/-!
# numpy arrays with any number of axes

Only the operations that rigeo applies to arrays of points are here. An array is its shape together with
its entries, given for every multi-index; entries outside the shape have no meaning. Nothing here is
specific to rigeo: the definitions follow the numpy reference (broadcasting, `matmul`, `expand_dims`,
`squeeze`, `reshape`, `concatenate`, reductions along one axis).

Simplification: an entry that numpy computes by dividing by zero is `nan` or `inf` there, here it is the
value of the field's division by zero. Theorems about arrays only speak of entries with a nonzero divisor.
-/

namespace Rigeo

/-- An array: `shape` is `a.shape`, `data [i₀, i₁, …]` is `a[i₀, i₁, …]`. -/
structure NdArray (α : Type) where
  shape : List ℕ
  data : List ℕ → α

/-- The argument `shape` of the sampling functions: an integer or a tuple. -/
inductive ShapeArg
  | int (n : ℕ)
  | tuple (l : List ℕ)

/-- `if np.isscalar(shape): shape = (shape,)`; also the shape of `rng.random(shape)`, for which `n` and `(n,)`
are the same. -/
def ShapeArg.toTuple : ShapeArg → List ℕ
  | .int n => [n]
  | .tuple l => l

/-- The comparison `shape == 1`: a tuple is never equal to an integer. -/
def ShapeArg.isOne : ShapeArg → Bool
  | .int n => n == 1
  | .tuple _ => false

namespace NdArray
variable {α β γ : Type}

/-- `a.ndim` -/
def ndim (a : NdArray α) : ℕ := a.shape.length

/-- An elementwise function of one argument. -/
def map (f : α → β) (a : NdArray α) : NdArray β := ⟨a.shape, fun i => f (a.data i)⟩

/-- Broadcasting of two shapes, written with the last axis first: axes are matched from the last one on,
equal lengths match, a length 1 is stretched, a missing axis is added; otherwise `ValueError`. -/
def broadcastRev : List ℕ → List ℕ → Py (List ℕ)
  | [], t => .ok t
  | a :: s, [] => .ok (a :: s)
  | a :: s, b :: t => do
    let r ← broadcastRev s t
    if a = b then pure (a :: r)
    else if a = 1 then pure (b :: r)
    else if b = 1 then pure (a :: r)
    else throw .value

/-- The index into an operand of shape `s` that belongs to the index `i` of the broadcast result: axes the
operand does not have are dropped, on axes of length 1 the index is 0. -/
def clip (s i : List ℕ) : List ℕ :=
  (List.zipWith (fun n k => if n = 1 then 0 else k) s.reverse i.reverse).reverse

/-- An elementwise function of two arguments, with broadcasting. -/
def zip (f : α → β → γ) (a : NdArray α) (b : NdArray β) : Py (NdArray γ) := do
  let s ← broadcastRev a.shape.reverse b.shape.reverse
  pure ⟨s.reverse, fun i => f (a.data (clip a.shape i)) (b.data (clip b.shape i))⟩

/-- `np.expand_dims(a, axis)`; an axis beyond the end raises `AxisError`, a subclass of `ValueError`. -/
def expandDims (a : NdArray α) (axis : ℕ) : Py (NdArray α) :=
  if axis ≤ a.ndim then .ok ⟨a.shape.insertIdx axis 1, fun i => a.data (i.eraseIdx axis)⟩ else .error .value

/-- The index into an array of shape `s` that belongs to the index `i` of the squeezed array. -/
def unsqueeze : List ℕ → List ℕ → List ℕ
  | [], _ => []
  | n :: s, i =>
    if n = 1 then 0 :: unsqueeze s i
    else match i with
      | [] => 0 :: unsqueeze s []
      | k :: i => k :: unsqueeze s i

/-- `np.squeeze(a)`: all axes of length 1 are removed. -/
def squeeze (a : NdArray α) : NdArray α := ⟨a.shape.filter (· ≠ 1), fun i => a.data (unsqueeze a.shape i)⟩

/-- The position of the index `i` in an array of shape `s` stored row by row. -/
def ravel : List ℕ → List ℕ → ℕ
  | _ :: s, k :: i => k * s.prod + ravel s i
  | _, _ => 0

/-- The index at position `q` of an array of shape `s` stored row by row. -/
def unravel : List ℕ → ℕ → List ℕ
  | [], _ => []
  | _ :: s, q => q / s.prod :: unravel s (q % s.prod)

/-- `a.reshape(s)` -/
def reshape (a : NdArray α) (s : List ℕ) : Py (NdArray α) :=
  if s.prod = a.shape.prod then .ok ⟨s, fun i => a.data (unravel a.shape (ravel s i))⟩ else .error .value

/-- A reduction `np.sum(a, axis)`, `np.all(a, axis)`, …: `f n g` reduces the `n` values `g 0, …, g (n - 1)` found along
the axis. -/
def reduce (f : ℕ → (ℕ → α) → β) (a : NdArray α) (axis : ℕ) : Py (NdArray β) :=
  match a.shape[axis]? with
  | some n => .ok ⟨a.shape.eraseIdx axis, fun i => f n fun k => a.data (i.insertIdx axis k)⟩
  | none => .error .value

/-- The reduction of `np.all` -/
def all (n : ℕ) (g : ℕ → Bool) : Bool := decide (∀ k, k < n → g k = true)

/-- `a.T`: the axes in reverse order. -/
def T (a : NdArray α) : NdArray α := ⟨a.shape.reverse, fun i => a.data i.reverse⟩

/-- `np.atleast_2d(a)` -/
def atleast2d (a : NdArray α) : NdArray α :=
  match a.shape with
  | [] => ⟨[1, 1], fun _ => a.data []⟩
  | [n] => ⟨[1, n], fun i => a.data i.tail⟩
  | _ => a

/-- `a[0]`; `IndexError` if there is no such entry. -/
def head (a : NdArray α) : Py (NdArray α) :=
  match a.shape with
  | n :: s => if 0 < n then .ok ⟨s, fun i => a.data (0 :: i)⟩ else .error .index
  | [] => .error .index

/-- `a[:, idx]` for a two-dimensional array and a boolean mask, given as the list of the positions where it holds. -/
def cols (a : NdArray α) (idx : List ℕ) : Py (NdArray α) :=
  match a.shape with
  | [n, _] => .ok ⟨[n, idx.length], fun i => a.data [i.headD 0, idx.getD (i.getLastD 0) 0]⟩
  | _ => .error .index

/-- `a[:, k]` for a two-dimensional array. -/
def col (a : NdArray α) (k : ℕ) : Py (NdArray α) :=
  match a.shape with
  | [n, m] => if k < m then .ok ⟨[n], fun i => a.data (i ++ [k])⟩ else .error .index
  | _ => .error .index

/-- `np.concatenate((a, b), axis=-1)`: all axes but the last must agree, and there must be one. -/
def concatLast (a b : NdArray α) : Py (NdArray α) :=
  match a.shape.getLast?, b.shape.getLast? with
  | some m, some n =>
    if a.shape.dropLast = b.shape.dropLast then
      .ok ⟨a.shape.dropLast ++ [m + n], fun i =>
        if i.getLastD 0 < m then a.data i else b.data (i.dropLast ++ [i.getLastD 0 - m])⟩
    else .error .value
  | _, _ => .error .value

section Ring
variable {K : Type} [Field K]

/-- A vector as an array. -/
def ofVec {d : ℕ} (v : Fin d → K) : NdArray K :=
  ⟨[d], fun i => if h : i.headD 0 < d then v ⟨_, h⟩ else 0⟩

/-- A matrix as an array. -/
def ofMatrix {m n : ℕ} (A : Matrix (Fin m) (Fin n) K) : NdArray K :=
  ⟨[m, n], fun i => if h : i.headD 0 < m ∧ i.tail.headD 0 < n then A ⟨_, h.1⟩ ⟨_, h.2⟩ else 0⟩

/-- The reduction of `np.sum` -/
def sum (n : ℕ) (g : ℕ → K) : K := ∑ k ∈ Finset.range n, g k

/-- `a @ b` for an array `b` with one or two axes and an array `a` with at least one. -/
def matmul (a b : NdArray K) : Py (NdArray K) :=
  match a.shape.getLast?, b.shape with
  | some k, [k'] =>
    if k = k' then .ok ⟨a.shape.dropLast, fun o => ∑ j ∈ Finset.range k, a.data (o ++ [j]) * b.data [j]⟩
    else .error .value
  | some k, [k', m] =>
    if k = k' then
      .ok ⟨a.shape.dropLast ++ [m], fun o =>
        ∑ j ∈ Finset.range k, a.data (o.dropLast ++ [j]) * b.data [j, o.getLastD 0]⟩
    else .error .value
  | _, _ => .error .value

end Ring
end NdArray
end Rigeo
