import Verif.Model.MomentIndex

/-!
# The moment matrix as an array of objects, of any order

`Model/Moment.lean` treats moment matrices of order `d ≥ 1`. For `d = 0` the list `basis(n, 0)` is `[0]` with Python's integer `0`
(the empty sum), `np.outer` makes an array of `np.int64` of it, and the methods behave differently. Here the array `indices` holds
either moment indices or numpy integers, as it does in src/rigeo/moment.py, and the order is any natural number.
-/

namespace Rigeo

open Matrix

/-- An entry of the array `indices`: an integer of type `np.int64`, or a `MomentIndex`. It is also a key of `sub_var_map`. -/
inductive IndexEntry
  | npInt (k : ℤ)
  | index (v : DynIndex)
deriving DecidableEq

namespace MomentObject

/-- src/rigeo/moment.py:155 one entry of `np.outer(b, b)`: the product of two elements of the basis. Two integers give a numpy integer;
`MomentIndex.__mul__` (lines 40-41) is the sum; the class has no `__rmul__`. -/
def outerEntry (a b : IndexOperand) : Py IndexEntry :=
  match a, b with
  | .int k, .int l => .ok (.npInt (k * l))
  | .int _, .index _ => .error .type
  | .index v, other => do
    let s ← v.mul other
    pure (.index s)

/-- src/rigeo/moment.py:147-155 `__init__(n, d)`: the array `indices`, as a list of rows. -/
def init (n d : ℕ) : Py (List (List IndexEntry)) := do
  let b ← DynPoly.basis n d
  b.mapM fun x => b.mapM (outerEntry x)

/-- `self.indices[i, j]` -/
def entry (I : List (List IndexEntry)) (i j : ℕ) : Py IndexEntry :=
  match I[i]? with
  | none => .error .index
  | some row =>
    match row[j]? with
    | none => .error .index
    | some e => .ok e

section Field
variable {K : Type}

/-- One assignment of src/rigeo/moment.py:172-173. -/
def varMapStep {r : ℕ} (I : List (List IndexEntry)) (M : Matrix (Fin r) (Fin r) K) (acc : List (IndexEntry × K)) (ij : Fin r × Fin r) :
    Py (List (IndexEntry × K)) := do
  let idx ← entry I ij.1 ij.2
  pure (dictSet acc idx (M ij.1 ij.2))

/-- src/rigeo/moment.py:163-174 `_compute_var_map(M_var)`; the assertion on the shape holds by the type of `M`. -/
def computeVarMap {r : ℕ} (I : List (List IndexEntry)) (M : Matrix (Fin r) (Fin r) K) : Py (List (IndexEntry × K)) :=
  (MomentMatrix.upperPairs r).foldlM (varMapStep I M) []

/-- src/rigeo/moment.py:207-208, one constraint `sub_var_map[sub] == M_var[i, j]`. -/
def momentConstraint {r : ℕ} (I : List (List IndexEntry)) (m : List (IndexEntry × K)) (M : Matrix (Fin r) (Fin r) K)
    (ij : Fin r × Fin r) : Py Prop := do
  let sub ← entry I ij.1 ij.2
  match dictGet m sub with
  | none => throw .key
  | some v => pure (v = M ij.1 ij.2)

/-- src/rigeo/moment.py:196-209 `moment_constraints(M_var)` of the moment matrix of order `d`. -/
def momentConstraints (n d : ℕ) (M : Matrix (Fin (Polynomial.dim n d)) (Fin (Polynomial.dim n d)) K) : Py Prop := do
  let I ← init n d
  let m ← computeVarMap I M
  let cs ← (MomentMatrix.upperPairs (Polynomial.dim n d)).mapM (momentConstraint I m M)
  pure (∀ c ∈ cs, c)

variable [Field K]

/-- src/rigeo/moment.py:105-112 `substitute(sub_var_map)` with the keys of `_compute_var_map`. The keys of a polynomial are moment
indices and are never equal to an integer (`__eq__`, lines 24-27). -/
def substitute (p : DynPoly K) (m : List (IndexEntry × K)) : Py K := do
  let terms ← p.coefficients.mapM fun kc =>
    match dictGet m (.index kc.1) with
    | some v => (.ok (kc.2 * v) : Py K)
    | none => .error .key
  pure terms.sum

variable [LinearOrder K]

/-- src/rigeo/moment.py:99-103 `localize(idx)` for an entry of `indices`. `s + idx` with a numpy integer, also with 0, fails
(lines 30-32): its type is not `int` and it has no attribute `value`. Without any coefficient there is nothing to add. -/
def localizePoly (p : DynPoly K) (e : IndexEntry) : Py (DynPoly K) :=
  match e with
  | .index v => p.localize v
  | .npInt _ => if p.coefficients.isEmpty then .ok (DynPoly.init []) else .error .attribute

/-- src/rigeo/moment.py:252, one entry of `localize(M_val, poly)`. -/
def localizedValue (I : List (List IndexEntry)) (m : List (IndexEntry × K)) (p : DynPoly K) (i j : ℕ) : Py K := do
  let e ← entry I i j
  let q ← localizePoly p e
  substitute q m

/-- src/rigeo/moment.py:236-253 `localize(M_val, poly)`, as a list of rows. `math.comb` (line 248) raises `ValueError` for a negative
order. -/
def localize (n d : ℕ) (M : Matrix (Fin (Polynomial.dim n d)) (Fin (Polynomial.dim n d)) K) (p : DynPoly K) : Py (List (List K)) := do
  let I ← init n d
  let m ← computeVarMap I M
  let deg ← p.degree
  let v := MomentMatrix.halfDegree deg
  if d < v then throw .value
  let r := Polynomial.dim n (d - v)
  (List.range r).mapM fun i => (List.range r).mapM fun j => localizedValue I m p i j

/-- src/rigeo/moment.py:182, one assignment of `localizing_matrix(d, poly)`: an array of integers cannot hold a polynomial. -/
def localizingCell (I : List (List IndexEntry)) (p : DynPoly K) (i j : ℕ) : Py (DynPoly K) := do
  let e ← entry I i j
  let q ← localizePoly p e
  match e with
  | .index _ => pure q
  | .npInt _ => throw .type

/-- src/rigeo/moment.py:176-183 `localizing_matrix(d', poly)` of the moment matrix of order `d`; here `d'` is a natural number. -/
def localizingMatrix (n d d' : ℕ) (p : DynPoly K) : Py (List (List (DynPoly K))) := do
  let I ← init n d
  let r := Polynomial.dim n d'
  (List.range r).mapM fun i => (List.range r).mapM fun j => localizingCell I p i j

end Field
end MomentObject
end Rigeo
