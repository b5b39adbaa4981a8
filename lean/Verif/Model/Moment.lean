import Verif.Model.Constraint
import Mathlib.Data.Nat.Choose.Basic

/-!
# Model of `src/rigeo/moment.py`

A `MomentIndex` over `n` variables is an exponent vector `Fin n → ℕ` (the source stores a tuple of
ints; the arity is fixed by the type, so the length assertion of `__add__`, line 33, holds;
`Model/MomentIndex.lean` models tuples of any length and relates the two).
`MomentIndex.__add__`, `__radd__`, `__mul__` (lines 29-41) are addition of exponent vectors.
-/

namespace Rigeo

open Matrix

/-! ### Python dictionaries, `itertools` -/

/-- `d[k] = v` on a Python dictionary, kept as its list of items in insertion order. -/
def dictSet {α β : Type} [DecidableEq α] : List (α × β) → α → β → List (α × β)
  | [], k, v => [(k, v)]
  | kv :: l, k, v => if kv.1 = k then (k, v) :: l else kv :: dictSet l k v

/-- `d[k]`, `none` for a missing key. -/
def dictGet {α β : Type} [DecidableEq α] : List (α × β) → α → Option β
  | [], _ => none
  | kv :: l, k => if kv.1 = k then some kv.2 else dictGet l k

/-- `itertools.combinations_with_replacement(l, k)`: non-decreasing positions in lexicographic order. -/
def combosWithReplacement {α : Type} : List α → ℕ → List (List α)
  | _, 0 => [[]]
  | [], _ + 1 => []
  | a :: l, k + 1 => (combosWithReplacement (a :: l) k).map (a :: ·) ++ combosWithReplacement l (k + 1)
termination_by l k => (l.length, k)

/-- Python's `sum(group)` of moment indices, `none` for the integer `0` it starts from:
`0 + idx = idx.__radd__(0) = idx` (lines 30-31, 37-39). -/
def sumIndices {n : ℕ} (group : List (Fin n → ℕ)) : Option (Fin n → ℕ) :=
  group.foldl (fun acc idx => some ((acc.getD 0) + idx)) none

/-! ### `Polynomial` -/

/-- src/rigeo/moment.py:44-54: the dictionary `coefficients` of a polynomial. -/
structure Polynomial (K : Type) (n : ℕ) where
  coefficients : List ((Fin n → ℕ) × K)

namespace Polynomial
section Field
variable {K : Type} [Field K] {n : ℕ}

/-- src/rigeo/moment.py:124-138 `basis(n, d)`. For `d = 0` the only group is empty and its sum is the
integer `0` (`none`), not a moment index. -/
def basis (n d : ℕ) : List (Option (Fin n → ℕ)) :=
  (combosWithReplacement (0 :: (List.finRange n).map fun i => Pi.single i 1) d).map sumIndices

/-- src/rigeo/moment.py:140-143 `dim(n, d) = math.comb(n + d, d)` -/
def dim (n d : ℕ) : ℕ := (n + d).choose d

/-- src/rigeo/moment.py:114-122 `evaluate` -/
def evaluate (p : Polynomial K n) (x : Fin n → K) : K :=
  (p.coefficients.map fun kc => kc.2 * ∏ i, x i ^ kc.1 i).sum

/-- src/rigeo/moment.py:105-112 `substitute(sub_var_map)`; `cp.sum` of a list is the builtin `sum`. -/
def substitute (p : Polynomial K n) (subVarMap : List ((Fin n → ℕ) × K)) : Py K := do
  let terms ← p.coefficients.mapM fun kc =>
    match dictGet subVarMap kc.1 with
    | some v => (.ok (kc.2 * v) : Py K)
    | none => .error .key
  pure terms.sum

/-- src/rigeo/moment.py:78-81 `degree`; `np.max` of an empty list raises `ValueError`. -/
def degree (p : Polynomial K n) : Py ℕ :=
  if p.coefficients.isEmpty then .error .value
  else .ok (p.coefficients.foldl (fun acc kc => max acc (∑ i, kc.1 i)) 0)

variable [LinearOrder K]

/-- src/rigeo/moment.py:47-54 `__init__(coefficients, tol=0)` -/
def init (items : List ((Fin n → ℕ) × K)) (tol : K := 0) : Polynomial K n :=
  ⟨items.foldl (fun acc kc => if isclose kc.2 0 0 tol then acc else dictSet acc kc.1 kc.2) []⟩

/-- src/rigeo/moment.py:56-59 `zeros` -/
def zeros : Polynomial K n := init []

/-- src/rigeo/moment.py:61-65 `ones(n, d)`. A basis element that is the integer `0` (`d = 0`) reaches
`MomentIndex(0)`, which is not iterable (`TypeError`). -/
def ones (n d : ℕ) : Py (Polynomial K n) := do
  let idxs ← (basis n d).mapM fun b =>
    match b with
    | some idx => (.ok idx : Py (Fin n → ℕ))
    | none => .error .type
  pure (init (idxs.foldl (fun acc idx => dictSet acc idx 1) []))

/-- src/rigeo/moment.py:67-76 `affine(a, b, tol)`: `b - a ⬝ᵥ x` -/
def affine (a : Fin n → K) (b : K) (tol : K := 0) : Polynomial K n :=
  init ((List.finRange n).foldl (fun acc i => dictSet acc (Pi.single i 1) (-a i)) [(0, b)]) tol

/-- src/rigeo/moment.py:90-97 `__add__` -/
def add (p q : Polynomial K n) : Polynomial K n :=
  init (q.coefficients.foldl (fun acc kc =>
    match dictGet acc kc.1 with
    | some v => dictSet acc kc.1 (v + kc.2)
    | none => dictSet acc kc.1 kc.2) p.coefficients)

/-- src/rigeo/moment.py:99-103 `localize(idx)` -/
def localize (p : Polynomial K n) (idx : Fin n → ℕ) : Polynomial K n :=
  init (p.coefficients.foldl (fun acc kc => dictSet acc (kc.1 + idx) kc.2) [])

end Field
end Polynomial

/-! ### `MomentMatrix`

Only `d ≥ 1`: for `d = 0` the basis is the single integer `0` and the matrix of indices is not made of
moment indices. -/

namespace MomentMatrix
section Field
variable {K : Type} [Field K]

/-- The `i`-th element of the monomial basis. (`C20_length` shows that the basis has `dim n d` elements
and `C20_basis` that for `d ≥ 1` they are moment indices, so the defaults are not used.) -/
def basisIdx (n d i : ℕ) : Fin n → ℕ := (((Polynomial.basis n d)[i]?).getD none).getD 0

/-- src/rigeo/moment.py:153-155 `indices[i, j]`: the outer product of the basis with itself. -/
def indices (n d i j : ℕ) : Fin n → ℕ := basisIdx n d i + basisIdx n d j

/-- The pairs `(i, j)` with `i ≤ j` in the order of the loops at lines 169-170 and 204-205. -/
def upperPairs (r : ℕ) : List (Fin r × Fin r) :=
  (List.finRange r).flatMap fun i => ((List.finRange r).filter fun j => i ≤ j).map fun j => (i, j)

/-- src/rigeo/moment.py:163-174 `_compute_var_map(M_var)` -/
def computeVarMap (n d : ℕ) (M : Matrix (Fin (Polynomial.dim n d)) (Fin (Polynomial.dim n d)) K) :
    List ((Fin n → ℕ) × K) :=
  (upperPairs _).foldl (fun acc ij => dictSet acc (indices n d ij.1 ij.2) (M ij.1 ij.2)) []

/-- src/rigeo/moment.py:196-209 `moment_constraints(M_var)`; `sub_var_map[sub]` would raise `KeyError`
on a missing key. -/
def momentConstraints (n d : ℕ)
    (M : Matrix (Fin (Polynomial.dim n d)) (Fin (Polynomial.dim n d)) K) : Py Prop :=
  let subVarMap := computeVarMap n d M
  if (upperPairs (Polynomial.dim n d)).all fun ij => (dictGet subVarMap (indices n d ij.1 ij.2)).isSome then
    .ok (∀ ij ∈ upperPairs (Polynomial.dim n d),
      dictGet subVarMap (indices n d ij.1 ij.2) = some (M ij.1 ij.2))
  else .error .key

variable [LinearOrder K]

/-- The half degree `v` (src/rigeo/moment.py:220-224, 243-247). -/
def halfDegree (deg : ℕ) : ℕ := if deg % 2 = 0 then deg / 2 else (deg + 1) / 2

/-- src/rigeo/moment.py:176-183 `localizing_matrix(d', poly)`, one entry. -/
def localizingEntry (n d : ℕ) (p : Polynomial K n) (i j : ℕ) : Polynomial K n :=
  p.localize (indices n d i j)

/-- src/rigeo/moment.py:236-253 `localize(M_val, poly)`: the values of the localizing matrix of order
`d - v`. `math.comb` raises `ValueError` for a negative order; `substitute` can only raise `KeyError`. -/
def localize (n d : ℕ) (M : Matrix (Fin (Polynomial.dim n d)) (Fin (Polynomial.dim n d)) K)
    (p : Polynomial K n) : Py (Σ r : ℕ, Matrix (Fin r) (Fin r) K) := do
  let subVarMap := computeVarMap n d M
  let deg ← p.degree
  let v := halfDegree deg
  if d < v then throw .value
  let r := Polynomial.dim n (d - v)
  let L : Fin r → Fin r → Py K := fun i j => (localizingEntry n d p i j).substitute subVarMap
  if ∀ i j, (L i j).toBool = true then
    pure ⟨r, Matrix.of fun i j => (L i j).toOption.getD 0⟩
  else throw .key

/-- src/rigeo/moment.py:211-234 `localizing_constraints(M_var, polys)` for one polynomial
(`_compute_loc_mat_constraints` is lines 185-194). The entries are the same expressions as in
`localize`; `L_var` is a cvxpy variable. -/
def localizingConstraint (n d : ℕ)
    (M : Matrix (Fin (Polynomial.dim n d)) (Fin (Polynomial.dim n d)) K) (p : Polynomial K n) :
    Py Prop := do
  let ⟨r, Lsym⟩ ← localize n d M p
  pure (∃ L : Matrix (Fin r) (Fin r) K, cvxPsdVar L ∧ ∀ i j, L i j = Lsym i j)

/-- src/rigeo/moment.py:211-234 `localizing_constraints(M_var, polys)` -/
def localizingConstraints (n d : ℕ)
    (M : Matrix (Fin (Polynomial.dim n d)) (Fin (Polynomial.dim n d)) K) (ps : List (Polynomial K n)) :
    Py Prop := do
  let cs ← ps.mapM (localizingConstraint n d M)
  pure (∀ c ∈ cs, c)

end Field
end MomentMatrix
end Rigeo
