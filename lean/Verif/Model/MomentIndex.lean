import Verif.Model.Moment

/-!
# Moment indices and polynomials without a fixed number of variables

`Model/Moment.lean` fixes the number of variables in the type. In the source it is only a property of the tuples at hand:
nothing stops a polynomial from mixing indices of different lengths. Here the indices are tuples of any length, as in
src/rigeo/moment.py. The exponents are natural numbers; `MomentIndex((-1,))` and the truncation of `MomentIndex((1.5,))` are not
modelled.
-/

namespace Rigeo

/-- src/rigeo/moment.py:9-13 the tuple `value` of a `MomentIndex`. -/
abbrev DynIndex := List ℕ

/-- The right operand of `idx + other`: an integer or another index. -/
inductive IndexOperand
  | int (k : ℤ)
  | index (v : DynIndex)

namespace DynIndex

/-- src/rigeo/moment.py:12-13 `MomentIndex(value)` for a string: `int(x)` of every character, `ValueError` for one that is not a
digit. (Digits other than those of ASCII are not modelled.) -/
def ofChars (value : List Char) : Py DynIndex :=
  value.mapM fun c => if c.isDigit then .ok (c.toNat - '0'.toNat) else .error .value

/-- src/rigeo/moment.py:15-16 `__str__`: the decimal representations one after the other, without separator. -/
def toChars (v : DynIndex) : List Char := v.flatMap (Nat.toDigits 10)

/-- src/rigeo/moment.py:29-35 `__add__`. An integer other than 0 has no attribute `value`. -/
def add (v : DynIndex) : IndexOperand → Py DynIndex
  | .int k => if k = 0 then .ok v else .error .attribute
  | .index w => do
    pyAssert (w.length == v.length)
    pure (List.zipWith (· + ·) v w)

/-- src/rigeo/moment.py:37-39 `__radd__` -/
def radd (v : DynIndex) (other : IndexOperand) : Py DynIndex := v.add other

/-- src/rigeo/moment.py:41-42 `__mul__` -/
def mul (v : DynIndex) (other : IndexOperand) : Py DynIndex := v.add other

/-- One step of Python's `sum`: `acc + g`, where `0 + g` is `g.__radd__(0)`. -/
def sumStep (acc : IndexOperand) (g : DynIndex) : Py IndexOperand :=
  match acc with
  | .int k => do pure (.index (← g.radd (.int k)))
  | .index v => do pure (.index (← v.add (.index g)))

/-- Python's `sum(group)`: `((0 + g₀) + g₁) + …`. -/
def pySum (group : List DynIndex) : Py IndexOperand := group.foldlM sumStep (.int 0)

end DynIndex

/-- src/rigeo/moment.py:45-55 a polynomial: its dictionary `coefficients`. -/
structure DynPoly (K : Type) where
  coefficients : List (DynIndex × K)

namespace DynPoly
section Field
variable {K : Type} [Field K]

/-- src/rigeo/moment.py:124-138 `basis(n, d)` -/
def basis (n d : ℕ) : Py (List IndexOperand) :=
  (combosWithReplacement (List.replicate n 0 ::
    (List.range n).map fun i => (List.range n).map fun j => if j = i then 1 else 0) d).mapM DynIndex.pySum

/-- `np.prod(x ** idx.value)` of src/rigeo/moment.py:119: `x` and the exponents are broadcast. -/
def monomial {n : ℕ} (x : Fin n → K) (v : DynIndex) : Py K :=
  if h : n = v.length then .ok (∏ i, x i ^ v.get (Fin.cast h i))
  else if v.length = 1 then .ok (∏ i, x i ^ v.headD 0)
  else if h : n = 1 then .ok (v.map fun k => x (Fin.cast h.symm 0) ^ k).prod
  else .error .value

/-- src/rigeo/moment.py:119, one term of `evaluate(x)`. -/
def term {n : ℕ} (x : Fin n → K) (kc : DynIndex × K) : Py K := do
  let m ← monomial x kc.1
  pure (kc.2 * m)

/-- src/rigeo/moment.py:114-122 `evaluate(x)` -/
def evaluate {n : ℕ} (p : DynPoly K) (x : Fin n → K) : Py K := do
  let terms ← p.coefficients.mapM (term x)
  pure terms.sum

/-- src/rigeo/moment.py:78-81 `degree` -/
def degree (p : DynPoly K) : Py ℕ :=
  if p.coefficients.isEmpty then .error .value
  else .ok (p.coefficients.foldl (fun acc kc => max acc (List.sum kc.1)) 0)

/-- src/rigeo/moment.py:105-112 `substitute(sub_var_map)` -/
def substitute (p : DynPoly K) (subVarMap : List (DynIndex × K)) : Py K := do
  let terms ← p.coefficients.mapM fun kc =>
    match dictGet subVarMap kc.1 with
    | some v => (.ok (kc.2 * v) : Py K)
    | none => .error .key
  pure terms.sum

variable [LinearOrder K]

/-- src/rigeo/moment.py:48-55 `__init__(coefficients, tol=0)` -/
def init (items : List (DynIndex × K)) (tol : K := 0) : DynPoly K :=
  ⟨items.foldl (fun acc kc => if isclose kc.2 0 0 tol then acc else dictSet acc kc.1 kc.2) []⟩

/-- src/rigeo/moment.py:48-55 `__init__(coefficients, tol=0)` with strings as keys, as at
src/rigeo/shape/cylinder.py:94-96. -/
def ofStrings (items : List (String × K)) (tol : K := 0) : Py (DynPoly K) := do
  let keys ← items.mapM fun kc => do
    let v ← DynIndex.ofChars kc.1.toList
    pure (v, kc.2)
  pure (init keys tol)

/-- src/rigeo/moment.py:67-76 `affine(a, b, tol)` -/
def affine {n : ℕ} (a : Fin n → K) (b : K) (tol : K := 0) : DynPoly K :=
  init ((List.finRange n).foldl (fun acc (i : Fin n) =>
    dictSet acc ((List.range n).map fun j => if j = (i : ℕ) then 1 else 0) (-a i)) [(List.replicate n 0, b)]) tol

/-- src/rigeo/moment.py:90-97 `__add__` -/
def add (p q : DynPoly K) : DynPoly K :=
  init (q.coefficients.foldl (fun acc kc =>
    match dictGet acc kc.1 with
    | some v => dictSet acc kc.1 (v + kc.2)
    | none => dictSet acc kc.1 kc.2) p.coefficients)

omit [Field K] [LinearOrder K] in
/-- src/rigeo/moment.py:102, one item of the dictionary in `localize(idx)`. -/
def localizeStep (idx : DynIndex) (acc : List (DynIndex × K)) (kc : DynIndex × K) : Py (List (DynIndex × K)) := do
  let k ← DynIndex.add kc.1 (.index idx)
  pure (dictSet acc k kc.2)

/-- src/rigeo/moment.py:99-103 `localize(idx)` -/
def localize (p : DynPoly K) (idx : DynIndex) : Py (DynPoly K) := do
  let items ← p.coefficients.foldlM (localizeStep idx) []
  pure (init items)

end Field
end DynPoly

/-- The polynomial of `Model/Moment.lean` as it is stored. -/
def Polynomial.toDyn {K : Type} {n : ℕ} (p : Polynomial K n) : DynPoly K :=
  ⟨p.coefficients.map fun kc => (List.ofFn kc.1, kc.2)⟩

end Rigeo
