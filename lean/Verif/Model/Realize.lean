import Verif.Model.Cylinder
import Verif.Model.Moment
import Mathlib.Data.Finset.Sort

/-!
# Model of the density realizability tests and constraints

`ellipsoid.py` (`can_realize`, `moment_constraints`), `poly.py`, `box.py`, `cylinder.py`
(`moment_sdp_constraints`, `moment_vertex_constraints`, `moment_custom_vertex_constraints`) and
`RigidBody.moment_sdp_constraints` of `rigidbody.py`.

The constraint builders are modelled on the values of their parameter variable: the result is the
proposition that all constraints in the returned list hold, with the internal cvxpy variables
existentially quantified.
-/

namespace Rigeo

open Matrix

section Field
variable {K : Type} [Field K] [LinearOrder K]

namespace Ellipsoid

/-- The positions outside the zero mask, in increasing order (numpy boolean indexing). -/
def nzIdx {d : ℕ} (e : Ellipsoid K d) (r : ℕ)
    (h : (Finset.univ.filter fun i => e.z i = false).card = r) : Fin r → Fin d :=
  (Finset.univ.filter fun i => e.z i = false).orderEmbOfFin h

/-- The matrix `V` of `_QV_degenerate`: columns `rotation[:, ~zero_mask]` and `center`, and a last row
`[0, ..., 0, 1]`. -/
def liftMatrix {d r : ℕ} (e : Ellipsoid K d) (idx : Fin r → Fin d) : Matrix (Fin (d + 1)) (Fin (r + 1)) K :=
  Matrix.of fun i j =>
    Fin.lastCases (motive := fun _ => K)
      (Fin.lastCases (motive := fun _ => K) 1 (fun _ => 0) j)
      (fun i' => Fin.lastCases (motive := fun _ => K) (e.center i') (fun j' => e.rotation i' (idx j')) j) i

/-- src/rigeo/shape/ellipsoid.py:216-229 `_QV_degenerate` and 415-416 (its use), for a value of `J`.
If some half extent is nonzero but within the mask, `rank` differs from the number of unmasked axes
and `S @ c` in `_Q_matrix` raises `ValueError`. -/
def qvConstraint (e : Ellipsoid K 3) (J : Matrix (Fin 4) (Fin 4) K) : Py Prop :=
  if h : (Finset.univ.filter fun i => e.z i = false).card = e.rank then
    let idx := e.nzIdx e.rank h
    let Sr : Matrix (Fin e.rank) (Fin e.rank) K := Matrix.diagonal fun j => e.hInvNz (idx j) ^ 2
    let Qr := qMatrix Sr 0
    let V := e.liftMatrix idx
    .ok (∃ Jr : Matrix (Fin (e.rank + 1)) (Fin (e.rank + 1)) K, cvxPsdVar Jr ∧
      0 ≤ (Qr * Jr).trace ∧ J = V * Jr * Vᵀ)
  else .error .value

/-- src/rigeo/shape/ellipsoid.py:378-416 `moment_constraints(param_var, eps)`; `useTrace` is the module
flag `USE_ELLIPSOID_TRACE_REALIZABILITY_CONSTRAINTS` (line 13, `False`). -/
def momentConstraints (e : Ellipsoid K 3) (x : ParamVar K) (eps : K := 0) (useTrace : Bool := false) :
    Py Prop := do
  let (J, psd) ← pimMustEqualParamVar x eps
  if !e.isDegenerate then
    let Q ← e.Q
    pure (psd ∧ 0 ≤ (Q * J).trace)
  else if useTrace then
    let (nonzeroQ, zeroQ) := e.qDegenerate
    pure (psd ∧ 0 ≤ (nonzeroQ * J).trace ∧ (zeroQ * J).trace = 0)
  else
    let c ← e.qvConstraint J
    pure (psd ∧ c)

end Ellipsoid

/-- Entry `M[i, j]` of a square array (only used with positions inside the array). -/
def entry {r : ℕ} (M : Matrix (Fin r) (Fin r) K) (i j : ℕ) : K :=
  if h : i < r ∧ j < r then M ⟨i, h.1⟩ ⟨j, h.2⟩ else 0

/-- The common part of src/rigeo/shape/poly.py:276-286 and src/rigeo/shape/cylinder.py:152-163: the
moment matrix variable with its constraints, tied to `J`. As in the source the PSD constraints of `J`
are not included. For `d = 0` the sources raise an exception (`math.comb` of a negative number or a
missing attribute). -/
def momentSdp (polys : List (Polynomial K 3)) (J : Matrix (Fin 4) (Fin 4) K) (d : ℕ) : Py Prop := do
  if d = 0 then throw .value
  -- the exceptions do not depend on the value of the variable
  let probe : Matrix (Fin (Polynomial.dim 3 d)) (Fin (Polynomial.dim 3 d)) K := 0
  let _ ← MomentMatrix.momentConstraints 3 d probe
  let _ ← MomentMatrix.localizingConstraints 3 d probe polys
  pure (∃ M : Matrix (Fin (Polynomial.dim 3 d)) (Fin (Polynomial.dim 3 d)) K,
    cvxPsdVar M ∧
    Py.Holds (MomentMatrix.momentConstraints 3 d M) ∧
    Py.Holds (MomentMatrix.localizingConstraints 3 d M polys) ∧
    J 3 3 = entry M 0 0 ∧
    (∀ i : Fin 3, J i.castSucc 3 = entry M 0 (1 + i)) ∧
    (∀ i j : Fin 3, J i.castSucc j.castSucc = entry M (1 + i) (1 + j)))

namespace Poly

/-- src/rigeo/shape/poly.py:60 `_polys` -/
def polys (P : Poly K 3) : List (Polynomial K 3) :=
  P.faceForm.faces.map fun ab => Polynomial.affine ab.1 ab.2

/-- src/rigeo/shape/poly.py:269-286 `moment_sdp_constraints(param_var, eps, d)`. As in the source the
constraints `psd_constraints` are computed and dropped. -/
def momentSdpConstraints (P : Poly K 3) (x : ParamVar K) (eps : K := 0) (d : ℕ := 2) : Py Prop := do
  let (J, _psd) ← pimMustEqualParamVar x eps
  momentSdp P.polys J d

/-- src/rigeo/shape/poly.py:291-310 `moment_vertex_constraints(param_var, eps)`; `H << X` is
`X - H >> 0`. -/
def momentVertexConstraints (P : Poly K 3) (x : ParamVar K) (eps : K := 0) : Py Prop := do
  let (J, psd) ← pimMustEqualParamVar x eps
  let H : Matrix (Fin 3) (Fin 3) K := Matrix.of fun i j => J i.castSucc j.castSucc
  pure (psd ∧ ∃ ms : Fin P.vertices.length → K, (∀ k, 0 ≤ ms k) ∧
    J 3 3 = ∑ k, ms k ∧
    (∀ i : Fin 3, J i.castSucc 3 = ∑ k, ms k * P.vertices.get k i) ∧
    cvxPsd ((∑ k, ms k • outer (P.vertices.get k) (P.vertices.get k)) - H))

end Poly

namespace Box

/-- src/rigeo/shape/box.py:354-379 `moment_custom_vertex_constraints(param_var, eps)`. `cp.upper_tri`
is the strictly upper triangular part. -/
def momentCustomVertexConstraints (b : Box K) (x : ParamVar K) (eps : K := 0) : Py Prop := do
  let (J, psd) ← pimMustEqualParamVar x eps
  let T := transformMatrixInv b.rotation b.center
  let J0 := T * J * Tᵀ
  let vs := boxVerts b.halfExtents 1 0
  pure (psd ∧ ∃ μs : Fin vs.length → K, (∀ k, 0 ≤ μs k) ∧
    let Jv := ∑ k, μs k • outer (IP.hom (vs.get k)) (IP.hom (vs.get k))
    J0 3 3 = Jv 3 3 ∧
    (∀ i j : Fin 4, i < j → J0 i j = Jv i j) ∧
    ∀ i : Fin 3, J0 i.castSucc i.castSucc ≤ Jv i.castSucc i.castSucc)

/-- `moment_sdp_constraints` of a box, inherited from `ConvexPolyhedron`. -/
def momentSdpConstraints (b : Box K) (x : ParamVar K) (eps : K := 0) (d : ℕ := 2) : Py Prop :=
  b.toPoly.momentSdpConstraints x eps d

end Box

namespace Cylinder

/-- src/rigeo/shape/cylinder.py:93-97 `_poly0s` -/
def poly0s (c : Cylinder K) : List (Polynomial K 3) :=
  let h := (1 / 2) * c.length
  [Polynomial.init [(![0, 0, 1], 1), (![0, 0, 0], h)],
   Polynomial.init [(![0, 0, 1], -1), (![0, 0, 0], h)],
   Polynomial.init [(![2, 0, 0], -1), (![0, 2, 0], -1), (![0, 0, 0], c.radius ^ 2)]]

/-- src/rigeo/shape/cylinder.py:143-163 `moment_sdp_constraints(param_var, eps, d)`. As in the source
the constraints `psd_constraints` are computed and dropped. -/
def momentSdpConstraints (c : Cylinder K) (x : ParamVar K) (eps : K := 0) (d : ℕ := 2) : Py Prop := do
  let (J, _psd) ← pimMustEqualParamVar x eps
  let T := transformMatrixInv c.rotation c.center
  momentSdp c.poly0s (T * J * Tᵀ) d

/-- src/rigeo/shape/cylinder.py:165-195 `moment_custom_vertex_constraints(param_var, eps)` -/
def momentCustomVertexConstraints (c : Cylinder K) (x : ParamVar K) (eps : K := 0) : Py Prop := do
  let (J, psd) ← pimMustEqualParamVar x eps
  let T := transformMatrixInv c.rotation c.center
  let J0 := T * J * Tᵀ
  -- the exceptions do not depend on the value of the variables
  let _ ← c.disk0s.mapM fun disk => disk.momentConstraints (.mat 0) eps
  pure (psd ∧ ∃ Js : List (Matrix (Fin 4) (Fin 4) K), Js.length = c.disk0s.length ∧
    (∀ J ∈ Js, cvxPsdVar J) ∧
    (∀ Jd ∈ Js.zip c.disk0s, Py.Holds (Jd.2.momentConstraints (.mat Jd.1) eps)) ∧
    (∀ i j : Fin 4, i < j → J0 i j = Js.sum i j) ∧
    J0 0 0 = Js.sum 0 0 ∧ J0 1 1 = Js.sum 1 1 ∧ J0 2 2 ≤ Js.sum 2 2 ∧ J0 3 3 = Js.sum 3 3)

end Cylinder

end Field

/-- src/rigeo/shape/ellipsoid.py:343-376 `can_realize(params, eps)` (the assertion `dim == 3` holds by
typing). A `Q` with infinite or undefined entries fails the assertion at line 367. -/
noncomputable def Ellipsoid.canRealize (e : Ellipsoid ℝ 3) (p : IP ℝ) (eps : ℝ := 0) : Py Bool :=
  if !p.consistent eps then .ok false
  else if !e.isDegenerate then
    match e.Q with
    | .ok Q => .ok (decide (0 ≤ (Q * p.J).trace))
    | .error .nonfinite => .error .assertion
    | .error x => .error x
  else
    let (Qnz, Qz) := e.qDegenerate
    .ok (decide (0 ≤ (Qnz * p.J).trace) && isclose ((Qz * p.J).trace) 0 rtol5 tol8)

end Rigeo
