import Verif.Model.Closest
import Mathlib.Analysis.SpecialFunctions.Log.Basic

/-!
# Model of `src/rigeo/unused/identify.py`

The number `n` of bodies and the shapes of the data arrays are types: `As` has shape `(no, k, 10 n)` and `bs` has
shape `(no, k)`, so the assertion that both have the same number of observations holds by typing, and the
exceptions cvxpy raises for incompatible shapes are not modelled. The objective is a function of the values of the
variables and the constraints are a proposition about them; the solver is a parameter that returns the values of
the variables if the status is "optimal".
-/

namespace Rigeo

open Matrix

/-- `np.vstack(As)` for `As` of shape `(no, k, c)`: row `i * k + j` is row `j` of `As[i]`. -/
def vstack {no k c : ℕ} (As : Fin no → Matrix (Fin k) (Fin c) ℝ) : Matrix (Fin (no * k)) (Fin c) ℝ :=
  Matrix.of fun r j => As r.divNat r.modNat j

/-- `np.concatenate(bs)` and `cp.hstack(bs)` for `bs` of shape `(no, k)`. -/
def concat {no k : ℕ} (bs : Fin no → Fin k → ℝ) : Fin (no * k) → ℝ := fun r => bs r.divNat r.modNat

/-- `np.kron(A, B)` -/
def kron {m n p q : ℕ} (A : Matrix (Fin m) (Fin n) ℝ) (B : Matrix (Fin p) (Fin q) ℝ) :
    Matrix (Fin (m * p)) (Fin (n * q)) ℝ :=
  Matrix.of fun i j => A i.divNat j.divNat * B i.modNat j.modNat

/-- src/rigeo/unused/identify.py:42-77 `least_squares_objective(θs, As, bs, W0)`. `cp.sum_squares(x)` is `x ⬝ᵥ x`
and `cp.quad_form(x, W)` is `x ⬝ᵥ W x`. Without observations `np.vstack` raises `ValueError`; without bodies
`cp.hstack` fails (modelled as the same error). -/
def leastSquaresObjective {n no k : ℕ} (θs : Fin n → Fin 10 → ℝ) (As : Fin no → Matrix (Fin k) (Fin (n * 10)) ℝ)
    (bs : Fin no → Fin k → ℝ) (W0 : Option (Matrix (Fin k) (Fin k) ℝ) := none) : Py ℝ := do
  if no = 0 then throw .value
  if n = 0 then throw .value
  let A := vstack As
  let b := concat bs
  let θ := concat θs
  let x := A *ᵥ θ - b
  match W0 with
  | none => pure (x ⬝ᵥ x)
  | some W0 => pure (x ⬝ᵥ (kron (1 : Matrix (Fin no) (Fin no) ℝ) W0 *ᵥ x))

open Classical in
/-- src/rigeo/unused/identify.py:11-39 `entropic_regularizer(Js, J0s)` for lists of matrices; `cp.sum` of a list is
the builtin sum. `np.linalg.inv` raises `LinAlgError` (a `ValueError`) on a singular matrix. The value of
`cp.log_det` is only meaningful on its domain, the positive definite matrices. -/
noncomputable def entropicRegularizer (Js J0s : List (Matrix (Fin 4) (Fin 4) ℝ)) : Py ℝ := do
  pyAssert (Js.length == J0s.length)
  if Js.isEmpty then throw .index
  if ∃ J0 ∈ J0s, J0.det = 0 then throw .value
  pure ((Js.zip J0s).map fun JJ => -Real.log JJ.1.det + (JJ.2⁻¹ * JJ.1).trace).sum

/-- src/rigeo/unused/identify.py:28-32 `entropic_regularizer(J, J0)` with a single matrix instead of a list. -/
noncomputable def entropicRegularizerOne (J J0 : Matrix (Fin 4) (Fin 4) ℝ) : Py ℝ := entropicRegularizer [J] [J0]

/-- src/rigeo/unused/identify.py:80-87 `IdentificationResult`; the number of iterations and the solve time are not
modelled. -/
structure IdentificationResult where
  params : List (IP ℝ)
  objective : ℝ

/-- The attributes of `IdentificationProblem` and of `DiscretizedIdentificationProblem` (which are the same). -/
structure IdentificationProblem (n no k : ℕ) where
  As : Fin no → Matrix (Fin k) (Fin (n * 10)) ℝ
  bs : Fin no → Fin k → ℝ
  γ : ℝ
  ε : ℝ
  W0 : Option (Matrix (Fin k) (Fin k) ℝ)

open Classical in
/-- src/rigeo/unused/identify.py:114-133 and 230-249 `__init__(As, bs, Σ, γ, ε)` -/
noncomputable def IdentificationProblem.init {n no k : ℕ} (As : Fin no → Matrix (Fin k) (Fin (n * 10)) ℝ)
    (bs : Fin no → Fin k → ℝ) (cov : Option (Matrix (Fin k) (Fin k) ℝ) := none) (γ ε : ℝ := 0) :
    Py (IdentificationProblem n no k) := do
  pyAssert (decide (0 ≤ γ))
  pyAssert (decide (0 ≤ ε))
  match cov with
  | none => pure ⟨As, bs, γ, ε, none⟩
  | some S => if S.det = 0 then throw .value else pure ⟨As, bs, γ, ε, some S⁻¹⟩

/-- `shape.must_contain(point, scale)` for an object of any shape class (`AnyShape.mustContain` is the case of
scale one). -/
def AnyShape.mustContainScaled {K : Type} [Field K] [LinearOrder K] (s : AnyShape K) (point : Fin 3 → K) (scale : K) :
    Py Prop :=
  match s with
  | .ellipsoid e => .ok (e.mustContain point scale)
  | .box b => .ok (b.mustContain point scale)
  | .poly P => .ok (P.mustContain point scale)
  | .cylinder c => .ok (c.mustContain point scale)
  | .capsule c => c.mustContain point scale

/-- src/rigeo/unused/identify.py:183-186 and 298-301: `shape.must_contain(J[:3, 3], scale=J[3, 3])` -/
noncomputable def comConstraint (s : AnyShape ℝ) (J : Matrix (Fin 4) (Fin 4) ℝ) : Py Prop :=
  s.mustContainScaled (fun i => J i.castSucc 3) (J 3 3)

namespace IdentificationProblem
variable {n no k : ℕ}

/-- src/rigeo/unused/identify.py:167-173: the cost as a function of the values of the variables `θs`. -/
noncomputable def cost (P : IdentificationProblem n no k) (bodies : Fin n → RigidBody ℝ) (θs : Fin n → Fin 10 → ℝ) :
    Py ℝ := do
  let lstsq ← leastSquaresObjective θs P.As P.bs P.W0
  if 0 < P.γ then
    let J0s := List.ofFn fun i => (bodies i).params.J
    let Js := List.ofFn fun i => pimMustEqualVec (θs i)
    let regularizer ← entropicRegularizer Js J0s
    pure ((1 / 2) / no * lstsq + P.γ * regularizer)
  else
    pure ((1 / 2) / no * lstsq)

/-- src/rigeo/unused/identify.py:178-180: the realizability constraints. -/
noncomputable def realizabilityConstraints (bodies : Fin n → RigidBody ℝ) (mustRealize : Bool)
    (Js : List (Matrix (Fin 4) (Fin 4) ℝ)) : Py (List Prop) :=
  if mustRealize then
    ((List.ofFn bodies).zip Js).mapM fun bJ => bJ.1.momentSdpConstraints (.mat bJ.2)
  else pure []

/-- src/rigeo/unused/identify.py:182-186: the constraints on the centers of mass. -/
noncomputable def comConstraints (com : Option (List (AnyShape ℝ))) (Js : List (Matrix (Fin 4) (Fin 4) ℝ)) :
    Py (List Prop) :=
  match com with
  | none => pure []
  | some shapes => (shapes.zip Js).mapM fun sJ => comConstraint sJ.1 sJ.2

/-- src/rigeo/unused/identify.py:177-186: the constraints, together with the domain of the `log_det` in the cost. -/
noncomputable def constraints (P : IdentificationProblem n no k) (bodies : Fin n → RigidBody ℝ) (mustRealize : Bool)
    (com : Option (List (AnyShape ℝ))) (θs : Fin n → Fin 10 → ℝ) : Py Prop := do
  let Js := List.ofFn fun i => pimMustEqualVec (θs i)
  let psd ← Js.mapM fun J => pimPsd J P.ε
  let real ← realizabilityConstraints bodies mustRealize Js
  let inside ← comConstraints com Js
  pure ((∀ c ∈ psd, c) ∧ (∀ c ∈ real, c) ∧ (∀ c ∈ inside, c) ∧
    (0 < P.γ → ∀ J ∈ Js, cvxPsd J ∧ 0 < J.det))

/-- src/rigeo/unused/identify.py:135-203 `solve(bodies, must_realize, com_bounding_shapes)`. Building the problem can
raise an error, but this does not depend on the values of the variables, so it is tried at zero. -/
noncomputable def solve
    (solver : ((Fin n → Fin 10 → ℝ) → ℝ) → ((Fin n → Fin 10 → ℝ) → Prop) → Option (Fin n → Fin 10 → ℝ))
    (P : IdentificationProblem n no k) (bodies : Fin n → RigidBody ℝ) (mustRealize : Bool := true)
    (com : Option (List (AnyShape ℝ)) := none) : Py IdentificationResult := do
  match com with
  | none => pure ()
  | some shapes => pyAssert (shapes.length == n)
  let _ ← P.cost bodies 0
  let _ ← P.constraints bodies mustRealize com 0
  let objective : (Fin n → Fin 10 → ℝ) → ℝ := fun θs => (P.cost bodies θs).toOption.getD 0
  match solver objective fun θs => Py.Holds (P.constraints bodies mustRealize com θs) with
  | none => throw .assertion
  | some θs => do
    let params ← (List.ofFn θs).mapM IP.fromVec
    pure { params := params, objective := objective θs }

end IdentificationProblem

namespace DiscretizedIdentificationProblem
variable {no k : ℕ}

/-- src/rigeo/unused/identify.py:286-293: the cost (the attributes `γ` and `ε` are not used). -/
noncomputable def cost (P : IdentificationProblem 1 no k) (θ : Fin 10 → ℝ) : Py ℝ := do
  let lstsq ← leastSquaresObjective (fun _ => θ) P.As P.bs P.W0
  pure ((1 / 2) / no * lstsq)

/-- src/rigeo/unused/identify.py:297-301: the constraint on the center of mass. -/
noncomputable def comConstraintOpt (com : Option (AnyShape ℝ)) (J : Matrix (Fin 4) (Fin 4) ℝ) : Py Prop :=
  match com with
  | none => pure True
  | some s => comConstraint s J

/-- src/rigeo/unused/identify.py:278-301: the constraints, the variables `μs` being existentially quantified. Without
points, `cp.Variable(0)` raises `ValueError`. -/
noncomputable def constraints (points : List (Fin 3 → ℝ)) (com : Option (AnyShape ℝ)) (θ : Fin 10 → ℝ) : Py Prop := do
  if points.isEmpty then throw .value
  let J := pimMustEqualVec θ
  let Ps := points.map IP.hom
  let inside ← comConstraintOpt com J
  pure ((∃ μs : List ℝ, μs.length = points.length ∧ (∀ μ ∈ μs, 0 ≤ μ) ∧
    J = ((μs.zip Ps).map fun mp => mp.1 • outer mp.2 mp.2).sum) ∧ inside)

/-- src/rigeo/unused/identify.py:251-318 `solve(points, com_bounding_shape)` -/
noncomputable def solve (solver : ((Fin 10 → ℝ) → ℝ) → ((Fin 10 → ℝ) → Prop) → Option (Fin 10 → ℝ))
    (P : IdentificationProblem 1 no k) (points : List (Fin 3 → ℝ)) (com : Option (AnyShape ℝ) := none) :
    Py IdentificationResult := do
  let _ ← cost P 0
  let _ ← constraints points com 0
  let objective : (Fin 10 → ℝ) → ℝ := fun θ => (cost P θ).toOption.getD 0
  match solver objective fun θ => Py.Holds (constraints points com θ) with
  | none => throw .assertion
  | some θ => do
    let p ← IP.fromVec θ
    pure { params := [p], objective := objective θ }

end DiscretizedIdentificationProblem
end Rigeo
