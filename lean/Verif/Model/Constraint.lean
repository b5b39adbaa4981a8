import Verif.Model.Inertial

/-!
# Model of `src/rigeo/constraint.py`

A list of cvxpy constraints is modelled as the proposition that the values of the variables satisfy
all of them.
-/

namespace Rigeo

open Matrix

section Field
variable {K : Type} [Field K] [LinearOrder K]

/-- cvxpy's `X >> 0`: the symmetric part of `X` is positive semidefinite, i.e. the quadratic form is
non-negative (cvxpy documentation of the `PSD` constraint). -/
def cvxPsd {n : ℕ} (X : Matrix (Fin n) (Fin n) K) : Prop := ∀ v : Fin n → K, 0 ≤ v ⬝ᵥ (X *ᵥ v)

/-- The value set of `cp.Variable((n, n), PSD=True)`: symmetric and positive semidefinite. -/
def cvxPsdVar {n : ℕ} (X : Matrix (Fin n) (Fin n) K) : Prop := Xᵀ = X ∧ cvxPsd X

/-- src/rigeo/constraint.py:14-34 `schur(A, B, C)` in the shapes in which rigeo calls it: `A` is
`n x n`, `B` a vector (reshaped to a column) and `C` a scalar. `_shape_schur_var` (lines 5-11) is
this reshaping. -/
def schur {n : ℕ} (A : Matrix (Fin n) (Fin n) K) (B : Fin n → K) (C : K) :
    Matrix (Fin (n + 1)) (Fin (n + 1)) K :=
  bordered A B B C

/-- src/rigeo/constraint.py:37-81 `pim_sum_vec_matrices()`; each entry assignment of the source is a
`Matrix.single` summand. -/
def pimSumVecMatrices (K : Type) [Field K] : List (Matrix (Fin 4) (Fin 4) K) :=
  [ Matrix.single 3 3 1,
    Matrix.single 0 3 1 + Matrix.single 3 0 1,
    Matrix.single 1 3 1 + Matrix.single 3 1 1,
    Matrix.single 2 3 1 + Matrix.single 3 2 1,
    Matrix.single 0 0 (-(1 / 2)) + Matrix.single 1 1 (1 / 2) + Matrix.single 2 2 (1 / 2),
    Matrix.single 0 1 (-1) + Matrix.single 1 0 (-1),
    Matrix.single 0 2 (-1) + Matrix.single 2 0 (-1),
    Matrix.single 0 0 (1 / 2) + Matrix.single 1 1 (-(1 / 2)) + Matrix.single 2 2 (1 / 2),
    Matrix.single 1 2 (-1) + Matrix.single 2 1 (-1),
    Matrix.single 0 0 (1 / 2) + Matrix.single 1 1 (1 / 2) + Matrix.single 2 2 (-(1 / 2)) ]

/-- src/rigeo/constraint.py:85-100 `pim_must_equal_vec(θ)`: `cp.sum` of a list is the builtin sum. -/
def pimMustEqualVec (θ : Fin 10 → K) : Matrix (Fin 4) (Fin 4) K :=
  (((pimSumVecMatrices K).zip (List.ofFn θ)).map fun Ap => Ap.2 • Ap.1).sum

/-- The value of an inertial parameter variable, by shape: `(4, 4)`, `(10,)` or anything else. -/
inductive ParamVar (K : Type)
  | mat (J : Matrix (Fin 4) (Fin 4) K)
  | vec (θ : Fin 10 → K)
  | other

/-- src/rigeo/constraint.py:136-154 `pim_psd(J, eps)`: `[J == J.T, J >> eps * eye(4)]` -/
def pimPsd (J : Matrix (Fin 4) (Fin 4) K) (eps : K) : Py Prop :=
  if 0 ≤ eps then .ok (J = Jᵀ ∧ cvxPsd (J - eps • (1 : Matrix (Fin 4) (Fin 4) K)))
  else .error .assertion

/-- src/rigeo/constraint.py:103-133 `pim_must_equal_param_var(param_var, eps)`. -/
def pimMustEqualParamVar (x : ParamVar K) (eps : K) : Py (Matrix (Fin 4) (Fin 4) K × Prop) :=
  if 0 ≤ eps then
    match x with
    | .mat J => do let c ← pimPsd J eps; pure (J, c)
    | .vec θ => do let c ← pimPsd (pimMustEqualVec θ) eps; pure (pimMustEqualVec θ, c)
    | .other => .error .value
  else .error .assertion

end Field
end Rigeo
