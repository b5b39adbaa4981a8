import Verif.Model.FloatInertial
import Verif.Model.FloatRealize

/-!
# Body wrenches and regressors with rounding

`fl` is the rounding of the result of one operation. The order of the terms of a product of matrices is left open.
-/

namespace Rigeo

open Matrix

section
variable (fl : ℝ → ℝ)

/-- src/rigeo/inertial.py:115-119 `M`: `[[I, S], [-S, mass * eye(3)]]` with `S = skew3(h)` -/
def IP.MFloat (p : IP ℝ) (M : Matrix (Fin 6) (Fin 6) ℝ) : Prop :=
  ∃ I, H2IFloat fl p.H I ∧
    M = (vcat (hcat I (skew3 (p.hFloat fl)))
          (hcat (-skew3 (p.hFloat fl)) (Matrix.of fun i j => fl (p.mass * (1 : Matrix (Fin 3) (Fin 3) ℝ) i j))) :
        Matrix (Fin (3 + 3)) (Fin (3 + 3)) ℝ)

/-- src/rigeo/inertial.py:251-254 `body_wrench`: `x` is `M @ A.vec`, `N` is `V.adjoint().T @ M`, `y` is `N @ V.vec`. -/
def IP.bodyWrenchFloat (p : IP ℝ) (V A : SV ℝ) (w : Fin 6 → ℝ) : Prop :=
  ∃ (M N : Matrix (Fin 6) (Fin 6) ℝ) (x y : Fin 6 → ℝ), p.MFloat fl M ∧
    (∀ i, FlDot fl (List.ofFn fun j => (M i j, A.vec j)) (x i)) ∧ matMulFloat fl V.adjointᵀ M N ∧
    (∀ i, FlDot fl (List.ofFn fun j => (N i j, V.vec j)) (y i)) ∧ ∀ i, w i = fl (x i - y i)

/-- src/rigeo/rigidbody.py:137-155 `RigidBody.regressor`: `N` is `V.adjoint().T @ lift6(V)`. -/
def regressorFloat (V A : SV ℝ) (Y : Matrix (Fin 6) (Fin 10) ℝ) : Prop :=
  ∃ N : Matrix (Fin 6) (Fin 10) ℝ, matMulFloat fl V.adjointᵀ (lift6 V) N ∧ ∀ i j, Y i j = fl (lift6 A i j - N i j)

/-- `RigidBody.regressor(V, A) @ params.vec` -/
def regressedWrenchFloat (p : IP ℝ) (V A : SV ℝ) (w : Fin 6 → ℝ) : Prop :=
  ∃ (Y : Matrix (Fin 6) (Fin 10) ℝ) (θ : Fin 10 → ℝ), regressorFloat fl V A Y ∧ p.vecFloat fl θ ∧
    ∀ i, FlDot fl (List.ofFn fun k => (Y i k, θ k)) (w i)

end

end Rigeo
