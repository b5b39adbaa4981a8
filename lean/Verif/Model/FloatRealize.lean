import Verif.Model.FloatInertial
import Verif.Model.Ellipsoid

/-!
# `Ellipsoid.can_realize` with rounding

`fl` is the rounding of the result of one operation. The order of the terms of a sum or product of matrices is left open, so the results
are relations. Degenerate ellipsoids are left out.
-/

namespace Rigeo

open Matrix

section
variable (fl : ℝ → ℝ)

/-- A product of matrices as `@` computes it -/
def matMulFloat {l m n : ℕ} (A : Matrix (Fin l) (Fin m) ℝ) (B : Matrix (Fin m) (Fin n) ℝ) (C : Matrix (Fin l) (Fin n) ℝ) : Prop :=
  ∀ i k, FlDot fl (List.ofFn fun j => (A i j, B j k)) (C i k)

/-- src/rigeo/shape/ellipsoid.py:72 and 90-97 `S`: `half_extents_inv` is the rounded reciprocal (lines 17-25), `** 2` a rounded product. -/
def Ellipsoid.SFloat (e : Ellipsoid ℝ 3) (S : Matrix (Fin 3) (Fin 3) ℝ) : Prop :=
  ∃ T, matMulFloat fl e.rotation (Matrix.diagonal fun i => fl (fl (1 / e.halfExtents i) * fl (1 / e.halfExtents i))) T ∧
    matMulFloat fl T e.rotationᵀ S

/-- src/rigeo/shape/ellipsoid.py:47-53 `_Q_matrix(S, c)` and 188-195 `Q`: `v` is `S @ c`, `w` is `c @ S`. -/
def Ellipsoid.QFloat (e : Ellipsoid ℝ 3) (Q : Matrix (Fin 4) (Fin 4) ℝ) : Prop :=
  ∃ (S : Matrix (Fin 3) (Fin 3) ℝ) (v w : Fin 3 → ℝ) (t : ℝ), e.SFloat fl S ∧
    (∀ i, FlDot fl (List.ofFn fun j => (S i j, e.center j)) (v i)) ∧
    (∀ j, FlDot fl (List.ofFn fun i => (e.center i, S i j)) (w j)) ∧
    FlDot fl (List.ofFn fun j => (w j, e.center j)) t ∧
    Q = bordered (-S) v v (fl (1 - t))

/-- src/rigeo/shape/ellipsoid.py:369 `np.trace(self.Q @ params.J)`: the values that may result -/
def Ellipsoid.traceQJFloat (e : Ellipsoid ℝ 3) (p : IP ℝ) (t : ℝ) : Prop :=
  ∃ Q M, e.QFloat fl Q ∧ matMulFloat fl Q (p.JFloat fl) M ∧ FlSum fl [M 0 0, M 1 1, M 2 2, M 3 3] t

/-- src/rigeo/shape/ellipsoid.py:363-369: the answers `can_realize(params, eps)` may give on a non-degenerate ellipsoid. `lam` is what
`np.min(np.linalg.eigvals(J))` returns (src/rigeo/inertial.py:226). -/
def Ellipsoid.canRealizeFloat (e : Ellipsoid ℝ 3) (p : IP ℝ) (eps lam : ℝ) (answer : Bool) : Prop :=
  ∃ t, e.traceQJFloat fl p t ∧ (answer = true ↔ eps ≤ lam ∧ 0 ≤ t)

end

end Rigeo
