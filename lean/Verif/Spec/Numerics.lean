import Verif.Spec.Basic
import Mathlib.Data.Real.Basic

/-!
# Specification: contracts of the numerical routines of numpy and scipy that the model calls

The routines are parameters of the model. A theorem about code that calls one of them assumes the
contract below and nothing else about the routine (in particular nothing about signs, ordering or the
choice of a basis).
-/

namespace Spec

open Matrix

/-- `np.linalg.eigh`: eigenvalues and an orthogonal matrix of eigenvectors of a symmetric matrix. -/
def IsEigh (eigh : (n : ℕ) → Matrix (Fin n) (Fin n) ℝ → (Fin n → ℝ) × Matrix (Fin n) (Fin n) ℝ) : Prop :=
  ∀ (n : ℕ) (X : Matrix (Fin n) (Fin n) ℝ), Xᵀ = X →
    Orthogonal (eigh n X).2 ∧ X = (eigh n X).2 * Matrix.diagonal (eigh n X).1 * (eigh n X).2ᵀ

/-- `np.linalg.lstsq(A, b)[0]` for a square matrix: a minimiser of `|A x - b|²`. -/
def IsLstsq (lstsq : (n : ℕ) → Matrix (Fin n) (Fin n) ℝ → (Fin n → ℝ) → Fin n → ℝ) : Prop :=
  ∀ (n : ℕ) (A : Matrix (Fin n) (Fin n) ℝ) (b x : Fin n → ℝ),
    (A *ᵥ lstsq n A b - b) ⬝ᵥ (A *ᵥ lstsq n A b - b) ≤ (A *ᵥ x - b) ⬝ᵥ (A *ᵥ x - b)

/-- `scipy.linalg.orth`: an orthonormal basis (as columns) of the range of a matrix. -/
def IsOrth (orth : (d n : ℕ) → Matrix (Fin d) (Fin n) ℝ → (r : ℕ) × Matrix (Fin d) (Fin r) ℝ) : Prop :=
  ∀ (d n : ℕ) (X : Matrix (Fin d) (Fin n) ℝ),
    (orth d n X).2ᵀ * (orth d n X).2 = 1 ∧
      ∀ v : Fin d → ℝ, (∃ w, v = X *ᵥ w) ↔ ∃ w, v = (orth d n X).2 *ᵥ w

/-- `scipy.linalg.null_space`: an orthonormal basis (as columns) of the kernel of a matrix. -/
def IsNullSpace (nullSpace : (r d : ℕ) → Matrix (Fin r) (Fin d) ℝ → (k : ℕ) × Matrix (Fin d) (Fin k) ℝ) :
    Prop :=
  ∀ (r d : ℕ) (X : Matrix (Fin r) (Fin d) ℝ),
    (nullSpace r d X).2ᵀ * (nullSpace r d X).2 = 1 ∧
      ∀ v : Fin d → ℝ, X *ᵥ v = 0 ↔ ∃ w, v = (nullSpace r d X).2 *ᵥ w

end Spec
