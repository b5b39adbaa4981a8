import Verif.Spec.Basic
import Verif.Model.Moment
import Mathlib.Data.Fintype.BigOperators

/-!
# Specification: integrals and moment matrices of point masses
-/

namespace Spec

open Matrix

variable {K : Type} [Field K] {n : ℕ}

/-- The monomial `x ^ α`. -/
def mono (α : Fin n → ℕ) (x : Fin n → K) : K := ∏ i, x i ^ α i

/-- The integral of a function with respect to a system of point masses, `Σ mᵢ f(pᵢ)`. -/
def PointMasses.integral (s : PointMasses K n) (f : (Fin n → K) → K) : K := (s.map fun mp => mp.1 * f mp.2).sum

/-- `M` holds, at the positions of the basis monomials `α`, `β`, the numbers `y (α + β)`. -/
def IsMomentMatrix (d : ℕ) {r : ℕ} (y : (Fin n → ℕ) → K) (M : Matrix (Fin r) (Fin r) K) : Prop :=
  ∀ (i j : Fin r) (α β : Fin n → ℕ),
    (Rigeo.Polynomial.basis n d)[(i : ℕ)]? = some (some α) →
    (Rigeo.Polynomial.basis n d)[(j : ℕ)]? = some (some β) → M i j = y (α + β)

/-- The multi-indices of total degree at most `d`. -/
def multiIndices (n d : ℕ) : Finset (Fin n → ℕ) :=
  (Fintype.piFinset fun _ => Finset.range (d + 1)).filter fun α => ∑ i, α i ≤ d

/-- The quadratic form `q ↦ L(g q²)` on polynomials `q` of degree at most `d` is non-negative, where `L` is
the linear functional that maps the monomial `x ^ α` to `y α`; `g` is given by its list of terms. -/
def LocalizedPSD [LinearOrder K] (d : ℕ) (g : List ((Fin n → ℕ) × K)) (y : (Fin n → ℕ) → K) : Prop :=
  ∀ q : (Fin n → ℕ) → K,
    0 ≤ ∑ α ∈ multiIndices n d, ∑ β ∈ multiIndices n d, q α * q β * (g.map fun t => t.2 * y (t.1 + (α + β))).sum

end Spec
