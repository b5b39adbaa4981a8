import Verif.Props.Moment3
import Mathlib.Algebra.MvPolynomial.Degrees
import Mathlib.Algebra.MvPolynomial.Basic
import Mathlib.LinearAlgebra.Basis.Defs

/-!
# The functional of a sequence of pseudo-moments on polynomials
-/

namespace Rigeo

open Matrix MvPolynomial

variable {K : Type} [Field K] [LinearOrder K] [IsStrictOrderedRing K] {n : ℕ}

/-- The linear functional that maps the monomial `x ^ α` to `y α`. -/
noncomputable def pairing (y : (Fin n → ℕ) → K) : MvPolynomial (Fin n) K →ₗ[K] K :=
  (basisMonomials (Fin n) K).constr K fun α => y α

theorem pairing_monomial (y : (Fin n → ℕ) → K) (α : Fin n →₀ ℕ) (c : K) :
    pairing y (monomial α c) = c * y α := by
  have h : (monomial α c : MvPolynomial (Fin n) K) = c • basisMonomials (Fin n) K α := by
    rw [coe_basisMonomials, smul_monomial, smul_eq_mul, mul_one]
  rw [h, map_smul, pairing, Module.Basis.constr_basis, smul_eq_mul]

/-- The polynomial with the given list of terms. -/
noncomputable def ofTerms (g : List ((Fin n → ℕ) × K)) : MvPolynomial (Fin n) K :=
  (g.map fun t => monomial (Finsupp.equivFunOnFinite.symm t.1) t.2).sum

theorem sum_multi {d : ℕ} (p : MvPolynomial (Fin n) K) (hp : p.totalDegree ≤ d) :
    p = ∑ α ∈ Spec.multiIndices n d,
      monomial (Finsupp.equivFunOnFinite.symm α) (coeff (Finsupp.equivFunOnFinite.symm α) p) := by
  ext m
  rw [coeff_sum]
  simp only [coeff_monomial]
  by_cases hm : ∑ i, m i ≤ d
  · rw [Finset.sum_eq_single (⇑m)]
    · have e : Finsupp.equivFunOnFinite.symm (⇑m) = m := by ext; simp
      rw [e, if_pos rfl]
    · intro α _ hα
      rw [if_neg]
      rintro rfl
      exact hα (by ext; simp)
    · intro h
      exact absurd ((mem_multiIndices _).mpr hm) h
  · rw [Finset.sum_eq_zero, ← notMem_support_iff]
    · intro h
      apply hm
      refine le_trans (le_trans (le_of_eq ?_) (le_totalDegree h)) hp
      rw [Finsupp.sum_fintype _ _ (fun _ => rfl)]
    · intro α hα
      rw [if_neg]
      rintro rfl
      exact hm (by simpa using (mem_multiIndices _).mp hα)

theorem pairing_ofTerms_mul (g : List ((Fin n → ℕ) × K)) (y : (Fin n → ℕ) → K) (α : Fin n →₀ ℕ) (c : K) :
    pairing y (ofTerms g * monomial α c) = c * (g.map fun t => t.2 * y (t.1 + α)).sum := by
  unfold ofTerms
  induction g with
  | nil => simp
  | cons t g ih =>
    simp only [List.map_cons, List.sum_cons, add_mul, map_add, ih, mul_add, monomial_mul, pairing_monomial]
    congr 1
    have e : ⇑(Finsupp.equivFunOnFinite.symm t.1 + α) = t.1 + ⇑α := by ext; simp
    rw [e]; ring

/-- A localized pseudo-moment sequence gives a functional that is non-negative on `g q²`. -/
theorem LocalizedPSD.pairing_nonneg {d : ℕ} {g : List ((Fin n → ℕ) × K)} {y : (Fin n → ℕ) → K}
    (h : Spec.LocalizedPSD d g y) (q : MvPolynomial (Fin n) K) (hq : q.totalDegree ≤ d) :
    0 ≤ pairing y (ofTerms g * q ^ 2) := by
  have h1 := h fun α => coeff (Finsupp.equivFunOnFinite.symm α) q
  convert h1 using 1
  have e : q ^ 2 = ∑ α ∈ Spec.multiIndices n d, ∑ β ∈ Spec.multiIndices n d,
      monomial (Finsupp.equivFunOnFinite.symm α + Finsupp.equivFunOnFinite.symm β)
        (coeff (Finsupp.equivFunOnFinite.symm α) q * coeff (Finsupp.equivFunOnFinite.symm β) q) := by
    conv_lhs => rw [sq, sum_multi q hq]
    rw [Finset.sum_mul_sum]
    simp only [monomial_mul]
  rw [e]
  simp only [Finset.mul_sum, map_sum, pairing_ofTerms_mul]
  refine Finset.sum_congr rfl fun α _ => Finset.sum_congr rfl fun β _ => ?_
  have e : ⇑(Finsupp.equivFunOnFinite.symm α + Finsupp.equivFunOnFinite.symm β) = α + β := by ext; simp
  rw [e]

end Rigeo
