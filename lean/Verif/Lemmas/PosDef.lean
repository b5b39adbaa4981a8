import Verif.Spec.Identify
import Mathlib.Analysis.Matrix.Order
import Verif.Lemmas.PSD
import Mathlib.LinearAlgebra.Matrix.NonsingularInverse
import Mathlib.LinearAlgebra.Matrix.Charpoly.Basic
import Mathlib.Analysis.SpecialFunctions.Log.Basic

/-!
# Positive definite matrices: simultaneous diagonalisation
-/

namespace Rigeo

open Matrix

variable {n : ℕ}

theorem _root_.Spec.PD.psd {X : Matrix (Fin n) (Fin n) ℝ} (h : Spec.PD X) : Spec.PSD X :=
  ⟨h.1, fun v => by
    by_cases hv : v = 0
    · simp [hv]
    · exact (h.2 v hv).le⟩

theorem _root_.Spec.PD.diagonal {d : Fin n → ℝ} (h : ∀ i, 0 < d i) : Spec.PD (Matrix.diagonal d) := by
  refine ⟨by simp, fun v hv => ?_⟩
  simp only [mulVec_diagonal, dotProduct]
  obtain ⟨k, hk⟩ := Function.ne_iff.mp hv
  refine Finset.sum_pos' (fun i _ => ?_) ⟨k, Finset.mem_univ k, ?_⟩
  · nlinarith [h i, mul_self_nonneg (v i)]
  · have := mul_self_pos.mpr hk
    nlinarith [h k]

theorem _root_.Spec.PD.congr {X : Matrix (Fin n) (Fin n) ℝ} (h : Spec.PD X) {G : Matrix (Fin n) (Fin n) ℝ}
    (hG : G.det ≠ 0) : Spec.PD (G * X * Gᵀ) := by
  refine ⟨by simp [h.1, Matrix.mul_assoc], fun v hv => ?_⟩
  rw [quad_congr]
  refine h.2 _ fun h0 => hv ?_
  have : (Gᵀ).det ≠ 0 := by rwa [det_transpose]
  exact Matrix.eq_zero_of_mulVec_eq_zero this h0

theorem _root_.Spec.PD.eigh {X : Matrix (Fin n) (Fin n) ℝ} (hX : Spec.PD X) :
    ∃ (V : Matrix (Fin n) (Fin n) ℝ) (d : Fin n → ℝ),
      Vᵀ * V = 1 ∧ V * Vᵀ = 1 ∧ (∀ i, 0 < d i) ∧ X = V * Matrix.diagonal d * Vᵀ := by
  obtain ⟨V, d, h1, h2, h3⟩ := exists_eigh X hX.1
  refine ⟨V, d, h1, h2, fun i => ?_, h3⟩
  have h4 : Matrix.diagonal d = Vᵀ * X * Vᵀᵀ := by
    rw [h3, Matrix.transpose_transpose]
    simp only [← Matrix.mul_assoc, h1, Matrix.one_mul]
    rw [Matrix.mul_assoc, h1, Matrix.mul_one]
  have hdet : (Vᵀ).det ≠ 0 := by
    intro h0
    have := congrArg det h1
    rw [det_mul, h0, zero_mul, det_one] at this
    exact zero_ne_one this
  have h5 := (hX.congr hdet).2 (Pi.single i 1) (by simp)
  rw [← h4] at h5
  simpa [mulVec_diagonal] using h5

theorem _root_.Spec.PD.det_pos {X : Matrix (Fin n) (Fin n) ℝ} (hX : Spec.PD X) : 0 < X.det := by
  obtain ⟨V, d, h1, h2, h3, h4⟩ := hX.eigh
  have : V.det * V.det = 1 := by
    have := congrArg det h1
    rwa [det_mul, det_transpose, det_one] at this
  rw [h4, det_mul, det_mul, det_transpose, det_diagonal, mul_right_comm, this, one_mul]
  exact Finset.prod_pos fun i _ => h3 i

/-- A positive definite matrix is a Gram matrix. -/
theorem _root_.Spec.PD.exists_sqrt {X : Matrix (Fin n) (Fin n) ℝ} (hX : Spec.PD X) :
    ∃ G : Matrix (Fin n) (Fin n) ℝ, G.det ≠ 0 ∧ X = G * Gᵀ := by
  obtain ⟨V, d, h1, h2, h3, h4⟩ := hX.eigh
  have hG : X = V * Matrix.diagonal (fun i => √(d i)) * (V * Matrix.diagonal (fun i => √(d i)))ᵀ := by
    have e : Matrix.diagonal d = Matrix.diagonal (fun i => √(d i)) * Matrix.diagonal (fun i => √(d i)) := by
      rw [diagonal_mul_diagonal]; simp only [Real.mul_self_sqrt (h3 _).le]
    rw [h4, transpose_mul, diagonal_transpose, e]
    simp only [Matrix.mul_assoc]
  refine ⟨_, fun h0 => ?_, hG⟩
  have := hX.det_pos
  rw [hG, det_mul, h0, zero_mul] at this
  exact lt_irrefl _ this

theorem mul_inv_cancel_det {G : Matrix (Fin n) (Fin n) ℝ} (hG : G.det ≠ 0) : G * G⁻¹ = 1 :=
  Matrix.mul_nonsing_inv _ (isUnit_iff_ne_zero.mpr hG)

theorem inv_mul_cancel_det {G : Matrix (Fin n) (Fin n) ℝ} (hG : G.det ≠ 0) : G⁻¹ * G = 1 :=
  Matrix.nonsing_inv_mul _ (isUnit_iff_ne_zero.mpr hG)

/-- Two positive definite matrices are diagonalised by one congruence. -/
theorem _root_.Spec.PD.simul {A B : Matrix (Fin n) (Fin n) ℝ} (hA : Spec.PD A) (hB : Spec.PD B) :
    ∃ (G : Matrix (Fin n) (Fin n) ℝ) (l : Fin n → ℝ), G.det ≠ 0 ∧ (∀ i, 0 < l i) ∧
      A = G * Gᵀ ∧ B = G * Matrix.diagonal l * Gᵀ := by
  obtain ⟨F, hF, hAF⟩ := hA.exists_sqrt
  have hFi : (F⁻¹).det ≠ 0 := by
    rw [Matrix.det_nonsing_inv]; simpa using hF
  obtain ⟨U, l, h1, h2, h3, h4⟩ := (hB.congr hFi).eigh
  have hU : U.det ≠ 0 := by
    intro h0
    have := congrArg det h1
    rw [det_mul, h0, mul_zero, det_one] at this
    exact zero_ne_one this
  refine ⟨F * U, l, by rw [det_mul]; exact mul_ne_zero hF hU, h3, ?_, ?_⟩
  · rw [transpose_mul, Matrix.mul_assoc, ← Matrix.mul_assoc U, h2, Matrix.one_mul, hAF]
  · have e : F * U * diagonal l * (F * U)ᵀ = F * (U * diagonal l * Uᵀ) * Fᵀ := by
      rw [transpose_mul]; simp only [Matrix.mul_assoc]
    rw [e, ← h4]
    have e2 : F * (F⁻¹ * B * F⁻¹ᵀ) * Fᵀ = (F * F⁻¹) * B * (F * F⁻¹)ᵀ := by
      rw [transpose_mul]; simp only [Matrix.mul_assoc]
    rw [e2, mul_inv_cancel_det hF]; simp

section Simul
variable {A B G : Matrix (Fin n) (Fin n) ℝ} {l : Fin n → ℝ}

theorem simul_inv_mul (hG : G.det ≠ 0) (hA : A = G * Gᵀ) (hB : B = G * Matrix.diagonal l * Gᵀ) :
    A⁻¹ * B = (Gᵀ)⁻¹ * Matrix.diagonal l * Gᵀ := by
  rw [hA, hB, Matrix.mul_inv_rev]
  have : (Gᵀ)⁻¹ * G⁻¹ * (G * diagonal l * Gᵀ) = (Gᵀ)⁻¹ * (G⁻¹ * G) * diagonal l * Gᵀ := by
    simp only [Matrix.mul_assoc]
  rw [this, inv_mul_cancel_det hG, Matrix.mul_one]

theorem simul_roots (hG : G.det ≠ 0) (hA : A = G * Gᵀ) (hB : B = G * Matrix.diagonal l * Gᵀ) :
    (A⁻¹ * B).charpoly.roots = Finset.univ.val.map l := by
  have hGt : (Gᵀ).det ≠ 0 := by rwa [det_transpose]
  rw [simul_inv_mul hG hA hB]
  have := Matrix.charpoly_units_conj' (Matrix.nonsingInvUnit Gᵀ (isUnit_iff_ne_zero.mpr hGt)) (Matrix.diagonal l)
  rw [show (Gᵀ)⁻¹ * Matrix.diagonal l * Gᵀ = ((Matrix.nonsingInvUnit Gᵀ (isUnit_iff_ne_zero.mpr hGt)).val)⁻¹ *
    Matrix.diagonal l * (Matrix.nonsingInvUnit Gᵀ (isUnit_iff_ne_zero.mpr hGt)).val from rfl]
  rw [this, Matrix.charpoly_diagonal, _root_.Polynomial.roots_prod]
  · simp [Multiset.bind_singleton]
  · exact Finset.prod_ne_zero_iff.mpr fun i _ => _root_.Polynomial.X_sub_C_ne_zero _

theorem simul_trace (hG : G.det ≠ 0) (hA : A = G * Gᵀ) (hB : B = G * Matrix.diagonal l * Gᵀ) :
    (A⁻¹ * B).trace = ∑ i, l i := by
  have hGt : (Gᵀ).det ≠ 0 := by rwa [det_transpose]
  rw [simul_inv_mul hG hA hB, Matrix.trace_mul_comm, ← Matrix.mul_assoc, mul_inv_cancel_det hGt, Matrix.one_mul,
    Matrix.trace_diagonal]

theorem simul_det (hB : B = G * Matrix.diagonal l * Gᵀ) : B.det = G.det ^ 2 * ∏ i, l i := by
  rw [hB, det_mul, det_mul, det_transpose, det_diagonal]; ring

end Simul
theorem _root_.Spec.PSD.pd_of_det {n : ℕ} {X : Matrix (Fin n) (Fin n) ℝ} (h : Spec.PSD X) (hd : 0 < X.det) : Spec.PD X := by
  refine ⟨h.1, fun v hv => lt_of_le_of_ne (h.2 v) fun h0 => hv ?_⟩
  have h1 := Matrix.PosSemidef.dotProduct_mulVec_zero_iff (psd_iff_posSemidef.mp h) v
  rw [star_trivial] at h1
  exact eq_zero_of_mulVec_eq_zero hd.ne' (h1.mp h0.symm)

end Rigeo
