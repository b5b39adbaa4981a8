import Verif.Model.Geodesic
import Verif.Model.Inertial
import Verif.Lemmas.PosDef
import Verif.Props.Inertial2
import Verif.Props.Util

/-!
# C76: the geodesic distance between positive definite matrices

`A = G Gᵀ` and `B = G diag(l) Gᵀ` with invertible `G` means that `l` are the eigenvalues of `B` relative to `A`.
-/

namespace Rigeo

open Matrix

variable {n : ℕ}

/-- The function computes `sqrt(½ Σ log² lᵢ)` of the relative eigenvalues. -/
theorem C76_value (A B G : Matrix (Fin n) (Fin n) ℝ) (l : Fin n → ℝ) (hG : G.det ≠ 0) (hl : ∀ i, 0 < l i)
    (hA : A = G * Gᵀ) (hB : B = G * Matrix.diagonal l * Gᵀ) :
    positiveDefiniteDistance A B = .ok (Real.sqrt ((1 / 2) * ∑ i, Real.log (l i) ^ 2)) := by
  have hdet : A.det ≠ 0 := by
    rw [hA, det_mul, det_transpose]; exact mul_ne_zero hG hG
  have hr := simul_roots hG hA hB
  rw [positiveDefiniteDistance, if_neg hdet]
  dsimp only
  rw [hr, if_pos]
  · rw [Multiset.map_map]; rfl
  · refine ⟨by simp, fun x hx => ?_⟩
    obtain ⟨i, _, rfl⟩ := Multiset.mem_map.mp hx
    exact hl i

/-- Relative eigenvalues exist for every pair of positive definite matrices, so the distance is defined, and it is
non-negative. -/
theorem C76_defined (A B : Matrix (Fin n) (Fin n) ℝ) (hA : Spec.PD A) (hB : Spec.PD B) :
    ∃ d, positiveDefiniteDistance A B = .ok d ∧ 0 ≤ d := by
  obtain ⟨G, l, hG, hl, h1, h2⟩ := hA.simul hB
  exact ⟨_, C76_value A B G l hG hl h1 h2, Real.sqrt_nonneg _⟩

/-- A singular first argument is rejected. -/
theorem C76_singular (A B : Matrix (Fin n) (Fin n) ℝ) (hA : A.det = 0) :
    positiveDefiniteDistance A B = .error .value := by
  rw [positiveDefiniteDistance, if_pos hA]

/-- The distance is symmetric. -/
theorem C76_symm (A B : Matrix (Fin n) (Fin n) ℝ) (hA : Spec.PD A) (hB : Spec.PD B) :
    positiveDefiniteDistance A B = positiveDefiniteDistance B A := by
  obtain ⟨G, l, hG, hl, h1, h2⟩ := hA.simul hB
  have hs : ∀ i, √(l i) * √(l i) = l i := fun i => Real.mul_self_sqrt (hl i).le
  have hs0 : ∀ i, √(l i) ≠ 0 := fun i => (Real.sqrt_pos.mpr (hl i)).ne'
  have hB' : B = G * diagonal (fun i => √(l i)) * (G * diagonal (fun i => √(l i)))ᵀ := by
    have e : Matrix.diagonal l = Matrix.diagonal (fun i => √(l i)) * Matrix.diagonal (fun i => √(l i)) := by
      rw [diagonal_mul_diagonal]; simp only [hs]
    rw [h2, e, transpose_mul, diagonal_transpose]; simp only [Matrix.mul_assoc]
  have hA' : A = G * diagonal (fun i => √(l i)) * diagonal (fun i => (l i)⁻¹) *
      (G * diagonal (fun i => √(l i)))ᵀ := by
    have e : diagonal (fun i => √(l i)) * (diagonal (fun i => (l i)⁻¹) * diagonal (fun i => √(l i))) = 1 := by
      rw [diagonal_mul_diagonal, diagonal_mul_diagonal, ← diagonal_one]
      congr 1; funext i
      have := (hl i).ne'
      rw [mul_left_comm, hs, inv_mul_cancel₀ this]
    have e2 : G * diagonal (fun i => √(l i)) * diagonal (fun i => (l i)⁻¹) * (G * diagonal (fun i => √(l i)))ᵀ
        = G * (diagonal (fun i => √(l i)) * (diagonal (fun i => (l i)⁻¹) * diagonal (fun i => √(l i)))) * Gᵀ := by
      rw [transpose_mul, diagonal_transpose]; simp only [Matrix.mul_assoc]
    rw [e2, e, Matrix.mul_one, h1]
  have hdet : (G * diagonal (fun i => √(l i))).det ≠ 0 := by
    rw [det_mul, det_diagonal]
    exact mul_ne_zero hG (Finset.prod_ne_zero_iff.mpr fun i _ => hs0 i)
  rw [C76_value A B G l hG hl h1 h2, C76_value B A _ _ hdet (fun i => inv_pos.mpr (hl i)) hB' hA']
  simp only [Real.log_inv, neg_sq]

/-- The distance is zero exactly for equal matrices. -/
theorem C76_zero_iff (A B : Matrix (Fin n) (Fin n) ℝ) (hA : Spec.PD A) (hB : Spec.PD B) :
    positiveDefiniteDistance A B = .ok 0 ↔ A = B := by
  obtain ⟨G, l, hG, hl, h1, h2⟩ := hA.simul hB
  rw [C76_value A B G l hG hl h1 h2]
  have hnn : 0 ≤ (1 / 2 : ℝ) * ∑ i, Real.log (l i) ^ 2 :=
    mul_nonneg (by norm_num) (Finset.sum_nonneg fun i _ => sq_nonneg _)
  constructor
  · intro h
    have h3 := Except.ok.inj h
    rw [Real.sqrt_eq_zero hnn] at h3
    have h4 : ∑ i, Real.log (l i) ^ 2 = 0 := by linarith
    rw [Finset.sum_eq_zero_iff_of_nonneg fun i _ => sq_nonneg _] at h4
    have h5 : l = 1 := by
      funext i
      have := pow_eq_zero_iff (two_ne_zero) |>.mp (h4 i (Finset.mem_univ i))
      exact Real.eq_one_of_pos_of_log_eq_zero (hl i) this
    rw [h1, h2, h5]
    simp
  · intro h
    have h3 : diagonal l = 1 := by
      have h4 : G * diagonal l * Gᵀ = G * Gᵀ := by rw [← h1, ← h2, h]
      have hGt : (Gᵀ).det ≠ 0 := by rwa [det_transpose]
      have h5 : G⁻¹ * (G * diagonal l * Gᵀ) * (Gᵀ)⁻¹ = diagonal l := by
        rw [show G⁻¹ * (G * diagonal l * Gᵀ) * (Gᵀ)⁻¹ = (G⁻¹ * G) * diagonal l * (Gᵀ * (Gᵀ)⁻¹) by
          simp only [Matrix.mul_assoc], inv_mul_cancel_det hG, mul_inv_cancel_det hGt, Matrix.one_mul, Matrix.mul_one]
      rw [← h5, h4, show G⁻¹ * (G * Gᵀ) * (Gᵀ)⁻¹ = (G⁻¹ * G) * (Gᵀ * (Gᵀ)⁻¹) by simp only [Matrix.mul_assoc],
        inv_mul_cancel_det hG, mul_inv_cancel_det hGt, Matrix.one_mul]
    have h4 : ∀ i, l i = 1 := fun i => by
      have := congrFun (congrFun h3 i) i
      simpa using this
    simp [h4]

/-- The distance does not change under a common change of coordinates. -/
theorem C76_congr (A B T : Matrix (Fin n) (Fin n) ℝ) (hA : Spec.PD A) (hB : Spec.PD B) (hT : T.det ≠ 0) :
    positiveDefiniteDistance (T * A * Tᵀ) (T * B * Tᵀ) = positiveDefiniteDistance A B := by
  obtain ⟨G, l, hG, hl, h1, h2⟩ := hA.simul hB
  rw [C76_value A B G l hG hl h1 h2, C76_value _ _ (T * G) l (by rw [det_mul]; exact mul_ne_zero hT hG) hl]
  · rw [h1, transpose_mul]; simp only [Matrix.mul_assoc]
  · rw [h2, transpose_mul]; simp only [Matrix.mul_assoc]

/-- Scaling by `c` moves a matrix by `sqrt(n/2) |log c|`. -/
theorem C76_scale (A : Matrix (Fin n) (Fin n) ℝ) (hA : Spec.PD A) (c : ℝ) (hc : 0 < c) :
    positiveDefiniteDistance A (c • A) = .ok (Real.sqrt (n / 2) * |Real.log c|) := by
  obtain ⟨G, hG, h1⟩ := hA.exists_sqrt
  rw [C76_value A (c • A) G (fun _ => c) hG (fun _ => hc) h1]
  · rw [Finset.sum_const, Finset.card_univ, Fintype.card_fin, nsmul_eq_mul, ← mul_assoc,
      Real.sqrt_mul (by positivity), Real.sqrt_sq_eq_abs]
    congr 3; ring
  · rw [h1, ← Matrix.smul_one_eq_diagonal, Matrix.mul_smul, Matrix.mul_one, Matrix.smul_mul]

/-- In particular it does not depend on the frame in which two bodies are described. -/
theorem C76_frame (p q p' q' : IP ℝ) (R : Matrix (Fin 3) (Fin 3) ℝ) (t : Fin 3 → ℝ) (hR : Spec.Orthogonal R)
    (hp : Spec.PD p.J) (hq : Spec.PD q.J) (hp' : p.transform (some R) (some t) = .ok p')
    (hq' : q.transform (some R) (some t) = .ok q') :
    positiveDefiniteDistance p'.J q'.J = positiveDefiniteDistance p.J q.J := by
  have key : ∀ p : IP ℝ, Spec.PD p.J → 0 ≤ p.mass := fun p h => by
    have := h.psd.diag_nonneg (Fin.last 3)
    rwa [IP.J, bordered_ll] at this
  obtain ⟨p2, h1, h2, -⟩ := C14_J p (key p hp) R t
  obtain ⟨q2, h3, h4, -⟩ := C14_J q (key q hq) R t
  obtain rfl : p2 = p' := Except.ok.inj (h1.symm.trans hp')
  obtain rfl : q2 = q' := Except.ok.inj (h3.symm.trans hq')
  rw [h2, h4]
  refine C76_congr _ _ _ hp hq fun h0 => ?_
  have := congrArg det (C06_transformMatrixInv R t hR).2
  rw [det_mul, h0, zero_mul, det_one] at this
  exact zero_ne_one this

/-- Concrete case: the distance from the identity to `4 · 1` in two dimensions is `log 4`. -/
example : positiveDefiniteDistance (1 : Matrix (Fin 2) (Fin 2) ℝ) ((4 : ℝ) • 1) = .ok (Real.log 4) := by
  rw [C76_scale 1 ⟨by simp, fun v hv => ?_⟩ 4 (by norm_num)]
  · have : 0 ≤ Real.log 4 := Real.log_nonneg (by norm_num)
    simp [abs_of_nonneg this]
  · rw [one_mulVec]
    exact lt_of_le_of_ne (dot_self_nonneg v) fun h0 => hv (dot_self_eq_zero.mp h0.symm)

/-- Concrete case for `C76_zero_iff`, `C76_symm`, `C76_congr`: diagonal matrices with positive entries. -/
example : Spec.PD (Matrix.diagonal ![1, 2] : Matrix (Fin 2) (Fin 2) ℝ) ∧
    Spec.PD (Matrix.diagonal ![3, 5] : Matrix (Fin 2) (Fin 2) ℝ) ∧
    (Matrix.diagonal ![1, 2] : Matrix (Fin 2) (Fin 2) ℝ) ≠ Matrix.diagonal ![3, 5] := by
  refine ⟨Spec.PD.diagonal fun i => ?_, Spec.PD.diagonal fun i => ?_, fun h => ?_⟩
  · fin_cases i <;> norm_num
  · fin_cases i <;> norm_num
  · have := congrFun (congrFun h 0) 0
    norm_num at this

/-- Concrete case for `C76_frame`: a ball of mass 1 (unit second moment) has a positive definite `J`. -/
example : Spec.PD (⟨1, 0, 1⟩ : IP ℝ).J := by
  have : (⟨1, 0, 1⟩ : IP ℝ).J = Matrix.diagonal fun _ => 1 := by
    have h0 : (⟨1, 0, 1⟩ : IP ℝ).h = 0 := by simp [IP.h]
    rw [IP.J, h0, diagonal_one]
    exact bordered_one
  rw [this]
  exact Spec.PD.diagonal fun _ => one_pos

end Rigeo
