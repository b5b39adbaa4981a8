import Verif.Lemmas.PSD
import Verif.Model.Cylinder
import Verif.Spec.Shapes
import Mathlib.Analysis.Convex.Combination

/-! # Auxiliary facts about poses, masks and containment -/

namespace Rigeo

open Matrix

section Field
variable {K : Type} [Field K] {n : ℕ}

instance _root_.Spec.Orthogonal.decidable [DecidableEq K] (R : Matrix (Fin n) (Fin n) K) :
    Decidable (Spec.Orthogonal R) := inferInstanceAs (Decidable (Rᵀ * R = 1))

theorem _root_.Spec.Orthogonal.mul_transpose {R : Matrix (Fin n) (Fin n) K} (h : Spec.Orthogonal R) :
    R * Rᵀ = 1 := mul_eq_one_comm.mp h

theorem _root_.Spec.Orthogonal.one : Spec.Orthogonal (1 : Matrix (Fin n) (Fin n) K) := by
  simp [Spec.Orthogonal]

theorem _root_.Spec.Orthogonal.mul {R R' : Matrix (Fin n) (Fin n) K} (h : Spec.Orthogonal R)
    (h' : Spec.Orthogonal R') : Spec.Orthogonal (R * R') := by
  have h := h; have h' := h'
  unfold Spec.Orthogonal at *
  rw [transpose_mul, Matrix.mul_assoc, ← Matrix.mul_assoc Rᵀ, h, Matrix.one_mul, h']

theorem _root_.Spec.Orthogonal.transpose {R : Matrix (Fin n) (Fin n) K} (h : Spec.Orthogonal R) :
    Spec.Orthogonal Rᵀ := by
  unfold Spec.Orthogonal; rw [transpose_transpose]; exact h.mul_transpose

/-- Body-frame coordinates of a point. -/
theorem rigid_iff {R : Matrix (Fin n) (Fin n) K} (h : Spec.Orthogonal R) (c p y : Fin n → K) :
    p = Spec.rigid R c y ↔ y = Rᵀ *ᵥ (p - c) := by
  unfold Spec.rigid
  constructor
  · rintro rfl
    rw [add_sub_cancel_right, mulVec_mulVec, h, one_mulVec]
  · rintro rfl
    rw [mulVec_mulVec, h.mul_transpose, one_mulVec, sub_add_cancel]

theorem vecMul_eq_transpose (p : Fin n → K) (R : Matrix (Fin n) (Fin n) K) : p ᵥ* R = Rᵀ *ᵥ p := by
  rw [mulVec_transpose]

theorem Spec_box_iff [LinearOrder K] {R : Matrix (Fin n) (Fin n) K} (hR : Spec.Orthogonal R)
    (h c p : Fin n → K) : p ∈ Spec.box h R c ↔ ∀ i, |(Rᵀ *ᵥ (p - c)) i| ≤ h i := by
  constructor
  · rintro ⟨y, hy, hp⟩
    rw [rigid_iff hR] at hp
    rwa [← hp]
  · intro hy
    exact ⟨_, hy, (rigid_iff hR _ _ _).mpr rfl⟩

theorem rigid_zero_one (p : Fin n → K) : Spec.rigid (1 : Matrix (Fin n) (Fin n) K) 0 p = p := by
  simp [Spec.rigid]

theorem dot_mulVec_orthogonal {R : Matrix (Fin n) (Fin n) K} (h : Spec.Orthogonal R) (u v : Fin n → K) :
    (R *ᵥ u) ⬝ᵥ (R *ᵥ v) = u ⬝ᵥ v := by
  rw [dotProduct_mulVec, vecMul_mulVec, ← mulVec_transpose, transpose_mul, transpose_transpose, h,
    one_mulVec]

/-- Rigid motions as affine maps. -/
noncomputable def rigidAffine (R : Matrix (Fin n) (Fin n) K) (t : Fin n → K) :
    (Fin n → K) →ᵃ[K] (Fin n → K) := (Matrix.mulVecLin R).toAffineMap + AffineMap.const K _ t

theorem rigidAffine_apply (R : Matrix (Fin n) (Fin n) K) (t p : Fin n → K) :
    rigidAffine R t p = Spec.rigid R t p := by
  simp [rigidAffine, Spec.rigid]

end Field

section Ordered
variable {K : Type} [Field K] [LinearOrder K] [IsStrictOrderedRing K] {n : ℕ}

theorem tol8_pos : (0 : K) < tol8 := by unfold tol8; positivity

theorem isclose_zero (a b : K) : isclose a b 0 0 = true ↔ a = b := by
  unfold isclose
  rw [decide_eq_true_eq]
  constructor
  · intro h
    have h : |a - b| ≤ 0 := by simpa using h
    exact sub_eq_zero.mp (abs_eq_zero.mp (le_antisymm h (abs_nonneg _)))
  · rintro rfl; simp

theorem isclose_zero_right (a rtol atol : K) : isclose a 0 rtol atol = true ↔ |a| ≤ atol := by
  simp [isclose]

/-- The two zero masks used by `ellipsoid.py` agree. -/
theorem Ellipsoid.hInv_eq_none (e : Ellipsoid K n) (i : Fin n) : e.hInv i = none ↔ e.z i = true := by
  unfold Ellipsoid.hInv Ellipsoid.invWithZero Ellipsoid.z
  simp only [isclose_zero_right]
  split_ifs with h <;> simp [h]

theorem Ellipsoid.z_iff (e : Ellipsoid K n) (i : Fin n) : e.z i = true ↔ |e.halfExtents i| ≤ tol8 := by
  unfold Ellipsoid.z; rw [isclose_zero_right]

theorem Ellipsoid.hInvNz_eq (e : Ellipsoid K n) (i : Fin n) (h : e.z i = false) :
    e.hInvNz i = 1 / e.halfExtents i := by
  unfold Ellipsoid.hInvNz Ellipsoid.hInv Ellipsoid.invWithZero
  rw [if_neg]
  · rfl
  · rw [isclose_zero_right]
    intro h'
    rw [← Ellipsoid.z_iff, h] at h'
    exact Bool.noConfusion h'

theorem _root_.Spec.Resolved.nonneg {a : K} (h : Spec.Resolved a) : 0 ≤ a := by
  rcases h with h | h
  · exact h.ge
  · exact ((tol8_pos (K := K)).trans h).le

theorem Ellipsoid.z_iff_zero (e : Ellipsoid K n) (he : ∀ i, Spec.Resolved (e.halfExtents i)) (i : Fin n) :
    e.z i = true ↔ e.halfExtents i = 0 := by
  rw [Ellipsoid.z_iff]
  rcases he i with h | h
  · simp [h, tol8_pos.le]
  · replace h : tol8 < e.halfExtents i := h
    have := tol8_pos.trans h
    rw [abs_of_pos this]
    constructor
    · intro h'; exact absurd h (not_lt.mpr h')
    · intro h'; exact absurd h' this.ne'

theorem Ellipsoid.z_false_iff (e : Ellipsoid K n) (he : ∀ i, Spec.Resolved (e.halfExtents i)) (i : Fin n) :
    e.z i = false ↔ 0 < e.halfExtents i := by
  rw [← Bool.not_eq_true, e.z_iff_zero he]
  constructor
  · intro h; exact lt_of_le_of_ne (he i).nonneg (Ne.symm h)
  · intro h; exact h.ne'

/-- Ellipsoid membership in body coordinates. -/
theorem Spec_ellipsoid_iff {R : Matrix (Fin n) (Fin n) K} (hR : Spec.Orthogonal R)
    (h c p : Fin n → K) : p ∈ Spec.ellipsoid h R c ↔
      (∀ i, h i = 0 → (Rᵀ *ᵥ (p - c)) i = 0) ∧ ∑ i, ((Rᵀ *ᵥ (p - c)) i / h i) ^ 2 ≤ 1 := by
  constructor
  · rintro ⟨u, hu, hp⟩
    rw [rigid_iff hR] at hp
    rw [← hp]
    refine ⟨fun i hi => by simp [hi], le_trans (Finset.sum_le_sum fun i _ => ?_) hu⟩
    by_cases hi : h i = 0
    · simp only [hi, zero_mul, zero_div]; rw [zero_pow two_ne_zero]; exact mul_self_nonneg _
    · rw [mul_div_cancel_left₀ _ hi, sq]
  · rintro ⟨h0, h1⟩
    refine ⟨fun i => (Rᵀ *ᵥ (p - c)) i / h i, ?_, ?_⟩
    · simpa [dotProduct, sq] using h1
    · rw [rigid_iff hR]
      ext i
      by_cases hi : h i = 0
      · simp [hi, h0 i hi]
      · rw [mul_div_cancel₀ _ hi]

end Ordered
end Rigeo
