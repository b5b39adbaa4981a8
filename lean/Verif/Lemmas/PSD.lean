import Verif.Lemmas.Inertial
import Verif.Spec.Basic
import Mathlib.Analysis.Matrix.PosDef
import Mathlib.Analysis.Matrix.Spectrum
import Mathlib.Tactic

/-!
# Positive semidefinite matrices: helper lemmas
-/

namespace Rigeo

open Matrix

section Field
variable {K : Type} [Field K] [LinearOrder K] [IsStrictOrderedRing K] {n : ℕ}

theorem dot_self_nonneg (v : Fin n → K) : 0 ≤ v ⬝ᵥ v :=
  Finset.sum_nonneg fun i _ => mul_self_nonneg (v i)

theorem dot_self_eq_zero {v : Fin n → K} : v ⬝ᵥ v = 0 ↔ v = 0 := by
  constructor
  · intro h
    have := (Finset.sum_eq_zero_iff_of_nonneg (fun i _ => mul_self_nonneg (v i))).mp h
    ext i; simpa using this i (Finset.mem_univ i)
  · rintro rfl; simp

omit [LinearOrder K] [IsStrictOrderedRing K] in
theorem outer_mulVec {m : ℕ} (u : Fin m → K) (v w : Fin n → K) : outer u v *ᵥ w = (v ⬝ᵥ w) • u := by
  ext i; simp [mulVec, dotProduct, Finset.mul_sum, outer, mul_comm, mul_left_comm]

omit [LinearOrder K] [IsStrictOrderedRing K] in
theorem outer_quad (u v : Fin n → K) : v ⬝ᵥ (outer u u *ᵥ v) = (u ⬝ᵥ v) ^ 2 := by
  rw [outer_mulVec, dotProduct_smul, smul_eq_mul, dotProduct_comm v u, sq]

omit [LinearOrder K] [IsStrictOrderedRing K] in
theorem outer_transpose {m : ℕ} (u : Fin m → K) (v : Fin n → K) : (outer u v)ᵀ = outer v u := by
  ext i j; simp [outer, mul_comm]

omit [LinearOrder K] [IsStrictOrderedRing K] in
theorem mul_outer_mul {m : ℕ} (A : Matrix (Fin m) (Fin n) K) (u v : Fin n → K) :
    A * outer u v * Aᵀ = outer (A *ᵥ u) (A *ᵥ v) := by
  rw [outer_eq_vecMulVec, outer_eq_vecMulVec, Matrix.mul_vecMulVec, Matrix.vecMulVec_mul,
    Matrix.vecMul_transpose]

omit [LinearOrder K] [IsStrictOrderedRing K] in
theorem outer_trace (u : Fin n → K) : (outer u u).trace = u ⬝ᵥ u := by
  simp [Matrix.trace, dotProduct, outer]

/-- Congruence of a quadratic form. -/
theorem quad_congr {m : ℕ} (A : Matrix (Fin m) (Fin n) K) (X : Matrix (Fin n) (Fin n) K)
    (v : Fin m → K) : v ⬝ᵥ ((A * X * Aᵀ) *ᵥ v) = (Aᵀ *ᵥ v) ⬝ᵥ (X *ᵥ (Aᵀ *ᵥ v)) := by
  rw [← Matrix.mulVec_mulVec, ← Matrix.mulVec_mulVec, Matrix.dotProduct_mulVec,
    ← Matrix.mulVec_transpose]

theorem _root_.Spec.PSD.congr {m : ℕ} {X : Matrix (Fin n) (Fin n) K} (h : Spec.PSD X)
    (A : Matrix (Fin m) (Fin n) K) : Spec.PSD (A * X * Aᵀ) := by
  refine ⟨?_, fun v => ?_⟩
  · simp [Matrix.transpose_mul, h.1, Matrix.mul_assoc]
  · rw [quad_congr]; exact h.2 _

theorem _root_.Spec.PSD.add {X Y : Matrix (Fin n) (Fin n) K} (hX : Spec.PSD X) (hY : Spec.PSD Y) :
    Spec.PSD (X + Y) := by
  refine ⟨by rw [transpose_add, hX.1, hY.1], fun v => ?_⟩
  rw [add_mulVec, dotProduct_add]
  exact add_nonneg (hX.2 v) (hY.2 v)

theorem _root_.Spec.PSD.smul {X : Matrix (Fin n) (Fin n) K} (hX : Spec.PSD X) {s : K} (hs : 0 ≤ s) :
    Spec.PSD (s • X) := by
  refine ⟨by rw [transpose_smul, hX.1], fun v => ?_⟩
  rw [smul_mulVec, dotProduct_smul, smul_eq_mul]
  exact mul_nonneg hs (hX.2 v)

theorem _root_.Spec.PSD.zero : Spec.PSD (0 : Matrix (Fin n) (Fin n) K) := ⟨by simp, fun v => by simp⟩

theorem _root_.Spec.PSD.one : Spec.PSD (1 : Matrix (Fin n) (Fin n) K) :=
  ⟨by simp, fun v => by simpa using dot_self_nonneg v⟩

theorem _root_.Spec.PSD.outer (u : Fin n → K) : Spec.PSD (outer u u) :=
  ⟨outer_transpose u u, fun v => by rw [outer_quad]; positivity⟩

theorem _root_.Spec.PSD.sum {ι : Type} (s : Finset ι) (f : ι → Matrix (Fin n) (Fin n) K)
    (h : ∀ i ∈ s, Spec.PSD (f i)) : Spec.PSD (∑ i ∈ s, f i) := by
  classical
  induction s using Finset.induction_on with
  | empty => simpa using Spec.PSD.zero
  | insert a s ha ih =>
    rw [Finset.sum_insert ha]
    exact Spec.PSD.add (h a (by simp)) (ih fun i hi => h i (by simp [hi]))

theorem _root_.Spec.PSD.list_sum (l : List (Matrix (Fin n) (Fin n) K)) (h : ∀ X ∈ l, Spec.PSD X) :
    Spec.PSD l.sum := by
  induction l with
  | nil => simpa using Spec.PSD.zero
  | cons a l ih =>
    rw [List.sum_cons]
    exact Spec.PSD.add (h a (by simp)) (ih fun X hX => h X (by simp [hX]))

omit [IsStrictOrderedRing K] in
theorem _root_.Spec.PSD.diag_nonneg {X : Matrix (Fin n) (Fin n) K} (h : Spec.PSD X) (i : Fin n) : 0 ≤ X i i := by
  have := h.2 (Pi.single i 1)
  simpa using this

theorem _root_.Spec.PSD.trace_nonneg {X : Matrix (Fin n) (Fin n) K} (h : Spec.PSD X) : 0 ≤ X.trace :=
  Finset.sum_nonneg fun i _ => h.diag_nonneg i

theorem _root_.Spec.PSD.diagonal (d : Fin n → K) (h : ∀ i, 0 ≤ d i) : Spec.PSD (Matrix.diagonal d) := by
  refine ⟨by simp, fun v => ?_⟩
  simp only [dotProduct, mulVec_diagonal]
  exact Finset.sum_nonneg fun i _ => by nlinarith [h i, mul_self_nonneg (v i), mul_nonneg (h i) (mul_self_nonneg (v i))]

theorem _root_.Spec.PSD.transpose_mul_self {m : ℕ} (A : Matrix (Fin m) (Fin n) K) : Spec.PSD (Aᵀ * A) := by
  have := Spec.PSD.congr (Spec.PSD.one (K := K) (n := m)) Aᵀ
  simpa using this

/-- Schur complement for a positive lower right corner, over any ordered field. -/
theorem bordered_psd_iff {A : Matrix (Fin n) (Fin n) K} {b : Fin n → K} {e : K} (he : 0 < e) :
    Spec.PSD (bordered A b b e) ↔ Spec.PSD (A - e⁻¹ • Rigeo.outer b b) := by
  have hsym : (bordered A b b e)ᵀ = bordered A b b e ↔ (A - e⁻¹ • Rigeo.outer b b)ᵀ = A - e⁻¹ • Rigeo.outer b b := by
    rw [bordered_transpose, bordered_inj]
    simp [outer_transpose]
  have hq : ∀ (x : Fin n → K) (t : K),
      x ⬝ᵥ (A *ᵥ x) + 2 * t * (b ⬝ᵥ x) + e * t ^ 2 =
        x ⬝ᵥ ((A - e⁻¹ • Rigeo.outer b b) *ᵥ x) + e * (t + e⁻¹ * (b ⬝ᵥ x)) ^ 2 := by
    intro x t
    rw [sub_mulVec, dotProduct_sub, smul_mulVec, dotProduct_smul, outer_quad]
    simp only [smul_eq_mul]
    field_simp
    ring
  unfold Spec.PSD
  rw [hsym]
  refine and_congr_right fun _ => ?_
  rw [forall_snoc]
  constructor
  · intro h x
    have := h x (-(e⁻¹ * (b ⬝ᵥ x)))
    rw [bordered_quad, hq] at this
    simpa using this
  · intro h x t
    rw [bordered_quad, hq]
    have := h x
    positivity

/-- A non-negative quadratic form with zero corner has zero border. -/
theorem bordered_zero_corner {A : Matrix (Fin n) (Fin n) K} {b : Fin n → K}
    (h : ∀ v, 0 ≤ v ⬝ᵥ (bordered A b b 0 *ᵥ v)) : b = 0 := by
  rw [forall_snoc] at h
  by_contra hb
  have hbb : 0 < b ⬝ᵥ b := lt_of_le_of_ne (dot_self_nonneg b) (fun h0 => hb (dot_self_eq_zero.mp h0.symm))
  have := h b (-((b ⬝ᵥ (A *ᵥ b) + 1) / (2 * (b ⬝ᵥ b))))
  rw [bordered_quad] at this
  have e : 2 * -((b ⬝ᵥ (A *ᵥ b) + 1) / (2 * (b ⬝ᵥ b))) * (b ⬝ᵥ b) = -(b ⬝ᵥ (A *ᵥ b) + 1) := by
    field_simp
  rw [e] at this
  linarith

omit [IsStrictOrderedRing K] in
theorem bordered_psd_block {A : Matrix (Fin n) (Fin n) K} {b : Fin n → K} {e : K}
    (h : Spec.PSD (bordered A b b e)) : Spec.PSD A ∧ 0 ≤ e := by
  have hs := h.1
  rw [bordered_transpose, bordered_inj] at hs
  refine ⟨⟨hs.1, fun x => ?_⟩, ?_⟩
  · have := h.2 (Fin.snoc (α := fun _ => K) x 0)
    rw [bordered_quad] at this
    simpa using this
  · have := h.2 (Fin.snoc (α := fun _ => K) 0 1)
    rw [bordered_quad] at this
    simpa using this

end Field

/-! ## Real matrices: eigendecomposition -/

section Real
variable {n : ℕ}

theorem psd_iff_posSemidef {X : Matrix (Fin n) (Fin n) ℝ} : Spec.PSD X ↔ X.PosSemidef := by
  rw [Matrix.posSemidef_iff_dotProduct_mulVec]
  simp [Spec.PSD, Matrix.IsHermitian, conjTranspose_eq_transpose_of_trivial]

/-- Spectral theorem in matrix form (what `numpy.linalg.eigh` computes). -/
theorem exists_eigh (X : Matrix (Fin n) (Fin n) ℝ) (hX : Xᵀ = X) :
    ∃ (V : Matrix (Fin n) (Fin n) ℝ) (d : Fin n → ℝ),
      Vᵀ * V = 1 ∧ V * Vᵀ = 1 ∧ X = V * Matrix.diagonal d * Vᵀ := by
  have hH : X.IsHermitian := by
    simpa [Matrix.IsHermitian, conjTranspose_eq_transpose_of_trivial] using hX
  have hst : star (hH.eigenvectorUnitary : Matrix (Fin n) (Fin n) ℝ) = (hH.eigenvectorUnitary : Matrix (Fin n) (Fin n) ℝ)ᵀ := by
    ext i j; simp [Matrix.star_apply]
  refine ⟨hH.eigenvectorUnitary, hH.eigenvalues, ?_, ?_, ?_⟩
  · rw [← hst]; exact Unitary.coe_star_mul_self _
  · rw [← hst]; exact Unitary.coe_mul_star_self _
  · have := hH.spectral_theorem
    rw [Unitary.conjStarAlgAut_apply, hst] at this
    simpa using this

theorem _root_.Spec.PSD.eigh {X : Matrix (Fin n) (Fin n) ℝ} (hX : Spec.PSD X) :
    ∃ (V : Matrix (Fin n) (Fin n) ℝ) (d : Fin n → ℝ),
      Vᵀ * V = 1 ∧ V * Vᵀ = 1 ∧ (∀ i, 0 ≤ d i) ∧ X = V * Matrix.diagonal d * Vᵀ := by
  obtain ⟨V, d, h1, h2, h3⟩ := exists_eigh X hX.1
  refine ⟨V, d, h1, h2, fun i => ?_, h3⟩
  have : Matrix.diagonal d = Vᵀ * X * Vᵀᵀ := by
    rw [h3, Matrix.transpose_transpose]
    simp only [← Matrix.mul_assoc, h1, Matrix.one_mul]
    rw [Matrix.mul_assoc, h1, Matrix.mul_one]
  have h4 := (hX.congr Vᵀ).diag_nonneg i
  rw [← this] at h4
  simpa using h4

theorem mul_diagonal_mul_transpose (V : Matrix (Fin n) (Fin n) ℝ) (d : Fin n → ℝ) :
    V * Matrix.diagonal d * Vᵀ = ∑ k, d k • Rigeo.outer (fun i => V i k) (fun i => V i k) := by
  ext i j
  rw [Matrix.mul_apply, Matrix.sum_apply]
  refine Finset.sum_congr rfl fun k _ => ?_
  simp [outer, Matrix.mul_diagonal]
  ring

/-- A real PSD matrix is a sum of `n` outer products. -/
theorem _root_.Spec.PSD.exists_outer {X : Matrix (Fin n) (Fin n) ℝ} (hX : Spec.PSD X) :
    ∃ u : Fin n → Fin n → ℝ, X = ∑ k, Rigeo.outer (u k) (u k) := by
  obtain ⟨V, d, h1, h2, h3, h4⟩ := hX.eigh
  refine ⟨fun k i => Real.sqrt (d k) * V i k, ?_⟩
  rw [h4, mul_diagonal_mul_transpose]
  refine Finset.sum_congr rfl fun k _ => ?_
  ext i j
  simp only [outer, Matrix.smul_apply, Matrix.of_apply, smul_eq_mul]
  rw [show √(d k) * V i k * (√(d k) * V j k) = (√(d k) * √(d k)) * (V i k * V j k) by ring,
    Real.mul_self_sqrt (h3 k)]

/-- All real eigenvalues of a symmetric matrix are `≥ c` iff `X - c I` is PSD. -/
theorem eigen_ge_iff {X : Matrix (Fin n) (Fin n) ℝ} (hX : Xᵀ = X) (c : ℝ) :
    (∀ μ : ℝ, (∃ v : Fin n → ℝ, v ≠ 0 ∧ X *ᵥ v = μ • v) → c ≤ μ) ↔
      Spec.PSD (X - c • (1 : Matrix (Fin n) (Fin n) ℝ)) := by
  constructor
  · intro h
    obtain ⟨V, d, h1, h2, h3⟩ := exists_eigh X hX
    have hd : ∀ k, c ≤ d k := by
      intro k
      apply h
      refine ⟨fun i => V i k, ?_, ?_⟩
      · intro h0
        have h5 : (Vᵀ * V) k k = 1 := by rw [h1]; simp
        rw [Matrix.mul_apply] at h5
        have h6 : ∀ i, V i k = 0 := fun i => congrFun h0 i
        simp [h6] at h5
      · have h5 : X * V = V * Matrix.diagonal d := by
          rw [h3, Matrix.mul_assoc, h1, Matrix.mul_one]
        ext i
        have h6 := congrFun (congrFun h5 i) k
        rw [Matrix.mul_diagonal] at h6
        simpa [mulVec, dotProduct, Matrix.mul_apply, mul_comm] using h6
    have : X - c • (1 : Matrix (Fin n) (Fin n) ℝ) = V * Matrix.diagonal (fun k => d k - c) * Vᵀ := by
      have e : Matrix.diagonal (fun k => d k - c) = Matrix.diagonal d - c • (1 : Matrix (Fin n) (Fin n) ℝ) := by
        rw [Matrix.smul_one_eq_diagonal, Matrix.diagonal_sub]
      rw [e, Matrix.mul_sub, Matrix.sub_mul, ← h3, Matrix.mul_smul, Matrix.mul_one, Matrix.smul_mul, h2]
    rw [this]
    exact (Spec.PSD.diagonal _ fun k => sub_nonneg.mpr (hd k)).congr V
  · rintro h μ ⟨v, hv, hXv⟩
    have := h.2 v
    rw [sub_mulVec, hXv, smul_mulVec, one_mulVec, dotProduct_sub, dotProduct_smul, dotProduct_smul] at this
    have hpos : 0 < v ⬝ᵥ v := lt_of_le_of_ne (dot_self_nonneg v) fun h0 => hv (dot_self_eq_zero.mp h0.symm)
    simp only [smul_eq_mul] at this
    nlinarith

end Real
end Rigeo
