import Verif.Model.Optim
import Verif.Spec.Numerics
import Verif.Props.Shapes3
import Mathlib.Analysis.InnerProductSpace.PiL2
import Mathlib.LinearAlgebra.Matrix.DotProduct
import Mathlib.Analysis.MeanInequalities

/-! # Auxiliary facts about orthonormal columns, lifted ellipsoids and the optimisation problems -/

namespace Rigeo

open Matrix

/-! ### Orthonormal columns -/

/-- Columns that are orthonormal preserve dot products. -/
theorem dot_mulVec_cols {d r : ℕ} {R : Matrix (Fin d) (Fin r) ℝ} (h : Rᵀ * R = 1) (u v : Fin r → ℝ) :
    (R *ᵥ u) ⬝ᵥ (R *ᵥ v) = u ⬝ᵥ v := by
  rw [dotProduct_mulVec, vecMul_mulVec, ← mulVec_transpose, transpose_mul, transpose_transpose, h,
    one_mulVec]

theorem hcat_transpose_mulVec {d a b : ℕ} (X : Matrix (Fin d) (Fin a) ℝ) (Y : Matrix (Fin d) (Fin b) ℝ)
    (v : Fin d → ℝ) : (hcat X Y)ᵀ *ᵥ v = Fin.append (Xᵀ *ᵥ v) (Yᵀ *ᵥ v) := by
  ext i
  refine Fin.addCases (fun i => ?_) (fun i => ?_) i <;> simp [hcat, mulVec, dotProduct]

theorem hcat_mulVec {d a b : ℕ} (X : Matrix (Fin d) (Fin a) ℝ) (Y : Matrix (Fin d) (Fin b) ℝ)
    (u : Fin a → ℝ) (w : Fin b → ℝ) : hcat X Y *ᵥ Fin.append u w = X *ᵥ u + Y *ᵥ w := by
  ext i
  simp [hcat, mulVec, dotProduct, Fin.sum_univ_add]

theorem append_dot {a b : ℕ} (u u' : Fin a → ℝ) (w w' : Fin b → ℝ) :
    Fin.append u w ⬝ᵥ Fin.append u' w' = u ⬝ᵥ u' + w ⬝ᵥ w' := by
  simp [dotProduct, Fin.sum_univ_add]

/-- `N` completes the orthonormal columns `R` to an orthonormal basis. -/
def Completes {d r k : ℕ} (R : Matrix (Fin d) (Fin r) ℝ) (N : Matrix (Fin d) (Fin k) ℝ) : Prop :=
  Rᵀ * R = 1 ∧ Nᵀ * N = 1 ∧ ∀ v, Rᵀ *ᵥ v = 0 ↔ ∃ w, v = N *ᵥ w

theorem Completes.cross {d r k : ℕ} {R : Matrix (Fin d) (Fin r) ℝ} {N : Matrix (Fin d) (Fin k) ℝ}
    (h : Completes R N) : Rᵀ * N = 0 := by
  ext i j
  have := (h.2.2 (N *ᵥ Pi.single j 1)).2 ⟨_, rfl⟩
  rw [mulVec_mulVec] at this
  simpa using congrFun this i

theorem Completes.recon {d r k : ℕ} {R : Matrix (Fin d) (Fin r) ℝ} {N : Matrix (Fin d) (Fin k) ℝ}
    (h : Completes R N) (v : Fin d → ℝ) : R *ᵥ (Rᵀ *ᵥ v) + N *ᵥ (Nᵀ *ᵥ v) = v := by
  have h0 : Rᵀ *ᵥ (v - R *ᵥ (Rᵀ *ᵥ v)) = 0 := by
    rw [mulVec_sub, mulVec_mulVec, h.1, one_mulVec, sub_self]
  obtain ⟨w, hw⟩ := (h.2.2 _).1 h0
  have hN : Nᵀ * R = 0 := by
    have := congrArg Matrix.transpose h.cross
    simpa [transpose_mul] using this
  have h1 : Nᵀ *ᵥ v = w := by
    have := congrArg (Nᵀ *ᵥ ·) hw
    simp only [mulVec_sub, mulVec_mulVec, hN, h.2.1, Matrix.zero_mul, one_mulVec] at this
    have e : (Nᵀ * (R * Rᵀ)) = 0 := by rw [← Matrix.mul_assoc, hN, Matrix.zero_mul]
    rw [← this, e, zero_mulVec, sub_zero]
  rw [h1, ← hw]
  abel

theorem Completes.hcat_mul {d r k : ℕ} {R : Matrix (Fin d) (Fin r) ℝ} {N : Matrix (Fin d) (Fin k) ℝ}
    (h : Completes R N) : (hcat R N)ᵀ * hcat R N = 1 ∧ hcat R N * (hcat R N)ᵀ = 1 := by
  have hN : Nᵀ * R = 0 := by
    have := congrArg Matrix.transpose h.cross
    simpa [transpose_mul] using this
  constructor
  · apply Matrix.ext_of_mulVec_single
    intro i
    rw [← mulVec_mulVec, one_mulVec]
    obtain ⟨u, w, e⟩ : ∃ (u : Fin r → ℝ) (w : Fin k → ℝ), (Pi.single i 1 : Fin (r + k) → ℝ) = Fin.append u w :=
      ⟨fun a => (Pi.single i 1 : Fin (r + k) → ℝ) (Fin.castAdd k a),
        fun b => (Pi.single i 1 : Fin (r + k) → ℝ) (Fin.natAdd r b), (Fin.append_castAdd_natAdd).symm⟩
    rw [e, hcat_mulVec, hcat_transpose_mulVec]
    simp only [mulVec_add, mulVec_mulVec, h.1, h.2.1, h.cross, hN, one_mulVec, zero_mulVec, add_zero, zero_add]
  · apply Matrix.ext_of_mulVec_single
    intro i
    rw [← mulVec_mulVec, one_mulVec, hcat_transpose_mulVec, hcat_mulVec, h.recon]

theorem Completes.card {d r k : ℕ} {R : Matrix (Fin d) (Fin r) ℝ} {N : Matrix (Fin d) (Fin k) ℝ}
    (h : Completes R N) : r + k = d := by
  have h1 := congrArg Matrix.trace h.hcat_mul.1
  have h2 := congrArg Matrix.trace h.hcat_mul.2
  rw [Matrix.trace_mul_comm, h2, Matrix.trace_one, Matrix.trace_one] at h1
  simp only [Fintype.card_fin] at h1
  exact_mod_cast h1.symm

/-- The rotation assembled by `hstack` and the half extents padded by zeros describe the image of the
lower-dimensional ellipsoid. -/
theorem Completes.lift {d r k : ℕ} {R : Matrix (Fin d) (Fin r) ℝ} {N : Matrix (Fin d) (Fin k) ℝ}
    (h : Completes R N) (he : Fin r → ℝ) (hhe : ∀ i, 0 ≤ he i) :
    ∃ W h', hstackSquare R N = .ok W ∧ padZeros d he = .ok h' ∧ Spec.Orthogonal W ∧ (∀ i, 0 ≤ h' i) ∧
      (∀ hd : r = d, ∏ i, h' i = ∏ i, he i) ∧ (r ≠ d → ∃ i, h' i = 0) ∧
      ∀ (c p : Fin d → ℝ), p ∈ Spec.ellipsoid h' W c ↔
        ∃ u : Fin r → ℝ, u ⬝ᵥ u ≤ 1 ∧ p = R *ᵥ (fun i => he i * u i) + c := by
  obtain rfl := h.card
  have e1 : hstackSquare R N = .ok (hcat R N) := by
    unfold hstackSquare
    rw [dif_pos rfl]
    rfl
  have e2 : padZeros (r + k) he = .ok (Fin.append he 0) := by
    unfold padZeros
    rw [if_pos (Nat.le_add_right r k)]
    congr 1
    ext i
    refine Fin.addCases (fun i => ?_) (fun i => ?_) i <;> simp
  refine ⟨_, _, e1, e2, h.hcat_mul.1, ?_, ?_, ?_, ?_⟩
  · intro i
    refine Fin.addCases (fun i => ?_) (fun i => ?_) i <;> simp [hhe]
  · intro hd
    have : k = 0 := by omega
    subst this
    rw [Fin.prod_univ_add]
    simp only [Fin.append_left, Finset.univ_eq_empty, Finset.prod_empty, mul_one]
  · intro hd
    have hk : 0 < k := by omega
    exact ⟨Fin.natAdd r ⟨0, hk⟩, by rw [Fin.append_right]; rfl⟩
  · intro c p
    constructor
    · rintro ⟨u, hu, rfl⟩
      refine ⟨fun i => u (Fin.castAdd k i), ?_, ?_⟩
      · refine le_trans ?_ hu
        simp only [dotProduct, Fin.sum_univ_add]
        have : 0 ≤ ∑ i : Fin k, u (Fin.natAdd r i) * u (Fin.natAdd r i) :=
          Finset.sum_nonneg fun i _ => mul_self_nonneg _
        linarith
      · unfold Spec.rigid
        have : (fun i => Fin.append he 0 i * u i) = Fin.append (fun i => he i * u (Fin.castAdd k i)) (0 : Fin k → ℝ) := by
          ext i
          refine Fin.addCases (fun i => ?_) (fun i => ?_) i <;> simp
        rw [this, hcat_mulVec]
        simp
    · rintro ⟨u, hu, rfl⟩
      refine ⟨Fin.append u 0, by rw [append_dot]; simpa using hu, ?_⟩
      unfold Spec.rigid
      have : (fun i => Fin.append he 0 i * Fin.append u (0 : Fin k → ℝ) i) = Fin.append (fun i => he i * u i) (0 : Fin k → ℝ) := by
        ext i
        refine Fin.addCases (fun i => ?_) (fun i => ?_) i <;> simp
      rw [this, hcat_mulVec]
      simp

/-- Every subspace has an orthonormal basis, written as the columns of a matrix. -/
theorem exists_orthonormal_cols {d : ℕ} (W : Submodule ℝ (Fin d → ℝ)) :
    ∃ (r : ℕ) (R : Matrix (Fin d) (Fin r) ℝ), Rᵀ * R = 1 ∧ ∀ v, v ∈ W ↔ ∃ w, v = R *ᵥ w := by
  let φ := (WithLp.linearEquiv 2 ℝ (Fin d → ℝ))
  let W' : Submodule ℝ (EuclideanSpace ℝ (Fin d)) := W.comap φ.toLinearMap
  let B := stdOrthonormalBasis ℝ W'
  refine ⟨_, Matrix.of fun i k => φ (B k : EuclideanSpace ℝ (Fin d)) i, ?_, fun v => ?_⟩
  · ext k l
    have := (orthonormal_iff_ite.mp B.orthonormal) l k
    rw [Submodule.coe_inner] at this
    simp only [Matrix.mul_apply, transpose_apply, of_apply, Matrix.one_apply]
    rw [EuclideanSpace.inner_eq_star_dotProduct] at this
    simp only [dotProduct] at this
    rw [show (if k = l then (1 : ℝ) else 0) = if l = k then 1 else 0 by simp [eq_comm], ← this]
    exact Finset.sum_congr rfl fun i _ => by simp [φ]
  · constructor
    · intro hv
      let v' : W' := ⟨φ.symm v, by simpa [W'] using hv⟩
      refine ⟨fun k => B.repr v' k, ?_⟩
      have h1 := B.sum_repr v'
      have h2 := congrArg (fun x : W' => φ (x : EuclideanSpace ℝ (Fin d))) h1
      simp only [Submodule.coe_sum, Submodule.coe_smul, map_sum, map_smul] at h2
      have h3 : φ (v' : EuclideanSpace ℝ (Fin d)) = v := by simp [v']
      rw [h3] at h2
      rw [← h2]
      ext i
      simp [mulVec, dotProduct, mul_comm]
    · rintro ⟨w, rfl⟩
      have : (Matrix.of fun i k => φ (B k : EuclideanSpace ℝ (Fin d)) i) *ᵥ w =
          ∑ k, w k • φ (B k : EuclideanSpace ℝ (Fin d)) := by
        ext i
        simp [mulVec, dotProduct, mul_comm]
      rw [this]
      refine W.sum_mem fun k _ => W.smul_mem _ ?_
      exact (B k).2

/-- The contract of `orth` can be met. -/
theorem exists_orth : ∃ orth : Orth, Spec.IsOrth orth := by
  have h : ∀ (d n : ℕ) (X : Matrix (Fin d) (Fin n) ℝ), ∃ R : (r : ℕ) × Matrix (Fin d) (Fin r) ℝ,
      R.2ᵀ * R.2 = 1 ∧ ∀ v : Fin d → ℝ, (∃ w, v = X *ᵥ w) ↔ ∃ w, v = R.2 *ᵥ w := by
    intro d n X
    obtain ⟨r, R, h1, h2⟩ := exists_orthonormal_cols (LinearMap.range X.mulVecLin)
    refine ⟨⟨r, R⟩, h1, fun v => ?_⟩
    rw [← h2, LinearMap.mem_range]
    simp [eq_comm]
  choose f hf using h
  exact ⟨f, hf⟩

/-- The contract of `null_space` can be met. -/
theorem exists_nullSpace : ∃ ns : NullSpace, Spec.IsNullSpace ns := by
  have h : ∀ (r d : ℕ) (X : Matrix (Fin r) (Fin d) ℝ), ∃ N : (k : ℕ) × Matrix (Fin d) (Fin k) ℝ,
      N.2ᵀ * N.2 = 1 ∧ ∀ v : Fin d → ℝ, X *ᵥ v = 0 ↔ ∃ w, v = N.2 *ᵥ w := by
    intro r d X
    obtain ⟨k, N, h1, h2⟩ := exists_orthonormal_cols (LinearMap.ker X.mulVecLin)
    refine ⟨⟨k, N⟩, h1, fun v => ?_⟩
    rw [← h2, LinearMap.mem_ker]
    simp
  choose f hf using h
  exact ⟨f, hf⟩

/-! ### Points in the span of their differences -/

/-- Every point is recovered from its coordinates in the basis computed by `orth`. -/
theorem orth_recon {d : ℕ} {orth : Orth} (ho : Spec.IsOrth orth) (points : List (Fin d → ℝ)) (r p : Fin d → ℝ)
    (hp : p ∈ points) :
    p = (orth _ _ (centred points r)).2 *ᵥ ((p - r) ᵥ* (orth _ _ (centred points r)).2) + r := by
  obtain ⟨h1, h2⟩ := ho _ _ (centred points r)
  set R := (orth _ _ (centred points r)).2
  obtain ⟨k, rfl⟩ := List.mem_iff_get.mp hp
  obtain ⟨w, hw⟩ := (h2 (points.get k - r)).1 ⟨Pi.single k 1, by ext i; simp [centred]⟩
  rw [hw, ← mulVec_transpose, mulVec_mulVec w Rᵀ R, h1, one_mulVec, ← hw]
  abel

/-! ### Ellipsoids from shape matrices -/

/-- If `from_shape_matrix` succeeds it returns the ellipsoid of the matrix. -/
theorem fromShapeMatrix_spec {d : ℕ} {eigh : Eigh} (heigh : Spec.IsEigh eigh) {S : Matrix (Fin d) (Fin d) ℝ}
    (hS : Sᵀ = S) {c : Fin d → ℝ} {e : Ellipsoid ℝ d}
    (h : Ellipsoid.fromShapeMatrix eigh S (some c) = .ok e) :
    Spec.Orthogonal e.rotation ∧ (∀ i, 0 < e.halfExtents i) ∧ e.center = c ∧
      S = e.rotation * Matrix.diagonal (fun i => (1 / e.halfExtents i) ^ 2) * e.rotationᵀ ∧
      ∀ p, p ∈ Spec.ellipsoid e.halfExtents e.rotation e.center ↔ (p - c) ⬝ᵥ (S *ᵥ (p - c)) ≤ 1 := by
  obtain ⟨hV, hdec⟩ := heigh d S hS
  unfold Ellipsoid.fromShapeMatrix at h
  have h0 : ∀ i, 0 ≤ (eigh d S).1 i := by
    by_contra hc
    simp [Ellipsoid.fromEigh, pyAssert, hc, bind, Except.bind] at h
  have hb : ∀ i, (1 / 100000000 : ℝ) < Real.sqrt ((eigh d S).1 i) := by
    by_contra hc
    push Not at hc
    obtain ⟨i, hi⟩ := hc
    have : ¬ ∀ i, (Ellipsoid.invWithZero (Real.sqrt ((eigh d S).1 i))).isSome = true := by
      intro hall
      have := hall i
      unfold Ellipsoid.invWithZero at this
      rw [if_pos] at this
      · simp at this
      · rw [isclose_zero_right, abs_of_nonneg (Real.sqrt_nonneg _)]
        exact hi
    simp only [Ellipsoid.fromEigh, pyAssert, h0, this, bind, Except.bind, implies_true, decide_true, decide_false] at h
    exact absurd h (by simp)
  have hb' : ∀ i, (1 / 100000000 : ℝ) ^ 2 < (eigh d S).1 i := by
    intro i
    rw [← Real.sq_sqrt (h0 i)]
    exact pow_lt_pow_left₀ (hb i) (by norm_num) (by norm_num)
  have hpos : ∀ i, 0 < (eigh d S).1 i := fun i => (by positivity : (0 : ℝ) < (1 / 100000000) ^ 2).trans (hb' i)
  have hi : ∀ i, Ellipsoid.invWithZero (Real.sqrt ((eigh d S).1 i)) = some (1 / Real.sqrt ((eigh d S).1 i)) :=
    fun i => invWithZero_some (hb i)
  have hsp : ∀ i, 0 < 1 / Real.sqrt ((eigh d S).1 i) := fun i => by
    have := Real.sqrt_pos.mpr (hpos i); positivity
  have he : e = ⟨fun i => 1 / Real.sqrt ((eigh d S).1 i), (eigh d S).2, c⟩ := by
    simp [Ellipsoid.fromEigh, Ellipsoid.init, pyAssert, hi, bind, Except.bind, pure, Except.pure, h0] at h
    rw [← h]
    simp
  subst he
  have hsq : (fun i => (1 / (1 / Real.sqrt ((eigh d S).1 i))) ^ 2) = (eigh d S).1 := by
    ext i; rw [one_div_one_div, Real.sq_sqrt (hpos i).le]
  refine ⟨hV, hsp, rfl, ?_, fun p => ?_⟩
  · simp only [hsq]; exact hdec
  · rw [ellipsoid_of_shape hV _ _ _ hsp]
    simp only [hsq, ← hdec]

/-- `from_shape_matrix` succeeds on a matrix whose eigenvalues are large enough. -/
theorem fromShapeMatrix_ok {d : ℕ} {eigh : Eigh} (heigh : Spec.IsEigh eigh) {S : Matrix (Fin d) (Fin d) ℝ}
    (hS : Sᵀ = S) (c : Fin d → ℝ) (hlow : ∀ v : Fin d → ℝ, v ≠ 0 → (1 / 100000000) ^ 2 * (v ⬝ᵥ v) < v ⬝ᵥ (S *ᵥ v)) :
    ∃ e, Ellipsoid.fromShapeMatrix eigh S (some c) = .ok e := by
  obtain ⟨hV, hdec⟩ := heigh d S hS
  have hlow' : ∀ i, (1 / 100000000 : ℝ) ^ 2 < (eigh d S).1 i := by
    intro i
    set V := (eigh d S).2
    set v : Fin d → ℝ := V *ᵥ Pi.single i 1 with hv
    have hVv : Vᵀ *ᵥ v = Pi.single i 1 := by rw [hv, mulVec_mulVec, hV, one_mulVec]
    have hvv : v ⬝ᵥ v = 1 := by rw [hv, dot_mulVec_orthogonal hV]; simp
    have hne : v ≠ 0 := by rintro h0; rw [h0] at hvv; simp at hvv
    have h1 := hlow v hne
    rw [hvv, mul_one, hdec, quad_diag, hVv] at h1
    simpa [Pi.single_apply] using h1
  obtain ⟨e, he, -⟩ := fromEigh_spec (eigh d S).2 (eigh d S).1 hV hlow' (some c)
  exact ⟨e, he⟩

theorem norm2_le_one {n : ℕ} (v : Fin n → ℝ) : norm2 v ≤ 1 ↔ v ⬝ᵥ v ≤ 1 := by
  unfold norm2
  rw [Real.sqrt_le_left (by norm_num), one_pow]

/-- The Cauchy-Schwarz inequality. -/
theorem dot_le_norm2 {n : ℕ} (u v : Fin n → ℝ) (hv : v ⬝ᵥ v ≤ 1) : u ⬝ᵥ v ≤ norm2 u := by
  have h := Finset.sum_mul_sq_le_sq_mul_sq Finset.univ u v
  unfold norm2
  apply Real.le_sqrt_of_sq_le
  have e1 : ∑ i, u i ^ 2 = u ⬝ᵥ u := by simp [dotProduct, sq]
  have e2 : ∑ i, v i ^ 2 = v ⬝ᵥ v := by simp [dotProduct, sq]
  rw [e1, e2] at h
  have h0 : 0 ≤ u ⬝ᵥ u := dot_self_nonneg u
  calc (u ⬝ᵥ v) ^ 2 ≤ (u ⬝ᵥ u) * (v ⬝ᵥ v) := h
    _ ≤ u ⬝ᵥ u := mul_le_of_le_one_right h0 hv

theorem det_orthogonal_sq {n : ℕ} {R : Matrix (Fin n) (Fin n) ℝ} (h : Spec.Orthogonal R) : R.det ^ 2 = 1 := by
  have := congrArg Matrix.det (h : Rᵀ * R = 1)
  rwa [det_mul, det_transpose, det_one, ← sq] at this

/-- The determinant of a rotated diagonal matrix. -/
theorem det_conj_diag {n : ℕ} {R : Matrix (Fin n) (Fin n) ℝ} (h : Spec.Orthogonal R) (w : Fin n → ℝ) :
    (R * Matrix.diagonal w * Rᵀ).det = ∏ i, w i := by
  rw [det_mul, det_mul, det_transpose, det_diagonal]
  have := det_orthogonal_sq h
  calc R.det * (∏ i, w i) * R.det = R.det ^ 2 * ∏ i, w i := by ring
    _ = _ := by rw [this, one_mul]

theorem det_cols {n d : ℕ} (h : n = d) {R : Matrix (Fin d) (Fin n) ℝ} (hR : Rᵀ * R = 1)
    (M : Matrix (Fin d) (Fin d) ℝ) : (Rᵀ * M * R).det = M.det := by
  subst h
  rw [det_mul, det_mul, det_transpose]
  have := det_orthogonal_sq (R := R) hR
  calc R.det * M.det * R.det = R.det ^ 2 * M.det := by ring
    _ = _ := by rw [this, one_mul]

theorem dot_cols {n d : ℕ} (h : n = d) {R : Matrix (Fin d) (Fin n) ℝ} (hR : Rᵀ * R = 1) (u v : Fin d → ℝ) :
    (Rᵀ *ᵥ u) ⬝ᵥ (Rᵀ *ᵥ v) = u ⬝ᵥ v := by
  subst h
  exact dot_mulVec_orthogonal (Spec.Orthogonal.transpose hR) u v

/-- A bound on a product that holds after enlarging every factor. -/
theorem le_prod_of_forall_pos {n : ℕ} {X : ℝ} {h : Fin n → ℝ} (hX : ∀ ε : ℝ, 0 < ε → X ≤ ∏ i, (h i + ε)) :
    X ≤ ∏ i, h i := by
  have hc : Filter.Tendsto (fun ε : ℝ => ∏ i, (h i + ε)) (nhdsWithin 0 (Set.Ioi 0)) (nhds (∏ i, h i)) := by
    have : Continuous fun ε : ℝ => ∏ i, (h i + ε) := by fun_prop
    have h1 := this.tendsto 0
    simp only [add_zero] at h1
    exact h1.mono_left nhdsWithin_le_nhds
  refine ge_of_tendsto hc ?_
  filter_upwards [self_mem_nhdsWithin] with ε hε using hX ε hε

/-- Enlarging half extents enlarges the ellipsoid. -/
theorem ellipsoid_mono {n : ℕ} {h g : Fin n → ℝ} {W : Matrix (Fin n) (Fin n) ℝ} {c : Fin n → ℝ} (h0 : ∀ i, 0 ≤ h i)
    (hg : ∀ i, h i ≤ g i) : Spec.ellipsoid h W c ⊆ Spec.ellipsoid g W c := by
  rintro p ⟨u, hu, rfl⟩
  refine ⟨fun i => h i * u i / g i, le_trans (Finset.sum_le_sum fun i _ => ?_) hu, ?_⟩
  · have h1 := h0 i
    have h2 := hg i
    rcases eq_or_lt_of_le (h1.trans h2) with h3 | h3
    · simp only [← h3, div_zero, mul_zero]; exact mul_self_nonneg _
    · have h4 : h i * u i / g i = (h i / g i) * u i := by ring
      dsimp only
      rw [h4]
      have h5 : h i / g i ≤ 1 := (div_le_one h3).mpr h2
      have h6 : 0 ≤ h i / g i := div_nonneg h1 h3.le
      nlinarith [mul_self_nonneg (u i), mul_le_one₀ h5 h6 h5]
  · congr 1
    ext i
    rcases eq_or_ne (g i) 0 with h3 | h3
    · have : h i = 0 := le_antisymm (by rw [← h3]; exact hg i) (h0 i)
      simp [this]
    · rw [mul_div_cancel₀ _ h3]

theorem ellipsoid_convex {n : ℕ} (h : Fin n → ℝ) (W : Matrix (Fin n) (Fin n) ℝ) (c : Fin n → ℝ) :
    Convex ℝ (Spec.ellipsoid h W c) := by
  rintro _ ⟨u, hu, rfl⟩ _ ⟨v, hv, rfl⟩ a b ha hb hab
  have hball := ball_convex (K := ℝ) (n := n) 1 0
  have hm : ∀ w : Fin n → ℝ, w ∈ Spec.ball (1 : ℝ) 0 ↔ w ⬝ᵥ w ≤ 1 := by
    intro w; simp [Spec.ball]
  refine ⟨a • u + b • v, (hm _).1 (hball ((hm u).2 hu) ((hm v).2 hv) ha hb hab), ?_⟩
  unfold Spec.rigid
  have e : (fun i => h i * (a • u + b • v) i) = a • (fun i => h i * u i) + b • (fun i => h i * v i) := by
    ext i; simp; ring
  rw [e, mulVec_add, mulVec_smul, mulVec_smul]
  have : c = a • c + b • c := by rw [← add_smul, hab, one_smul]
  conv_rhs => rw [this]
  module

theorem volume_mono {d : ℕ} {e e' : Ellipsoid ℝ d} (h : ∏ i, e.halfExtents i ≤ ∏ i, e'.halfExtents i) :
    e.volume ≤ e'.volume := by
  unfold Ellipsoid.volume
  have := Real.pi_pos
  gcongr

/-- Affine maps between different dimensions map hulls to hulls. -/
theorem hull_map {n d : ℕ} (R : Matrix (Fin d) (Fin n) ℝ) (r : Fin d → ℝ) (vs : List (Fin n → ℝ)) {y : Fin n → ℝ}
    (hy : y ∈ Spec.hull vs) : R *ᵥ y + r ∈ Spec.hull (vs.map fun y => R *ᵥ y + r) := by
  let f : (Fin n → ℝ) →ᵃ[ℝ] (Fin d → ℝ) := (Matrix.mulVecLin R).toAffineMap + AffineMap.const ℝ _ r
  have hf : ∀ v, f v = R *ᵥ v + r := fun v => by simp [f]
  have h := Set.mem_image_of_mem f hy
  unfold Spec.hull at h ⊢
  rw [f.image_convexHull, hf] at h
  convert h using 2
  ext v
  simp [hf]

end Rigeo
