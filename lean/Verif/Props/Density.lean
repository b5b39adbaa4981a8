import Verif.Lemmas.Uniform
import Verif.Props.Measure
import Verif.Lemmas.Optim

/-!
# C57, C58: the inertial parameters of uniform densities
-/

namespace Rigeo

open MeasureTheory Matrix

/-! ### Auxiliary -/

theorem outer_zero_left {m n : ℕ} (v : Fin n → ℝ) : outer (0 : Fin m → ℝ) v = 0 := by
  ext i j
  simp [outer_apply]

theorem outer_zero_right {m n : ℕ} (v : Fin m → ℝ) : outer v (0 : Fin n → ℝ) = 0 := by
  ext i j
  simp [outer_apply]

/-- The common last step of all density methods. -/
theorem density_transform (m : ℝ) (hm : 0 < m) (D : Matrix (Fin 3) (Fin 3) ℝ) (R : Matrix (Fin 3) (Fin 3) ℝ)
    (c : Fin 3 → ℝ) :
    (IP.init m (h := some 0) (H := some D) >>= fun p => p.transform (rotation := some R) (translation := some c)) =
      .ok ⟨m, c, R * D * Rᵀ + m • outer c c⟩ := by
  have h0 : (fun i => (0 : Fin 3 → ℝ) i / m) = 0 := by
    ext i
    simp
  have h1 : IP.init m (h := some 0) (H := some D) = .ok ⟨m, 0, D⟩ := by
    simp [IP.init, pyAssert, hm.le, hm.ne', vdiv, h0]
    rfl
  rw [h1]
  show IP.transform _ _ _ = _
  rw [IP.transform]
  dsimp only [Option.getD_some]
  rw [IP.init_com_H _ hm.le, mulVec_zero, zero_add, IP.Hc]
  dsimp only
  rw [outer_zero_left, smul_zero, sub_zero]

/-- The moments of a centred distribution with diagonal second moment, moved by a rigid motion. -/
theorem moments_rigid {μ : Measure (Fin 3 → ℝ)} {m : ℝ} {D : Matrix (Fin 3) (Fin 3) ℝ} (hμ : Spec.HasMoments μ m 0 D)
    (R : Matrix (Fin 3) (Fin 3) ℝ) (c : Fin 3 → ℝ) :
    Spec.HasMoments (μ.map (Spec.rigid R c)) m (m • c) (R * D * Rᵀ + m • outer c c) := by
  have := HasMoments.map hμ R c
  rw [mulVec_zero, zero_add, outer_zero_left, outer_zero_right, add_zero, add_zero] at this
  exact this

/-- The same for a uniform density on a symmetric solid that is first stretched by `h`. -/
theorem moments_stretch {μ : Measure (Fin 3 → ℝ)} {m : ℝ} {D : Fin 3 → ℝ} (hμ : Spec.HasMoments μ m 0 (m • diagonal D))
    (h : Fin 3 → ℝ) (R : Matrix (Fin 3) (Fin 3) ℝ) (c : Fin 3 → ℝ) :
    Spec.HasMoments (μ.map fun p => (R * diagonal h) *ᵥ p + c) m (m • c)
      (R * (m • diagonal fun i => D i * h i ^ 2) * Rᵀ + m • outer c c) := by
  have := HasMoments.map hμ (R * diagonal h) c
  rw [mulVec_zero, zero_add, outer_zero_left, outer_zero_right, add_zero, add_zero] at this
  convert this using 2
  rw [transpose_mul, diagonal_transpose, Matrix.mul_smul, Matrix.mul_smul, Matrix.smul_mul, Matrix.smul_mul]
  congr 1
  rw [← Matrix.mul_assoc, Matrix.mul_assoc R, Matrix.mul_assoc R, diagonal_mul_diagonal, Matrix.mul_assoc R,
    diagonal_mul_diagonal, Matrix.mul_assoc]
  congr 3
  ext i
  ring

/-- A distribution with the given mean and second moment, in the form the density methods return. -/
theorem density_moments {μ : Measure (Fin 3 → ℝ)} {m : ℝ} {c : Fin 3 → ℝ} {H : Matrix (Fin 3) (Fin 3) ℝ}
    (h : Spec.HasMoments μ m (m • c) H) : Spec.HasMoments μ (IP.mk m c H).mass (IP.mk m c H).h (IP.mk m c H).H := h

/-! ### The shapes as images of the unit bodies -/

theorem box_image (h : Fin 3 → ℝ) (R : Matrix (Fin 3) (Fin 3) ℝ) (c : Fin 3 → ℝ) (hh : ∀ i, 0 ≤ h i) :
    Spec.box h R c = (fun p => (R * diagonal h) *ᵥ p + c) '' unitCube 3 := by
  ext p
  constructor
  · rintro ⟨y, hy, rfl⟩
    refine ⟨fun i => y i / h i, ?_, ?_⟩
    · intro i _
      rw [Set.mem_Icc, ← abs_le, abs_div, abs_of_nonneg (hh i)]
      exact div_le_one_of_le₀ (hy i) (hh i)
    · show (R * diagonal h) *ᵥ _ + c = Spec.rigid R c y
      rw [Spec.rigid, ← mulVec_mulVec]
      congr 2
      ext i
      rw [mulVec_diagonal]
      rcases (hh i).eq_or_lt with h0 | h0
      · have := hy i
        rw [← h0, abs_nonpos_iff] at this
        rw [this, ← h0, zero_mul]
      · rw [mul_div_cancel₀ _ h0.ne']
  · rintro ⟨u, hu, rfl⟩
    refine ⟨diagonal h *ᵥ u, fun i => ?_, ?_⟩
    · rw [mulVec_diagonal, abs_mul, abs_of_nonneg (hh i)]
      have := abs_le.2 (hu i (Set.mem_univ i))
      nlinarith [hh i]
    · rw [Spec.rigid, mulVec_mulVec]

theorem ellipsoid_image {n : ℕ} (h : Fin n → ℝ) (R : Matrix (Fin n) (Fin n) ℝ) (c : Fin n → ℝ) :
    Spec.ellipsoid h R c = (fun p => (R * diagonal h) *ᵥ p + c) '' unitBall n := by
  ext p
  constructor
  · rintro ⟨u, hu, rfl⟩
    refine ⟨u, hu, ?_⟩
    show (R * diagonal h) *ᵥ u + c = _
    rw [Spec.rigid, ← mulVec_mulVec]
    congr 2
    ext i
    rw [mulVec_diagonal]
  · rintro ⟨u, hu, rfl⟩
    refine ⟨u, hu, ?_⟩
    show (R * diagonal h) *ᵥ u + c = _
    rw [Spec.rigid, ← mulVec_mulVec]
    congr 2
    ext i
    rw [mulVec_diagonal]

theorem cylinder_image (L r : ℝ) (R : Matrix (Fin 3) (Fin 3) ℝ) (c : Fin 3 → ℝ) (hL : 0 ≤ L) (hr : 0 ≤ r) :
    Spec.cylinder L r R c = (fun p => (R * diagonal ![r, r, L / 2]) *ᵥ p + c) '' unitCylinder := by
  ext p
  constructor
  · rintro ⟨y, h1, h2, rfl⟩
    refine ⟨![y 0 / r, y 1 / r, y 2 / (L / 2)], ⟨?_, ?_⟩, ?_⟩
    · show |y 2 / (L / 2)| ≤ 1
      rw [abs_div, abs_of_nonneg (by positivity : 0 ≤ L / 2)]
      exact div_le_one_of_le₀ h1 (by positivity)
    · show (y 0 / r) ^ 2 + (y 1 / r) ^ 2 ≤ 1
      rw [div_pow, div_pow, ← add_div]
      exact div_le_one_of_le₀ h2 (by positivity)
    · show (R * diagonal _) *ᵥ _ + c = Spec.rigid R c y
      rw [Spec.rigid, ← mulVec_mulVec]
      have hxy : ∀ a : ℝ, a ^ 2 ≤ r ^ 2 → r * (a / r) = a := by
        intro a ha
        rcases hr.eq_or_lt with h0 | h0
        · rw [← h0] at ha ⊢
          have : a = 0 := by nlinarith [sq_nonneg a]
          rw [this, zero_mul]
        · rw [mul_div_cancel₀ _ h0.ne']
      congr 2
      ext i
      rw [mulVec_diagonal]
      fin_cases i
      · exact hxy _ (by nlinarith [sq_nonneg (y 1)])
      · exact hxy _ (by nlinarith [sq_nonneg (y 0)])
      · show L / 2 * (y 2 / (L / 2)) = y 2
        rcases hL.eq_or_lt with h0 | h0
        · rw [← h0] at h1 ⊢
          have : y 2 = 0 := by simpa using h1
          rw [this]
          simp
        · exact mul_div_cancel₀ _ (by positivity : L / 2 ≠ 0)
  · rintro ⟨u, ⟨h1, h2⟩, rfl⟩
    refine ⟨diagonal ![r, r, L / 2] *ᵥ u, ?_, ?_, ?_⟩
    · rw [mulVec_diagonal]
      show |L / 2 * u 2| ≤ L / 2
      rw [abs_mul, abs_of_nonneg (by positivity : 0 ≤ L / 2)]
      nlinarith
    · rw [mulVec_diagonal, mulVec_diagonal]
      show (r * u 0) ^ 2 + (r * u 1) ^ 2 ≤ r ^ 2
      nlinarith [sq_nonneg r]
    · rw [Spec.rigid, mulVec_mulVec]

theorem det_stretch {n : ℕ} (R : Matrix (Fin n) (Fin n) ℝ) (hR : Spec.Orthogonal R) (h : Fin n → ℝ) (hh : ∀ i, 0 ≤ h i) :
    |(R * diagonal h).det| = ∏ i, h i := by
  have h1 := det_orthogonal_sq hR
  have h2 : |R.det| = 1 := by
    rw [← sq_abs] at h1
    nlinarith [abs_nonneg R.det]
  rw [det_mul, abs_mul, h2, one_mul, det_diagonal, abs_of_nonneg (Finset.prod_nonneg fun i _ => hh i)]

theorem det_stretch_ne {n : ℕ} (R : Matrix (Fin n) (Fin n) ℝ) (hR : Spec.Orthogonal R) (h : Fin n → ℝ)
    (hh : ∀ i, 0 < h i) : (R * diagonal h).det ≠ 0 := by
  rw [← abs_ne_zero, det_stretch R hR h fun i => (hh i).le]
  exact (Finset.prod_pos fun i _ => hh i).ne'

/-! ### C57: solids -/

theorem Box.uniformDensityParams_ok (b : Box ℝ) (m : ℝ) (hm : 0 < m) :
    b.uniformDensityParams m = .ok ⟨m, b.center,
      b.rotation * (m • diagonal fun i => 1 / 3 * b.halfExtents i ^ 2) * b.rotationᵀ + m • outer b.center b.center⟩ := by
  rw [← density_transform m hm, Box.uniformDensityParams]
  simp only [pyAssert, hm.le, decide_true, if_true]
  have : (Matrix.of fun i j => m * diagonal (fun i => b.halfExtents i ^ 2) i j / 3) =
      m • diagonal fun i => 1 / 3 * b.halfExtents i ^ 2 := by
    ext i j
    by_cases hij : i = j
    · subst hij
      simp
      ring
    · simp [hij]
  rw [this]
  rfl

theorem Ellipsoid.uniformDensityParams_ok (e : Ellipsoid ℝ 3) (m : ℝ) (hm : 0 < m) :
    e.uniformDensityParams m = .ok ⟨m, e.center,
      e.rotation * (m • diagonal fun i => 1 / 5 * e.halfExtents i ^ 2) * e.rotationᵀ + m • outer e.center e.center⟩ := by
  rw [← density_transform m hm, Ellipsoid.uniformDensityParams]
  simp only [pyAssert, hm.le, decide_true, if_true]
  have : (Matrix.of fun i j => m * diagonal (fun i => e.halfExtents i ^ 2) i j / 5) =
      m • diagonal fun i => 1 / 5 * e.halfExtents i ^ 2 := by
    ext i j
    by_cases hij : i = j
    · subst hij
      simp
      ring
    · simp [hij]
  rw [this]
  rfl

theorem Cylinder.uniformDensityParams_ok (c : Cylinder ℝ) (m : ℝ) (hm : 0 < m) :
    c.uniformDensityParams m = .ok ⟨m, c.center,
      c.rotation * (m • diagonal fun i => (![1 / 4, 1 / 4, 1 / 3] : Fin 3 → ℝ) i *
        (![c.radius, c.radius, c.length / 2] : Fin 3 → ℝ) i ^ 2) * c.rotationᵀ + m • outer c.center c.center⟩ := by
  rw [← density_transform m hm, Cylinder.uniformDensityParams]
  simp only [pyAssert, hm.le, decide_true, if_true]
  have : (diagonal ![m * c.radius ^ 2 / 4, m * c.radius ^ 2 / 4, m * c.length ^ 2 / 12] : Matrix (Fin 3) (Fin 3) ℝ) =
      m • diagonal fun i => (![1 / 4, 1 / 4, 1 / 3] : Fin 3 → ℝ) i *
        (![c.radius, c.radius, c.length / 2] : Fin 3 → ℝ) i ^ 2 := by
    ext i j
    fin_cases i <;> fin_cases j <;> simp [diagonal] <;> ring
  rw [this]
  rfl

/-- C57: boxes of positive extents. -/
theorem C57_box (b : Box ℝ) (hb : ∀ i, 0 < b.halfExtents i) (hR : Spec.Orthogonal b.rotation) (m : ℝ) (hm : 0 < m) :
    ∃ p, b.uniformDensityParams m = .ok p ∧
      Spec.HasMoments (Spec.uniform m (Spec.box b.halfExtents b.rotation b.center)) p.mass p.h p.H := by
  refine ⟨_, b.uniformDensityParams_ok m hm, ?_⟩
  rw [box_image _ _ _ fun i => (hb i).le, uniform_affine _ (det_stretch_ne _ hR _ hb)]
  exact density_moments (moments_stretch (uniform_unitCube m hm.le) _ _ _)

/-- C57: cylinders of positive length and radius. -/
theorem C57_cylinder (c : Cylinder ℝ) (hL : 0 < c.length) (hr : 0 < c.radius) (hR : Spec.Orthogonal c.rotation) (m : ℝ)
    (hm : 0 < m) :
    ∃ p, c.uniformDensityParams m = .ok p ∧
      Spec.HasMoments (Spec.uniform m (Spec.cylinder c.length c.radius c.rotation c.center)) p.mass p.h p.H := by
  refine ⟨_, c.uniformDensityParams_ok m hm, ?_⟩
  rw [cylinder_image _ _ _ _ hL.le hr.le, uniform_affine _ (det_stretch_ne _ hR _ ?_)]
  · exact density_moments (moments_stretch (uniform_unitCylinder m hm.le) _ _ _)
  · intro i
    fin_cases i
    · exact hr
    · exact hr
    · exact half_pos hL

/-- C57: ellipsoids of positive extents. -/
theorem C57_ellipsoid (e : Ellipsoid ℝ 3) (he : ∀ i, 0 < e.halfExtents i) (hR : Spec.Orthogonal e.rotation) (m : ℝ)
    (hm : 0 < m) :
    ∃ p, e.uniformDensityParams m = .ok p ∧
      Spec.HasMoments (Spec.uniform m (Spec.ellipsoid e.halfExtents e.rotation e.center)) p.mass p.h p.H := by
  refine ⟨_, e.uniformDensityParams_ok m hm, ?_⟩
  rw [ellipsoid_image, uniform_affine _ (det_stretch_ne _ hR _ he)]
  have := moments_stretch (uniform_unitBall (n := 2) m hm.le) e.halfExtents e.rotation e.center
  norm_num at this ⊢
  exact density_moments this

example : ∃ p, (⟨![1, 2, 3], 1, ![1, 0, 0]⟩ : Box ℝ).uniformDensityParams 6 = .ok p ∧
    Spec.HasMoments (Spec.uniform 6 (Spec.box ![1, 2, 3] 1 ![1, 0, 0])) p.mass p.h p.H :=
  C57_box ⟨![1, 2, 3], 1, ![1, 0, 0]⟩ (by intro i; fin_cases i <;> norm_num) Spec.Orthogonal.one 6 (by norm_num)

example : ∃ p, (⟨![1, 2, 3], 1, ![1, 0, 0]⟩ : Ellipsoid ℝ 3).uniformDensityParams 6 = .ok p ∧
    Spec.HasMoments (Spec.uniform 6 (Spec.ellipsoid ![1, 2, 3] 1 ![1, 0, 0])) p.mass p.h p.H :=
  C57_ellipsoid ⟨![1, 2, 3], 1, ![1, 0, 0]⟩ (by intro i; fin_cases i <;> norm_num) Spec.Orthogonal.one 6 (by norm_num)

example : ∃ p, (⟨4, 2, 1, ![1, 0, 0]⟩ : Cylinder ℝ).uniformDensityParams 6 = .ok p ∧
    Spec.HasMoments (Spec.uniform 6 (Spec.cylinder 4 2 1 ![1, 0, 0])) p.mass p.h p.H :=
  C57_cylinder ⟨4, 2, 1, ![1, 0, 0]⟩ (by norm_num) (by norm_num) Spec.Orthogonal.one 6 (by norm_num)

/-- C57: flat boxes (plates, rods) too. The point `R (h u) + c` with `u` evenly distributed over the cube is evenly
distributed over the box, whether or not some of the half extents are zero. -/
theorem C57_box_flat (b : Box ℝ) (m : ℝ) (hm : 0 < m) :
    ∃ p, b.uniformDensityParams m = .ok p ∧
      Spec.HasMoments ((Spec.uniform m {u : Fin 3 → ℝ | ∀ i, |u i| ≤ 1}).map
        fun u => Spec.rigid b.rotation b.center fun i => b.halfExtents i * u i) p.mass p.h p.H := by
  refine ⟨_, b.uniformDensityParams_ok m hm, ?_⟩
  have h1 : {u : Fin 3 → ℝ | ∀ i, |u i| ≤ 1} = unitCube 3 := by
    ext u
    simp only [unitCube, abs_le, Set.mem_ofPred_eq, Set.mem_univ_pi, Set.mem_Icc]
  have h2 : (fun u : Fin 3 → ℝ => Spec.rigid b.rotation b.center fun i => b.halfExtents i * u i) =
      fun p => (b.rotation * diagonal b.halfExtents) *ᵥ p + b.center := by
    ext1 u
    rw [Spec.rigid, ← mulVec_mulVec]
    congr 2
    ext i
    rw [mulVec_diagonal]
  rw [h1, h2]
  exact density_moments (moments_stretch (uniform_unitCube m hm.le) _ _ _)

/-- C57: and flat cylinders (disks, rods). -/
theorem C57_cylinder_flat (c : Cylinder ℝ) (m : ℝ) (hm : 0 < m) :
    ∃ p, c.uniformDensityParams m = .ok p ∧
      Spec.HasMoments ((Spec.uniform m {u : Fin 3 → ℝ | |u 2| ≤ 1 ∧ u 0 ^ 2 + u 1 ^ 2 ≤ 1}).map
        fun u => Spec.rigid c.rotation c.center ![c.radius * u 0, c.radius * u 1, c.length / 2 * u 2])
        p.mass p.h p.H := by
  refine ⟨_, c.uniformDensityParams_ok m hm, ?_⟩
  have h2 : (fun u : Fin 3 → ℝ => Spec.rigid c.rotation c.center ![c.radius * u 0, c.radius * u 1, c.length / 2 * u 2]) =
      fun p => (c.rotation * diagonal ![c.radius, c.radius, c.length / 2]) *ᵥ p + c.center := by
    ext1 u
    rw [Spec.rigid, ← mulVec_mulVec]
    congr 2
    ext i
    rw [mulVec_diagonal]
    fin_cases i <;> rfl
  rw [h2]
  exact density_moments (moments_stretch (uniform_unitCylinder m hm.le) _ _ _)

/-- The second moments of a disk. -/
theorem disk_moments (r : ℝ) (R : Matrix (Fin 3) (Fin 3) ℝ) (c : Fin 3 → ℝ) (m : ℝ) (hm : 0 ≤ m) :
    Spec.HasMoments ((Spec.uniform m {u : Fin 2 → ℝ | u ⬝ᵥ u ≤ 1}).map
      fun u => Spec.rigid R c ![r * u 0, r * u 1, 0]) m (m • c)
      (R * (m • diagonal ![r ^ 2 / 4, r ^ 2 / 4, 0]) * Rᵀ + m • outer c c) := by
  have h1 := HasMoments.map (uniform_unitBall (n := 1) m hm) (Matrix.of ![![r, 0], ![0, r], ![0, 0]]) 0
  rw [mulVec_zero, zero_add, outer_zero_left, smul_zero, smul_zero, add_zero, add_zero, add_zero] at h1
  have h2 := moments_rigid (D := m • diagonal ![r ^ 2 / 4, r ^ 2 / 4, 0]) (m := m)
    (μ := (Spec.uniform m (unitBall 2)).map fun p => Matrix.of ![![r, 0], ![0, r], ![0, 0]] *ᵥ p + 0) (by
      convert h1 using 1
      · have e : (m • diagonal fun _ => 1 / (((1 : ℕ) : ℝ) + 3) : Matrix (Fin 2) (Fin 2) ℝ) = (m / 4) • 1 := by
          ext i j
          by_cases hij : i = j
          · subst hij
            simp
            ring
          · simp [hij]
        rw [e, Matrix.mul_smul, Matrix.mul_one, Matrix.smul_mul]
        ext i j
        rw [Matrix.smul_apply, Matrix.smul_apply, Matrix.mul_apply, Fin.sum_univ_two, transpose_apply, transpose_apply]
        fin_cases i <;> fin_cases j <;> simp [diagonal] <;> ring) R c
  convert h2 using 1
  rw [Measure.map_map (by unfold Spec.rigid; fun_prop) (by fun_prop)]
  congr 1
  ext1 u
  show _ = Spec.rigid R c _
  congr 1
  ext i
  fin_cases i <;> simp [mulVec, dotProduct, Fin.sum_univ_two]

/-- C57, the defect: for the disk obtained as a flat ellipsoid, the method does not return the moments of a disk of
uniform density (it gives `m r²/5` instead of `m r²/4`, the value of `Cylinder` of length zero). -/
theorem C57_disk_wrong (r : ℝ) (hr : 0 < r) (R : Matrix (Fin 3) (Fin 3) ℝ) (hR : Spec.Orthogonal R) (c : Fin 3 → ℝ)
    (m : ℝ) (hm : 0 < m) :
    ∃ p q, (⟨![r, r, 0], R, c⟩ : Ellipsoid ℝ 3).uniformDensityParams m = .ok p ∧
      (⟨0, r, R, c⟩ : Cylinder ℝ).uniformDensityParams m = .ok q ∧
      ¬ Spec.HasMoments ((Spec.uniform m {u : Fin 2 → ℝ | u ⬝ᵥ u ≤ 1}).map
        fun u => Spec.rigid R c ![r * u 0, r * u 1, 0]) p.mass p.h p.H ∧
      Spec.HasMoments ((Spec.uniform m {u : Fin 2 → ℝ | u ⬝ᵥ u ≤ 1}).map
        fun u => Spec.rigid R c ![r * u 0, r * u 1, 0]) q.mass q.h q.H := by
  have hd := disk_moments r R c m hm.le
  refine ⟨_, _, Ellipsoid.uniformDensityParams_ok _ m hm, Cylinder.uniformDensityParams_ok _ m hm, ?_, ?_⟩
  · intro hp
    have e : (R * (m • diagonal fun i => 1 / 5 * (![r, r, 0] : Fin 3 → ℝ) i ^ 2) * Rᵀ + m • outer c c) =
        (R * (m • diagonal ![r ^ 2 / 4, r ^ 2 / 4, 0]) * Rᵀ + m • outer c c) := by
      ext i j
      rw [← hd.second i j]
      exact (hp.second i j).symm
    have e2 := congrArg (fun X => Rᵀ * X * R) (add_right_cancel e)
    have e3 : ∀ D : Matrix (Fin 3) (Fin 3) ℝ, Rᵀ * (R * D * Rᵀ) * R = D := by
      intro D
      rw [show Rᵀ * (R * D * Rᵀ) * R = (Rᵀ * R) * D * (Rᵀ * R) by simp only [Matrix.mul_assoc], hR, Matrix.one_mul,
        Matrix.mul_one]
    simp only [e3] at e2
    have e4 := congrFun (congrFun e2 0) 0
    simp [diagonal] at e4
    rcases e4 with e4 | e4
    · nlinarith [sq_pos_of_pos hr]
    · exact hm.ne' e4
  · have : (![r ^ 2 / 4, r ^ 2 / 4, 0] : Fin 3 → ℝ) = fun i => (![1 / 4, 1 / 4, 1 / 3] : Fin 3 → ℝ) i *
        (![r, r, 0 / 2] : Fin 3 → ℝ) i ^ 2 := by
      ext i
      fin_cases i <;> simp <;> ring
    rw [this] at hd
    exact hd

/-! ### C73: volumes -/

/-- C73: `Box.volume` is the volume of the box. -/
theorem C73_box (b : Box ℝ) (hb : ∀ i, 0 ≤ b.halfExtents i) (hR : Spec.Orthogonal b.rotation) :
    b.volume = MeasureTheory.volume.real (Spec.box b.halfExtents b.rotation b.center) := by
  rw [box_image _ _ _ hb, volume_affine, det_stretch _ hR _ hb, unitCube_volume, Box.volume]
  simp only [Box.sideLengths, Fin.prod_univ_three]
  ring

/-- C73: `Cylinder.volume` is the volume of the cylinder. -/
theorem C73_cylinder (c : Cylinder ℝ) (hL : 0 ≤ c.length) (hr : 0 ≤ c.radius) (hR : Spec.Orthogonal c.rotation) :
    c.volume = MeasureTheory.volume.real (Spec.cylinder c.length c.radius c.rotation c.center) := by
  rw [cylinder_image _ _ _ _ hL hr, volume_affine, det_stretch _ hR, unitCylinder_volume, Cylinder.volume,
    Fin.prod_univ_three]
  · show _ = c.radius * c.radius * (c.length / 2) * (2 * Real.pi)
    ring
  · intro i
    fin_cases i
    · exact hr
    · exact hr
    · exact div_nonneg hL zero_le_two

/-- C73: `Ellipsoid.volume` is the volume of the ellipsoid in three dimensions. -/
theorem C73_ellipsoid (e : Ellipsoid ℝ 3) (he : ∀ i, 0 ≤ e.halfExtents i) (hR : Spec.Orthogonal e.rotation) :
    e.volume = MeasureTheory.volume.real (Spec.ellipsoid e.halfExtents e.rotation e.center) := by
  rw [ellipsoid_image, volume_affine, det_stretch _ hR _ he, unitBall_three, Ellipsoid.volume]
  ring

/-- C73, the defect: the same formula is used in every dimension, so `volume` is never the area of a planar ellipse
(except a degenerate one). -/
theorem C73_ellipse_wrong (e : Ellipsoid ℝ 2) (he : ∀ i, 0 < e.halfExtents i) (hR : Spec.Orthogonal e.rotation) :
    e.volume = 4 / 3 * MeasureTheory.volume.real (Spec.ellipsoid e.halfExtents e.rotation e.center) ∧
    e.volume ≠ MeasureTheory.volume.real (Spec.ellipsoid e.halfExtents e.rotation e.center) := by
  have h1 : MeasureTheory.volume.real (Spec.ellipsoid e.halfExtents e.rotation e.center) =
      (∏ i, e.halfExtents i) * Real.pi := by
    rw [ellipsoid_image, volume_affine, det_stretch _ hR _ fun i => (he i).le, unitBall_two]
  have hp : 0 < (∏ i, e.halfExtents i) * Real.pi := mul_pos (Finset.prod_pos fun i _ => he i) Real.pi_pos
  have h2 : e.volume = 4 / 3 * ((∏ i, e.halfExtents i) * Real.pi) := by
    rw [Ellipsoid.volume]
    ring
  rw [h1]
  refine ⟨h2, ?_⟩
  rw [h2]
  intro h
  linarith

end Rigeo
