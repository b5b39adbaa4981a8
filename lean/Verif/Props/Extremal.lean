import Verif.Lemmas.Optim
import Verif.Props.Shapes4

/-!
# C36–C39: extremality of the inscribed and bounding ellipsoids, boxes and spheres
-/

namespace Rigeo

open Matrix

/-- The determinant of a positive semidefinite `3 × 3` matrix is at most the cube of a third of its trace. -/
theorem det_le_trace {M : Matrix (Fin 3) (Fin 3) ℝ} (hM : Spec.PSD M) : M.det ≤ (M.trace / 3) ^ 3 := by
  obtain ⟨V, d, h1, h2, h3⟩ := exists_eigh M hM.1
  have hdet : M.det = ∏ i, d i := by rw [h3]; exact det_conj_diag h1 d
  have htr : M.trace = ∑ i, d i := by
    rw [h3, Matrix.mul_assoc, trace_mul_comm, Matrix.mul_assoc, h1, Matrix.mul_one, trace_diagonal]
  have hd : ∀ i, 0 ≤ d i := by
    intro i
    have h4 := hM.2 (V *ᵥ Pi.single i 1)
    rw [h3, quad_diag, mulVec_mulVec, h1, one_mulVec] at h4
    simpa [Pi.single_apply] using h4
  rw [hdet, htr, Fin.prod_univ_three, Fin.sum_univ_three]
  have := hd 0
  have := hd 1
  have := hd 2
  nlinarith [mul_nonneg (hd 0) (sq_nonneg (d 1 - d 2)), mul_nonneg (hd 1) (sq_nonneg (d 0 - d 2)),
    mul_nonneg (hd 2) (sq_nonneg (d 0 - d 1)), mul_nonneg (hd 0) (sq_nonneg (d 0 - d 2)), mul_nonneg (hd 0) (sq_nonneg (d 0 - d 1)),
    mul_nonneg (hd 1) (sq_nonneg (d 1 - d 2)), mul_nonneg (hd 1) (sq_nonneg (d 1 - d 0)),
    mul_nonneg (hd 2) (sq_nonneg (d 2 - d 0)), mul_nonneg (hd 2) (sq_nonneg (d 2 - d 1))]

theorem le_of_sq_le {a b : ℝ} (hb : 0 ≤ b) (h : a ^ 2 ≤ b ^ 2) : a ≤ b := (abs_le_of_sq_le_sq' h hb).2

theorem det_sq_le_trace (B : Matrix (Fin 3) (Fin 3) ℝ) : B.det ^ 2 ≤ ((Bᵀ * B).trace / 3) ^ 3 := by
  have h := det_le_trace (Spec.PSD.transpose_mul_self B)
  rwa [det_mul, det_transpose, ← sq] at h

theorem dot_self_add_sub {n : ℕ} (a b : Fin n → ℝ) :
    (a + b) ⬝ᵥ (a + b) + (a - b) ⬝ᵥ (a - b) = 2 * (a ⬝ᵥ a) + 2 * (b ⬝ᵥ b) := by
  simp only [add_dotProduct, dotProduct_add, sub_dotProduct, dotProduct_sub]
  ring

/-- Membership in an ellipsoid with positive half extents. -/
theorem mem_ellipsoid_pos {n : ℕ} {W : Matrix (Fin n) (Fin n) ℝ} (hW : Spec.Orthogonal W) {g : Fin n → ℝ} (hg : ∀ i, 0 < g i)
    (c p : Fin n → ℝ) : p ∈ Spec.ellipsoid g W c ↔
      (Matrix.diagonal (fun i => (g i)⁻¹) *ᵥ (Wᵀ *ᵥ (p - c))) ⬝ᵥ (Matrix.diagonal (fun i => (g i)⁻¹) *ᵥ (Wᵀ *ᵥ (p - c))) ≤ 1 := by
  rw [Spec_ellipsoid_iff hW]
  have e : ∑ i, ((Wᵀ *ᵥ (p - c)) i / g i) ^ 2 =
      (Matrix.diagonal (fun i => (g i)⁻¹) *ᵥ (Wᵀ *ᵥ (p - c))) ⬝ᵥ (Matrix.diagonal (fun i => (g i)⁻¹) *ᵥ (Wᵀ *ᵥ (p - c))) := by
    unfold dotProduct
    refine Finset.sum_congr rfl fun i _ => ?_
    rw [mulVec_diagonal, div_eq_mul_inv]
    ring
  rw [e]
  exact and_iff_right fun i hi => absurd hi (hg i).ne'

/-- A box inside an ellipsoid with positive half extents. -/
theorem box_in_ellipsoid_pos {h g c e : Fin 3 → ℝ} {R W : Matrix (Fin 3) (Fin 3) ℝ} (hR : Spec.Orthogonal R)
    (hW : Spec.Orthogonal W) (hh : ∀ i, 0 ≤ h i) (hg : ∀ i, 0 < g i)
    (hsub : Spec.box h R c ⊆ Spec.ellipsoid g W e) : Real.sqrt 3 ^ 3 * ∏ i, h i ≤ ∏ i, g i := by
  set B := Matrix.diagonal (fun i => (g i)⁻¹) * Wᵀ * R * Matrix.diagonal h with hB
  set q := Matrix.diagonal (fun i => (g i)⁻¹) *ᵥ (Wᵀ *ᵥ (c - e)) with hq
  have key : ∀ s : Fin 3 → ℝ, (∀ i, |s i| ≤ 1) → (B *ᵥ s) ⬝ᵥ (B *ᵥ s) ≤ 1 := by
    intro s hs
    have h1 : ∀ s : Fin 3 → ℝ, (∀ i, |s i| ≤ 1) → (q + B *ᵥ s) ⬝ᵥ (q + B *ᵥ s) ≤ 1 := by
      intro s hs
      have hm : Spec.rigid R c (Matrix.diagonal h *ᵥ s) ∈ Spec.box h R c := by
        refine ⟨_, fun i => ?_, rfl⟩
        rw [mulVec_diagonal, abs_mul, abs_of_nonneg (hh i)]
        exact mul_le_of_le_one_right (hh i) (hs i)
      have h2 := (mem_ellipsoid_pos hW hg _ _).1 (hsub hm)
      have e1 : Matrix.diagonal (fun i => (g i)⁻¹) *ᵥ (Wᵀ *ᵥ (Spec.rigid R c (Matrix.diagonal h *ᵥ s) - e)) = q + B *ᵥ s := by
        have e2 : Spec.rigid R c (Matrix.diagonal h *ᵥ s) - e = (c - e) + R *ᵥ (Matrix.diagonal h *ᵥ s) := by
          unfold Spec.rigid; abel
        rw [e2, mulVec_add, mulVec_add, hB, hq]
        simp only [mulVec_mulVec, Matrix.mul_assoc]
      rwa [e1] at h2
    have h2 := h1 s hs
    have h3 := h1 (-s) (fun i => by rw [Pi.neg_apply, abs_neg]; exact hs i)
    rw [mulVec_neg, ← sub_eq_add_neg] at h3
    have h4 := dot_self_add_sub q (B *ᵥ s)
    have h5 := dot_self_nonneg q
    linarith
  have htr : (Bᵀ * B).trace ≤ 1 := by
    have k1 := key ![1, 1, 1] (fun i => by fin_cases i <;> simp)
    have k2 := key ![1, 1, -1] (fun i => by fin_cases i <;> simp)
    have k3 := key ![1, -1, 1] (fun i => by fin_cases i <;> simp)
    have k4 := key ![1, -1, -1] (fun i => by fin_cases i <;> simp)
    simp only [mulVec, dotProduct, Fin.sum_univ_three, Matrix.cons_val_zero, Matrix.cons_val_one, Matrix.cons_val] at k1 k2 k3 k4
    simp only [Matrix.trace, Matrix.diag, Matrix.mul_apply, transpose_apply, Fin.sum_univ_three]
    nlinarith
  have hdet := det_sq_le_trace B
  have htr0 : 0 ≤ (Bᵀ * B).trace := (Spec.PSD.transpose_mul_self B).trace_nonneg
  have hdet2 : B.det ^ 2 ≤ (1 / 3) ^ 3 :=
    hdet.trans (pow_le_pow_left₀ (by positivity) (by linarith) 3)
  have hB2 : B.det ^ 2 = (∏ i, (g i)⁻¹) ^ 2 * (∏ i, h i) ^ 2 := by
    rw [hB, det_mul, det_mul, det_mul, det_transpose, det_diagonal, det_diagonal]
    have w := det_orthogonal_sq hW
    have r := det_orthogonal_sq hR
    calc _ = W.det ^ 2 * R.det ^ 2 * ((∏ i, (g i)⁻¹) ^ 2 * (∏ i, h i) ^ 2) := by ring
      _ = _ := by rw [w, r]; ring
  have hgp : 0 < ∏ i, g i := Finset.prod_pos fun i _ => hg i
  have hhp : 0 ≤ ∏ i, h i := Finset.prod_nonneg fun i _ => hh i
  rw [hB2, Finset.prod_inv_distrib, inv_pow, inv_mul_le_iff₀ (by positivity)] at hdet2
  have h3 : Real.sqrt 3 ^ 2 = 3 := Real.sq_sqrt (by norm_num)
  refine le_of_sq_le hgp.le ?_
  calc (Real.sqrt 3 ^ 3 * ∏ i, h i) ^ 2 = (Real.sqrt 3 ^ 2) ^ 3 * (∏ i, h i) ^ 2 := by ring
    _ ≤ _ := by rw [h3]; linarith

/-- A box inside an ellipsoid: its volume is at most that of the concentric box with half extents `g / √3`. -/
theorem box_in_ellipsoid {h g c e : Fin 3 → ℝ} {R W : Matrix (Fin 3) (Fin 3) ℝ} (hR : Spec.Orthogonal R)
    (hW : Spec.Orthogonal W) (hh : ∀ i, 0 ≤ h i) (hg : ∀ i, 0 ≤ g i)
    (hsub : Spec.box h R c ⊆ Spec.ellipsoid g W e) : Real.sqrt 3 ^ 3 * ∏ i, h i ≤ ∏ i, g i :=
  le_prod_of_forall_pos fun _ hε => box_in_ellipsoid_pos hR hW hh (fun i => add_pos_of_nonneg_of_pos (hg i) hε)
    (hsub.trans (ellipsoid_mono hg fun _ => le_add_of_nonneg_right hε.le))

/-- The half widths of an ellipsoid inside a box. -/
theorem ellipsoid_in_box_rows {n : ℕ} {h g c e : Fin n → ℝ} {R W : Matrix (Fin n) (Fin n) ℝ} (hR : Spec.Orthogonal R)
    (hsub : Spec.ellipsoid g W e ⊆ Spec.box h R c) (i : Fin n) :
    (Rᵀ * W * Matrix.diagonal g) i ⬝ᵥ (Rᵀ * W * Matrix.diagonal g) i ≤ h i ^ 2 := by
  set C := Rᵀ * W * Matrix.diagonal g with hC
  have h1 : ∀ u : Fin n → ℝ, u ⬝ᵥ u ≤ 1 → |C i ⬝ᵥ u + (Rᵀ *ᵥ (e - c)) i| ≤ h i := by
    intro u hu
    have hm := (Spec_box_iff hR _ _ _).1 (hsub ⟨u, hu, rfl⟩) i
    have e1 : Rᵀ *ᵥ (Spec.rigid W e (fun i => g i * u i) - c) = C *ᵥ u + Rᵀ *ᵥ (e - c) := by
      have e2 : Spec.rigid W e (fun i => g i * u i) - c = W *ᵥ (Matrix.diagonal g *ᵥ u) + (e - c) := by
        have e3 : (fun i => g i * u i) = Matrix.diagonal g *ᵥ u := by ext i; rw [mulVec_diagonal]
        unfold Spec.rigid; rw [e3]; abel
      rw [e2, mulVec_add, hC]
      simp only [mulVec_mulVec, Matrix.mul_assoc]
    rw [e1] at hm
    exact hm
  have h2 : ∀ u : Fin n → ℝ, u ⬝ᵥ u ≤ 1 → C i ⬝ᵥ u ≤ h i := by
    intro u hu
    have a1 := (abs_le.mp (h1 u hu)).2
    have a2 := (abs_le.mp (h1 (-u) (by rw [dotProduct_neg, neg_dotProduct, neg_neg]; exact hu))).1
    rw [dotProduct_neg] at a2
    linarith
  have h0 : 0 ≤ h i := by simpa using h2 0 (by simp)
  rcases eq_or_lt_of_le (dot_self_nonneg (C i)) with h3 | h3
  · rw [← h3]; positivity
  · have hs : Real.sqrt (C i ⬝ᵥ C i) ^ 2 = C i ⬝ᵥ C i := Real.sq_sqrt h3.le
    have hp : 0 < Real.sqrt (C i ⬝ᵥ C i) := Real.sqrt_pos.mpr h3
    have h4 := h2 ((Real.sqrt (C i ⬝ᵥ C i))⁻¹ • C i) (by
      rw [dotProduct_smul, smul_dotProduct, smul_eq_mul, smul_eq_mul, ← hs]
      field_simp
      exact le_of_eq (by rw [hs, hs]))
    rw [dotProduct_smul, smul_eq_mul, inv_mul_le_iff₀ hp] at h4
    nlinarith

/-- An ellipsoid inside a box. -/
theorem ellipsoid_in_box_pos {h g c e : Fin 3 → ℝ} {R W : Matrix (Fin 3) (Fin 3) ℝ} (hR : Spec.Orthogonal R)
    (hW : Spec.Orthogonal W) (hh : ∀ i, 0 < h i)
    (hsub : Spec.ellipsoid g W e ⊆ Spec.box h R c) : ∏ i, g i ≤ ∏ i, h i := by
  have hrow := ellipsoid_in_box_rows hR hsub
  set C := Rᵀ * W * Matrix.diagonal g with hC
  set M := Matrix.diagonal (fun i => (h i)⁻¹) * C with hM
  have htr : (Mᵀ * M).trace ≤ 3 := by
    have e1 : (Mᵀ * M).trace = ∑ i, (h i ^ 2)⁻¹ * (C i ⬝ᵥ C i) := by
      have hMij : ∀ i j, M i j = (h i)⁻¹ * C i j := fun i j => by rw [hM, diagonal_mul]
      rw [trace_mul_comm]
      simp only [Matrix.trace, Matrix.diag, Matrix.mul_apply, transpose_apply, hMij, dotProduct, Finset.mul_sum]
      refine Finset.sum_congr rfl fun i _ => Finset.sum_congr rfl fun j _ => ?_
      rw [← inv_pow]
      ring
    rw [e1]
    calc ∑ i, (h i ^ 2)⁻¹ * (C i ⬝ᵥ C i) ≤ ∑ _i : Fin 3, (1 : ℝ) := by
          refine Finset.sum_le_sum fun i _ => ?_
          rw [inv_mul_le_iff₀ (pow_pos (hh i) 2), mul_one]
          exact hrow i
      _ = 3 := by simp
  have htr0 : 0 ≤ (Mᵀ * M).trace := (Spec.PSD.transpose_mul_self M).trace_nonneg
  have hdet2 : M.det ^ 2 ≤ 1 :=
    (det_sq_le_trace M).trans (pow_le_one₀ (by positivity) (by linarith))
  have hM2 : M.det ^ 2 = ((∏ i, h i) ^ 2)⁻¹ * (∏ i, g i) ^ 2 := by
    rw [hM, hC, det_mul, det_mul, det_mul, det_transpose, det_diagonal, det_diagonal, Finset.prod_inv_distrib]
    have w := det_orthogonal_sq hW
    have r := det_orthogonal_sq hR
    calc _ = W.det ^ 2 * R.det ^ 2 * (((∏ i, h i) ^ 2)⁻¹ * (∏ i, g i) ^ 2) := by rw [← inv_pow]; ring
      _ = _ := by rw [w, r]; ring
  have hhp : 0 < ∏ i, h i := Finset.prod_pos fun i _ => hh i
  rw [hM2, inv_mul_le_iff₀ (by positivity), mul_one] at hdet2
  exact le_of_sq_le hhp.le hdet2

theorem box_mono {n : ℕ} {h g : Fin n → ℝ} {W : Matrix (Fin n) (Fin n) ℝ} {c : Fin n → ℝ} (hg : ∀ i, h i ≤ g i) :
    Spec.box h W c ⊆ Spec.box g W c := by
  rintro p ⟨y, hy, rfl⟩
  exact ⟨y, fun i => (hy i).trans (hg i), rfl⟩

theorem ellipsoid_in_box {h g c e : Fin 3 → ℝ} {R W : Matrix (Fin 3) (Fin 3) ℝ} (hR : Spec.Orthogonal R)
    (hW : Spec.Orthogonal W) (hh : ∀ i, 0 ≤ h i) (hsub : Spec.ellipsoid g W e ⊆ Spec.box h R c) : ∏ i, g i ≤ ∏ i, h i :=
  le_prod_of_forall_pos fun _ hε => ellipsoid_in_box_pos hR hW (fun i => add_pos_of_nonneg_of_pos (hh i) hε)
    (hsub.trans (box_mono fun _ => le_add_of_nonneg_right hε.le))

/-- Box volumes are monotone in the product of the half extents. -/
theorem box_volume_mono {b b' : Box ℝ} (h : ∏ i, b.halfExtents i ≤ ∏ i, b'.halfExtents i) : b.volume ≤ b'.volume := by
  have e : ∀ b : Box ℝ, b.volume = 8 * ∏ i, b.halfExtents i := by
    intro b
    simp only [Box.volume, Box.sideLengths, Fin.prod_univ_three, Pi.smul_apply, smul_eq_mul]
    ring
  rw [e, e]
  linarith

/-! ## C36 -/

/-- C36: `Box.mbe()` returns an ellipsoid that contains the box, and no ellipsoid that contains the box has a smaller
volume. -/
theorem C36_box_mbe (b : Box ℝ) (hb : ∀ i, 0 ≤ b.halfExtents i) (hR : Spec.Orthogonal b.rotation) :
    ∃ e, b.mbe false = .ok e ∧
      Spec.box b.halfExtents b.rotation b.center ⊆ Spec.ellipsoid e.halfExtents e.rotation e.center ∧
      ∀ e' : Ellipsoid ℝ 3, (∀ i, 0 ≤ e'.halfExtents i) → Spec.Orthogonal e'.rotation →
        Spec.box b.halfExtents b.rotation b.center ⊆ Spec.ellipsoid e'.halfExtents e'.rotation e'.center →
        e.volume ≤ e'.volume := by
  obtain ⟨e, he, hsub⟩ := C35_box_mbe b hb hR false
  refine ⟨e, he, hsub, fun e' he' hR' hsub' => volume_mono ?_⟩
  rw [b.mbe_false hb] at he
  obtain rfl := Except.ok.inj he
  refine le_trans (le_of_eq ?_) (box_in_ellipsoid hR hR' hb he' hsub')
  simp only [Fin.prod_univ_three]
  ring

/-- C36: `Cylinder.mbe()` is the bounding ellipsoid of the inscribed box. Nevertheless it contains the cylinder, and no
ellipsoid that contains the cylinder has a smaller volume. -/
theorem C36_cylinder_mbe (c : Cylinder ℝ) (hR : Spec.Orthogonal c.rotation) (hL : 0 ≤ c.length) (hr : 0 ≤ c.radius) :
    ∃ e, c.mbe false = .ok e ∧
      Spec.cylinder c.length c.radius c.rotation c.center ⊆ Spec.ellipsoid e.halfExtents e.rotation e.center ∧
      ∀ e' : Ellipsoid ℝ 3, (∀ i, 0 ≤ e'.halfExtents i) → Spec.Orthogonal e'.rotation →
        Spec.cylinder c.length c.radius c.rotation c.center ⊆ Spec.ellipsoid e'.halfExtents e'.rotation e'.center →
        e.volume ≤ e'.volume := by
  obtain ⟨bi, bb, e, s, h1, h2, h3, h4, h5, h6, h7, h8⟩ := C35_cylinder c hR hL hr
  refine ⟨e, h3, h7, fun e' he' hR' hsub' => ?_⟩
  have hn : ∀ i, 0 ≤ (![c.radius / Real.sqrt 2, c.radius / Real.sqrt 2, c.length / 2] : Fin 3 → ℝ) i := by
    intro i
    fin_cases i
    · exact div_nonneg hr (Real.sqrt_nonneg _)
    · exact div_nonneg hr (Real.sqrt_nonneg _)
    · exact div_nonneg hL zero_le_two
  have hbi : bi = ⟨![c.radius / Real.sqrt 2, c.radius / Real.sqrt 2, c.length / 2], c.rotation, c.center⟩ := by
    unfold Cylinder.mib at h1
    dsimp only at h1
    rw [Box.init_ok _ hn] at h1
    exact (Except.ok.inj h1).symm
  obtain ⟨e₂, he₂, -, hmin⟩ := C36_box_mbe bi (by rw [hbi]; exact hn) (by rw [hbi]; exact hR)
  have : e = e₂ := by
    unfold Cylinder.mbe at h3
    rw [h1] at h3
    have h3' : bi.mbe false = .ok e := h3
    rw [he₂] at h3'
    exact (Except.ok.inj h3').symm
  rw [this]
  exact hmin e' he' hR' (h5.trans hsub')

/-! ## C37 -/

/-- C37: `Box.mie()` returns an ellipsoid inside the box, and no ellipsoid inside the box has a larger volume. -/
theorem C37_box_mie (b : Box ℝ) (hb : ∀ i, 0 ≤ b.halfExtents i) (hR : Spec.Orthogonal b.rotation) :
    ∃ e, b.mie false = .ok e ∧
      Spec.ellipsoid e.halfExtents e.rotation e.center ⊆ Spec.box b.halfExtents b.rotation b.center ∧
      ∀ e' : Ellipsoid ℝ 3, Spec.Orthogonal e'.rotation →
        Spec.ellipsoid e'.halfExtents e'.rotation e'.center ⊆ Spec.box b.halfExtents b.rotation b.center →
        e'.volume ≤ e.volume := by
  obtain ⟨e, he, hsub⟩ := C35_box_mie b hb hR false
  refine ⟨e, he, hsub, fun e' hR' hsub' => volume_mono ?_⟩
  have he2 : b.mie false = .ok ⟨b.halfExtents, b.rotation, b.center⟩ := by simp [Box.mie, Ellipsoid.init_ok _ hb]
  rw [he2] at he
  obtain rfl := Except.ok.inj he
  exact ellipsoid_in_box hR hR' hb hsub'

/-- C37: `Box.mie(sphere=True)` returns the largest ball inside the box. -/
theorem C37_box_mie_sphere (b : Box ℝ) (hb : ∀ i, 0 ≤ b.halfExtents i) (hR : Spec.Orthogonal b.rotation) :
    ∃ (e : Ellipsoid ℝ 3) (r : ℝ), b.mie true = .ok e ∧
      Spec.ellipsoid e.halfExtents e.rotation e.center = Spec.ball r e.center ∧
      Spec.ball r e.center ⊆ Spec.box b.halfExtents b.rotation b.center ∧
      ∀ (r' : ℝ) (c' : Fin 3 → ℝ), Spec.ball r' c' ⊆ Spec.box b.halfExtents b.rotation b.center → r' ≤ r := by
  obtain ⟨e, he, hsub⟩ := C35_box_mie b hb hR true
  set r := Finset.univ.inf' Finset.univ_nonempty b.halfExtents with hr
  have hr0 : 0 ≤ r := by
    rw [hr, Finset.le_inf'_iff]
    exact fun i _ => hb i
  have he2 : b.mie true = .ok ⟨fun _ => r, 1, b.center⟩ := by
    simp [Box.mie, Ellipsoid.minExtent, bind, Except.bind, ← hr, Ellipsoid.sphere_ok _ hr0]
  rw [he2] at he
  obtain rfl := Except.ok.inj he
  have hset : Spec.ellipsoid (fun _ => r) 1 b.center = Spec.ball r b.center :=
    Set.ext fun p => ellipsoid_ball r hr0 Spec.Orthogonal.one _ _
  refine ⟨_, r, he2, hset, ?_, fun r' c' hsub' => ?_⟩
  · dsimp only at hsub ⊢
    rw [hset] at hsub
    exact hsub
  · rcases le_total 0 r' with h0 | h0
    · rw [hr, Finset.le_inf'_iff]
      intro i _
      have hsub2 : Spec.ellipsoid (fun _ => r') 1 c' ⊆ Spec.box b.halfExtents b.rotation b.center := fun p hp =>
        hsub' ((ellipsoid_ball r' h0 Spec.Orthogonal.one _ _).1 hp)
      have h1 := ellipsoid_in_box_rows hR hsub2 i
      have h2 : b.rotationᵀ i ⬝ᵥ b.rotationᵀ i = 1 := by
        have := congrFun (congrFun hR i) i
        rw [Matrix.mul_apply] at this
        simpa [dotProduct] using this
      have h3 : (b.rotationᵀ * 1 * Matrix.diagonal (fun _ => r') : Matrix (Fin 3) (Fin 3) ℝ) i = r' • b.rotationᵀ i := by
        ext j
        rw [Matrix.mul_one, mul_diagonal]
        simp [mul_comm]
      rw [h3, dotProduct_smul, smul_dotProduct, h2] at h1
      simp only [smul_eq_mul, mul_one] at h1
      exact le_of_sq_le (hb i) (by nlinarith)
    · exact h0.trans hr0

/-! ## C38 -/

/-- C38: no box inside an ellipsoid has a larger volume than `mib()`, no box that contains it a smaller volume than
`mbb()`, whatever the orientation of the box. -/
theorem C38_ellipsoid_boxes (e : Ellipsoid ℝ 3) (he : ∀ i, 0 ≤ e.halfExtents i) (hR : Spec.Orthogonal e.rotation) :
    ∃ bi bb, e.mib = .ok bi ∧ e.mbb = .ok bb ∧
      Spec.box bi.halfExtents bi.rotation bi.center ⊆ Spec.ellipsoid e.halfExtents e.rotation e.center ∧
      Spec.ellipsoid e.halfExtents e.rotation e.center ⊆ Spec.box bb.halfExtents bb.rotation bb.center ∧
      ∀ b : Box ℝ, (∀ i, 0 ≤ b.halfExtents i) → Spec.Orthogonal b.rotation →
        (Spec.box b.halfExtents b.rotation b.center ⊆ Spec.ellipsoid e.halfExtents e.rotation e.center →
          b.volume ≤ bi.volume) ∧
        (Spec.ellipsoid e.halfExtents e.rotation e.center ⊆ Spec.box b.halfExtents b.rotation b.center →
          bb.volume ≤ b.volume) := by
  obtain ⟨bi, bb, h1, h2, h3, h4⟩ := C35_ellipsoid e he hR
  have hs : 0 < Real.sqrt 3 := Real.sqrt_pos.mpr (by norm_num)
  refine ⟨bi, bb, h1, h2, h3, h4, fun b hb hRb => ⟨fun hsub => box_volume_mono ?_, fun hsub => box_volume_mono ?_⟩⟩
  · unfold Ellipsoid.mib at h1
    rw [Box.init_ok _ fun i => div_nonneg (he i) hs.le] at h1
    obtain rfl := Except.ok.inj h1
    have h5 := box_in_ellipsoid hRb hR hb he hsub
    refine le_of_mul_le_mul_left (h5.trans (le_of_eq ?_)) (pow_pos hs 3)
    simp only [Fin.prod_univ_three]
    field_simp
  · unfold Ellipsoid.mbb at h2
    rw [Box.init_ok _ he] at h2
    obtain rfl := Except.ok.inj h2
    exact ellipsoid_in_box hRb hR hb hsub

/-! ## C39 -/

/-- The half extents of an ellipsoid inside a ball. -/
theorem ellipsoid_in_ball {n : ℕ} {h : Fin n → ℝ} {R : Matrix (Fin n) (Fin n) ℝ} (hR : Spec.Orthogonal R) {c c' : Fin n → ℝ}
    {r : ℝ} (hr : 0 ≤ r) (hsub : Spec.ellipsoid h R c ⊆ Spec.ball r c') (i : Fin n) : h i ≤ r := by
  have key : ∀ s : ℝ, s ^ 2 = 1 → Spec.rigid R c (s • Pi.single i (h i)) ∈ Spec.ball r c' := by
    intro s hs
    refine hsub ⟨Pi.single i s, by simp [← sq, hs], ?_⟩
    congr 1
    ext j
    rcases eq_or_ne j i with rfl | hj
    · simp [mul_comm]
    · simp [hj]
  have h1 : (Spec.rigid R c ((1 : ℝ) • Pi.single i (h i)) - c') ⬝ᵥ _ ≤ r ^ 2 := key 1 (by norm_num)
  have h2 : (Spec.rigid R c ((-1 : ℝ) • Pi.single i (h i)) - c') ⬝ᵥ _ ≤ r ^ 2 := key (-1) (by norm_num)
  have e1 : Spec.rigid R c ((1 : ℝ) • Pi.single i (h i)) - c' = (c - c') + R *ᵥ Pi.single i (h i) := by
    unfold Spec.rigid; rw [one_smul]; abel
  have e2 : Spec.rigid R c ((-1 : ℝ) • Pi.single i (h i)) - c' = (c - c') - R *ᵥ Pi.single i (h i) := by
    unfold Spec.rigid; rw [neg_smul, one_smul, mulVec_neg]; abel
  rw [e1] at h1
  rw [e2] at h2
  have h3 := dot_self_add_sub (c - c') (R *ᵥ Pi.single i (h i))
  rw [dot_mulVec_orthogonal hR] at h3
  simp only [dotProduct_single, Pi.single_eq_same] at h3
  have h4 := dot_self_nonneg (c - c')
  exact le_of_sq_le hr (by nlinarith)

/-- C39: `Ellipsoid.mbe(sphere=True)` returns a ball that contains the ellipsoid, and every ball that contains the
ellipsoid has at least its radius. (The dimension is arbitrary but positive.) -/
theorem C39_ellipsoid_mbe {d : ℕ} (e : Ellipsoid ℝ (d + 1)) (he : ∀ i, 0 ≤ e.halfExtents i)
    (hR : Spec.Orthogonal e.rotation) : ∃ (s : Ellipsoid ℝ (d + 1)) (r : ℝ), e.mbe true = .ok s ∧ 0 ≤ r ∧
      Spec.ellipsoid s.halfExtents s.rotation s.center = Spec.ball r s.center ∧
      Spec.ellipsoid e.halfExtents e.rotation e.center ⊆ Spec.ball r s.center ∧
      ∀ (r' : ℝ) (c' : Fin (d + 1) → ℝ), 0 ≤ r' → Spec.ellipsoid e.halfExtents e.rotation e.center ⊆ Spec.ball r' c' → r ≤ r' := by
  set r := Finset.univ.sup' Finset.univ_nonempty e.halfExtents with hr
  have hle : ∀ i, e.halfExtents i ≤ r := fun i => Finset.le_sup' _ (Finset.mem_univ i)
  have hr0 : 0 ≤ r := (he 0).trans (hle 0)
  have hs : e.mbe true = .ok ⟨fun _ => r, 1, e.center⟩ := by
    simp [Ellipsoid.mbe, Ellipsoid.maxExtent, bind, Except.bind, ← hr, Ellipsoid.sphere_ok _ hr0]
  refine ⟨_, r, hs, hr0, Set.ext fun p => ellipsoid_ball r hr0 Spec.Orthogonal.one _ _, fun p hp => ?_, fun r' c' hr' hsub => ?_⟩
  · exact (ellipsoid_ball r hr0 hR _ _).1 (ellipsoid_mono he hle hp)
  · rw [hr, Finset.sup'_le_iff]
    exact fun i _ => ellipsoid_in_ball hR hr' hsub i

/-- C39: the smallest ball that contains a box is the one around its center whose radius is half the diagonal. -/
theorem box_in_ball (b : Box ℝ) (hb : ∀ i, 0 ≤ b.halfExtents i) (hR : Spec.Orthogonal b.rotation) :
    Spec.box b.halfExtents b.rotation b.center ⊆ Spec.ball (Real.sqrt (b.halfExtents ⬝ᵥ b.halfExtents)) b.center ∧
    ∀ (r' : ℝ) (c' : Fin 3 → ℝ), 0 ≤ r' → Spec.box b.halfExtents b.rotation b.center ⊆ Spec.ball r' c' →
      Real.sqrt (b.halfExtents ⬝ᵥ b.halfExtents) ≤ r' := by
  constructor
  · rintro p ⟨y, hy, rfl⟩
    show (Spec.rigid b.rotation b.center y - b.center) ⬝ᵥ (Spec.rigid b.rotation b.center y - b.center) ≤ _ ^ 2
    rw [Real.sq_sqrt (dot_self_nonneg _)]
    unfold Spec.rigid
    rw [add_sub_cancel_right, dot_mulVec_orthogonal hR]
    refine Finset.sum_le_sum fun i _ => ?_
    exact abs_le_iff_mul_self_le.mp ((hy i).trans (le_abs_self _))
  · intro r' c' hr' hsub
    have h1 : (Spec.rigid b.rotation b.center b.halfExtents - c') ⬝ᵥ _ ≤ r' ^ 2 :=
      hsub ⟨_, fun i => le_of_eq (abs_of_nonneg (hb i)), rfl⟩
    have h2 : (Spec.rigid b.rotation b.center (-b.halfExtents) - c') ⬝ᵥ _ ≤ r' ^ 2 :=
      hsub ⟨_, fun i => le_of_eq (by rw [Pi.neg_apply, abs_neg, abs_of_nonneg (hb i)]), rfl⟩
    have e1 : Spec.rigid b.rotation b.center b.halfExtents - c' = (b.center - c') + b.rotation *ᵥ b.halfExtents := by
      unfold Spec.rigid; abel
    have e2 : Spec.rigid b.rotation b.center (-b.halfExtents) - c' = (b.center - c') - b.rotation *ᵥ b.halfExtents := by
      unfold Spec.rigid; rw [mulVec_neg]; abel
    rw [e1] at h1
    rw [e2] at h2
    have h3 := dot_self_add_sub (b.center - c') (b.rotation *ᵥ b.halfExtents)
    rw [dot_mulVec_orthogonal hR] at h3
    have h4 := dot_self_nonneg (b.center - c')
    exact Real.sqrt_le_iff.mpr ⟨hr', by linarith⟩

/-- C39: `Box.mbe(sphere=True)` returns a ball that contains the box; but it is a smallest such ball exactly if the box
is a cube. -/
theorem C39_box_mbe (b : Box ℝ) (hb : ∀ i, 0 ≤ b.halfExtents i) (hR : Spec.Orthogonal b.rotation) :
    ∃ (s : Ellipsoid ℝ 3) (r : ℝ), b.mbe true = .ok s ∧ 0 ≤ r ∧
      Spec.ellipsoid s.halfExtents s.rotation s.center = Spec.ball r s.center ∧
      Spec.box b.halfExtents b.rotation b.center ⊆ Spec.ball r s.center ∧
      ((∀ (r' : ℝ) (c' : Fin 3 → ℝ), 0 ≤ r' → Spec.box b.halfExtents b.rotation b.center ⊆ Spec.ball r' c' → r ≤ r') ↔
        ∀ i j, b.halfExtents i = b.halfExtents j) := by
  obtain ⟨s, hs, hsub⟩ := C35_box_mbe b hb hR true
  set r := Finset.univ.sup' Finset.univ_nonempty (fun i => b.halfExtents i * Real.sqrt 3) with hr
  have hle : ∀ i, b.halfExtents i * Real.sqrt 3 ≤ r := fun i =>
    Finset.le_sup' (fun i => b.halfExtents i * Real.sqrt 3) (Finset.mem_univ i)
  obtain ⟨k, -, hk⟩ := Finset.exists_mem_eq_sup' Finset.univ_nonempty (fun i => b.halfExtents i * Real.sqrt 3)
  rw [← hr] at hk
  have h3 : Real.sqrt 3 ^ 2 = 3 := Real.sq_sqrt (by norm_num)
  have h3p : 0 < Real.sqrt 3 := Real.sqrt_pos.mpr (by norm_num)
  have hr0 : 0 ≤ r := (mul_nonneg (hb 0) h3p.le).trans (hle 0)
  rw [b.mbe_true hb] at hs
  obtain rfl := Except.ok.inj hs
  have hset : Spec.ellipsoid (fun _ => r) 1 b.center = Spec.ball r b.center :=
    Set.ext fun p => ellipsoid_ball r hr0 Spec.Orthogonal.one _ _
  obtain ⟨hb1, hb2⟩ := box_in_ball b hb hR
  have hmax : ∀ i, b.halfExtents i ≤ b.halfExtents k := fun i => by
    have := hle i
    rw [hk] at this
    exact le_of_mul_le_mul_right this h3p
  have hr2 : r ^ 2 = 3 * b.halfExtents k ^ 2 := by rw [hk, mul_pow, h3]; ring
  have hdd : b.halfExtents ⬝ᵥ b.halfExtents = b.halfExtents 0 ^ 2 + b.halfExtents 1 ^ 2 + b.halfExtents 2 ^ 2 := by
    simp [dotProduct, Fin.sum_univ_three, sq]
  refine ⟨_, r, b.mbe_true hb, hr0, hset, ?_, fun h => ?_, fun h r' c' hr' hsub' => ?_⟩
  · dsimp only at hsub ⊢
    rw [hset] at hsub
    exact hsub
  · have h1 := h _ _ (Real.sqrt_nonneg _) hb1
    have h2 : r ^ 2 ≤ b.halfExtents ⬝ᵥ b.halfExtents := by
      calc r ^ 2 ≤ Real.sqrt (b.halfExtents ⬝ᵥ b.halfExtents) ^ 2 := pow_le_pow_left₀ hr0 h1 2
        _ = _ := Real.sq_sqrt (dot_self_nonneg _)
    rw [hr2, hdd] at h2
    have hsq : ∀ i, b.halfExtents i ^ 2 ≤ b.halfExtents k ^ 2 := fun i => pow_le_pow_left₀ (hb i) (hmax i) 2
    have hall : ∀ i, b.halfExtents i = b.halfExtents k := by
      intro i
      refine le_antisymm (hmax i) (le_of_sq_le (hb i) ?_)
      have := hsq 0
      have := hsq 1
      have := hsq 2
      fin_cases i <;> simp only [Fin.zero_eta, Fin.mk_one, Fin.reduceFinMk] <;> linarith
    intro i j
    rw [hall i, hall j]
  · refine le_trans ?_ (hb2 r' c' hr' hsub')
    refine Real.le_sqrt_of_sq_le ?_
    rw [hr2, hdd, h 0 k, h 1 k, h 2 k]
    linarith

/-- A concrete box: for half extents `1, 1, 2` the sphere of the code has radius `2 √3`, while a ball of radius `√6`
contains the box. -/
example : ∃ (s : Ellipsoid ℝ 3) (r : ℝ), (⟨![1, 1, 2], 1, 0⟩ : Box ℝ).mbe true = .ok s ∧
    Spec.ellipsoid s.halfExtents s.rotation s.center = Spec.ball r s.center ∧
    ∃ (r' : ℝ) (c' : Fin 3 → ℝ), 0 ≤ r' ∧ r' < r ∧ Spec.box ![1, 1, 2] 1 0 ⊆ Spec.ball r' c' := by
  obtain ⟨s, r, h1, h2, h3, h4, h5⟩ := C39_box_mbe (⟨![1, 1, 2], 1, 0⟩ : Box ℝ)
    (by intro i; fin_cases i <;> simp) Spec.Orthogonal.one
  refine ⟨s, r, h1, h3, ?_⟩
  by_contra hcon
  push Not at hcon
  have := (h5.1 fun r' c' hr' hsub => not_lt.mp fun hlt => hcon r' c' hr' hlt hsub) 0 2
  simp at this

/-- The hypotheses of the other theorems are met by rotated boxes and ellipsoids. -/
example : (∀ i, (0 : ℝ) ≤ ![1, 0, 3] i) ∧ Spec.Orthogonal !![(3 / 5 : ℝ), -4 / 5, 0; 4 / 5, 3 / 5, 0; 0, 0, 1] := by
  constructor
  · intro i; fin_cases i <;> simp
  · unfold Spec.Orthogonal
    ext i j
    fin_cases i <;> fin_cases j <;> simp [Matrix.mul_apply, Fin.sum_univ_succ] <;> norm_num

end Rigeo
