import Verif.Props.Convergence
import Verif.Props.Exactness

/-!
# The vertex constraints of a cylinder are exact (C88)

`Cylinder.moment_custom_vertex_constraints` splits the parameters over the two end disks. With `eps = 0` the
constraints hold exactly for the parameters of the bodies inside the cylinder.
-/

namespace Rigeo

open Matrix

section General
variable {n : ℕ}

theorem psd_mulVec_eq_zero {J : Matrix (Fin n) (Fin n) ℝ} (hJ : Spec.PSD J) {l : Fin n → ℝ}
    (h : l ⬝ᵥ (J *ᵥ l) = 0) : J *ᵥ l = 0 := by
  obtain ⟨u, rfl⟩ := hJ.exists_outer
  rw [Matrix.sum_mulVec, dotProduct_sum] at h
  simp only [outer_quad] at h
  rw [Matrix.sum_mulVec]
  refine Finset.sum_eq_zero fun k hk => ?_
  have := (Finset.sum_eq_zero_iff_of_nonneg (fun _ _ => sq_nonneg _)).mp h k hk
  rw [outer_mulVec, pow_eq_zero_iff two_ne_zero |>.mp this, zero_smul]

/-- Removing the part of a PSD matrix along one direction leaves a PSD matrix. -/
theorem _root_.Spec.PSD.deflate {J : Matrix (Fin n) (Fin n) ℝ} (hJ : Spec.PSD J) (l : Fin n → ℝ)
    (hd : 0 < l ⬝ᵥ (J *ᵥ l)) :
    Spec.PSD (J - (l ⬝ᵥ (J *ᵥ l))⁻¹ • Rigeo.outer (J *ᵥ l) (J *ᵥ l)) := by
  refine ⟨by rw [transpose_sub, transpose_smul, outer_transpose, hJ.1], fun v => ?_⟩
  set d := l ⬝ᵥ (J *ᵥ l) with hdd
  have hs : ∀ a b : Fin n → ℝ, a ⬝ᵥ (J *ᵥ b) = b ⬝ᵥ (J *ᵥ a) := by
    intro a b
    rw [dotProduct_mulVec, ← mulVec_transpose, hJ.1, dotProduct_comm]
  rw [sub_mulVec, dotProduct_sub, smul_mulVec, dotProduct_smul, outer_quad, smul_eq_mul]
  have h0 := hJ.2 (v - (d⁻¹ * (v ⬝ᵥ (J *ᵥ l))) • l)
  set e := v ⬝ᵥ (J *ᵥ l) with he
  have h1 : (J *ᵥ l) ⬝ᵥ v = e := by rw [dotProduct_comm]
  have h2 : l ⬝ᵥ (J *ᵥ v) = e := hs l v
  rw [h1]
  have : (v - (d⁻¹ * e) • l) ⬝ᵥ (J *ᵥ (v - (d⁻¹ * e) • l)) = v ⬝ᵥ (J *ᵥ v) - d⁻¹ * e ^ 2 := by
    rw [mulVec_sub, mulVec_smul, dotProduct_sub, sub_dotProduct, sub_dotProduct, dotProduct_smul, dotProduct_smul,
      smul_dotProduct, smul_dotProduct, h2, ← he, ← hdd]
    simp only [smul_eq_mul]
    field_simp
    ring
  linarith

end General

theorem RealJ.vector {h r a : ℝ} (ha : 0 ≤ a) (v : Fin 4 → ℝ) (h1 : v 0 ^ 2 + v 1 ^ 2 ≤ r ^ 2 * v 3 ^ 2)
    (h2 : v 2 ^ 2 ≤ h ^ 2 * v 3 ^ 2) (hh : 0 ≤ h) : RealJ (Spec.cylinder (2 * h) r 1 0) (a • outer v v) := by
  by_cases h3 : v 3 = 0
  · rw [h3] at h1 h2
    have e0 : v 0 = 0 := by nlinarith [sq_nonneg (v 0), sq_nonneg (v 1)]
    have e1 : v 1 = 0 := by nlinarith [sq_nonneg (v 0), sq_nonneg (v 1)]
    have e2 : v 2 = 0 := by nlinarith [sq_nonneg (v 2)]
    have : v = 0 := by ext i; fin_cases i <;> assumption
    rw [this]
    have h0 : a • outer (0 : Fin 4 → ℝ) (0 : Fin 4 → ℝ) = 0 := by ext i j; simp [outer_apply]
    rw [h0]
    exact RealJ.zero _
  · have hp : 0 < v 3 ^ 2 := by positivity
    have := RealJ.point (S := Spec.cylinder (2 * h) r 1 0) (a := a * v 3 ^ 2) (p := ![v 0 / v 3, v 1 / v 3, v 2 / v 3])
      (by positivity) (by
        rw [cyl0_iff]
        simp only [Matrix.cons_val]
        constructor
        · rw [show 2 * h / 2 = h by ring]
          refine abs_le_of_sq_le_sq ?_ hh
          rw [div_pow, div_le_iff₀ hp]
          exact h2
        · rw [div_pow, div_pow, ← add_div, div_le_iff₀ hp]
          exact h1)
    convert this using 1
    have e0 : IP.hom (![v 0 / v 3, v 1 / v 3, v 2 / v 3] : Fin 3 → ℝ) = ![v 0 / v 3, v 1 / v 3, v 2 / v 3, 1] := by
      ext i; fin_cases i <;> rfl
    have ev : v = v 3 • IP.hom (![v 0 / v 3, v 1 / v 3, v 2 / v 3] : Fin 3 → ℝ) := by
      rw [e0]
      ext i
      fin_cases i <;> simp [mul_div_cancel₀ _ h3]
    conv_lhs => rw [ev]
    rw [outer_smul_self, smul_smul]

/-- `r² J₃₃ - J₀₀ - J₁₁`, the value of the quadratic `r² - x² - y²`. -/
def diskVal (r : ℝ) (J : Matrix (Fin 4) (Fin 4) ℝ) : ℝ := r ^ 2 * J 3 3 - J 0 0 - J 1 1

/-- `r² u₃² - u₀² - u₁²` of the vector `u = h J e₃ - s J e₂`. -/
def sideVal (r h s : ℝ) (J : Matrix (Fin 4) (Fin 4) ℝ) : ℝ :=
  r ^ 2 * (h * J 3 3 - s * J 3 2) ^ 2 - (h * J 0 3 - s * J 0 2) ^ 2 - (h * J 1 3 - s * J 1 2) ^ 2

theorem diskVal_add (r : ℝ) (J J' : Matrix (Fin 4) (Fin 4) ℝ) : diskVal r (J + J') = diskVal r J + diskVal r J' := by
  simp only [diskVal, Matrix.add_apply]; ring

theorem diskVal_smul (r a : ℝ) (J : Matrix (Fin 4) (Fin 4) ℝ) : diskVal r (a • J) = a * diskVal r J := by
  simp only [diskVal, Matrix.smul_apply, smul_eq_mul]; ring

theorem diskVal_outer (r : ℝ) (v : Fin 4 → ℝ) : diskVal r (outer v v) = r ^ 2 * v 3 ^ 2 - v 0 ^ 2 - v 1 ^ 2 := by
  simp only [diskVal, outer_apply]; ring

theorem diskVal_sub (r : ℝ) (J J' : Matrix (Fin 4) (Fin 4) ℝ) : diskVal r (J - J') = diskVal r J - diskVal r J' := by
  simp only [diskVal, Matrix.sub_apply]; ring

theorem diskVal_quad (r : ℝ) (v : Fin 4 → ℝ) :
    v ⬝ᵥ (Matrix.diagonal ![-1, -1, 0, r ^ 2] *ᵥ v) = diskVal r (outer v v) := by
  rw [diskVal_outer]
  simp [dotProduct, Fin.sum_univ_four, mulVec_diagonal]
  ring

/-- Moments on a horizontal slice of the cylinder. -/
theorem RealJ.slice {h r s : ℝ} {J : Matrix (Fin 4) (Fin 4) ℝ} (hJ : Spec.PSD J) (hs : s ^ 2 ≤ h ^ 2) (hh : 0 ≤ h)
    (hl : J *ᵥ ![0, 0, -1, s] = 0) (hq : 0 ≤ diskVal r J) : RealJ (Spec.cylinder (2 * h) r 1 0) J := by
  obtain ⟨u, hu⟩ := hJ.exists_outer
  have hsum : J = ((List.ofFn u).map fun u => outer u u).sum := by
    rw [hu, List.map_ofFn, List.sum_ofFn]; rfl
  let W : Submodule ℝ (Fin 4 → ℝ) := LinearMap.ker (LinearMap.proj 2 - s • LinearMap.proj 3 : (Fin 4 → ℝ) →ₗ[ℝ] ℝ)
  have hW : ∀ v : Fin 4 → ℝ, v ∈ W ↔ v 2 = s * v 3 := by
    intro v
    simp [W, LinearMap.mem_ker, sub_eq_zero]
  have hmem : ∀ v ∈ List.ofFn u, v ∈ W := by
    intro v hv
    obtain ⟨k, rfl⟩ := List.mem_ofFn.mp hv
    have h0 : ∑ k, (u k ⬝ᵥ ![0, 0, -1, s]) ^ 2 = 0 := by
      have : (![0, 0, -1, s] : Fin 4 → ℝ) ⬝ᵥ (J *ᵥ ![0, 0, -1, s]) = 0 := by rw [hl, dotProduct_zero]
      rw [hu, Matrix.sum_mulVec, dotProduct_sum] at this
      simpa only [outer_quad] using this
    have := (Finset.sum_eq_zero_iff_of_nonneg (fun _ _ => sq_nonneg _)).mp h0 k (Finset.mem_univ _)
    have h1 := pow_eq_zero_iff (two_ne_zero) |>.mp this
    rw [hW]
    simp [dotProduct, Fin.sum_univ_four] at h1
    linarith
  obtain ⟨vs, hvs, hsm⟩ := sturm_zhang (Matrix.diagonal ![-1, -1, 0, r ^ 2]) W _ (List.ofFn u) rfl hmem (by
    rw [← trace_mul_list_outer, ← hsum]
    refine hq.trans_eq ?_
    simp [diskVal, Matrix.trace, Fin.sum_univ_four, Matrix.diagonal_mul]
    ring)
  rw [hsum, ← hsm]
  clear hsm
  induction vs with
  | nil => exact RealJ.zero _
  | cons v vs ih =>
    rw [List.map_cons, List.sum_cons]
    refine RealJ.add ?_ (ih fun w hw => hvs w (List.mem_cons_of_mem _ hw))
    obtain ⟨h1, h2⟩ := hvs v List.mem_cons_self
    rw [hW] at h1
    rw [diskVal_quad, diskVal_outer] at h2
    have := RealJ.vector (h := h) (r := r) zero_le_one v (by linarith) (by
      rw [h1, mul_pow]
      exact mul_le_mul_of_nonneg_right hs (sq_nonneg _)) hh
    rwa [one_smul] at this

theorem psd_symm_apply {n : ℕ} {J : Matrix (Fin n) (Fin n) ℝ} (hJ : Spec.PSD J) (i j : Fin n) : J i j = J j i := by
  conv_lhs => rw [← hJ.1]
  rfl

theorem mulVec_side (J : Matrix (Fin 4) (Fin 4) ℝ) (s h : ℝ) (i : Fin 4) :
    (J *ᵥ ![0, 0, -s, h]) i = h * J i 3 - s * J i 2 := by
  simp [mulVec, dotProduct, Fin.sum_univ_four]
  ring

/-- One of the two side vectors on the boundary of its cone. -/
theorem RealJ.side {h r s : ℝ} {J : Matrix (Fin 4) (Fin 4) ℝ} (hJ : Spec.PSD J) (hs : s ^ 2 = 1) (hh : 0 ≤ h)
    (hc : J 2 2 ≤ h ^ 2 * J 3 3) (hq : 0 ≤ diskVal r J) (hb : sideVal r h s J = 0) :
    RealJ (Spec.cylinder (2 * h) r 1 0) J := by
  set l : Fin 4 → ℝ := ![0, 0, -s, h] with hl
  have key : ∀ X : Matrix (Fin 4) (Fin 4) ℝ, Spec.PSD X → 0 ≤ diskVal r X → X *ᵥ l = 0 →
      RealJ (Spec.cylinder (2 * h) r 1 0) X := by
    intro X hX hXq hXl
    refine RealJ.slice (s := s * h) hX (by rw [mul_pow, hs, one_mul]) hh ?_ hXq
    have : (![0, 0, -1, s * h] : Fin 4 → ℝ) = s • l := by
      ext i
      fin_cases i <;> simp [hl]
      linarith
    rw [this, mulVec_smul, hXl, smul_zero]
  rcases (hJ.2 l).eq_or_lt with e | e
  · exact key J hJ hq (psd_mulVec_eq_zero hJ e.symm)
  · have hu : ∀ i, (J *ᵥ l) i = h * J i 3 - s * J i 2 := mulVec_side J s h
    have h23 := psd_symm_apply hJ 2 3
    set d := l ⬝ᵥ (J *ᵥ l) with hd
    have hd' : d = h * (J *ᵥ l) 3 - s * (J *ᵥ l) 2 := by
      rw [hd]
      conv_lhs => rw [hl]
      simp [dotProduct, Fin.sum_univ_four, hl]
      ring
    have hd2 : 0 ≤ h * (J *ᵥ l) 3 + s * (J *ᵥ l) 2 := by
      rw [hu, hu, h23]
      have : h * (h * J 3 3 - s * J 3 2) + s * (h * J 3 2 - s * J 2 2) = h ^ 2 * J 3 3 - s ^ 2 * J 2 2 := by ring
      rw [this, hs]
      linarith
    have hq0 : diskVal r (outer (J *ᵥ l) (J *ᵥ l)) = 0 := by
      rw [diskVal_outer, hu, hu, hu]
      exact hb
    have h1 : RealJ (Spec.cylinder (2 * h) r 1 0) (J - d⁻¹ • outer (J *ᵥ l) (J *ᵥ l)) := by
      refine key _ (hJ.deflate l e) ?_ ?_
      · rw [diskVal_sub, diskVal_smul, hq0]; linarith
      · rw [sub_mulVec, smul_mulVec, outer_mulVec, dotProduct_comm, ← hd, smul_smul, inv_mul_cancel₀ e.ne', one_smul,
          sub_self]
    have h2 : RealJ (Spec.cylinder (2 * h) r 1 0) (d⁻¹ • outer (J *ᵥ l) (J *ᵥ l)) := by
      refine RealJ.vector (inv_nonneg.mpr e.le) _ ?_ ?_ hh
      · rw [diskVal_outer] at hq0; linarith
      · have h3 : 0 ≤ (h * (J *ᵥ l) 3 - s * (J *ᵥ l) 2) * (h * (J *ᵥ l) 3 + s * (J *ᵥ l) 2) :=
          mul_nonneg (hd' ▸ e.le) hd2
        nlinarith
    have := h1.add h2
    rwa [sub_add_cancel] at this

/-- All the mass on the two end disks. -/
theorem RealJ.ends {h r : ℝ} {J : Matrix (Fin 4) (Fin 4) ℝ} (hJ : Spec.PSD J) (hh : 0 ≤ h)
    (hc : J 2 2 = h ^ 2 * J 3 3) (hq : 0 ≤ diskVal r J) (h1 : 0 ≤ sideVal r h 1 J) (h2 : 0 ≤ sideVal r h (-1) J) :
    RealJ (Spec.cylinder (2 * h) r 1 0) J := by
  set l₁ : Fin 4 → ℝ := ![0, 0, -1, h] with hl₁
  set l₂ : Fin 4 → ℝ := ![0, 0, - -1, h] with hl₂
  rcases (hJ.2 l₁).eq_or_lt with e | e
  · exact RealJ.slice hJ le_rfl hh (psd_mulVec_eq_zero hJ e.symm) hq
  rcases (hJ.2 l₂).eq_or_lt with e' | e'
  · refine RealJ.slice (s := -h) hJ (by rw [neg_sq]) hh ?_ hq
    have : (![0, 0, -1, -h] : Fin 4 → ℝ) = -l₂ := by
      ext i; fin_cases i <;> simp [hl₂]
    rw [this, mulVec_neg, psd_mulVec_eq_zero hJ e'.symm, neg_zero]
  have hu : ∀ i, (J *ᵥ l₁) i = h * J i 3 - 1 * J i 2 := mulVec_side J 1 h
  have hw : ∀ i, (J *ᵥ l₂) i = h * J i 3 - (-1) * J i 2 := mulVec_side J (-1) h
  have h23 := psd_symm_apply hJ 2 3
  have hd1 : ∀ v : Fin 4 → ℝ, v ⬝ᵥ l₁ = h * v 3 - v 2 := by
    intro v; simp [dotProduct, Fin.sum_univ_four, hl₁]; ring
  have hd2 : ∀ v : Fin 4 → ℝ, v ⬝ᵥ l₂ = h * v 3 + v 2 := by
    intro v; simp [dotProduct, Fin.sum_univ_four, hl₂]; ring
  have hu2 : (J *ᵥ l₁) ⬝ᵥ l₂ = 0 := by rw [hd2, hu, hu, h23]; linarith
  have hw1 : (J *ᵥ l₂) ⬝ᵥ l₁ = 0 := by rw [hd1, hw, hw, h23]; linarith
  set u := J *ᵥ l₁ with hudef
  set w := J *ᵥ l₂ with hwdef
  have hue : u ⬝ᵥ l₁ = l₁ ⬝ᵥ u := dotProduct_comm _ _
  have hwe : w ⬝ᵥ l₂ = l₂ ⬝ᵥ w := dotProduct_comm _ _
  set d₁ := l₁ ⬝ᵥ u with hd₁
  set d₂ := l₂ ⬝ᵥ w with hd₂
  set X := J - d₁⁻¹ • outer u u with hX
  have hXp : Spec.PSD X := hJ.deflate l₁ e
  have hXw : X *ᵥ l₂ = w := by
    rw [hX, sub_mulVec, smul_mulVec, outer_mulVec, hu2, zero_smul, smul_zero, sub_zero]
  have hXl : X *ᵥ l₁ = 0 := by
    rw [hX, sub_mulVec, smul_mulVec, outer_mulVec, hue, smul_smul, inv_mul_cancel₀ e.ne', one_smul, ← hudef, sub_self]
  set Y := X - d₂⁻¹ • outer w w with hY
  have hYp : Spec.PSD Y := by
    have := hXp.deflate l₂ (by rw [hXw]; exact e')
    rwa [hXw] at this
  have hYl1 : Y *ᵥ l₁ = 0 := by
    rw [hY, sub_mulVec, hXl, smul_mulVec, outer_mulVec, hw1, zero_smul, smul_zero, sub_zero]
  have hYl2 : Y *ᵥ l₂ = 0 := by
    rw [hY, sub_mulVec, hXw, smul_mulVec, outer_mulVec, hwe, smul_smul, inv_mul_cancel₀ e'.ne', one_smul, sub_self]
  have hsum : J = d₁⁻¹ • outer u u + d₂⁻¹ • outer w w + Y := by rw [hY, hX]; abel
  have hY33 : Y 3 3 = 0 := by
    have a1 := congrFun hYl1 3
    have a2 := congrFun hYl2 3
    rw [mulVec_side] at a1 a2
    simp only [Pi.zero_apply] at a1 a2
    have hh' : h ≠ 0 := by
      rintro rfl
      have : J 2 2 = 0 := by rw [hc]; ring
      have hz := hue
      rw [hd1, hu, hu, this] at hz
      linarith
    have : 2 * h * Y 3 3 = 0 := by linarith
    simpa [hh'] using this
  set T := Y 0 0 + Y 1 1 with hT
  have hT0 : 0 ≤ T := add_nonneg (hYp.diag_nonneg 0) (hYp.diag_nonneg 1)
  have hYT : diskVal r Y = -T := by rw [diskVal, hY33, hT]; ring
  have hqu : 0 ≤ diskVal r (d₁⁻¹ • outer u u) := by
    rw [diskVal_smul, diskVal_outer, hu, hu, hu]
    exact mul_nonneg (inv_nonneg.mpr e.le) h1
  have hqw : 0 ≤ diskVal r (d₂⁻¹ • outer w w) := by
    rw [diskVal_smul, diskVal_outer, hw, hw, hw]
    exact mul_nonneg (inv_nonneg.mpr e'.le) h2
  rw [hsum, diskVal_add, diskVal_add, hYT] at hq
  obtain ⟨θ, t0, t1, ta, tb⟩ : ∃ θ : ℝ, 0 ≤ θ ∧ θ ≤ 1 ∧ θ * T ≤ diskVal r (d₁⁻¹ • outer u u) ∧
      (1 - θ) * T ≤ diskVal r (d₂⁻¹ • outer w w) := by
    rcases le_total T (diskVal r (d₁⁻¹ • outer u u)) with h | h
    · exact ⟨1, by norm_num, le_rfl, by linarith, by linarith⟩
    · rcases hT0.eq_or_lt with h0 | h0
      · exact ⟨0, le_rfl, by norm_num, by linarith, by linarith⟩
      · refine ⟨diskVal r (d₁⁻¹ • outer u u) / T, by positivity, (div_le_one h0).mpr h, ?_, ?_⟩
        · rw [div_mul_cancel₀ _ h0.ne']
        · rw [sub_mul, div_mul_cancel₀ _ h0.ne']; linarith
  have r1 : RealJ (Spec.cylinder (2 * h) r 1 0) (d₁⁻¹ • outer u u + θ • Y) := by
    refine RealJ.slice (s := -h) (((Spec.PSD.outer _).smul (inv_nonneg.mpr e.le)).add (hYp.smul t0)) (by rw [neg_sq]) hh
      ?_ ?_
    · have : (![0, 0, -1, -h] : Fin 4 → ℝ) = -l₂ := by
        ext i; fin_cases i <;> simp [hl₂]
      rw [this, mulVec_neg, add_mulVec, smul_mulVec, smul_mulVec, outer_mulVec, hu2, hYl2, zero_smul, smul_zero,
        smul_zero, add_zero, neg_zero]
    · rw [diskVal_add, diskVal_smul r θ, hYT]; linarith
  have r2 : RealJ (Spec.cylinder (2 * h) r 1 0) (d₂⁻¹ • outer w w + (1 - θ) • Y) := by
    refine RealJ.slice (s := h) (((Spec.PSD.outer _).smul (inv_nonneg.mpr e'.le)).add (hYp.smul (by linarith))) le_rfl hh
      ?_ ?_
    · rw [← hl₁, add_mulVec, smul_mulVec, smul_mulVec, outer_mulVec, hw1, hYl1, zero_smul, smul_zero,
        smul_zero, add_zero]
    · rw [diskVal_add, diskVal_smul r (1 - θ), hYT]; linarith
  have := r1.add r2
  rw [hsum]
  convert this using 1
  rw [sub_smul, one_smul]
  abel

/-- The parameters of the bodies inside a cylinder at the origin, by five inequalities. -/
theorem RealJ.cylinder {h r : ℝ} {J : Matrix (Fin 4) (Fin 4) ℝ} (hJ : Spec.PSD J) (hh : 0 ≤ h)
    (hc : J 2 2 ≤ h ^ 2 * J 3 3) (hq : 0 ≤ diskVal r J) (h1 : 0 ≤ sideVal r h 1 J) (h2 : 0 ≤ sideVal r h (-1) J) :
    RealJ (Spec.cylinder (2 * h) r 1 0) J := by
  have main : ∀ (k : ℕ) (vs : List (Fin 4 → ℝ)), vs.length = k → (∀ v ∈ vs, 0 ≤ diskVal r (outer v v)) →
      ∀ J : Matrix (Fin 4) (Fin 4) ℝ, J = (vs.map fun v => outer v v).sum → J 2 2 ≤ h ^ 2 * J 3 3 →
      0 ≤ sideVal r h 1 J → 0 ≤ sideVal r h (-1) J → RealJ (Spec.cylinder (2 * h) r 1 0) J := by
    intro k
    induction k with
    | zero =>
      intro vs hk _ J hJ _ _ _
      rw [List.length_eq_zero_iff] at hk
      subst hk
      rw [hJ]
      exact RealJ.zero _
    | succ k ih =>
      intro vs hk hvs J hJ hc h1 h2
      have hdv : ∀ l : List (Fin 4 → ℝ), (∀ v ∈ l, 0 ≤ diskVal r (outer v v)) →
          0 ≤ diskVal r (l.map fun v => outer v v).sum := by
        intro l
        induction l with
        | nil => intro _; simp [diskVal]
        | cons v l ihl =>
          intro hl
          rw [List.map_cons, List.sum_cons, diskVal_add]
          exact add_nonneg (hl v List.mem_cons_self) (ihl fun w hw => hl w (List.mem_cons_of_mem _ hw))
      have hpsd : ∀ l : List (Fin 4 → ℝ), Spec.PSD (l.map fun v => outer v v).sum := by
        intro l
        refine Spec.PSD.list_sum _ fun X hX => ?_
        obtain ⟨v, -, rfl⟩ := List.mem_map.mp hX
        exact Spec.PSD.outer v
      rcases hc.eq_or_lt with hc0 | hc0
      · exact RealJ.ends (hJ ▸ hpsd vs) hh hc0 (hJ ▸ hdv vs hvs) h1 h2
      obtain ⟨v, hv, hvp⟩ : ∃ v ∈ vs, v 2 ^ 2 < h ^ 2 * v 3 ^ 2 := by
        by_contra hno
        push Not at hno
        have : ∀ l : List (Fin 4 → ℝ), (∀ v ∈ l, h ^ 2 * v 3 ^ 2 ≤ v 2 ^ 2) →
            h ^ 2 * (l.map fun v => outer v v).sum 3 3 ≤ (l.map fun v => outer v v).sum 2 2 := by
          intro l
          induction l with
          | nil => intro _; simp
          | cons v l ihl =>
            intro hl
            have i1 := ihl fun w hw => hl w (List.mem_cons_of_mem _ hw)
            have i2 := hl v List.mem_cons_self
            rw [List.map_cons, List.sum_cons, Matrix.add_apply, Matrix.add_apply, outer_apply, outer_apply]
            nlinarith
        have := this vs hno
        rw [← hJ] at this
        linarith
      obtain ⟨vs', hp⟩ : ∃ vs', vs.Perm (v :: vs') := ⟨_, List.perm_cons_erase hv⟩
      have hk' : vs'.length = k := by
        have := hp.length_eq
        simp only [List.length_cons] at this
        omega
      have hvs' : ∀ w ∈ vs', 0 ≤ diskVal r (outer w w) := fun w hw => hvs w (hp.mem_iff.mpr (List.mem_cons_of_mem _ hw))
      set M := (vs'.map fun v => outer v v).sum with hM
      have hJM : J = M + outer v v := by
        rw [hJ, (hp.map _).sum_eq, List.map_cons, List.sum_cons, add_comm]
      have hvq := hvs v hv
      have hv1 : v 0 ^ 2 + v 1 ^ 2 ≤ r ^ 2 * v 3 ^ 2 := by rw [diskVal_outer] at hvq; linarith
      let F : ℝ → Matrix (Fin 4) (Fin 4) ℝ := fun β => M + β • outer v v
      have hF : ∀ β i j, F β i j = M i j + β * (v i * v j) := fun β i j => by
        simp [F, outer_apply]
      let φ : ℝ → ℝ := fun β => min (min (sideVal r h 1 (F β)) (sideVal r h (-1) (F β)))
        (h ^ 2 * F β 3 3 - F β 2 2)
      have hφ : Continuous φ := by
        simp only [φ, sideVal, hF]
        fun_prop
      have hF1 : F 1 = J := by simp only [F, one_smul, hJM]
      have hF0 : F 0 = M := by simp only [F, zero_smul, add_zero]
      have hφ1 : 0 ≤ φ 1 := by
        simp only [φ, hF1]
        exact le_min (le_min h1 h2) (by linarith)
      have step : ∀ β : ℝ, β ≤ 1 → RealJ (Spec.cylinder (2 * h) r 1 0) (F β) →
          RealJ (Spec.cylinder (2 * h) r 1 0) J := by
        intro β hβ hr
        have := hr.add (RealJ.vector (h := h) (r := r) (a := 1 - β) (by linarith) v hv1 hvp.le hh)
        convert this using 1
        rw [hJM]
        simp only [F]
        rw [add_assoc, ← add_smul, add_sub_cancel, one_smul]
      by_cases h0 : 0 ≤ φ 0
      · refine step 0 (by norm_num) ?_
        simp only [φ, hF0, le_min_iff, sub_nonneg] at h0
        rw [hF0]
        exact ih vs' hk' hvs' M rfl h0.2 h0.1.1 h0.1.2
      · obtain ⟨β, ⟨b0, b1⟩, hβ⟩ : ∃ β ∈ Set.Icc (0 : ℝ) 1, φ β = 0 :=
          intermediate_value_Icc zero_le_one hφ.continuousOn ⟨(not_le.mp h0).le, hφ1⟩
        refine step β b1 ?_
        have hFp : Spec.PSD (F β) := (hpsd vs').add ((Spec.PSD.outer v).smul b0)
        have hFq : 0 ≤ diskVal r (F β) := by
          simp only [F]
          rw [diskVal_add, diskVal_smul]
          exact add_nonneg (hdv vs' hvs') (mul_nonneg b0 hvq)
        have g := hβ.ge
        simp only [φ, le_min_iff, sub_nonneg] at g
        obtain ⟨⟨g1, g2⟩, g3⟩ := g
        have hz : sideVal r h 1 (F β) = 0 ∨ sideVal r h (-1) (F β) = 0 ∨ h ^ 2 * F β 3 3 - F β 2 2 = 0 := by
          simp only [φ] at hβ
          rcases min_choice (min (sideVal r h 1 (F β)) (sideVal r h (-1) (F β))) (h ^ 2 * F β 3 3 - F β 2 2) with e | e
          · rw [e] at hβ
            rcases min_choice (sideVal r h 1 (F β)) (sideVal r h (-1) (F β)) with e | e
            · exact Or.inl (e ▸ hβ)
            · exact Or.inr (Or.inl (e ▸ hβ))
          · exact Or.inr (Or.inr (e ▸ hβ))
        rcases hz with hz | hz | hz
        · exact RealJ.side hFp (by norm_num) hh g3 hFq hz
        · exact RealJ.side hFp (by norm_num) hh g3 hFq hz
        · exact RealJ.ends hFp hh (by linarith) hFq g1 g2
  obtain ⟨u, hu⟩ := hJ.exists_outer
  have hsum : J = ((List.ofFn u).map fun u => outer u u).sum := by
    rw [hu, List.map_ofFn, List.sum_ofFn]; rfl
  obtain ⟨vs, hvs, hsm⟩ := sturm_zhang (Matrix.diagonal ![-1, -1, 0, r ^ 2]) ⊤ _ (List.ofFn u) rfl
    (fun _ _ => Submodule.mem_top) (by
    rw [← trace_mul_list_outer, ← hsum]
    refine hq.trans_eq ?_
    simp [diskVal, Matrix.trace, Fin.sum_univ_four, Matrix.diagonal_mul]
    ring)
  exact main _ vs rfl (fun v hv => by rw [← diskVal_quad]; exact (hvs v hv).2) J (by rw [hsum, hsm]) hc h1 h2

/-- The moments on a disk at height `z`. -/
theorem RealJ.disk {r z : ℝ} (hr : 0 ≤ r) {J : Matrix (Fin 4) (Fin 4) ℝ} (hJ : Spec.PSD J)
    (h : RealJ (Spec.ellipsoid ![r, r, 0] 1 ![0, 0, z]) J) :
    (∀ i, J i 2 = z * J i 3) ∧ J 0 0 + J 1 1 ≤ r ^ 2 * J 3 3 ∧ J 0 3 ^ 2 + J 1 3 ^ 2 ≤ r ^ 2 * J 3 3 ^ 2 ∧ 0 ≤ J 3 3 := by
  have key : (∀ i : Fin 3, J i.castSucc 2 = z * J i.castSucc 3) ∧ J 2 3 = z * J 3 3 ∧ J 0 0 + J 1 1 ≤ r ^ 2 * J 3 3 := by
    refine Spec.Realizable.induct (P := fun m f H => (∀ i, H i 2 = z * f i) ∧ f 2 = z * m ∧
      H 0 0 + H 1 1 ≤ r ^ 2 * m) ?_ ?_ ?_ h
    · simp
    · rintro m f H m' f' H' ⟨a1, a2, a3⟩ ⟨b1, b2, b3⟩
      refine ⟨fun i => ?_, ?_, ?_⟩
      · simp only [Matrix.add_apply, Pi.add_apply, a1, b1]; ring
      · simp only [Pi.add_apply, a2, b2]; ring
      · simp only [Matrix.add_apply]; linarith
    · intro a p ha hp
      rw [disk0_iff hr] at hp
      refine ⟨fun i => ?_, ?_, ?_⟩
      · simp only [Matrix.smul_apply, outer_apply, Pi.smul_apply, smul_eq_mul, hp.1]; ring
      · simp only [Pi.smul_apply, smul_eq_mul, hp.1]; ring
      · simp only [Matrix.smul_apply, outer_apply, smul_eq_mul]
        nlinarith [mul_le_mul_of_nonneg_left hp.2 ha]
  obtain ⟨k1, k2, k3⟩ := key
  have m0 : 0 ≤ J 3 3 := hJ.diag_nonneg 3
  refine ⟨fun i => ?_, k3, ?_, m0⟩
  · fin_cases i
    · exact k1 0
    · exact k1 1
    · exact k1 2
    · exact (psd_symm_apply hJ 3 2).trans k2
  · have minor : ∀ i : Fin 4, i ≠ 3 → J i 3 ^ 2 ≤ J i i * J 3 3 := by
      intro i hi
      have hq : ∀ s t : ℝ, 0 ≤ J i i * s ^ 2 + 2 * J i 3 * s * t + J 3 3 * t ^ 2 := by
        intro s t
        have := hJ.2 (Pi.single i s + Pi.single 3 t)
        have e : (Pi.single i s + Pi.single 3 t : Fin 4 → ℝ) ⬝ᵥ (J *ᵥ (Pi.single i s + Pi.single 3 t)) =
            J i i * s ^ 2 + 2 * J i 3 * s * t + J 3 3 * t ^ 2 := by
          simp only [mulVec_add, mulVec_single, add_dotProduct, dotProduct_add, single_dotProduct, Pi.smul_apply,
            Matrix.col_apply, MulOpposite.smul_eq_mul_unop, MulOpposite.unop_op]
          rw [psd_symm_apply hJ 3 i]
          ring
        rw [e] at this
        exact this
      rcases m0.eq_or_lt with e | e
      · rw [← e]
        have h1 := hq 1 (-(J i 3) * (J i i + 1))
        rw [← e] at h1
        nlinarith [sq_nonneg (J i 3), hJ.diag_nonneg i, mul_nonneg (hJ.diag_nonneg i) (sq_nonneg (J i 3)), hq 1 (J i i + 1),
          hq 1 (-(J i 3)), hq (J i 3) (-(J i i + 1))]
      · have h1 := hq (J 3 3) (-(J i 3))
        have : 0 ≤ J 3 3 * (J i i * J 3 3 - J i 3 ^ 2) := by nlinarith
        nlinarith [nonneg_of_mul_nonneg_right this e]
    have a0 := minor 0 (by decide)
    have a1 := minor 1 (by decide)
    nlinarith [mul_le_mul_of_nonneg_right k3 m0]

theorem CylFeasible.inequalities {L r : ℝ} (hr : 0 ≤ r) {J : Matrix (Fin 4) (Fin 4) ℝ} (hJ : Spec.PSD J)
    (h : CylFeasible L r J) : J 2 2 ≤ (L / 2) ^ 2 * J 3 3 ∧ 0 ≤ diskVal r J ∧ 0 ≤ sideVal r (L / 2) 1 J ∧
      0 ≤ sideVal r (L / 2) (-1) J := by
  obtain ⟨J1, J2, p1, p2, r1, r2, hoff, h00, h11, h22, h33⟩ := h
  obtain ⟨a1, a2, a3, a4⟩ := RealJ.disk hr p1 r1
  obtain ⟨b1, b2, b3, b4⟩ := RealJ.disk hr p2 r2
  have e02 := hoff 0 2 (by decide)
  have e03 := hoff 0 3 (by decide)
  have e12 := hoff 1 2 (by decide)
  have e13 := hoff 1 3 (by decide)
  have e23 := (psd_symm_apply hJ 3 2).trans (hoff 2 3 (by decide))
  have s1 := psd_symm_apply p1 2 3
  have s2 := psd_symm_apply p2 2 3
  simp only [Matrix.add_apply] at h00 h11 h22 h33 e02 e03 e12 e13 e23
  rw [s1, s2] at e23
  rw [a1, b1] at h22 e02 e12 e23
  rw [s1, s2, a1, b1] at h22
  refine ⟨?_, ?_, ?_, ?_⟩
  · rw [h33]; nlinarith
  · rw [diskVal, h33, h00, h11]; linarith
  · rw [sideVal, h33, e02, e03, e12, e13, e23]
    have : 0 ≤ L ^ 2 * (r ^ 2 * J2 3 3 ^ 2 - (J2 0 3 ^ 2 + J2 1 3 ^ 2)) := mul_nonneg (sq_nonneg _) (by linarith)
    nlinarith
  · rw [sideVal, h33, e02, e03, e12, e13, e23]
    have : 0 ≤ L ^ 2 * (r ^ 2 * J1 3 3 ^ 2 - (J1 0 3 ^ 2 + J1 1 3 ^ 2)) := mul_nonneg (sq_nonneg _) (by linarith)
    nlinarith

theorem CylFeasible.realizable {L r : ℝ} (hL : 0 ≤ L) (hr : 0 ≤ r) {J : Matrix (Fin 4) (Fin 4) ℝ} (hJ : Spec.PSD J)
    (h : CylFeasible L r J) : RealJ (Spec.cylinder L r 1 0) J := by
  have hLL : Spec.cylinder L r 1 0 = Spec.cylinder (2 * (L / 2)) r 1 0 := by rw [mul_div_cancel₀ L two_ne_zero]
  rw [hLL]
  obtain ⟨h1, h2, h3, h4⟩ := h.inequalities hr hJ
  exact RealJ.cylinder hJ (by positivity) h1 h2 h3 h4

theorem cyl_vertex_realizable (c : Cylinder ℝ) (hR : Spec.Orthogonal c.rotation) (hr : Spec.Resolved c.radius)
    (hL : 0 ≤ c.length) (x : ParamVar ℝ) (J : Matrix (Fin 4) (Fin 4) ℝ) (psd : Prop)
    (hx : pimMustEqualParamVar x 0 = .ok (J, psd)) (hpsd : psd → Spec.PSD J)
    (h : Py.Holds (c.momentCustomVertexConstraints x 0)) :
    RealJ (Spec.cylinder c.length c.radius c.rotation c.center) J := by
  obtain ⟨q, hq, hqq⟩ := h
  obtain ⟨w, hw, hw', -⟩ := cyl_vertex_eq c hr _ _ _ 0 le_rfl hx
  rw [hq] at hw; obtain rfl := Except.ok.inj hw
  obtain ⟨hp, hf⟩ := hw' hqq
  have hJ := hpsd hp
  set T := transformMatrix c.rotation c.center with hT
  set Ti := transformMatrixInv c.rotation c.center with hTi
  have hTT : T * Ti = 1 := (C06_transformMatrixInv c.rotation c.center hR).2
  have hX : Spec.PSD (Ti * J * Tiᵀ) := hJ.congr Ti
  have := (hf.realizable hL hr.nonneg hX).transform hX.1 c.rotation c.center
  rw [moved_cylinder] at this
  convert this using 1
  rw [← hT, show T * (Ti * J * Tiᵀ) * Tᵀ = (T * Ti) * J * (T * Ti)ᵀ by
    simp only [transpose_mul, Matrix.mul_assoc], hTT, Matrix.one_mul, transpose_one, Matrix.mul_one]

/-- C88: the vertex constraints of a cylinder (of zero or resolved radius) with `eps = 0` hold exactly for the
parameters of the mass distributions inside the cylinder. -/
theorem C88_exact (c : Cylinder ℝ) (hR : Spec.Orthogonal c.rotation) (hr : Spec.Resolved c.radius) (hL : 0 ≤ c.length)
    (p : IP ℝ) :
    Py.Holds (c.momentCustomVertexConstraints (.mat p.J) 0) ↔
      Spec.Realizable (Spec.cylinder c.length c.radius c.rotation c.center) p.mass p.h p.H := by
  refine ⟨fun h => ?_, fun h => (C55_vertex_necessary c hR hr p h).1⟩
  obtain ⟨psd, h1, h2⟩ := C19_mat p.J 0 le_rfl
  rw [← IP.realJ_iff]
  exact cyl_vertex_realizable c hR hr hL _ _ _ h1 (fun hp => by simpa using h2.mp hp) h

/-- C88 for the variables given as a vector. -/
theorem C88_exact_vec (c : Cylinder ℝ) (hR : Spec.Orthogonal c.rotation) (hr : Spec.Resolved c.radius)
    (hL : 0 ≤ c.length) (p : IP ℝ) (hp : p.Hᵀ = p.H) :
    Py.Holds (c.momentCustomVertexConstraints (.vec p.vec) 0) ↔
      Spec.Realizable (Spec.cylinder c.length c.radius c.rotation c.center) p.mass p.h p.H := by
  refine ⟨fun h => ?_, fun h => (C55_vertex_necessary c hR hr p h).2⟩
  obtain ⟨psd, psd', h1, -, -, h2⟩ := C19_vec p hp 0 le_rfl
  rw [← IP.realJ_iff]
  exact cyl_vertex_realizable c hR hr hL _ _ _ h1 (fun hp => by simpa using h2.mp hp) h

/-- C88: the vertex constraints of a cylinder are at least as tight as the moment relaxation of every order. -/
theorem C88_tighter (c : Cylinder ℝ) (hR : Spec.Orthogonal c.rotation) (hr : Spec.Resolved c.radius) (hL : 0 ≤ c.length)
    (p : IP ℝ) (h : Py.Holds (c.momentCustomVertexConstraints (.mat p.J) 0)) (eps : ℝ) (heps : 0 ≤ eps) (d : ℕ)
    (hd : 1 ≤ d) :
    Py.Holds (c.momentSdpConstraints (.mat p.J) eps d) ∧ Py.Holds (c.momentSdpConstraints (.vec p.vec) eps d) :=
  C55_sdp_necessary c hR p ((C88_exact c hR hr hL p).mp h) eps heps d hd

/-- C88: for a cylinder of positive size they are tighter at every order, even in the value of one fixed linear
objective. -/
theorem C88_strictly_tighter (c : Cylinder ℝ) (hR : Spec.Orthogonal c.rotation) (hr : 1 / 100000000 < c.radius)
    (hL : 0 < c.length) :
    ∃ D : Matrix (Fin 4) (Fin 4) ℝ, Dᵀ = D ∧
      (∀ q : IP ℝ, Py.Holds (c.momentCustomVertexConstraints (.mat q.J) 0) → 0 ≤ (D * q.J).trace) ∧
      ∀ d : ℕ, 1 ≤ d → ∃ q : IP ℝ, q.mass = 1 ∧ q.Hᵀ = q.H ∧ (D * q.J).trace < 0 ∧
        Py.Holds (c.momentSdpConstraints (.mat q.J) 0 d) ∧
        ¬ Py.Holds (c.momentCustomVertexConstraints (.mat q.J) 0) ∧
        ¬ Py.Holds (c.momentCustomVertexConstraints (.vec q.vec) 0) := by
  have hr' : Spec.Resolved c.radius := Or.inr hr
  obtain ⟨D, hD, h1, h2⟩ := C86_objective c hR hL (lt_trans (by norm_num) hr)
  refine ⟨D, hD, fun q hq => h1 q ((C88_exact c hR hr' hL.le q).mp hq), fun d hd => ?_⟩
  obtain ⟨q, a, b, e, f⟩ := h2 d hd
  refine ⟨q, a, b, e, (f 0 le_rfl).1, fun hq => ?_, fun hq => ?_⟩
  · exact absurd (h1 q ((C88_exact c hR hr' hL.le q).mp hq)) (not_le.mpr e)
  · exact absurd (h1 q ((C88_exact_vec c hR hr' hL.le q b).mp hq)) (not_le.mpr e)

/-- C88: the same constraints decide which parameters continuous mass distributions have. -/
theorem C88_measure (c : Cylinder ℝ) (hR : Spec.Orthogonal c.rotation) (hr : Spec.Resolved c.radius) (hL : 0 ≤ c.length)
    (p : IP ℝ) :
    Py.Holds (c.momentCustomVertexConstraints (.mat p.J) 0) ↔
      ∃ μ : MeasureTheory.Measure (Fin 3 → ℝ),
        Spec.CarriedBy μ (Spec.cylinder c.length c.radius c.rotation c.center) ∧
          Spec.HasMoments μ p.mass p.h p.H := by
  rw [C88_exact c hR hr hL p]
  exact C60_iff _ (cylinder_compact' _ _ hR _) _ _ _

/-- C88: the parameters of the bodies in a cylinder at the origin, written out: besides `J ⪰ 0` there is one
inequality for the squared height, one for the squared distance from the axis, and one for each end. -/
theorem C88_inequalities (L r : ℝ) (hL : 0 ≤ L) (hr : 0 ≤ r) (p : IP ℝ) :
    Spec.Realizable (Spec.cylinder L r 1 0) p.mass p.h p.H ↔
      Spec.PSD p.J ∧ p.H 2 2 ≤ (L / 2) ^ 2 * p.mass ∧ p.H 0 0 + p.H 1 1 ≤ r ^ 2 * p.mass ∧
      ∀ s : ℝ, s = 1 ∨ s = -1 →
        (L / 2 * p.h 0 - s * p.H 0 2) ^ 2 + (L / 2 * p.h 1 - s * p.H 1 2) ^ 2 ≤
          r ^ 2 * (L / 2 * p.mass - s * p.h 2) ^ 2 := by
  have e33 : p.J 3 3 = p.mass := bordered_ll _ _ _ _
  have ei3 : ∀ i : Fin 3, p.J i.castSucc 3 = p.h i := bordered_cl _ _ _ _
  have e3i : ∀ i : Fin 3, p.J 3 i.castSucc = p.h i := bordered_lc _ _ _ _
  have eij : ∀ i j : Fin 3, p.J i.castSucc j.castSucc = p.H i j := bordered_cc _ _ _ _
  have d : diskVal r p.J = r ^ 2 * p.mass - p.H 0 0 - p.H 1 1 := by
    rw [diskVal, e33, show p.J 0 0 = p.H 0 0 from eij 0 0, show p.J 1 1 = p.H 1 1 from eij 1 1]
  have sd : ∀ s, sideVal r (L / 2) s p.J = r ^ 2 * (L / 2 * p.mass - s * p.h 2) ^ 2 -
      (L / 2 * p.h 0 - s * p.H 0 2) ^ 2 - (L / 2 * p.h 1 - s * p.H 1 2) ^ 2 := by
    intro s
    rw [sideVal, e33, show p.J 3 2 = p.h 2 from e3i 2, show p.J 0 3 = p.h 0 from ei3 0, show p.J 1 3 = p.h 1 from ei3 1,
      show p.J 0 2 = p.H 0 2 from eij 0 2, show p.J 1 2 = p.H 1 2 from eij 1 2]
  have e22 : p.J 2 2 = p.H 2 2 := eij 2 2
  constructor
  · intro h
    have hJ : Spec.PSD p.J := h.psd
    have hf : CylFeasible L r p.J := by
      refine Spec.Realizable.induct (P := fun m f H => CylFeasible L r (bordered H f f m)) ?_ ?_ ?_ h
      · rw [bordered_zero]; exact CylFeasible.zero _ _
      · intro m f H m' f' H' h1 h2
        rw [← bordered_add]
        exact h1.add h2
      · intro a p ha hp
        rw [cyl0_iff] at hp
        have e := CylFeasible.point hr hp.1 hp.2 ha
        convert e using 1
        ext i j
        induction i using Fin.lastCases with
        | last =>
          induction j using Fin.lastCases with
          | last => rw [bordered_ll]; simp only [IP.hom, Matrix.smul_apply, outer_apply, Fin.snoc_last, Fin.snoc_castSucc, Pi.smul_apply, smul_eq_mul]; ring
          | cast j => rw [bordered_lc]; simp only [IP.hom, Matrix.smul_apply, outer_apply, Fin.snoc_last, Fin.snoc_castSucc, Pi.smul_apply, smul_eq_mul]; ring
        | cast i =>
          induction j using Fin.lastCases with
          | last => rw [bordered_cl]; simp only [IP.hom, Matrix.smul_apply, outer_apply, Fin.snoc_last, Fin.snoc_castSucc, Pi.smul_apply, smul_eq_mul]; ring
          | cast j => rw [bordered_cc]; simp only [IP.hom, Matrix.smul_apply, outer_apply, Fin.snoc_last, Fin.snoc_castSucc, Pi.smul_apply, smul_eq_mul]
    obtain ⟨h1, h2, h3, h4⟩ := hf.inequalities hr hJ
    rw [e22, e33] at h1
    rw [d] at h2
    refine ⟨hJ, h1, by linarith, ?_⟩
    rintro s (rfl | rfl)
    · rw [sd] at h3; linarith
    · rw [sd] at h4; linarith
  · rintro ⟨hJ, h1, h2, h3⟩
    rw [← IP.realJ_iff]
    have hLL : Spec.cylinder L r 1 0 = Spec.cylinder (2 * (L / 2)) r 1 0 := by rw [mul_div_cancel₀ L two_ne_zero]
    rw [hLL]
    refine RealJ.cylinder hJ (by positivity) (by rw [e22, e33]; exact h1) (by rw [d]; linarith) ?_ ?_
    · rw [sd]; linarith [h3 1 (Or.inl rfl)]
    · rw [sd]; linarith [h3 (-1) (Or.inr rfl)]

/-! A cylinder and a body that is not on its axis. -/

example : Py.Holds ((⟨4, 1, 1, 0⟩ : Cylinder ℝ).momentCustomVertexConstraints
    (.mat (⟨2, ![1, 0, 1], (2 : ℝ) • outer ![1, 0, 1] ![1, 0, 1]⟩ : IP ℝ).J) 0) := by
  rw [C88_exact _ Spec.Orthogonal.one (Or.inr (by norm_num)) (by norm_num)]
  exact Spec.Realizable.point (K := ℝ) (a := 2) (p := ![1, 0, 1]) (S := Spec.cylinder 4 1 1 0) (by norm_num) (by
    rw [cyl0_iff]
    simp only [Matrix.cons_val]
    norm_num)

end Rigeo
