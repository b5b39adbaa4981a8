import Verif.Props.DensityRealizable
import Verif.Props.Surface

/-!
# The shell densities as limits of thin shells (C89)

`scripts/theory/box_shell_inertia.py:5-23` and `scripts/theory/ellipsoid_shell_inertia.py:11-37` derive the formulas of
`hollow_density_params` from the difference of two solids, the outer one with all half extents larger by `δ`, in the
limit `δ → 0`.
-/

namespace Rigeo

open Matrix MeasureTheory Filter Topology

/-- A solid as the uniform density of mass equal to its volume. -/
theorem restrict_eq_uniform {n : ℕ} (S : Set (Fin n → ℝ)) (hS : volume.real S ≠ 0) :
    volume.restrict S = Spec.uniform (volume.real S) S := by
  rw [Spec.uniform, div_self hS, ENNReal.ofReal_one, one_smul]

/-- The uniform density over the difference of two solids with the same centre. -/
theorem shell_moments {S S' : Set (Fin 3 → ℝ)} (hS : MeasurableSet S) (hSS : S ⊆ S') {c : Fin 3 → ℝ} {V V' : ℝ}
    (hVV : V < V') {H H' : Matrix (Fin 3) (Fin 3) ℝ} (h : Spec.HasMoments (volume.restrict S) V (V • c) H)
    (h' : Spec.HasMoments (volume.restrict S') V' (V' • c) H') (m : ℝ) (hm : 0 ≤ m) :
    Spec.HasMoments (Spec.uniform m (S' \ S)) m (m • c) ((m / (V' - V)) • (H' - H)) := by
  have hf : volume S' ≠ ⊤ := by
    have := h'.finite.measure_univ_lt_top
    rw [Measure.restrict_apply_univ] at this
    exact this.ne
  have e1 : volume.real S = V := by
    have := h.mass
    rwa [measureReal_restrict_apply_univ] at this
  have e2 : volume.real S' = V' := by
    have := h'.mass
    rwa [measureReal_restrict_apply_univ] at this
  have e3 : volume.real (S' \ S) = V' - V := by
    have := measureReal_sdiff_add_inter (μ := (volume : Measure (Fin 3 → ℝ))) (s := S') hS hf
    rw [Set.inter_eq_right.2 hSS] at this
    linarith
  have hd : Spec.HasMoments (volume.restrict (S' \ S)) (V' - V) ((V' - V) • c) (H' - H) := by
    have hle : volume.restrict (S' \ S) ≤ volume.restrict S' := Measure.restrict_mono_set _ Set.sdiff_subset
    have := h'.finite
    refine ⟨isFiniteMeasure_of_le _ hle, fun i => (h'.integrable i).mono_measure hle,
      fun i j => (h'.integrable_sq i j).mono_measure hle, ?_, fun i => ?_, fun i j => ?_⟩
    · rw [measureReal_restrict_apply_univ, e3]
    · rw [setIntegral_sdiff hS (h'.integrable i) hSS, h'.first, h.first, sub_smul, Pi.sub_apply]
    · rw [setIntegral_sdiff hS (h'.integrable_sq i j) hSS, h'.second, h.second, Matrix.sub_apply]
  have hV : 0 < V' - V := sub_pos.2 hVV
  have := HasMoments.smul hd (a := m / (V' - V)) (div_nonneg hm hV.le)
  rw [Spec.uniform, e3]
  convert this using 1
  · rw [div_mul_cancel₀ _ hV.ne']
  · rw [smul_smul, div_mul_cancel₀ _ hV.ne']

theorem density_entry (R : Matrix (Fin 3) (Fin 3) ℝ) (c w : Fin 3 → ℝ) (m : ℝ) (i j : Fin 3) :
    (R * (m • diagonal w) * Rᵀ + m • outer c c : Matrix (Fin 3) (Fin 3) ℝ) i j =
      m * ((∑ l, R i l * w l * R j l) + c i * c j) := by
  rw [Matrix.mul_smul, Matrix.smul_mul, ← smul_add, Matrix.smul_apply, Matrix.add_apply, smul_eq_mul, outer_apply,
    Matrix.mul_apply]
  simp only [mul_diagonal, transpose_apply]

/-- The limit of the shells, for solids whose volume is `κ ∏ hᵢ` and whose second moments are `k hᵢ²`. -/
theorem shell_limit (S : (Fin 3 → ℝ) → Set (Fin 3 → ℝ)) (R : Matrix (Fin 3) (Fin 3) ℝ) (c : Fin 3 → ℝ) (κ k : ℝ)
    (hκ : 0 < κ) (hS : ∀ h, (∀ i, 0 < h i) → MeasurableSet (S h))
    (hmono : ∀ h h', (∀ i, 0 < h i) → (∀ i, h i ≤ h' i) → S h ⊆ S h')
    (hvol : ∀ h, (∀ i, 0 < h i) → volume.real (S h) = κ * (h 0 * h 1 * h 2))
    (hmom : ∀ h, (∀ i, 0 < h i) → ∀ m, 0 < m → Spec.HasMoments (Spec.uniform m (S h)) m (m • c)
      (R * (m • diagonal fun i => k * h i ^ 2) * Rᵀ + m • outer c c))
    (h : Fin 3 → ℝ) (hh : ∀ i, 0 < h i) (m : ℝ) (hm : 0 < m) :
    ∃ H : ℝ → Matrix (Fin 3) (Fin 3) ℝ,
      (∀ δ, 0 < δ → Spec.HasMoments (Spec.uniform m (S (fun i => h i + δ) \ S h)) m (m • c) (H δ)) ∧
      ∀ i j, Tendsto (fun δ => H δ i j) (𝓝[>] 0) (𝓝 ((R * (m • diagonal fun i => k * (h i ^ 2 +
        2 * h i * (h 0 * h 1 * h 2) / (h 0 * h 1 + h 0 * h 2 + h 1 * h 2))) * Rᵀ + m • outer c c :
          Matrix (Fin 3) (Fin 3) ℝ) i j)) := by
  have h0 := hh 0
  have h1 := hh 1
  have h2 := hh 2
  set g : ℝ → Fin 3 → ℝ := fun δ i => k * (h i ^ 2 + (2 * h i + δ) * ((h 0 + δ) * (h 1 + δ) * (h 2 + δ)) /
    (h 0 * h 1 + h 0 * h 2 + h 1 * h 2 + (h 0 + h 1 + h 2) * δ + δ ^ 2)) with hg
  have hden : ∀ δ, 0 ≤ δ → 0 < h 0 * h 1 + h 0 * h 2 + h 1 * h 2 + (h 0 + h 1 + h 2) * δ + δ ^ 2 := by
    intro δ hδ
    positivity
  refine ⟨fun δ => R * (m • diagonal (g δ)) * Rᵀ + m • outer c c, fun δ hδ => ?_, fun i j => ?_⟩
  · have hh' : ∀ i, 0 < (fun i => h i + δ) i := fun i => add_pos (hh i) hδ
    have full : ∀ q : Fin 3 → ℝ, (∀ i, 0 < q i) → Spec.HasMoments (volume.restrict (S q)) (κ * (q 0 * q 1 * q 2))
        ((κ * (q 0 * q 1 * q 2)) • c) (R * ((κ * (q 0 * q 1 * q 2)) • diagonal fun i => k * q i ^ 2) * Rᵀ +
          (κ * (q 0 * q 1 * q 2)) • outer c c) := by
      intro q hq
      have hp : 0 < κ * (q 0 * q 1 * q 2) := mul_pos hκ (mul_pos (mul_pos (hq 0) (hq 1)) (hq 2))
      rw [restrict_eq_uniform _ (by rw [hvol q hq]; exact hp.ne'), hvol q hq]
      exact hmom q hq _ hp
    have hlt : κ * (h 0 * h 1 * h 2) < κ * ((h 0 + δ) * (h 1 + δ) * (h 2 + δ)) := by
      refine mul_lt_mul_of_pos_left ?_ hκ
      have := mul_pos hδ (hden δ hδ.le)
      nlinarith
    have := shell_moments (hS h hh) (hmono _ _ hh fun i => (lt_add_of_pos_right _ hδ).le) hlt (full h hh) (full _ hh')
      m hm.le
    convert this using 1
    have hd := hden δ hδ.le
    have hne : κ * ((h 0 + δ) * (h 1 + δ) * (h 2 + δ)) - κ * (h 0 * h 1 * h 2) ≠ 0 := (sub_pos.2 hlt).ne'
    have hfac : κ * ((h 0 + δ) * (h 1 + δ) * (h 2 + δ)) - κ * (h 0 * h 1 * h 2) =
        κ * δ * (h 0 * h 1 + h 0 * h 2 + h 1 * h 2 + (h 0 + h 1 + h 2) * δ + δ ^ 2) := by ring
    have hgl : ∀ l, g δ l * (κ * ((h 0 + δ) * (h 1 + δ) * (h 2 + δ)) - κ * (h 0 * h 1 * h 2)) =
        κ * ((h 0 + δ) * (h 1 + δ) * (h 2 + δ)) * (k * (h l + δ) ^ 2) - κ * (h 0 * h 1 * h 2) * (k * h l ^ 2) := by
      intro l
      simp only [hg]
      rw [hfac]
      field_simp
      ring
    clear_value g
    ext i j
    beta_reduce
    rw [Matrix.smul_apply, Matrix.sub_apply, density_entry, density_entry, density_entry, smul_eq_mul, div_mul_eq_mul_div,
      eq_div_iff hne, Fin.sum_univ_three, Fin.sum_univ_three, Fin.sum_univ_three]
    linear_combination m * (R i 0 * R j 0 * hgl 0 + R i 1 * R j 1 * hgl 1 + R i 2 * R j 2 * hgl 2)
  · simp only [density_entry]
    have hgt : ∀ l, Tendsto (fun δ => g δ l) (𝓝[>] 0) (𝓝 (k * (h l ^ 2 +
        2 * h l * (h 0 * h 1 * h 2) / (h 0 * h 1 + h 0 * h 2 + h 1 * h 2)))) := by
      intro l
      have hc : ContinuousAt (fun δ => g δ l) 0 := by
        refine ContinuousAt.mul continuousAt_const (ContinuousAt.add continuousAt_const (ContinuousAt.div ?_ ?_ ?_))
        · fun_prop
        · fun_prop
        · exact (hden 0 le_rfl).ne'
      have := hc.tendsto.mono_left (nhdsWithin_le_nhds (s := Set.Ioi 0))
      simpa only [hg, add_zero, mul_zero, ne_eq, OfNat.ofNat_ne_zero, not_false_eq_true, zero_pow] using this
    exact ((tendsto_finsetSum _ fun l _ => ((hgt l).const_mul _).mul_const _).add_const _).const_mul m

theorem hollow_diag (h : Fin 3 → ℝ) (k : ℝ) (hk : k ≠ 0) (hA : h 0 * h 1 + h 0 * h 2 + h 1 * h 2 ≠ 0) :
    (![h 0 ^ 2 * (h 0 * h 1 + h 0 * h 2 + 3 * h 1 * h 2) / (k * (h 0 * h 1 + h 0 * h 2 + h 1 * h 2)),
      h 1 ^ 2 * (h 0 * h 1 + 3 * h 0 * h 2 + h 1 * h 2) / (k * (h 0 * h 1 + h 0 * h 2 + h 1 * h 2)),
      h 2 ^ 2 * (3 * h 0 * h 1 + h 0 * h 2 + h 1 * h 2) / (k * (h 0 * h 1 + h 0 * h 2 + h 1 * h 2))] : Fin 3 → ℝ) =
    fun i => 1 / k * (h i ^ 2 + 2 * h i * (h 0 * h 1 * h 2) / (h 0 * h 1 + h 0 * h 2 + h 1 * h 2)) := by
  generalize hσ : h 0 * h 1 + h 0 * h 2 + h 1 * h 2 = A at hA ⊢
  ext l
  fin_cases l
  · show h 0 ^ 2 * (h 0 * h 1 + h 0 * h 2 + 3 * h 1 * h 2) / (k * A) =
      1 / k * (h 0 ^ 2 + 2 * h 0 * (h 0 * h 1 * h 2) / A)
    field_simp
    linear_combination h 0 ^ 2 * hσ
  · show h 1 ^ 2 * (h 0 * h 1 + 3 * h 0 * h 2 + h 1 * h 2) / (k * A) =
      1 / k * (h 1 ^ 2 + 2 * h 1 * (h 0 * h 1 * h 2) / A)
    field_simp
    linear_combination h 1 ^ 2 * hσ
  · show h 2 ^ 2 * (3 * h 0 * h 1 + h 0 * h 2 + h 1 * h 2) / (k * A) =
      1 / k * (h 2 ^ 2 + 2 * h 2 * (h 0 * h 1 * h 2) / A)
    field_simp
    linear_combination h 2 ^ 2 * hσ

/-- A body in an ellipsoid whose scaled second moments add up to its mass lies on the surface. -/
theorem carried_surface {h c : Fin 3 → ℝ} (hh : ∀ i, 0 < h i) {R : Matrix (Fin 3) (Fin 3) ℝ} (hR : Spec.Orthogonal R)
    {w : Fin 3 → ℝ} (hw : ∑ i, w i / h i ^ 2 = 1) {m : ℝ} {μ : Measure (Fin 3 → ℝ)}
    (hμ : Spec.HasMoments μ m (m • c) (R * (m • diagonal w) * Rᵀ + m • outer c c))
    (hc : Spec.CarriedBy μ (Spec.ellipsoid h R c)) :
    Spec.CarriedBy μ {q | ∃ u : Fin 3 → ℝ, u ⬝ᵥ u = 1 ∧ q = Spec.rigid R c fun i => h i * u i} := by
  have hfin := hμ.finite
  set y : (Fin 3 → ℝ) → Fin 3 → ℝ := fun q => Rᵀ *ᵥ q + -(Rᵀ *ᵥ c) with hy
  have hν : Spec.HasMoments (μ.map y) m 0 (m • diagonal w) := by
    have := HasMoments.map hμ Rᵀ (-(Rᵀ *ᵥ c))
    convert this using 1
    · rw [mulVec_smul, smul_neg, add_neg_cancel]
    · rw [transpose_transpose, Matrix.mul_add, Matrix.add_mul,
        show Rᵀ * (R * (m • diagonal w) * Rᵀ) * R = (Rᵀ * R) * (m • diagonal w) * (Rᵀ * R) by
          simp only [Matrix.mul_assoc], hR, Matrix.one_mul, Matrix.mul_one, Matrix.mul_smul, Matrix.smul_mul]
      have : Rᵀ * outer c c * R = outer (Rᵀ *ᵥ c) (Rᵀ *ᵥ c) := by
        ext i j
        simp only [Matrix.mul_apply, outer_apply, mulVec, dotProduct, transpose_apply, Finset.sum_mul, Finset.mul_sum]
        refine Finset.sum_congr rfl fun a _ => Finset.sum_congr rfl fun b _ => ?_
        ring
      rw [this, mulVec_smul]
      ext i j
      simp only [Matrix.add_apply, Matrix.smul_apply, outer_apply, Pi.smul_apply, Pi.neg_apply, smul_eq_mul]
      ring
  have hym : Measurable y := by rw [hy]; fun_prop
  have hint : ∀ i, Integrable (fun q => (y q i / h i) ^ 2) μ := by
    intro i
    have := (integrable_map_measure (hν.integrable_sq i i).aestronglyMeasurable hym.aemeasurable).1
      (hν.integrable_sq i i)
    refine (this.div_const (h i ^ 2)).congr (Eventually.of_forall fun q => ?_)
    simp only [Function.comp]
    ring
  have hval : ∀ i, ∫ q, (y q i / h i) ^ 2 ∂μ = m * (w i / h i ^ 2) := by
    intro i
    have h1 := hν.second i i
    rw [integral_map hym.aemeasurable (hν.integrable_sq i i).aestronglyMeasurable] at h1
    rw [Matrix.smul_apply, diagonal_apply_eq, smul_eq_mul] at h1
    rw [← mul_div_assoc, ← h1, ← integral_div]
    refine integral_congr_ae (Eventually.of_forall fun q => ?_)
    simp only
    ring
  have hae : ∀ᵐ q ∂μ, q ∈ Spec.ellipsoid h R c := hc
  have hle : ∀ᵐ q ∂μ, 0 ≤ 1 - ∑ i, (y q i / h i) ^ 2 := by
    filter_upwards [hae] with q hq
    have := ((Spec_ellipsoid_iff hR h c q).1 hq).2
    rw [mulVec_sub, sub_eq_add_neg] at this
    exact sub_nonneg.2 this
  have hI : Integrable (fun q => 1 - ∑ i, (y q i / h i) ^ 2) μ :=
    (integrable_const _).sub (integrable_finsetSum _ fun i _ => hint i)
  have hz : ∫ q, (1 - ∑ i, (y q i / h i) ^ 2) ∂μ = 0 := by
    rw [integral_sub (integrable_const _) (integrable_finsetSum _ fun i _ => hint i), integral_const,
      integral_finsetSum _ fun i _ => hint i]
    simp only [hval]
    rw [← Finset.mul_sum, hw, hμ.mass, smul_eq_mul, sub_self]
  have h0 := (integral_eq_zero_iff_of_nonneg_ae hle hI).1 hz
  have : ∀ᵐ q ∂μ, q ∈ {q | ∃ u : Fin 3 → ℝ, u ⬝ᵥ u = 1 ∧ q = Spec.rigid R c fun i => h i * u i} := by
    filter_upwards [h0] with q hq
    refine ⟨fun i => y q i / h i, ?_, ?_⟩
    · have : 1 - ∑ i, (y q i / h i) ^ 2 = 0 := hq
      rw [dotProduct]
      simp only [← sq]
      linarith
    · have : (fun i => h i * (y q i / h i)) = y q := by
        ext i
        exact mul_div_cancel₀ _ (hh i).ne'
      rw [this, Spec.rigid, hy]
      dsimp only
      rw [← sub_eq_add_neg, ← mulVec_sub, mulVec_mulVec, mul_eq_one_comm.1 hR, one_mulVec, sub_add_cancel]
  exact this

/-! ### C89 -/

/-- C89: the parameters of a hollow ellipsoid are the limit of those of the homogeneous shells between the ellipsoid and
the ellipsoid with all half extents larger by `δ`. -/
theorem C89_ellipsoid (e : Ellipsoid ℝ 3) (he : ∀ i, 0 < e.halfExtents i) (hR : Spec.Orthogonal e.rotation) (m : ℝ)
    (hm : 0 < m) :
    ∃ p, e.hollowDensityParams m = .ok p ∧ ∃ H : ℝ → Matrix (Fin 3) (Fin 3) ℝ,
      (∀ δ, 0 < δ → Spec.HasMoments (Spec.uniform m (Spec.ellipsoid (fun i => e.halfExtents i + δ) e.rotation e.center \
        Spec.ellipsoid e.halfExtents e.rotation e.center)) p.mass p.h (H δ)) ∧
      ∀ i j, Tendsto (fun δ => H δ i j) (𝓝[>] 0) (𝓝 (p.H i j)) := by
  have h0 := he 0
  have h1 := he 1
  have h2 := he 2
  have hA : e.halfExtents 0 * e.halfExtents 1 + e.halfExtents 0 * e.halfExtents 2 +
    e.halfExtents 1 * e.halfExtents 2 ≠ 0 := by positivity
  obtain ⟨H, hH, hl⟩ := shell_limit (fun h => Spec.ellipsoid h e.rotation e.center) e.rotation e.center
    (4 / 3 * Real.pi) (1 / 5) (by positivity)
    (fun h hh => (ellipsoid_compact h (fun i => (hh i).le) hR _).measurableSet)
    (fun h h' hh hhh q hq => by
      obtain ⟨u, hu, rfl⟩ := hq
      refine ⟨fun i => h i / h' i * u i, le_trans (Finset.sum_le_sum fun i _ => ?_) hu, ?_⟩
      · have hp : 0 < h' i := (hh i).trans_le (hhh i)
        have h3 : h i / h' i ≤ 1 := (div_le_one hp).2 (hhh i)
        have h4 : 0 ≤ h i / h' i := div_nonneg (hh i).le hp.le
        have h5 : (h i / h' i) * (h i / h' i) ≤ 1 := mul_le_one₀ h3 h4 h3
        have := mul_le_mul_of_nonneg_right h5 (mul_self_nonneg (u i))
        calc h i / h' i * u i * (h i / h' i * u i) = h i / h' i * (h i / h' i) * (u i * u i) := by ring
          _ ≤ 1 * (u i * u i) := this
          _ = u i * u i := one_mul _
      · congr 1
        ext i
        have hp : h' i ≠ 0 := ((hh i).trans_le (hhh i)).ne'
        field_simp)
    (fun h hh => by
      rw [ellipsoid_image, volume_affine, det_stretch _ hR _ fun i => (hh i).le, unitBall_three, Fin.prod_univ_three]
      ring)
    (fun h hh m hm => by
      obtain ⟨p, hp, hq⟩ := C57_ellipsoid ⟨h, e.rotation, e.center⟩ hh hR m hm
      rw [Ellipsoid.uniformDensityParams_ok _ _ hm] at hp
      cases hp
      exact hq)
    e.halfExtents he m hm
  refine ⟨_, e.hollowDensityParams_ok m hm hA, H, hH, ?_⟩
  rw [hollow_diag _ 5 (by norm_num) hA]
  exact hl

/-- C89: the parameters of a hollow box are the limit of those of the homogeneous shells between the box and the box with
all half extents larger by `δ`. (`C58_hollow` has shown that they are those of the surface.) -/
theorem C89_box (b : Box ℝ) (hb : ∀ i, 0 < b.halfExtents i) (hR : Spec.Orthogonal b.rotation) (m : ℝ)
    (hm : 0 < m) :
    ∃ p, b.hollowDensityParams m = .ok p ∧ ∃ H : ℝ → Matrix (Fin 3) (Fin 3) ℝ,
      (∀ δ, 0 < δ → Spec.HasMoments (Spec.uniform m (Spec.box (fun i => b.halfExtents i + δ) b.rotation b.center \
        Spec.box b.halfExtents b.rotation b.center)) p.mass p.h (H δ)) ∧
      ∀ i j, Tendsto (fun δ => H δ i j) (𝓝[>] 0) (𝓝 (p.H i j)) := by
  have h0 := hb 0
  have h1 := hb 1
  have h2 := hb 2
  have hA : b.halfExtents 0 * b.halfExtents 1 + b.halfExtents 0 * b.halfExtents 2 +
    b.halfExtents 1 * b.halfExtents 2 ≠ 0 := by positivity
  obtain ⟨H, hH, hl⟩ := shell_limit (fun h => Spec.box h b.rotation b.center) b.rotation b.center
    8 (1 / 3) (by positivity)
    (fun h hh => (box_compact h (fun i => (hh i).le) hR _).measurableSet)
    (fun h h' hh hhh q hq => by
      obtain ⟨u, hu, rfl⟩ := hq
      exact ⟨u, fun i => (hu i).trans (hhh i), rfl⟩)
    (fun h hh => by
      rw [box_image _ _ _ fun i => (hh i).le, volume_affine, det_stretch _ hR _ fun i => (hh i).le, unitCube_volume,
        Fin.prod_univ_three]
      ring)
    (fun h hh m hm => by
      obtain ⟨p, hp, hq⟩ := C57_box ⟨h, b.rotation, b.center⟩ hh hR m hm
      rw [Box.uniformDensityParams_ok _ _ hm] at hp
      cases hp
      exact hq)
    b.halfExtents hb m hm
  refine ⟨_, b.hollowDensityParams_ok m hm hA, H, hH, ?_⟩
  rw [hollow_diag _ 3 (by norm_num) hA]
  exact hl

example : ∃ p, (⟨![1, 2, 3], 1, ![1, 0, 0]⟩ : Ellipsoid ℝ 3).hollowDensityParams 6 = .ok p ∧
    ∃ H : ℝ → Matrix (Fin 3) (Fin 3) ℝ,
      (∀ δ, 0 < δ → Spec.HasMoments (Spec.uniform 6 (Spec.ellipsoid (fun i => ![1, 2, 3] i + δ) 1 ![1, 0, 0] \
        Spec.ellipsoid ![1, 2, 3] 1 ![1, 0, 0])) p.mass p.h (H δ)) ∧
      ∀ i j, Tendsto (fun δ => H δ i j) (𝓝[>] 0) (𝓝 (p.H i j)) :=
  C89_ellipsoid ⟨![1, 2, 3], 1, ![1, 0, 0]⟩ (by intro i; fin_cases i <;> norm_num) Spec.Orthogonal.one 6 (by norm_num)

/-- C89: a body inside the ellipsoid that has the parameters of the hollow ellipsoid is a shell: all of its mass lies on
the surface. (`C59_ellipsoid_hollow` has shown that there is such a body.) -/
theorem C89_on_surface (e : Ellipsoid ℝ 3) (he : ∀ i, 0 < e.halfExtents i) (hR : Spec.Orthogonal e.rotation) (m : ℝ)
    (hm : 0 < m) (p : IP ℝ) (hp : e.hollowDensityParams m = .ok p) (μ : Measure (Fin 3 → ℝ))
    (hμ : Spec.HasMoments μ p.mass p.h p.H) (hc : Spec.CarriedBy μ (Spec.ellipsoid e.halfExtents e.rotation e.center)) :
    Spec.CarriedBy μ {q | ∃ u : Fin 3 → ℝ, u ⬝ᵥ u = 1 ∧ q = Spec.rigid e.rotation e.center fun i => e.halfExtents i * u i} := by
  have h0 := he 0
  have h1 := he 1
  have h2 := he 2
  have hA : e.halfExtents 0 * e.halfExtents 1 + e.halfExtents 0 * e.halfExtents 2 +
    e.halfExtents 1 * e.halfExtents 2 ≠ 0 := by positivity
  rw [e.hollowDensityParams_ok m hm hA, hollow_diag _ 5 (by norm_num) hA] at hp
  cases hp
  refine carried_surface he hR ?_ hμ hc
  rw [Fin.sum_univ_three]
  field_simp
  ring

example : ∃ p, (⟨![1, 2, 3], 1, ![1, 0, 0]⟩ : Ellipsoid ℝ 3).hollowDensityParams 6 = .ok p ∧
    ∃ μ : Measure (Fin 3 → ℝ), Spec.HasMoments μ p.mass p.h p.H ∧ Spec.CarriedBy μ (Spec.ellipsoid ![1, 2, 3] 1 ![1, 0, 0]) := by
  have hA : (![1, 2, 3] : Fin 3 → ℝ) 0 * (![1, 2, 3] : Fin 3 → ℝ) 1 + (![1, 2, 3] : Fin 3 → ℝ) 0 * (![1, 2, 3] : Fin 3 → ℝ) 2 +
    (![1, 2, 3] : Fin 3 → ℝ) 1 * (![1, 2, 3] : Fin 3 → ℝ) 2 ≠ 0 := by simp; norm_num
  have hok := Ellipsoid.hollowDensityParams_ok ⟨![1, 2, 3], 1, ![1, 0, 0]⟩ 6 (by norm_num) hA
  refine ⟨_, hok, ?_⟩
  have := C59_ellipsoid_hollow ⟨![1, 2, 3], 1, ![1, 0, 0]⟩ (by intro i; fin_cases i <;> norm_num) 6 (by norm_num) _ hok
  obtain ⟨μ, h1, h2⟩ := C60_measure _ (ellipsoid_compact ![1, 2, 3] (by intro i; fin_cases i <;> norm_num)
    Spec.Orthogonal.one ![1, 0, 0]).measurableSet _ _ _ (this.mono fun q hq => by
      obtain ⟨u, hu, rfl⟩ := hq
      exact ⟨u, hu.le, rfl⟩)
  exact ⟨μ, h2, h1⟩

end Rigeo
