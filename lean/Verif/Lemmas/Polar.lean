import Verif.Spec.Random
import Verif.Lemmas.Uniform
import Mathlib.MeasureTheory.Function.JacobianOneDim
import Mathlib.MeasureTheory.Measure.CharacteristicFunction.Basic

/-!
# Polar coordinates and the laws of directions and radii
-/

namespace Rigeo

open MeasureTheory Matrix ProbabilityTheory Set

local notation "E" n:max => EuclideanSpace ℝ (Fin n)

/-- Integration in polar coordinates. -/
theorem lintegral_polar (k : ℕ) (f : E (k + 1) → ENNReal) (hf : Measurable f) :
    ∫⁻ x, f x = ∫⁻ u, ∫⁻ r in Ioi (0 : ℝ), ENNReal.ofReal (r ^ k) * f (r • (u : E (k + 1)))
      ∂volume ∂(volume : Measure (E (k + 1))).toSphere := by
  have h1 : ∫⁻ x, f x = ∫⁻ x : ({0}ᶜ : Set (E (k + 1))), f x ∂(volume.comap Subtype.val) := by
    rw [lintegral_subtype_comap (measurableSet_singleton _).compl, restrict_compl_singleton]
  have h2 := (volume : Measure (E (k + 1))).measurePreserving_homeomorphUnitSphereProd.lintegral_comp_emb
    (Homeomorph.measurableEmbedding _) fun p => f ((homeomorphUnitSphereProd (E (k + 1))).symm p)
  simp only [Homeomorph.symm_apply_apply] at h2
  rw [h1, h2, lintegral_prod]
  · refine lintegral_congr fun u => ?_
    simp only [homeomorphUnitSphereProd_symm_apply_coe, finrank_euclideanSpace, Fintype.card_fin, Nat.add_sub_cancel]
    rw [Measure.volumeIoiPow, lintegral_withDensity_eq_lintegral_mul _ (by fun_prop)]
    · exact lintegral_subtype_comap measurableSet_Ioi (μ := volume)
        fun r : ℝ => ENNReal.ofReal (r ^ k) * f (r • (u : E (k + 1)))
    · exact hf.comp (by fun_prop)
  · exact (hf.comp (measurable_subtype_coe.comp (homeomorphUnitSphereProd (E (k + 1))).symm.measurable)).aemeasurable

/-- The radius `c ^ (1/n)` of a uniform `c` has density `n r ^ (n - 1)`. -/
theorem lintegral_root (k : ℕ) (h : ℝ → ENNReal) :
    ∫⁻ c in Icc (0 : ℝ) 1, h (c ^ (1 / ((k + 1 : ℕ) : ℝ))) =
      ∫⁻ r in Ioo (0 : ℝ) 1, ENNReal.ofReal ((k + 1) * r ^ k) * h r := by
  have him : (fun r : ℝ => r ^ (k + 1)) '' Ioo 0 1 = Ioo 0 1 := by
    ext c
    constructor
    · rintro ⟨r, hr, rfl⟩
      exact ⟨pow_pos hr.1 _, pow_lt_one₀ hr.1.le hr.2 (Nat.succ_ne_zero _)⟩
    · intro hc
      refine ⟨c ^ (1 / ((k + 1 : ℕ) : ℝ)), ⟨Real.rpow_pos_of_pos hc.1 _, Real.rpow_lt_one hc.1.le hc.2 (by positivity)⟩, ?_⟩
      show (c ^ (1 / ((k + 1 : ℕ) : ℝ))) ^ (k + 1) = c
      rw [one_div, Real.rpow_inv_natCast_pow hc.1.le (Nat.succ_ne_zero _)]
  rw [← setLIntegral_congr Ioo_ae_eq_Icc]
  conv_lhs => rw [← him]
  rw [lintegral_image_eq_lintegral_abs_deriv_mul measurableSet_Ioo
    (fun r _ => (hasDerivAt_pow (k + 1) r).hasDerivWithinAt)]
  · refine setLIntegral_congr_fun measurableSet_Ioo fun r hr => ?_
    rw [one_div, Real.pow_rpow_inv_natCast hr.1.le (Nat.succ_ne_zero _), abs_of_nonneg]
    · push_cast
      simp
    · have := hr.1.le
      positivity
  · intro a ha b hb hab
    exact (pow_left_inj₀ ha.1.le hb.1.le (Nat.succ_ne_zero _)).1 hab

/-- The volume of the ball from the area of the sphere. -/
theorem toSphere_univ (k : ℕ) : (volume : Measure (E (k + 1))).toSphere univ =
    (k + 1 : ℕ) * volume (Metric.closedBall (0 : E (k + 1)) 1) := by
  rw [Measure.toSphere_apply_univ, finrank_euclideanSpace, Fintype.card_fin, Measure.addHaar_closedBall_eq_addHaar_ball]

/-- A random vector whose density depends on its length only, scaled to the length `c ^ (1/n)`, is uniform in the ball. -/
theorem ball_law (k : ℕ) (g : ℝ → ENNReal) (hg : Measurable g)
    (h1 : ∫⁻ x : E (k + 1), g ‖x‖ = 1) (A : Set (E (k + 1))) (hA : MeasurableSet A) :
    ∫⁻ x : E (k + 1), g ‖x‖ * ∫⁻ c in Icc (0 : ℝ) 1,
        A.indicator 1 (c ^ (1 / ((k + 1 : ℕ) : ℝ)) • ‖x‖⁻¹ • x) =
      volume (A ∩ Metric.closedBall 0 1) / volume (Metric.closedBall (0 : E (k + 1)) 1) := by
  set V := volume (Metric.closedBall (0 : E (k + 1)) 1) with hV
  have hV0 : V ≠ 0 := (Metric.measure_closedBall_pos volume _ one_pos).ne'
  have hVt : V ≠ ⊤ := measure_closedBall_lt_top.ne
  set C := ∫⁻ r in Ioi (0 : ℝ), ENNReal.ofReal (r ^ k) * g r with hC
  have norm_u : ∀ (u : Metric.sphere (0 : E (k + 1)) 1) (r : ℝ), 0 < r → ‖r • (u : E (k + 1))‖ = r := by
    intro u r hr
    rw [norm_smul, norm_eq_of_mem_sphere, mul_one, Real.norm_of_nonneg hr.le]
  have e1 : C * ((k + 1 : ℕ) * V) = 1 := by
    rw [lintegral_polar k _ (by fun_prop)] at h1
    have : ∀ u : Metric.sphere (0 : E (k + 1)) 1,
        ∫⁻ r in Ioi (0 : ℝ), ENNReal.ofReal (r ^ k) * g ‖r • (u : E (k + 1))‖ = C := by
      intro u
      refine setLIntegral_congr_fun measurableSet_Ioi fun r hr => ?_
      rw [norm_u u r hr]
    simp only [this] at h1
    rwa [lintegral_const, toSphere_univ] at h1
  have hF : Measurable fun q : E (k + 1) × ℝ =>
      A.indicator (1 : E (k + 1) → ENNReal) (q.2 ^ (1 / ((k + 1 : ℕ) : ℝ)) • ‖q.1‖⁻¹ • q.1) :=
    (measurable_one.indicator hA).comp (by fun_prop)
  have hφ : Measurable fun x : E (k + 1) => ∫⁻ c in Icc (0 : ℝ) 1,
      A.indicator (1 : E (k + 1) → ENNReal) (c ^ (1 / ((k + 1 : ℕ) : ℝ)) • ‖x‖⁻¹ • x) :=
    hF.lintegral_prod_right'
  have hgφ : Measurable fun x : E (k + 1) => g ‖x‖ * ∫⁻ c in Icc (0 : ℝ) 1,
      A.indicator (1 : E (k + 1) → ENNReal) (c ^ (1 / ((k + 1 : ℕ) : ℝ)) • ‖x‖⁻¹ • x) :=
    (hg.comp measurable_norm).mul hφ
  have hI : Measurable ((A ∩ Metric.closedBall 0 1).indicator (1 : E (k + 1) → ENNReal)) :=
    measurable_one.indicator (hA.inter measurableSet_closedBall)
  have hin : Measurable fun u : Metric.sphere (0 : E (k + 1)) 1 => ∫⁻ r in Ioi (0 : ℝ), ENNReal.ofReal (r ^ k) *
      (A ∩ Metric.closedBall 0 1).indicator (1 : E (k + 1) → ENNReal) (r • (u : E (k + 1))) := by
    have : Measurable fun q : Metric.sphere (0 : E (k + 1)) 1 × ℝ => ENNReal.ofReal (q.2 ^ k) *
        (A ∩ Metric.closedBall 0 1).indicator (1 : E (k + 1) → ENNReal) (q.2 • (q.1 : E (k + 1))) :=
      (by fun_prop : Measurable fun q : Metric.sphere (0 : E (k + 1)) 1 × ℝ => ENNReal.ofReal (q.2 ^ k)).mul
        (hI.comp (by fun_prop))
    exact this.lintegral_prod_right'
  rw [lintegral_polar k _ hgφ]
  have e2 : ∀ u : Metric.sphere (0 : E (k + 1)) 1,
      (∫⁻ r in Ioi (0 : ℝ), ENNReal.ofReal (r ^ k) * (g ‖r • (u : E (k + 1))‖ * ∫⁻ c in Icc (0 : ℝ) 1,
        A.indicator (1 : E (k + 1) → ENNReal) (c ^ (1 / ((k + 1 : ℕ) : ℝ)) • ‖r • (u : E (k + 1))‖⁻¹ • r • (u : E (k + 1))))) =
      C * ((k + 1 : ℕ) * ∫⁻ r in Ioi (0 : ℝ), ENNReal.ofReal (r ^ k) *
        (A ∩ Metric.closedBall 0 1).indicator (1 : E (k + 1) → ENNReal) (r • (u : E (k + 1)))) := by
    intro u
    have a1 : ∀ r ∈ Ioi (0 : ℝ), ENNReal.ofReal (r ^ k) * (g ‖r • (u : E (k + 1))‖ * ∫⁻ c in Icc (0 : ℝ) 1,
        A.indicator (1 : E (k + 1) → ENNReal) (c ^ (1 / ((k + 1 : ℕ) : ℝ)) • ‖r • (u : E (k + 1))‖⁻¹ • r • (u : E (k + 1)))) =
        ENNReal.ofReal (r ^ k) * g r * ∫⁻ c in Icc (0 : ℝ) 1,
          A.indicator (1 : E (k + 1) → ENNReal) (c ^ (1 / ((k + 1 : ℕ) : ℝ)) • (u : E (k + 1))) := by
      intro r hr
      rw [norm_u u r hr, smul_smul r⁻¹ r, inv_mul_cancel₀ (ne_of_gt hr), one_smul, mul_assoc]
    rw [setLIntegral_congr_fun measurableSet_Ioi a1, lintegral_mul_const _ (by fun_prop)]
    congr 1
    rw [lintegral_root k fun r => A.indicator (1 : E (k + 1) → ENNReal) (r • (u : E (k + 1)))]
    rw [← lintegral_const_mul _ (by fun_prop)]
    have a2 : ∀ r ∈ Ioi (0 : ℝ), ((k + 1 : ℕ) : ENNReal) * (ENNReal.ofReal (r ^ k) *
        (A ∩ Metric.closedBall 0 1).indicator (1 : E (k + 1) → ENNReal) (r • (u : E (k + 1)))) =
        (Iic (1 : ℝ)).indicator (fun r => ENNReal.ofReal ((k + 1) * r ^ k) *
          A.indicator (1 : E (k + 1) → ENNReal) (r • (u : E (k + 1)))) r := by
      intro r hr
      have hr' : (0 : ℝ) ≤ r := le_of_lt hr
      have hk : ENNReal.ofReal ((k + 1) * r ^ k) = ((k + 1 : ℕ) : ENNReal) * ENNReal.ofReal (r ^ k) := by
        rw [ENNReal.ofReal_mul (by positivity)]
        congr 1
        rw [← ENNReal.ofReal_natCast]
        push_cast
        rfl
      by_cases h : r ≤ 1
      · rw [indicator_of_mem (show r ∈ Iic (1 : ℝ) from h), hk, mul_assoc]
        congr 2
        have hb : r • (u : E (k + 1)) ∈ Metric.closedBall (0 : E (k + 1)) 1 := by
          rw [mem_closedBall_zero_iff, norm_u u r hr]
          exact h
        by_cases hm : r • (u : E (k + 1)) ∈ A
        · rw [indicator_of_mem hm, indicator_of_mem (Set.mem_inter hm hb)]
        · rw [indicator_of_notMem hm, indicator_of_notMem fun h => hm h.1]
      · rw [indicator_of_notMem (show r ∉ Iic (1 : ℝ) from h), indicator_of_notMem, mul_zero, mul_zero]
        intro hm
        have := hm.2
        rw [mem_closedBall_zero_iff, norm_u u r hr] at this
        exact h this
    rw [setLIntegral_congr_fun measurableSet_Ioi a2, setLIntegral_indicator measurableSet_Iic, inter_comm, Ioi_inter_Iic,
      setLIntegral_congr Ioo_ae_eq_Ioc]
  rw [lintegral_congr e2, lintegral_const_mul, lintegral_const_mul,
    ← lintegral_polar k _ (measurable_one.indicator (hA.inter measurableSet_closedBall)),
    lintegral_indicator_one (hA.inter measurableSet_closedBall)]
  · rw [ENNReal.eq_div_iff hV0 hVt, ← mul_assoc, ← mul_assoc, mul_comm V, mul_assoc C, mul_comm V, e1, one_mul]
  · exact hin
  · exact hin.const_mul _

/-! ### The normal distribution -/

/-- The density of independent standard normal draws. -/
noncomputable def normalDensity (n : ℕ) (r : ℝ) : ENNReal := ENNReal.ofReal ((√(2 * Real.pi))⁻¹ ^ n * Real.exp (-r ^ 2 / 2))

theorem normals_density (n : ℕ) : Spec.normals n = volume.withDensity fun x => normalDensity n √(x ⬝ᵥ x) := by
  have hp : ∀ x : Fin n → ℝ, normalDensity n √(x ⬝ᵥ x) = ENNReal.ofReal (∏ i, gaussianPDFReal 0 1 (x i)) := by
    intro x
    rw [normalDensity]
    congr 1
    simp only [gaussianPDFReal, NNReal.coe_one, mul_one, sub_zero]
    rw [Finset.prod_mul_distrib, Finset.prod_const, Finset.card_univ, Fintype.card_fin, ← Real.exp_sum,
      Real.sq_sqrt (dot_self_nonneg x)]
    congr 2
    rw [dotProduct, ← Finset.sum_neg_distrib, Finset.sum_div]
    refine Finset.sum_congr rfl fun i _ => ?_
    ring
  rw [Spec.normals]
  refine Measure.pi_eq fun s hs => ?_
  rw [withDensity_apply _ (MeasurableSet.univ_pi hs)]
  simp only [hp]
  rw [volume_pi, Measure.restrict_pi_pi]
  have hi : ∀ i, Integrable (gaussianPDFReal 0 1) ((volume : Measure ℝ).restrict (s i)) := fun i =>
    (integrable_gaussianPDFReal 0 1).integrableOn
  rw [← ofReal_integral_eq_lintegral_ofReal (Integrable.fintype_prod hi)
    (Filter.Eventually.of_forall fun x => Finset.prod_nonneg fun i _ => gaussianPDFReal_nonneg _ _ _),
    integral_fintype_prod_eq_prod, ENNReal.ofReal_prod_of_nonneg fun i _ =>
      integral_nonneg fun x => gaussianPDFReal_nonneg _ _ _]
  refine Finset.prod_congr rfl fun i _ => ?_
  rw [gaussianReal_apply_eq_integral 0 one_ne_zero]

theorem toLp_norm {n : ℕ} (x : Fin n → ℝ) : ‖WithLp.toLp 2 x‖ = √(x ⬝ᵥ x) := by
  rw [EuclideanSpace.norm_eq]
  simp only [dotProduct, Real.norm_eq_abs, sq_abs]
  simp only [sq]

instance (n : ℕ) : IsProbabilityMeasure (Spec.normals n) := by
  unfold Spec.normals
  infer_instance

theorem measurable_normalDensity (n : ℕ) : Measurable (normalDensity n) := by
  unfold normalDensity
  fun_prop

theorem draw_zero_one : Spec.draw 0 1 = volume.restrict (Icc 0 1) := by
  rw [Spec.draw, sub_zero, div_one, ENNReal.ofReal_one, one_smul]

theorem draw_probability {a b : ℝ} (h : a < b) : IsProbabilityMeasure (Spec.draw a b) := by
  refine ⟨?_⟩
  rw [Spec.draw, Measure.smul_apply, Measure.restrict_apply_univ, Real.volume_Icc, smul_eq_mul,
    ← ENNReal.ofReal_mul (by have := sub_pos.2 h; positivity), one_div, inv_mul_cancel₀ (sub_pos.2 h).ne', ENNReal.ofReal_one]

/-- The law of a normal vector scaled to the length `c ^ (1/n)` is uniform over the ball. -/
theorem ball_law_map (k : ℕ) : ((Spec.normals (k + 1)).prod (Spec.draw 0 1)).map
      (fun q => q.2 ^ (1 / ((k + 1 : ℕ) : ℝ)) • (√(q.1 ⬝ᵥ q.1))⁻¹ • q.1) = Spec.uniform 1 (unitBall (k + 1)) := by
  have hdot : Measurable fun x : Fin (k + 1) → ℝ => x ⬝ᵥ x := by unfold dotProduct; fun_prop
  have hF : Measurable fun q : (Fin (k + 1) → ℝ) × ℝ => q.2 ^ (1 / ((k + 1 : ℕ) : ℝ)) • (√(q.1 ⬝ᵥ q.1))⁻¹ • q.1 := by
    fun_prop
  have hp := draw_probability (zero_lt_one (α := ℝ))
  have hmp := PiLp.volume_preserving_toLp (Fin (k + 1))
  have hone : ∫⁻ x : E (k + 1), normalDensity (k + 1) ‖x‖ = 1 := by
    rw [← hmp.lintegral_comp_emb (toLp_embedding _)]
    have : Spec.normals (k + 1) univ = 1 := measure_univ
    rw [normals_density, withDensity_apply _ MeasurableSet.univ, Measure.restrict_univ] at this
    rw [← this]
    refine lintegral_congr fun x => ?_
    rw [toLp_norm]
  ext A hA
  set A' : Set (E (k + 1)) := WithLp.ofLp ⁻¹' A with hA'
  have hA'm : MeasurableSet A' := hA.preimage (by fun_prop)
  have h2 := ball_law k (normalDensity (k + 1)) (measurable_normalDensity _) hone A' hA'm
  have hd : Measurable fun x : Fin (k + 1) → ℝ => normalDensity (k + 1) √(x ⬝ᵥ x) :=
    (measurable_normalDensity _).comp hdot.sqrt
  rw [Measure.map_apply hF hA, Measure.prod_apply (hF hA), normals_density,
    lintegral_withDensity_eq_lintegral_mul _ hd (measurable_measure_prodMk_left (hF hA))]
  have h3 : volume (A' ∩ Metric.closedBall 0 1) = volume (A ∩ unitBall (k + 1)) := by
    rw [← hmp.measure_preimage_emb (toLp_embedding _), preimage_inter, toLp_preimage_closedBall]
    rfl
  have h4 : volume (Metric.closedBall (0 : E (k + 1)) 1) = volume (unitBall (k + 1)) := by
    rw [← hmp.measure_preimage_emb (toLp_embedding _), toLp_preimage_closedBall]
  rw [h3, h4, ← hmp.lintegral_comp_emb (toLp_embedding _)] at h2
  have hV : volume (unitBall (k + 1)) ≠ ⊤ := (unitBall_compact _).measure_lt_top.ne
  have hV0 : volume (unitBall (k + 1)) ≠ 0 := by
    rw [← h4]
    exact (Metric.measure_closedBall_pos volume _ one_pos).ne'
  have h5 : Spec.uniform 1 (unitBall (k + 1)) A = volume (A ∩ unitBall (k + 1)) / volume (unitBall (k + 1)) := by
    rw [Spec.uniform, Measure.smul_apply, Measure.restrict_apply hA, smul_eq_mul, measureReal_def, one_div,
      ENNReal.ofReal_inv_of_pos (ENNReal.toReal_pos hV0 hV), ENNReal.ofReal_toReal hV, mul_comm, ENNReal.div_eq_inv_mul,
      mul_comm]
  rw [h5, ← h2]
  refine lintegral_congr fun x => ?_
  rw [Pi.mul_apply, toLp_norm]
  congr 1
  have hm : Measurable fun c : ℝ => c ^ (1 / ((k + 1 : ℕ) : ℝ)) • (√(x ⬝ᵥ x))⁻¹ • x := by fun_prop
  rw [draw_zero_one]
  show _ = ∫⁻ c in Icc (0 : ℝ) 1, ((fun c : ℝ => c ^ (1 / ((k + 1 : ℕ) : ℝ)) • (√(x ⬝ᵥ x))⁻¹ • x) ⁻¹' A).indicator 1 c
  rw [lintegral_indicator_one (hm hA)]
  rfl

/-! ### Uniform distributions on the sphere -/

/-- Orthogonal maps act transitively on spheres. -/
theorem orthogonal_transitive {n : ℕ} (s t : Fin n → ℝ) (h : s ⬝ᵥ s = t ⬝ᵥ t) :
    ∃ Q : Matrix (Fin n) (Fin n) ℝ, Spec.Orthogonal Q ∧ Q *ᵥ s = t := by
  by_cases hst : s = t
  · exact ⟨1, Spec.Orthogonal.one, by rw [one_mulVec, hst]⟩
  set w := s - t with hw
  have hw0 : w ⬝ᵥ w ≠ 0 := fun h0 => hst (sub_eq_zero.1 (dotProduct_self_eq_zero.1 h0))
  have hws : 2 * (w ⬝ᵥ s) = w ⬝ᵥ w := by
    rw [hw, sub_dotProduct, sub_dotProduct, dotProduct_sub, dotProduct_sub, dotProduct_comm t s, ← h]
    ring
  refine ⟨1 - (2 / (w ⬝ᵥ w)) • outer w w, ?_, ?_⟩
  · have ht : (1 - (2 / (w ⬝ᵥ w)) • outer w w)ᵀ = 1 - (2 / (w ⬝ᵥ w)) • outer w w := by
      ext i j
      simp only [transpose_apply, Matrix.sub_apply, Matrix.smul_apply, outer_apply, Matrix.one_apply, eq_comm (a := i),
        mul_comm (w i)]
    have hww : outer w w * outer w w = (w ⬝ᵥ w) • outer w w := by
      ext i j
      simp only [Matrix.mul_apply, Matrix.smul_apply, outer_apply, smul_eq_mul, dotProduct, Finset.sum_mul]
      refine Finset.sum_congr rfl fun l _ => ?_
      ring
    rw [Spec.Orthogonal, ht, Matrix.sub_mul, Matrix.one_mul, Matrix.mul_sub, Matrix.mul_one, Matrix.smul_mul,
      Matrix.mul_smul, hww, smul_smul, smul_smul]
    have : 2 / (w ⬝ᵥ w) * (2 / (w ⬝ᵥ w)) * (w ⬝ᵥ w) = 2 / (w ⬝ᵥ w) + 2 / (w ⬝ᵥ w) := by
      field_simp
      ring
    rw [this, add_smul]
    abel
  · rw [sub_mulVec, one_mulVec, smul_mulVec, outer_mulVec, smul_smul]
    have : 2 / (w ⬝ᵥ w) * (w ⬝ᵥ s) = 1 := by
      rw [div_mul_eq_mul_div, hws, div_self hw0]
    rw [this, one_smul, hw, sub_sub_cancel]

/-- There is only one distribution on the sphere that looks the same from every side. -/
theorem sphere_unique {n : ℕ} {σ τ : Measure (Fin n → ℝ)} [IsProbabilityMeasure σ] [IsProbabilityMeasure τ]
    (hσ : Spec.CarriedBy σ {x | x ⬝ᵥ x = 1}) (hτ : Spec.CarriedBy τ {x | x ⬝ᵥ x = 1})
    (iσ : ∀ Q : Matrix (Fin n) (Fin n) ℝ, Spec.Orthogonal Q → σ.map (fun x => Q *ᵥ x) = σ)
    (iτ : ∀ Q : Matrix (Fin n) (Fin n) ℝ, Spec.Orthogonal Q → τ.map (fun x => Q *ᵥ x) = τ) : σ = τ := by
  let ψ (μ : Measure (Fin n → ℝ)) (t : Fin n → ℝ) : ℂ := ∫ x, Complex.exp ((x ⬝ᵥ t : ℝ) * Complex.I) ∂μ
  have hcont : Continuous fun q : (Fin n → ℝ) × (Fin n → ℝ) => Complex.exp ((q.1 ⬝ᵥ q.2 : ℝ) * Complex.I) := by
    unfold dotProduct
    fun_prop
  have hinv : ∀ μ : Measure (Fin n → ℝ), (∀ Q : Matrix (Fin n) (Fin n) ℝ, Spec.Orthogonal Q → μ.map (fun x => Q *ᵥ x) = μ) →
      ∀ s t : Fin n → ℝ, s ⬝ᵥ s = t ⬝ᵥ t → ψ μ s = ψ μ t := by
    intro μ hμ s t hst
    obtain ⟨Q, hQ, rfl⟩ := orthogonal_transitive s t hst
    show _ = ∫ x, Complex.exp ((x ⬝ᵥ Q *ᵥ s : ℝ) * Complex.I) ∂μ
    conv_rhs => rw [← hμ Q hQ]
    have hc : Continuous fun x : Fin n → ℝ => Complex.exp ((x ⬝ᵥ Q *ᵥ s : ℝ) * Complex.I) :=
      hcont.comp (by fun_prop : Continuous fun x => (x, Q *ᵥ s))
    have hQm : Measurable fun x : Fin n → ℝ => Q *ᵥ x :=
      (Continuous.matrix_mulVec continuous_const continuous_id).measurable
    rw [integral_map hQm.aemeasurable hc.aestronglyMeasurable]
    refine integral_congr_ae (Filter.Eventually.of_forall fun x => ?_)
    simp only
    rw [dotProduct_mulVec, ← mulVec_transpose, mulVec_mulVec, hQ, one_mulVec]
  have key : ∀ t, ψ σ t = ψ τ t := by
    intro t
    set r := √(t ⬝ᵥ t) with hr
    have hrr : r * r = t ⬝ᵥ t := Real.mul_self_sqrt (dot_self_nonneg t)
    have c1 : ∀ᵐ u ∂τ, ψ σ (r • u) = ψ σ t := by
      have : ∀ᵐ u ∂τ, u ⬝ᵥ u = 1 := hτ
      filter_upwards [this] with u hu
      refine hinv σ iσ _ _ ?_
      rw [smul_dotProduct, dotProduct_smul, hu, smul_eq_mul, smul_eq_mul, mul_one, hrr]
    have c2 : ∀ᵐ u ∂σ, ψ τ (r • u) = ψ τ t := by
      have : ∀ᵐ u ∂σ, u ⬝ᵥ u = 1 := hσ
      filter_upwards [this] with u hu
      refine hinv τ iτ _ _ ?_
      rw [smul_dotProduct, dotProduct_smul, hu, smul_eq_mul, smul_eq_mul, mul_one, hrr]
    have d1 : ∫ u, ψ σ (r • u) ∂τ = ψ σ t := by
      rw [integral_congr_ae c1, integral_const, probReal_univ, one_smul]
    have d2 : ∫ u, ψ τ (r • u) ∂σ = ψ τ t := by
      rw [integral_congr_ae c2, integral_const, probReal_univ, one_smul]
    rw [← d1, ← d2]
    show ∫ u, (∫ x, Complex.exp ((x ⬝ᵥ r • u : ℝ) * Complex.I) ∂σ) ∂τ = ∫ u, (∫ x, Complex.exp ((x ⬝ᵥ r • u : ℝ) * Complex.I) ∂τ) ∂σ
    rw [integral_integral_swap]
    · refine integral_congr_ae (Filter.Eventually.of_forall fun x => integral_congr_ae (Filter.Eventually.of_forall fun u => ?_))
      simp only
      rw [dotProduct_smul, dotProduct_smul, dotProduct_comm]
    · refine Integrable.of_bound (C := 1) ?_ (Filter.Eventually.of_forall fun q => ?_)
      · exact (hcont.comp (by fun_prop : Continuous fun q : (Fin n → ℝ) × (Fin n → ℝ) => (q.2, r • q.1))).aestronglyMeasurable
      · simp only [Function.uncurry]
        rw [Complex.norm_exp_ofReal_mul_I]
  have hL := toLp_embedding n
  have hmap : σ.map (WithLp.toLp 2) = τ.map (WithLp.toLp 2) := by
    have : IsProbabilityMeasure (σ.map (WithLp.toLp 2)) := Measure.isProbabilityMeasure_map hL.measurable.aemeasurable
    have : IsProbabilityMeasure (τ.map (WithLp.toLp 2)) := Measure.isProbabilityMeasure_map hL.measurable.aemeasurable
    refine Measure.ext_of_charFun (funext fun t => ?_)
    have hch : ∀ μ : Measure (Fin n → ℝ), charFun (μ.map (WithLp.toLp 2)) t = ψ μ (WithLp.ofLp t) := by
      intro μ
      rw [charFun_apply, hL.integral_map]
      refine integral_congr_ae (Filter.Eventually.of_forall fun x => ?_)
      simp only
      rw [EuclideanSpace.inner_eq_star_dotProduct]
      simp [dotProduct_comm]
    rw [hch, hch, key]
  ext A hA
  have := congrArg (fun μ => μ (WithLp.ofLp ⁻¹' A)) hmap
  beta_reduce at this
  rw [hL.map_apply, hL.map_apply] at this
  exact this

theorem normals_invariant {n : ℕ} (Q : Matrix (Fin n) (Fin n) ℝ) (hQ : Spec.Orthogonal Q) :
    (Spec.normals n).map (fun x => Q *ᵥ x) = Spec.normals n := by
  have hQm : Measurable fun x : Fin n → ℝ => Q *ᵥ x :=
    (Continuous.matrix_mulVec continuous_const continuous_id).measurable
  have hdot : Measurable fun x : Fin n → ℝ => x ⬝ᵥ x := by unfold dotProduct; fun_prop
  have hd : Measurable fun x : Fin n → ℝ => normalDensity n √(x ⬝ᵥ x) := (measurable_normalDensity _).comp hdot.sqrt
  have hmp : (volume : Measure (Fin n → ℝ)).map (fun x => Q *ᵥ x) = volume := by
    have hdet : |Q.det| = 1 := by
      have := congrArg Matrix.det hQ
      rw [Matrix.det_mul, Matrix.det_transpose, Matrix.det_one] at this
      rcases mul_self_eq_one_iff.1 this with h | h <;> rw [h] <;> norm_num
    have h0 : Q.det ≠ 0 := fun h => by rw [h, abs_zero] at hdet; exact zero_ne_one hdet
    have := Real.map_matrix_volume_pi_eq_smul_volume_pi h0
    rw [abs_inv, hdet, inv_one, ENNReal.ofReal_one, one_smul] at this
    exact this
  rw [normals_density]
  ext A hA
  rw [Measure.map_apply hQm hA, withDensity_apply _ (hQm hA), withDensity_apply _ hA]
  conv_rhs => rw [← hmp]
  rw [setLIntegral_map hA hd hQm]
  refine lintegral_congr fun x => ?_
  rw [dotProduct_mulVec, ← mulVec_transpose, mulVec_mulVec, hQ, one_mulVec]

theorem normals_ne_zero (k : ℕ) : ∀ᵐ x ∂(Spec.normals (k + 1)), x ≠ 0 := by
  rw [normals_density, ae_withDensity_iff]
  · refine Filter.Eventually.mono (compl_mem_ae_iff.2 (measure_singleton (0 : Fin (k + 1) → ℝ))) fun x hx _ => hx
  · have hdot : Measurable fun x : Fin (k + 1) → ℝ => x ⬝ᵥ x := by unfold dotProduct; fun_prop
    exact (measurable_normalDensity _).comp hdot.sqrt

/-- The law of a normalized normal vector. -/
noncomputable def sphereLaw (n : ℕ) : Measure (Fin n → ℝ) := (Spec.normals n).map fun x => (√(x ⬝ᵥ x))⁻¹ • x

theorem sphereLaw_measurable (n : ℕ) : Measurable fun x : Fin n → ℝ => (√(x ⬝ᵥ x))⁻¹ • x := by
  have hdot : Measurable fun x : Fin n → ℝ => x ⬝ᵥ x := by unfold dotProduct; fun_prop
  fun_prop

instance (n : ℕ) : IsProbabilityMeasure (sphereLaw n) :=
  Measure.isProbabilityMeasure_map (sphereLaw_measurable n).aemeasurable

theorem sphereLaw_invariant {n : ℕ} (Q : Matrix (Fin n) (Fin n) ℝ) (hQ : Spec.Orthogonal Q) :
    (sphereLaw n).map (fun x => Q *ᵥ x) = sphereLaw n := by
  have hQm : Measurable fun x : Fin n → ℝ => Q *ᵥ x :=
    (Continuous.matrix_mulVec continuous_const continuous_id).measurable
  rw [sphereLaw, Measure.map_map hQm (sphereLaw_measurable n)]
  conv_rhs => rw [← normals_invariant Q hQ]
  rw [Measure.map_map (sphereLaw_measurable n) hQm]
  congr 1
  funext x
  show Q *ᵥ ((√(x ⬝ᵥ x))⁻¹ • x) = (√(Q *ᵥ x ⬝ᵥ Q *ᵥ x))⁻¹ • Q *ᵥ x
  rw [mulVec_smul, dotProduct_mulVec, ← mulVec_transpose, mulVec_mulVec, hQ, one_mulVec]

theorem sphereLaw_carried (k : ℕ) : Spec.CarriedBy (sphereLaw (k + 1)) {x | x ⬝ᵥ x = 1} := by
  have hdot : Measurable fun x : Fin (k + 1) → ℝ => x ⬝ᵥ x := by unfold dotProduct; fun_prop
  show ∀ᵐ x ∂sphereLaw (k + 1), x ⬝ᵥ x = 1
  rw [sphereLaw, ae_map_iff (sphereLaw_measurable _).aemeasurable (measurableSet_eq_fun hdot measurable_const)]
  filter_upwards [normals_ne_zero k] with x hx
  have h0 : 0 < x ⬝ᵥ x := lt_of_le_of_ne (dot_self_nonneg x) fun h => hx (dotProduct_self_eq_zero.1 h.symm)
  rw [smul_dotProduct, dotProduct_smul, smul_eq_mul, smul_eq_mul, ← mul_assoc, ← mul_inv, Real.mul_self_sqrt h0.le,
    inv_mul_cancel₀ h0.ne']

end Rigeo
