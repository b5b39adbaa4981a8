import Verif.Model.Example
import Verif.Lemmas.WeakLaw
import Verif.Lemmas.SphereMoments
import Verif.Props.BoxLaw
import Verif.Props.SurfaceLaw
import Verif.Props.DensityRealizable

/-!
# C95: the Monte Carlo example scripts
-/

namespace Rigeo

open MeasureTheory ProbabilityTheory Filter Matrix Set
open scoped Topology

theorem inertiaError_apply (n : ℕ) (y : Fin n → Fin 3 → ℝ) (p : IP ℝ) (i j : Fin 3) :
    inertiaError (List.ofFn y) n p i j = p.I i j -
      ((∑ l, (1 / (n : ℝ) * ∑ k, y k l * y k l)) * (1 : Matrix (Fin 3) (Fin 3) ℝ) i j -
        1 / (n : ℝ) * ∑ k, y k i * y k j) := by
  unfold inertiaError
  simp only [List.map_ofFn, List.sum_ofFn, Matrix.sub_apply, Matrix.smul_apply, Matrix.trace, Matrix.diag_apply, of_apply,
    smul_eq_mul, Function.comp_apply, div_eq_inv_mul, mul_one]

theorem measurable_inertiaError (n : ℕ) (p : IP ℝ) (i j : Fin 3) :
    Measurable fun y : Fin n → Fin 3 → ℝ => inertiaError (List.ofFn y) n p i j := by
  simp only [inertiaError_apply]
  fun_prop

theorem measurableSet_error (n : ℕ) (p : IP ℝ) (L : Matrix (Fin 3) (Fin 3) ℝ) (ε : ℝ) :
    MeasurableSet {y : Fin n → Fin 3 → ℝ | ∀ i j, |inertiaError (List.ofFn y) n p i j - L i j| < ε} := by
  have : {y : Fin n → Fin 3 → ℝ | ∀ i j, |inertiaError (List.ofFn y) n p i j - L i j| < ε} =
      ⋂ i, ⋂ j, {y | |inertiaError (List.ofFn y) n p i j - L i j| < ε} := by
    ext y
    simp
  rw [this]
  refine MeasurableSet.iInter fun i => MeasurableSet.iInter fun j => measurableSet_lt ?_ measurable_const
  exact continuous_abs.measurable.comp ((measurable_inertiaError n p i j).sub_const _)

/-- The printed error tends in probability to the difference of the analytical inertia and that of the law of the points. -/
theorem error_law (ν : Measure (Fin 3 → ℝ)) (B : ℝ) (hB : ∀ᵐ p ∂ν, ∀ i, |p i| ≤ B) (h : Fin 3 → ℝ)
    (H : Matrix (Fin 3) (Fin 3) ℝ) (hm : Spec.HasMoments ν 1 h H) (p : IP ℝ) (ε : ℝ) (hε : 0 < ε) :
    Tendsto (fun n : ℕ => (Measure.pi fun _ : Fin n => ν)
      {y | ∀ i j, |inertiaError (List.ofFn y) n p i j - (p.I - (H.trace • 1 - H)) i j| < ε}) atTop (𝓝 1) := by
  have hprob : IsProbabilityMeasure ν := ⟨by
    have := hm.finite
    have h1 := hm.mass
    rwa [measureReal_def, ENNReal.toReal_eq_one_iff] at h1⟩
  have hw := weak_law ν B hB h H hm (ε / 4) (by positivity)
  refine tendsto_of_tendsto_of_tendsto_of_le_of_le hw tendsto_const_nhds (fun n => measure_mono ?_) fun n => prob_le_one
  intro y hy i j
  have hy' : ∀ i j, |1 / (n : ℝ) * ∑ k, y k i * y k j - H i j| < ε / 4 := hy
  have hd : inertiaError (List.ofFn y) n p i j - (p.I - (H.trace • 1 - H)) i j =
      (1 / (n : ℝ) * ∑ k, y k i * y k j - H i j) -
        (∑ l, (1 / (n : ℝ) * ∑ k, y k l * y k l - H l l)) * (1 : Matrix (Fin 3) (Fin 3) ℝ) i j := by
    rw [inertiaError_apply]
    simp only [Matrix.sub_apply, Matrix.smul_apply, Matrix.trace, Matrix.diag_apply, smul_eq_mul, Finset.sum_sub_distrib]
    ring
  rw [hd, Fin.sum_univ_three]
  have h0 := abs_lt.mp (hy' 0 0)
  have h1 := abs_lt.mp (hy' 1 1)
  have h2 := abs_lt.mp (hy' 2 2)
  have h3 := abs_lt.mp (hy' i j)
  rw [abs_lt, Matrix.one_apply]
  split_ifs <;> constructor <;> linarith [h0.1, h0.2, h1.1, h1.2, h2.1, h2.2, h3.1, h3.2]

theorem box_bounded {h : Fin 3 → ℝ} {μ : Measure (Fin 3 → ℝ)} (hμ : Spec.CarriedBy μ (Spec.box h 1 0)) :
    ∀ᵐ p ∂μ, ∀ i, |p i| ≤ h 0 + h 1 + h 2 := by
  have : ∀ᵐ p ∂μ, p ∈ Spec.box h 1 0 := hμ
  filter_upwards [this] with p hp i
  obtain ⟨y, hy, rfl⟩ := hp
  have h0 := (abs_nonneg _).trans (hy 0)
  have h1 := (abs_nonneg _).trans (hy 1)
  have h2 := (abs_nonneg _).trans (hy 2)
  have := hy i
  simp only [Spec.rigid, one_mulVec, add_zero]
  fin_cases i <;> simp at this ⊢ <;> linarith

theorem box_init {h : Fin 3 → ℝ} (hh : ∀ i, 0 ≤ h i) : Box.init h = .ok ⟨h, 1, 0⟩ := by
  simp [Box.init, pyAssert, hh]

theorem map_rigid_id (μ : Measure (Fin 3 → ℝ)) : μ.map (Spec.rigid (1 : Matrix (Fin 3) (Fin 3) ℝ) 0) = μ := by
  have : Spec.rigid (1 : Matrix (Fin 3) (Fin 3) ℝ) 0 = id := by
    funext x
    simp [Spec.rigid]
  rw [this, Measure.map_id]

/-- The predicted inertia is the inertia of the second moment, which the error measures against. -/
theorem predicted_cancel (p : IP ℝ) : p.I - (p.H.trace • 1 - p.H) = 0 := sub_self _

/-- C95: the error printed by the wireframe script tends to zero in probability as the number of samples grows. The law of
`counts` uses the probabilities that the sampler passes to `rng.multinomial`. -/
theorem C95_wireframe (h : Fin 3 → ℝ) (hh : ∀ i, 0 ≤ h i) (hne : h ≠ 0) (ε : ℝ) (hε : 0 < ε) :
    Tendsto (fun N : ℕ => ((Spec.multinomial N (⟨h, 1, 0⟩ : Box ℝ).edgePvals).prod
        ((Spec.draws N (-1) 1).prod (Spec.shuffles N)))
      {ω | ∃ E, boxWireframeMonteCarlo h N ω.1 (Spec.sequence ω.2.1) (Spec.shuffle ω.2.2) = .ok E ∧
        ∀ i j, |E i j| < ε}) atTop (𝓝 1) := by
  have hsum : (Spec.boxEdges h).real univ ≠ 0 := by
    rw [(boxEdges_moments _ hh).mass]
    intro h0
    have h0' := hh 0; have h1' := hh 1; have h2' := hh 2
    refine hne (funext fun i => ?_)
    fin_cases i <;> simp <;> linarith
  obtain ⟨p, hp, hm⟩ := C58_wireframe ⟨h, 1, 0⟩ hh 1 one_pos hsum
  have hm' : Spec.HasMoments (Spec.evenly 1 (Spec.boxEdges h)) p.mass p.h p.H := by simpa only [map_rigid_id] using hm
  have hm1 : p.mass = 1 := by
    have := hm'.mass
    rw [Spec.evenly, measureReal_ennreal_smul_apply] at this
    rw [← this, ENNReal.toReal_ofReal (by positivity), one_div, inv_mul_cancel₀ hsum]
  have hcar : Spec.CarriedBy (Spec.evenly 1 (Spec.boxEdges h)) (Spec.box h 1 0) :=
    CarriedBy.smul (boxEdges_carried _ hh) _
  have hlim := error_law _ _ (box_bounded hcar) p.h p.H (by rwa [hm1] at hm') p ε hε
  refine hlim.congr fun N => ?_
  have hl := C93_edges (b := ⟨h, 1, 0⟩) hh hne N _ (measurableSet_error N p (p.I - (p.H.trace • 1 - p.H)) ε)
  simp only [map_rigid_id] at hl
  rw [← hl]
  congr 1
  ext ω
  have hpts := randomPointsOnEdges_eq (b := ⟨h, 1, 0⟩) hh hne N ω.1 ω.2.1 ω.2.2
  generalize (fun i => Spec.rigid _ _ _ : Fin N → Fin 3 → ℝ) = y at hpts
  simp only [mem_ofPred_eq, boxWireframeMonteCarlo, box_init hh, Bind.bind, Except.bind, hpts, hp, predicted_cancel,
    Matrix.zero_apply, sub_zero, pure, Except.pure, Except.ok.injEq]
  constructor
  · rintro ⟨z, hz, hyz⟩
    refine ⟨_, rfl, ?_⟩
    rw [hyz]
    exact hz
  · rintro ⟨E, rfl, hE⟩
    exact ⟨y, hE, rfl⟩

/-- C95: the error printed by the box shell script tends to zero in probability as the number of samples grows. -/
theorem C95_box_shell (h : Fin 3 → ℝ) (hh : ∀ i, 0 ≤ h i) (hpos : 0 < h 0 * h 1 + h 0 * h 2 + h 1 * h 2) (ε : ℝ)
    (hε : 0 < ε) :
    Tendsto (fun N : ℕ => ((Spec.multinomial N (⟨h, 1, 0⟩ : Box ℝ).facePvals).prod
        ((Measure.pi fun _ : Fin N => Spec.draws 3 (-1) 1).prod (Spec.shuffles N)))
      {ω | ∃ E, boxShellMonteCarlo h N (List.ofFn ω.2.1) ω.1 (Spec.shuffle ω.2.2) = .ok E ∧
        ∀ i j, |E i j| < ε}) atTop (𝓝 1) := by
  have hsum : (Spec.boxFaces h).real univ ≠ 0 := by
    rw [(boxFaces_moments _ hh).mass]
    nlinarith
  obtain ⟨p, hp, hm⟩ := C58_hollow ⟨h, 1, 0⟩ hh 1 one_pos hsum
  have hm' : Spec.HasMoments (Spec.evenly 1 (Spec.boxFaces h)) p.mass p.h p.H := by simpa only [map_rigid_id] using hm
  have hm1 : p.mass = 1 := by
    have := hm'.mass
    rw [Spec.evenly, measureReal_ennreal_smul_apply] at this
    rw [← this, ENNReal.toReal_ofReal (by positivity), one_div, inv_mul_cancel₀ hsum]
  have hcar : Spec.CarriedBy (Spec.evenly 1 (Spec.boxFaces h)) (Spec.box h 1 0) :=
    CarriedBy.smul (boxFaces_carried _ hh) _
  have hlim := error_law _ _ (box_bounded hcar) p.h p.H (by rwa [hm1] at hm') p ε hε
  refine hlim.congr' ((eventually_gt_atTop 1).mono fun N hN => ?_)
  have hl := C93_surface (b := ⟨h, 1, 0⟩) hh hpos rfl rfl N (by omega) _
    (measurableSet_error N p (p.I - (p.H.trace • 1 - p.H)) ε)
  dsimp only at hl ⊢
  rw [← hl]
  congr 1
  ext ω
  have hpts := randomPointsOnSurface_eq (b := ⟨h, 1, 0⟩) hh (by dsimp only; linarith) N (by omega) ω.1 ω.2.1 ω.2.2
  generalize (fun i => Spec.rigid _ _ _ : Fin N → Fin 3 → ℝ) = y at hpts
  simp only [mem_ofPred_eq, boxShellMonteCarlo, box_init hh, Bind.bind, Except.bind, hpts, hp, predicted_cancel,
    Matrix.zero_apply, sub_zero, pure, Except.pure, Except.ok.injEq]
  constructor
  · rintro ⟨z, hz, hyz⟩
    refine ⟨_, rfl, ?_⟩
    rw [hyz]
    exact hz
  · rintro ⟨E, rfl, hE⟩
    exact ⟨y, hE, rfl⟩

/-- The half extents of the scripts. -/
example : (∀ i, 0 ≤ (![1, 3 / 4, 1 / 2] : Fin 3 → ℝ) i) ∧ (![1, 3 / 4, 1 / 2] : Fin 3 → ℝ) ≠ 0 ∧
    (0 : ℝ) < 1 * (3 / 4) + 1 * (1 / 2) + 3 / 4 * (1 / 2) :=
  ⟨fun i => by fin_cases i <;> norm_num, fun h => by simpa using congrFun h 0, by norm_num⟩

/-- C95: with a single sample the box shell script raises an exception. -/
theorem C95_box_shell_single (h : Fin 3 → ℝ) (hh : ∀ i, 0 ≤ h i) (hpos : 0 < h 0 * h 1 + h 0 * h 2 + h 1 * h 2)
    (u : Fin 3 → ℝ) (counts : Fin 6 → ℕ) (shuffle : List (Fin 3 → ℝ) → List (Fin 3 → ℝ)) :
    boxShellMonteCarlo h 1 [u] counts shuffle = .error .index := by
  have h0 : ¬ 2 * (4 * h 1 * h 2 + 4 * h 0 * h 2 + 4 * h 0 * h 1) = 0 := by nlinarith
  simp [boxShellMonteCarlo, box_init hh, Box.randomPointsOnSurface, h0, Bind.bind, Except.bind]

/-! ## The ellipsoid -/

theorem area_bounded (h : Fin 3 → ℝ) (hh : ∀ i, 0 < h i) :
    ∀ᵐ p ∂Spec.evenly 1 (ellipsoidArea h 1 0), ∀ i, |p i| ≤ h 0 + h 1 + h 2 := by
  refine Measure.ae_smul_measure ?_ _
  have := (ellipsoidArea_isArea (R := 1) hh (by simp [Spec.Orthogonal]) 0).carried
  have hf : ∀ᵐ p ∂ellipsoidArea h 1 0, p ∈ frontier (Spec.ellipsoid h 1 0) := this
  filter_upwards [hf] with p hp i
  rw [frontier_ellipsoid hh (by simp [Spec.Orthogonal])] at hp
  obtain ⟨u, hu, rfl⟩ := hp
  have h1 : u i * u i ≤ u ⬝ᵥ u := Finset.single_le_sum (f := fun k => u k * u k) (fun k _ => mul_self_nonneg _)
    (Finset.mem_univ i)
  have hu' : u ⬝ᵥ u = 1 := hu
  have hui : |u i| ≤ 1 := abs_le_of_sq_le_sq (by rw [hu'] at h1; nlinarith) zero_le_one
  simp only [one_mul, add_zero, mulVec_diagonal]
  rw [abs_mul, abs_of_pos (hh i)]
  have h2 := mul_le_mul_of_nonneg_left hui (hh i).le
  have e0 := hh 0; have e1 := hh 1; have e2 := hh 2
  fin_cases i <;> simp at h2 ⊢ <;> linarith

/-- The second moments of the area of an ellipsoid, as integrals over the unit sphere. -/
theorem area_second (h : Fin 3 → ℝ) (hh : ∀ i, 0 < h i) :
    0 < ∫ u, invHeight h u ∂sphereLaw 3 ∧ IsProbabilityMeasure (Spec.evenly 1 (ellipsoidArea h 1 0)) ∧
    ∀ i j, ∫ p, p i * p j ∂Spec.evenly 1 (ellipsoidArea h 1 0) =
      h i * h j * (∫ u, u i * u j * invHeight h u ∂sphereLaw 3) / ∫ u, invHeight h u ∂sphereLaw 3 := by
  obtain ⟨h0, ht⟩ := density_univ (k := 2) (e := ⟨h, 1, 0⟩) hh
  have hT := stretch_measurable ((1 : Matrix (Fin 3) (Fin 3) ℝ)ᵀ * diagonal h) 0
  have hih := (measurable_invHeight h).ennreal_ofReal
  dsimp only at h0 ht
  set μ := (sphereLaw 3).withDensity fun u => ENNReal.ofReal (invHeight h u) with hμ
  have hpos3 : 0 < ((3 : ℕ) : ℝ) * ∏ i, h i := mul_pos (by norm_num) (Finset.prod_pos fun i _ => hh i)
  have hev : Spec.evenly 1 (ellipsoidArea h 1 0) =
      ((μ.map fun u => ((1 : Matrix (Fin 3) (Fin 3) ℝ)ᵀ * diagonal h) *ᵥ u + 0) univ)⁻¹ •
        μ.map fun u => ((1 : Matrix (Fin 3) (Fin 3) ℝ)ᵀ * diagonal h) *ᵥ u + 0 := by
    rw [ellipsoidArea, Measure.map_smul]
    rw [transpose_one] at h0 ht ⊢
    exact evenly_smul (mul_ne_zero (ENNReal.ofReal_pos.2 hpos3).ne' (unitBall_volume_zero _))
      (ENNReal.mul_ne_top ENNReal.ofReal_ne_top (unitBall_volume_top _)) _ h0 ht
  have hnn : ∀ u, 0 ≤ invHeight h u := fun u => Real.sqrt_nonneg _
  have huniv : (μ.map fun u => ((1 : Matrix (Fin 3) (Fin 3) ℝ)ᵀ * diagonal h) *ᵥ u + 0) univ = μ univ := by
    rw [Measure.map_apply hT MeasurableSet.univ, preimage_univ]
  rw [huniv] at h0 ht hev
  have hint : (μ univ).toReal = ∫ u, invHeight h u ∂sphereLaw 3 := by
    rw [hμ, withDensity_apply _ MeasurableSet.univ, Measure.restrict_univ,
      integral_eq_lintegral_of_nonneg_ae (Eventually.of_forall hnn) (measurable_invHeight h).aestronglyMeasurable]
  refine ⟨hint ▸ ENNReal.toReal_pos h0 ht, ⟨?_⟩, fun i j => ?_⟩
  · rw [hev, Measure.smul_apply, huniv, smul_eq_mul, ENNReal.inv_mul_cancel h0 ht]
  · rw [hev, integral_smul_measure, ENNReal.toReal_inv, hint, integral_map hT.aemeasurable (by fun_prop), hμ,
      integral_withDensity_eq_integral_toReal_smul hih (Eventually.of_forall fun _ => ENNReal.ofReal_lt_top), smul_eq_mul,
      div_eq_inv_mul]
    congr 1
    rw [← integral_const_mul]
    refine integral_congr_ae (Eventually.of_forall fun u => ?_)
    simp only [transpose_one, one_mul, add_zero, mulVec_diagonal, ENNReal.toReal_ofReal (hnn u), smul_eq_mul]
    ring

theorem ellipsoid_init {h : Fin 3 → ℝ} (hh : ∀ i, 0 < h i) : Ellipsoid.init h = .ok ⟨h, 1, 0⟩ := by
  simp [Ellipsoid.init, pyAssert, fun i => (hh i).le]

/-- C95: with probability arbitrarily close to one, for many samples and once the sampler has finished, the error printed
by the ellipsoid script is close to the difference between the analytical inertia and the inertia of unit mass spread
evenly by area. -/
theorem C95_ellipsoid (h : Fin 3 → ℝ) (hh : ∀ i, 0 < h i) (ν : Measure (Fin 3 → ℝ))
    (hν : Spec.IsArea (Spec.ellipsoid h 1 0) 0 ν) (H : Matrix (Fin 3) (Fin 3) ℝ)
    (hH : ∀ i j, ∫ p, p i * p j ∂Spec.evenly 1 ν = H i j) :
    ∃ p, (⟨h, 1, 0⟩ : Ellipsoid ℝ 3).hollowDensityParams 1 = .ok p ∧ ∀ ε > 0, ∀ q < 1, ∀ᶠ N in atTop, ∀ᶠ T in atTop,
      q < Spec.rounds T N ((Spec.normals 3).prod (Spec.draw 0 1))
        {x | ∃ E, ellipsoidShellMonteCarlo h N (Spec.candidates x) T = .ok (some E) ∧
          ∀ i j, |E i j - (p.I - (H.trace • 1 - H)) i j| < ε} := by
  have hI : Spec.Orthogonal (1 : Matrix (Fin 3) (Fin 3) ℝ) := by simp [Spec.Orthogonal]
  have hνe := area_unique (k := 2) hh hI 0 hν
  have e0 := hh 0; have e1 := hh 1; have e2 := hh 2
  refine ⟨_, Ellipsoid.hollowDensityParams_ok ⟨h, 1, 0⟩ 1 one_pos (by dsimp only; positivity), fun ε hε q hq => ?_⟩
  set p : IP ℝ := _ with hpdef
  obtain ⟨_, hprob, _⟩ := area_second h hh
  rw [hνe] at hH
  have hbd := area_bounded h hh
  have hm : Spec.HasMoments (Spec.evenly 1 (ellipsoidArea h 1 0)) 1
      (fun i => ∫ p, p i ∂Spec.evenly 1 (ellipsoidArea h 1 0)) H := by
    refine ⟨inferInstance, fun i => ?_, fun i j => ?_, by simp, fun _ => rfl, hH⟩
    · refine Integrable.of_bound (continuous_apply i).aestronglyMeasurable (h 0 + h 1 + h 2) ?_
      filter_upwards [hbd] with p hp
      exact hp i
    · refine Integrable.of_bound (by fun_prop) ((h 0 + h 1 + h 2) * (h 0 + h 1 + h 2)) ?_
      filter_upwards [hbd] with p hp
      rw [Real.norm_eq_abs, abs_mul]
      exact mul_le_mul (hp i) (hp j) (abs_nonneg _) ((abs_nonneg _).trans (hp i))
  have hlim := error_law _ _ hbd _ H hm p ε hε
  filter_upwards [hlim.eventually (lt_mem_nhds hq)] with N hN
  obtain ⟨ν', hν', hlaw, _⟩ := C92_ellipsoid (k := 2) (e := ⟨h, 1, 0⟩) (by norm_num) hI hh N
  have hν'e : ν' = ellipsoidArea h 1 0 := area_unique (k := 2) hh hI 0 (by simpa using hν')
  rw [hν'e] at hlaw
  have hT := hlaw _ (measurableSet_error N p (p.I - (H.trace • 1 - H)) ε)
  filter_upwards [hT.eventually (lt_mem_nhds hN)] with T hT'
  refine hT'.trans_le (measure_mono ?_)
  rintro x ⟨y, hy, hx⟩
  refine ⟨inertiaError (List.ofFn y) N p, ?_, hy⟩
  have hp := Ellipsoid.hollowDensityParams_ok ⟨h, 1, 0⟩ 1 one_pos (by dsimp only; positivity)
  simp only [ellipsoidShellMonteCarlo, ellipsoid_init hh, Bind.bind, Except.bind, hx, hp, pure, Except.pure, Option.map_some]
  rfl

/-- C95: for a sphere the error tends to zero. -/
theorem C95_sphere (r : ℝ) (hr : 0 < r) (ε : ℝ) (hε : 0 < ε) (q : ENNReal) (hq : q < 1) :
    ∀ᶠ N in atTop, ∀ᶠ T in atTop, q < Spec.rounds T N ((Spec.normals 3).prod (Spec.draw 0 1))
        {x | ∃ E, ellipsoidShellMonteCarlo (fun _ => r) N (Spec.candidates x) T = .ok (some E) ∧ ∀ i j, |E i j| < ε} := by
  have hh : ∀ i : Fin 3, 0 < (fun _ => r : Fin 3 → ℝ) i := fun _ => hr
  have hI : Spec.Orthogonal (1 : Matrix (Fin 3) (Fin 3) ℝ) := by simp [Spec.Orthogonal]
  obtain ⟨hpos, _, hsec⟩ := area_second (fun _ => r) hh
  have hw : ∀ᵐ u ∂sphereLaw 3, invHeight (fun _ => r) u = 1 / r := by
    filter_upwards [sphereLaw_ae 2] with u hu
    have hu' : u 0 * u 0 + u 1 * u 1 + u 2 * u 2 = 1 := by
      have : u ⬝ᵥ u = 1 := hu
      simpa [dotProduct, Fin.sum_univ_three] using this
    rw [invHeight, Fin.sum_univ_three, show (u 0 / r) ^ 2 + (u 1 / r) ^ 2 + (u 2 / r) ^ 2 = (1 / r) ^ 2 by
      field_simp; linarith, Real.sqrt_sq (by positivity)]
  have h1 : ∫ u, invHeight (fun _ => r) u ∂sphereLaw 3 = 1 / r := by
    rw [integral_congr_ae hw]
    simp
  have h2 : ∀ i j, ∫ u : Fin 3 → ℝ, u i * u j * invHeight (fun _ => r) u ∂sphereLaw 3 =
      (if i = j then 1 / 3 else 0) * (1 / r) := by
    intro i j
    have : ∫ u : Fin 3 → ℝ, u i * u j * invHeight (fun _ => r) u ∂sphereLaw 3 =
        ∫ u : Fin 3 → ℝ, u i * u j * (1 / r) ∂sphereLaw 3 := by
      refine integral_congr_ae ?_
      filter_upwards [hw] with u hu
      rw [hu]
    rw [this, integral_mul_const, sphere_second]
  obtain ⟨p, hp, hlim⟩ := C95_ellipsoid (fun _ => r) hh _ (ellipsoidArea_isArea hh hI 0)
    (Matrix.of fun i j => ∫ p, p i * p j ∂Spec.evenly 1 (ellipsoidArea (fun _ => r) 1 0)) fun i j => rfl
  have hH : (Matrix.of fun i j => ∫ p, p i * p j ∂Spec.evenly 1 (ellipsoidArea (fun _ => r : Fin 3 → ℝ) 1 0)) = p.H := by
    rw [Ellipsoid.hollowDensityParams_ok ⟨fun _ => r, 1, 0⟩ 1 one_pos (by dsimp only; positivity)] at hp
    obtain rfl := Except.ok.inj hp
    ext i j
    rw [of_apply, hsec, h1, h2]
    fin_cases i <;> fin_cases j <;> simp [outer] <;> field_simp <;> norm_num
  rw [hH, predicted_cancel] at hlim
  simpa using hlim ε hε q hq

/-- Polynomial bounds for the square root on the range of the height of the ellipsoid of the script. -/
theorem sqrt_upper (v : ℝ) (h0 : 0 ≤ v) (h4 : v ≤ 4) :
    √v ≤ 2538 / 4489 + 59470 / 121203 * v - 4000 / 121203 * v ^ 2 := by
  obtain ⟨x, hx0, rfl⟩ : ∃ x : ℝ, 0 ≤ x ∧ v = x ^ 2 := ⟨√v, Real.sqrt_nonneg _, (Real.sq_sqrt h0).symm⟩
  rw [Real.sqrt_sq hx0]
  have hx : x ≤ 2 := by nlinarith
  have key : 0 ≤ 4000 / 121203 * ((x - 27 / 20) ^ 2 * ((2 - x) * (x + 47 / 10))) :=
    mul_nonneg (by norm_num) (mul_nonneg (sq_nonneg _) (mul_nonneg (by linarith) (by linarith)))
  linarith [key, show 2538 / 4489 + 59470 / 121203 * x ^ 2 - 4000 / 121203 * (x ^ 2) ^ 2 - x =
    4000 / 121203 * ((x - 27 / 20) ^ 2 * ((2 - x) * (x + 47 / 10))) by ring]

@[inherit_doc sqrt_upper]
theorem sqrt_lower (v : ℝ) (h1 : 1 ≤ v) : 12 / 25 + 43 / 75 * v - 4 / 75 * v ^ 2 ≤ √v := by
  obtain ⟨x, hx0, rfl⟩ : ∃ x : ℝ, 0 ≤ x ∧ v = x ^ 2 :=
    ⟨√v, Real.sqrt_nonneg _, (Real.sq_sqrt (zero_le_one.trans h1)).symm⟩
  rw [Real.sqrt_sq hx0]
  have hx : 1 ≤ x := by nlinarith
  have key : 0 ≤ 4 / 75 * ((x - 3 / 2) ^ 2 * ((x - 1) * (x + 4))) :=
    mul_nonneg (by norm_num) (mul_nonneg (sq_nonneg _) (mul_nonneg (by linarith) (by linarith)))
  linarith [key, show x - (12 / 25 + 43 / 75 * x ^ 2 - 4 / 75 * (x ^ 2) ^ 2) =
    4 / 75 * ((x - 3 / 2) ^ 2 * ((x - 1) * (x + 4))) by ring]

/-- Half extents of the script: unit mass spread by area has a larger second moment along the long axis than the
analytical value 19/65. -/
theorem script_second : ∫ u, invHeight ![1, 3 / 4, 1 / 2] u ∂sphereLaw 3 ≤ 148414 / 100000 ∧
    (433857 : ℝ) / 1000000 ≤ ∫ u : Fin 3 → ℝ, u 0 * u 0 * invHeight ![1, 3 / 4, 1 / 2] u ∂sphereLaw 3 := by
  have hv : ∀ u : Fin 3 → ℝ, invHeight ![1, 3 / 4, 1 / 2] u = √(u 0 ^ 2 + 16 / 9 * u 1 ^ 2 + 4 * u 2 ^ 2) := by
    intro u
    rw [invHeight, Fin.sum_univ_three]
    congr 1
    simp
    ring
  have hrange : ∀ᵐ u ∂sphereLaw 3, 1 ≤ u 0 ^ 2 + 16 / 9 * u 1 ^ 2 + 4 * u 2 ^ 2 ∧
      u 0 ^ 2 + 16 / 9 * u 1 ^ 2 + 4 * u 2 ^ 2 ≤ 4 := by
    filter_upwards [sphereLaw_ae 2] with u hu
    have hu' : u 0 * u 0 + u 1 * u 1 + u 2 * u 2 = 1 := by
      have : u ⬝ᵥ u = 1 := hu
      simpa [dotProduct, Fin.sum_univ_three] using this
    have := sq_nonneg (u 0); have := sq_nonneg (u 1); have := sq_nonneg (u 2)
    constructor <;> nlinarith
  have hmeas := measurable_invHeight ![(1 : ℝ), 3 / 4, 1 / 2]
  have hbd : ∀ᵐ u ∂sphereLaw 3, |invHeight ![1, 3 / 4, 1 / 2] u| ≤ 2 := by
    filter_upwards [hrange] with u hu
    rw [hv, abs_of_nonneg (Real.sqrt_nonneg _), Real.sqrt_le_left (by norm_num)]
    linarith [hu.2]
  have hi0 : Integrable (fun u => invHeight ![1, 3 / 4, 1 / 2] u) (sphereLaw 3) :=
    Integrable.of_bound hmeas.aestronglyMeasurable 2 hbd
  have hi1 : Integrable (fun u : Fin 3 → ℝ => u 0 * u 0 * invHeight ![1, 3 / 4, 1 / 2] u) (sphereLaw 3) := by
    have hm2 : Measurable fun u : Fin 3 → ℝ => u 0 * u 0 * invHeight ![1, 3 / 4, 1 / 2] u := by fun_prop
    refine Integrable.of_bound hm2.aestronglyMeasurable 2 ?_
    filter_upwards [hbd, sphere_coord_le 0] with u hu h0
    rw [Real.norm_eq_abs, abs_mul, abs_mul]
    have := mul_le_one₀ h0 (abs_nonneg _) h0
    calc |u 0| * |u 0| * |invHeight ![1, 3 / 4, 1 / 2] u| ≤ 1 * 2 :=
          mul_le_mul this hu (abs_nonneg _) zero_le_one
      _ = 2 := by norm_num
  obtain ⟨m2, m4, m22, m6, m42, m222⟩ := sphereMoment_values
  have s1 := sphereMoment_swap01 0 2 0
  have s2 := sphereMoment_swap12 0 0 2
  have s3 := sphereMoment_swap12 2 0 2
  have s4 := sphereMoment_swap01 0 4 0
  have s5 := sphereMoment_swap12 0 0 4
  have s6 := sphereMoment_swap01 0 2 2
  have s7 := sphereMoment_swap12 4 0 2
  have s8 := sphereMoment_swap01 2 4 0
  have s9 := sphereMoment_swap12 2 0 4
  have u1 := sphereMoment_zero
  have hup : ∫ u, invHeight ![1, 3 / 4, 1 / 2] u ∂sphereLaw 3 ≤ 148414 / 100000 := by
    obtain ⟨hti, hte⟩ := integral_terms [(2538/4489, 0, 0, 0), (59470/121203, 2, 0, 0), (-4000/121203, 4, 0, 0),
      (-128000/1090827, 2, 2, 0), (-32000/121203, 2, 0, 2), (951520/1090827, 0, 2, 0), (-1024000/9817443, 0, 4, 0),
      (-512000/1090827, 0, 2, 2), (237880/121203, 0, 0, 2), (-64000/121203, 0, 0, 4)]
    refine (integral_mono_ae hi0 hti ?_).trans (le_of_eq_of_le hte ?_)
    · filter_upwards [hrange] with u hu
      rw [hv]
      refine (sqrt_upper _ (by linarith [hu.1]) hu.2).trans (le_of_eq ?_)
      simp [sphereTerms]
      ring
    · simp only [List.map_cons, List.map_nil, List.sum_cons, List.sum_nil, s1, s2, s3, s4, s5, s6, m2, m4, m22, u1]
      norm_num
  have hlo : (433857 : ℝ) / 1000000 ≤ ∫ u : Fin 3 → ℝ, u 0 * u 0 * invHeight ![1, 3 / 4, 1 / 2] u ∂sphereLaw 3 := by
    obtain ⟨hti, hte⟩ := integral_terms [(12/25, 2, 0, 0), (43/75, 4, 0, 0), (-4/75, 6, 0, 0), (-128/675, 4, 2, 0),
      (-32/75, 4, 0, 2), (688/675, 2, 2, 0), (-1024/6075, 2, 4, 0), (-512/675, 2, 2, 2), (172/75, 2, 0, 2),
      (-64/75, 2, 0, 4)]
    refine le_trans (le_of_le_of_eq ?_ hte.symm) (integral_mono_ae hti hi1 ?_)
    · simp only [List.map_cons, List.map_nil, List.sum_cons, List.sum_nil, s3, s7, s8, s9, m2, m4, m6, m22, m42, m222]
      norm_num
    · filter_upwards [hrange] with u hu
      rw [hv]
      refine le_trans (le_of_eq ?_) (mul_le_mul_of_nonneg_left (sqrt_lower _ hu.1) (mul_self_nonneg (u 0)))
      simp [sphereTerms]
      ring
  exact ⟨hup, hlo⟩

/-- C95: for the half extents of the script the printed error does not tend to zero: with probability arbitrarily close to
one, for many samples, some entry of it is larger than `1e-5` in absolute value. -/
theorem C95_ellipsoid_shell (q : ENNReal) (hq : q < 1) :
    ∀ᶠ N in atTop, ∀ᶠ T in atTop, q < Spec.rounds T N ((Spec.normals 3).prod (Spec.draw 0 1))
        {x | ∃ E, ellipsoidShellMonteCarlo ![1, 3 / 4, 1 / 2] N (Spec.candidates x) T = .ok (some E) ∧
          ∃ i j, 1 / 100000 < |E i j|} := by
  have hh : ∀ i, 0 < (![1, 3 / 4, 1 / 2] : Fin 3 → ℝ) i := fun i => by fin_cases i <;> norm_num
  have hI : Spec.Orthogonal (1 : Matrix (Fin 3) (Fin 3) ℝ) := by simp [Spec.Orthogonal]
  obtain ⟨hpos, _, hsec⟩ := area_second _ hh
  obtain ⟨hup, hlo⟩ := script_second
  obtain ⟨p, hp, hlim⟩ := C95_ellipsoid _ hh _ (ellipsoidArea_isArea hh hI 0)
    (Matrix.of fun i j => ∫ p, p i * p j ∂Spec.evenly 1 (ellipsoidArea ![1, 3 / 4, 1 / 2] 1 0)) fun i j => rfl
  set H : Matrix (Fin 3) (Fin 3) ℝ :=
    Matrix.of fun i j => ∫ p, p i * p j ∂Spec.evenly 1 (ellipsoidArea ![1, 3 / 4, 1 / 2] 1 0) with hH
  have hpH : p.H 0 0 = 19 / 65 := by
    rw [Ellipsoid.hollowDensityParams_ok ⟨![1, 3 / 4, 1 / 2], 1, 0⟩ 1 one_pos (by simp; norm_num)] at hp
    obtain rfl := Except.ok.inj hp
    simp [outer]
    norm_num
  have hH0 : 292328 / 1000000 < H 0 0 := by
    rw [hH, of_apply, hsec, lt_div_iff₀ hpos]
    simp only [cons_val_zero, mul_one, one_mul]
    linarith
  refine (hlim (1 / 1000000) (by norm_num) q hq).mono fun N hN => hN.mono fun T hT => hT.trans_le (measure_mono ?_)
  rintro x ⟨E, hE, hb⟩
  refine ⟨E, hE, ?_⟩
  by_contra hc
  push Not at hc
  have a0 := abs_le.mp (hc 0 0)
  have a1 := abs_le.mp (hc 1 1)
  have a2 := abs_le.mp (hc 2 2)
  have b0 := abs_lt.mp (hb 0 0)
  have b1 := abs_lt.mp (hb 1 1)
  have b2 := abs_lt.mp (hb 2 2)
  simp [IP.I, H2I, Matrix.trace, Fin.sum_univ_three] at b0 b1 b2
  linarith [a0.1, a0.2, a1.1, a1.2, a2.1, a2.2, b0.1, b0.2, b1.1, b1.2, b2.1, b2.2]

end Rigeo
