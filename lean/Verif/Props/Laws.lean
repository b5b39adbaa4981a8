import Verif.Lemmas.Polar
import Verif.Props.Density
import Verif.Props.Sampling2

/-! # The distributions of the samplers: C90 -/

namespace Rigeo

open Matrix MeasureTheory ProbabilityTheory Set

/-! ### Programs that transform draws -/

theorem samples_of_ae {Ω α ε : Type} [MeasurableSpace Ω] [MeasurableSpace α] {P : Measure Ω} {f : Ω → Except ε α}
    {F : Ω → α} {μ : Measure α} (hF : Measurable F) (h : ∀ᵐ ω ∂P, f ω = .ok (F ω)) (hm : P.map F = μ) :
    Spec.Samples P f μ := by
  refine ⟨h.mono fun ω hω => ⟨_, hω⟩, fun S hS => ?_⟩
  rw [← hm, Measure.map_apply hF hS]
  refine measure_congr ?_
  filter_upwards [h] with ω hω
  refine propext ⟨?_, fun hx => ⟨F ω, hx, hω⟩⟩
  rintro ⟨x, hx, he⟩
  rw [hω] at he
  cases he
  exact hx

/-! ### The unit solids -/

theorem draws_cube (n : ℕ) : Spec.draws n (-1) 1 = Spec.uniform 1 (unitCube n) := by
  rw [Spec.draws]
  have hp : IsProbabilityMeasure (Spec.draw (-1) 1) := draw_probability (by norm_num)
  refine Measure.pi_eq fun s hs => ?_
  rw [Spec.uniform, Measure.smul_apply, Measure.restrict_apply (MeasurableSet.univ_pi hs), unitCube, ← pi_inter_distrib,
    volume_pi_pi, ← unitCube, unitCube_volume, smul_eq_mul]
  have : ∀ i, Spec.draw (-1) 1 (s i) = ENNReal.ofReal (1 / 2) * volume (s i ∩ Icc (-1) 1) := by
    intro i
    rw [Spec.draw, Measure.smul_apply, Measure.restrict_apply (hs i), smul_eq_mul]
    norm_num
  simp only [this]
  rw [Finset.prod_mul_distrib, Finset.prod_const, Finset.card_univ, Fintype.card_fin, ← ENNReal.ofReal_pow (by norm_num),
    div_pow, one_pow]

theorem hyperspherePoint_eq {k : ℕ} (hk : 1 ≤ k) {X : Fin (k + 1) → ℝ} (hX : X ≠ 0) :
    hyperspherePoint k X = .ok ((√(X ⬝ᵥ X))⁻¹ • X) := by
  unfold hyperspherePoint vdiv
  simp only [pyAssert, hk, decide_true, if_true, bind, Except.bind]
  rw [if_neg]
  · congr 1
    ext i
    simp [div_eq_inv_mul]
  · rw [Real.sqrt_eq_zero (dot_self_nonneg X)]
    exact fun h => hX (dotProduct_self_eq_zero.mp h)

theorem ballPoint_eq {k : ℕ} (hk : 1 ≤ k) {X : Fin (k + 1) → ℝ} (hX : X ≠ 0) (c : ℝ) :
    ballPoint (k + 1) X c = .ok (c ^ (1 / ((k + 1 : ℕ) : ℝ)) • (√(X ⬝ᵥ X))⁻¹ • X) := by
  rw [ballPoint, hyperspherePoint_eq hk hX]
  rfl

/-- The value of `ballPoint` for nonzero draws. -/
noncomputable def ballValue (k : ℕ) (q : (Fin (k + 1) → ℝ) × ℝ) : Fin (k + 1) → ℝ :=
  q.2 ^ (1 / ((k + 1 : ℕ) : ℝ)) • (√(q.1 ⬝ᵥ q.1))⁻¹ • q.1

theorem measurable_ballValue (k : ℕ) : Measurable (ballValue k) := by
  have hdot : Measurable fun x : Fin (k + 1) → ℝ => x ⬝ᵥ x := by unfold dotProduct; fun_prop
  unfold ballValue
  fun_prop

theorem ballPoint_ae {k : ℕ} (hk : 1 ≤ k) :
    ∀ᵐ q ∂(Spec.normals (k + 1)).prod (Spec.draw 0 1), ballPoint (k + 1) q.1 q.2 = .ok (ballValue k q) := by
  have hp := draw_probability (zero_lt_one (α := ℝ))
  have := (Measure.quasiMeasurePreserving_fst (μ := Spec.normals (k + 1)) (ν := Spec.draw 0 1)).ae (normals_ne_zero k)
  filter_upwards [this] with q hq
  exact ballPoint_eq hk hq q.2

/-! ### C90 -/

/-- C90: `random_points_on_hypersphere` samples the uniform distribution on the sphere. There is exactly one such
distribution. -/
theorem C90_hypersphere (k : ℕ) (hk : 1 ≤ k) :
    ∃ σ : Measure (Fin (k + 1) → ℝ), Spec.UniformOnSphere σ ∧ (∀ τ, Spec.UniformOnSphere τ → τ = σ) ∧
      Spec.Samples (Spec.normals (k + 1)) (hyperspherePoint k) σ := by
  refine ⟨sphereLaw (k + 1), ⟨measure_univ, sphereLaw_carried k, sphereLaw_invariant⟩, fun τ hτ => ?_, ?_⟩
  · have : IsProbabilityMeasure τ := ⟨hτ.probability⟩
    exact sphere_unique hτ.carried (sphereLaw_carried k) hτ.invariant sphereLaw_invariant
  · refine samples_of_ae (sphereLaw_measurable _) ?_ rfl
    filter_upwards [normals_ne_zero k] with X hX
    exact hyperspherePoint_eq hk hX

/-- C90: `random_points_in_ball` samples the uniform distribution over the unit ball, in every dimension from two on. -/
theorem C90_ball (k : ℕ) (hk : 1 ≤ k) :
    Spec.Samples ((Spec.normals (k + 1)).prod (Spec.draw 0 1)) (fun q => ballPoint (k + 1) q.1 q.2)
      (Spec.uniform 1 {x | x ⬝ᵥ x ≤ 1}) :=
  samples_of_ae (measurable_ballValue k) (ballPoint_ae hk) (ball_law_map k)

/-- C90: `Box.random_points` samples the uniform distribution over the box. -/
theorem C90_box (b : Box ℝ) (hR : Spec.Orthogonal b.rotation) (hb : ∀ i, 0 < b.halfExtents i) :
    (Spec.draws 3 (-1) 1).map b.randomPoint = Spec.uniform 1 (Spec.box b.halfExtents b.rotation b.center) := by
  rw [box_image _ _ _ fun i => (hb i).le, uniform_affine _ (det_stretch_ne _ hR _ hb), draws_cube]
  congr 1
  funext u
  rw [Box.randomPoint, ← mulVec_mulVec]
  congr 2
  ext i
  rw [mulVec_diagonal, Pi.mul_apply, mul_comm]

/-- C90: `Ellipsoid.random_points` samples the uniform distribution over the ellipsoid. -/
theorem C90_ellipsoid {k : ℕ} (hk : 1 ≤ k) (e : Ellipsoid ℝ (k + 1)) (hR : Spec.Orthogonal e.rotation)
    (he : ∀ i, 0 < e.halfExtents i) :
    Spec.Samples ((Spec.normals (k + 1)).prod (Spec.draw 0 1)) (fun q => e.randomPoints q.1 q.2)
      (Spec.uniform 1 (Spec.ellipsoid e.halfExtents e.rotation e.center)) := by
  have hT : (e.rotation * diagonal e.halfExtents * e.rotationᵀ).det ≠ 0 := by
    rw [det_mul]
    refine mul_ne_zero (det_stretch_ne _ hR _ he) ?_
    rw [det_transpose]
    exact fun h => by have := det_orthogonal_sq hR; rw [h] at this; norm_num at this
  have hval : ∀ x, e.randomPoint x = (e.rotation * diagonal e.halfExtents * e.rotationᵀ) *ᵥ x + e.center := by
    intro x
    rw [Ellipsoid.randomPoint, ← mulVec_transpose, transpose_mul, transpose_mul, transpose_transpose, diagonal_transpose,
      Matrix.mul_assoc]
  have hball : (fun p => e.rotationᵀ *ᵥ p + (0 : Fin (k + 1) → ℝ)) '' unitBall (k + 1) = unitBall (k + 1) := by
    ext p
    constructor
    · rintro ⟨u, hu, rfl⟩
      show (e.rotationᵀ *ᵥ u + 0) ⬝ᵥ (e.rotationᵀ *ᵥ u + 0) ≤ 1
      rw [add_zero, dot_mulVec_orthogonal hR.transpose]
      exact hu
    · intro hp
      refine ⟨e.rotation *ᵥ p, ?_, ?_⟩
      · show (e.rotation *ᵥ p) ⬝ᵥ (e.rotation *ᵥ p) ≤ 1
        rw [dot_mulVec_orthogonal hR]
        exact hp
      · show e.rotationᵀ *ᵥ (e.rotation *ᵥ p) + 0 = p
        rw [mulVec_mulVec, hR, one_mulVec, add_zero]
  have himg : Spec.ellipsoid e.halfExtents e.rotation e.center =
      (fun p => (e.rotation * diagonal e.halfExtents * e.rotationᵀ) *ᵥ p + e.center) '' unitBall (k + 1) := by
    rw [ellipsoid_image]
    conv_lhs => rw [← hball]
    rw [image_image]
    refine image_congr fun u _ => ?_
    rw [add_zero, mulVec_mulVec]
  have hm : Measurable fun x => e.randomPoint x := by
    simp only [hval]
    exact (Continuous.add (Continuous.matrix_mulVec continuous_const continuous_id) continuous_const).measurable
  refine samples_of_ae (F := fun q => e.randomPoint (ballValue k q)) (hm.comp (measurable_ballValue k)) ?_ ?_
  · filter_upwards [ballPoint_ae hk] with q hq
    rw [Ellipsoid.randomPoints, hq]
    rfl
  · have h1 : ((Spec.normals (k + 1)).prod (Spec.draw 0 1)).map (ballValue k) = Spec.uniform 1 (unitBall (k + 1)) :=
      ball_law_map k
    rw [himg, uniform_affine _ hT, ← h1, Measure.map_map _ (measurable_ballValue k)]
    · congr 1
      funext q
      exact hval _
    · simpa only [hval] using hm

/-- The cylinder of radius and height one, as a product. -/
def diskTimes : Set (Fin 3 → ℝ) :=
  MeasurableEquiv.piFinSuccAbove (fun _ : Fin 3 => ℝ) 2 ⁻¹' (Icc (-1 / 2) (1 / 2) ×ˢ unitBall 2)

theorem mem_diskTimes (y : Fin 3 → ℝ) : y ∈ diskTimes ↔ (-1 / 2 ≤ y 2 ∧ y 2 ≤ 1 / 2) ∧ y 0 ^ 2 + y 1 ^ 2 ≤ 1 := by
  rw [diskTimes, mem_preimage, mem_prod, mem_Icc]
  refine and_congr Iff.rfl ?_
  show (_ ⬝ᵥ _ : ℝ) ≤ 1 ↔ _
  rw [dotProduct, Fin.sum_univ_two, sq, sq]
  exact Iff.rfl

theorem diskTimes_law :
    ((Spec.draw (-1 / 2) (1 / 2)).prod (Spec.uniform 1 (unitBall 2))).map
      (MeasurableEquiv.piFinSuccAbove (fun _ : Fin 3 => ℝ) 2).symm = Spec.uniform 1 diskTimes := by
  have hmp := volume_preserving_piFinSuccAbove (fun _ : Fin 3 => ℝ) 2
  have hvol : volume.real diskTimes = volume.real (unitBall 2) := by
    rw [diskTimes, measureReal_def, hmp.measure_preimage_emb (MeasurableEquiv.measurableEmbedding _),
      Measure.volume_eq_prod, Measure.prod_prod, Real.volume_Icc, ENNReal.toReal_mul, ← measureReal_def]
    norm_num
  symm
  rw [← MeasurableEquiv.map_apply_eq_iff_map_symm_apply_eq, Spec.uniform, Measure.map_smul, hvol, diskTimes,
    (hmp.restrict_preimage_emb (MeasurableEquiv.measurableEmbedding _) _).map_eq, Spec.draw, Spec.uniform, Measure.volume_eq_prod,
    ← Measure.prod_restrict, Measure.prod_smul_left, Measure.prod_smul_right]
  norm_num

theorem cylinder_diskTimes (L r : ℝ) (R : Matrix (Fin 3) (Fin 3) ℝ) (c : Fin 3 → ℝ) (hL : 0 ≤ L) (hr : 0 ≤ r) :
    Spec.cylinder L r R c = (fun p => (R * diagonal ![r, r, L]) *ᵥ p + c) '' diskTimes := by
  rw [cylinder_image _ _ _ _ hL hr]
  have hD : ∀ y z : Fin 3 → ℝ, y 0 = z 0 → y 1 = z 1 → y 2 = 2 * z 2 →
      (R * diagonal ![r, r, L / 2]) *ᵥ y + c = (R * diagonal ![r, r, L]) *ᵥ z + c := by
    intro y z h0 h1 h2
    rw [← mulVec_mulVec, ← mulVec_mulVec]
    congr 2
    ext i
    rw [mulVec_diagonal, mulVec_diagonal]
    fin_cases i
    · show r * y 0 = r * z 0
      rw [h0]
    · show r * y 1 = r * z 1
      rw [h1]
    · show L / 2 * y 2 = L * z 2
      rw [h2]
      ring
  ext p
  constructor
  · rintro ⟨y, ⟨h1, h2⟩, rfl⟩
    rw [abs_le] at h1
    refine ⟨![y 0, y 1, y 2 / 2], (mem_diskTimes _).2 ⟨⟨?_, ?_⟩, h2⟩, (hD y ![y 0, y 1, y 2 / 2] rfl rfl ?_).symm⟩
    · show -1 / 2 ≤ y 2 / 2
      linarith
    · show y 2 / 2 ≤ 1 / 2
      linarith
    · show y 2 = 2 * (y 2 / 2)
      ring
  · rintro ⟨z, hz, rfl⟩
    obtain ⟨⟨h1, h1'⟩, h2⟩ := (mem_diskTimes _).1 hz
    refine ⟨![z 0, z 1, 2 * z 2], ⟨?_, h2⟩, hD ![z 0, z 1, 2 * z 2] z rfl rfl rfl⟩
    show |2 * z 2| ≤ 1
    rw [abs_le]
    constructor <;> linarith

theorem Cylinder.randomPoint_eq (cyl : Cylinder ℝ) (q : ℝ × (Fin 2 → ℝ)) : cyl.randomPoint q.1 q.2 =
    (cyl.rotation * diagonal ![cyl.radius, cyl.radius, cyl.length]) *ᵥ
      ((MeasurableEquiv.piFinSuccAbove (fun _ : Fin 3 => ℝ) 2).symm q) + cyl.center := by
  obtain ⟨u, x⟩ := q
  rw [Cylinder.randomPoint, ← mulVec_transpose, transpose_transpose, ← mulVec_mulVec]
  congr 2
  ext i
  rw [mulVec_diagonal]
  fin_cases i <;> rfl

theorem disk_law : ((Spec.draw (-1 / 2) (1 / 2)).prod ((Spec.normals 2).prod (Spec.draw 0 1))).map
    (fun q => (q.1, ballValue 1 q.2)) = (Spec.draw (-1 / 2) (1 / 2)).prod (Spec.uniform 1 (unitBall 2)) := by
  have hp0 := draw_probability (zero_lt_one (α := ℝ))
  have hp1 : IsProbabilityMeasure (Spec.draw (-1 / 2) (1 / 2)) := draw_probability (by norm_num)
  have h1 : ((Spec.normals 2).prod (Spec.draw 0 1)).map (ballValue 1) = Spec.uniform 1 (unitBall 2) := ball_law_map 1
  rw [← h1]
  have := Measure.map_prod_map (Spec.draw (-1 / 2) (1 / 2)) ((Spec.normals 2).prod (Spec.draw 0 1))
    measurable_id (measurable_ballValue 1)
  rw [Measure.map_id] at this
  exact this.symm

/-- C90: `Cylinder.random_points` samples the uniform distribution over the cylinder. -/
theorem C90_cylinder (cyl : Cylinder ℝ) (hR : Spec.Orthogonal cyl.rotation) (hL : 0 < cyl.length) (hr : 0 < cyl.radius) :
    Spec.Samples ((Spec.draw (-1 / 2) (1 / 2)).prod ((Spec.normals 2).prod (Spec.draw 0 1)))
      (fun q => cyl.randomPoints q.1 q.2.1 q.2.2)
      (Spec.uniform 1 (Spec.cylinder cyl.length cyl.radius cyl.rotation cyl.center)) := by
  have hp0 := draw_probability (zero_lt_one (α := ℝ))
  have hp1 : IsProbabilityMeasure (Spec.draw (-1 / 2) (1 / 2)) := draw_probability (by norm_num)
  have hT : (cyl.rotation * diagonal ![cyl.radius, cyl.radius, cyl.length]).det ≠ 0 := by
    refine det_stretch_ne _ hR _ fun i => ?_
    fin_cases i
    · exact hr
    · exact hr
    · exact hL
  have hA : Measurable fun p => (cyl.rotation * diagonal ![cyl.radius, cyl.radius, cyl.length]) *ᵥ p + cyl.center :=
    (Continuous.add (Continuous.matrix_mulVec continuous_const continuous_id) continuous_const).measurable
  have hG : Measurable fun q : ℝ × (Fin 2 → ℝ) × ℝ => (q.1, ballValue 1 q.2) :=
    measurable_fst.prodMk ((measurable_ballValue 1).comp measurable_snd)
  have hval : (fun q : ℝ × (Fin 2 → ℝ) × ℝ => cyl.randomPoint q.1 (ballValue 1 q.2)) =
      (fun p => (cyl.rotation * diagonal ![cyl.radius, cyl.radius, cyl.length]) *ᵥ p + cyl.center) ∘
        (MeasurableEquiv.piFinSuccAbove (fun _ : Fin 3 => ℝ) 2).symm ∘ fun q => (q.1, ballValue 1 q.2) :=
    funext fun q => cyl.randomPoint_eq (q.1, ballValue 1 q.2)
  refine samples_of_ae (F := fun q => cyl.randomPoint q.1 (ballValue 1 q.2)) ?_ ?_ ?_
  · rw [hval]
    exact hA.comp ((MeasurableEquiv.measurable _).comp hG)
  · have := (Measure.quasiMeasurePreserving_snd (μ := Spec.draw (-1 / 2) (1 / 2))
      (ν := (Spec.normals 2).prod (Spec.draw 0 1))).ae (ballPoint_ae (k := 1) le_rfl)
    filter_upwards [this] with q hq
    rw [Cylinder.randomPoints, hq]
    rfl
  · rw [cylinder_diskTimes _ _ _ _ hL.le hr.le, uniform_affine _ hT, ← diskTimes_law, ← disk_law,
      Measure.map_map (MeasurableEquiv.measurable _) hG, Measure.map_map hA ((MeasurableEquiv.measurable _).comp hG), hval]

/-- C90: the entries of `random_weight_vectors` are not uniformly distributed, although its docstring says so: of two
entries, the first one is at most `1/3` with probability `1/4`. -/
theorem C90_weights :
    Spec.draws 2 0 1 {w | ∃ v, randomWeightVector w = .ok v ∧ v 0 ≤ 1 / 3} = ENNReal.ofReal (1 / 4) := by
  have hp0 := draw_probability (zero_lt_one (α := ℝ))
  have hset : {w : Fin 2 → ℝ | ∃ v, randomWeightVector w = .ok v ∧ v 0 ≤ 1 / 3} =
      MeasurableEquiv.finTwoArrow ⁻¹' {q : ℝ × ℝ | q.1 + q.2 ≠ 0 ∧ q.1 / (q.1 + q.2) ≤ 1 / 3} := by
    ext w
    show (∃ v, randomWeightVector w = .ok v ∧ v 0 ≤ 1 / 3) ↔ w 0 + w 1 ≠ 0 ∧ w 0 / (w 0 + w 1) ≤ 1 / 3
    unfold randomWeightVector vdiv
    rw [Fin.sum_univ_two]
    split_ifs with h
    · simp [h]
    · simp [h]
  have hm : MeasurableSet {q : ℝ × ℝ | q.1 + q.2 ≠ 0 ∧ q.1 / (q.1 + q.2) ≤ 1 / 3} := by
    refine MeasurableSet.inter ?_ ?_
    · have : Measurable fun q : ℝ × ℝ => q.1 + q.2 := by fun_prop
      exact (measurableSet_eq_fun this measurable_const).compl
    · have : Measurable fun q : ℝ × ℝ => q.1 / (q.1 + q.2) := by fun_prop
      exact measurableSet_le this measurable_const
  rw [hset, Spec.draws, (measurePreserving_finTwoArrow (Spec.draw 0 1)).measure_preimage_equiv, Measure.prod_apply_symm hm,
    draw_zero_one]
  have hsec : ∀ y ∈ Ioc (0 : ℝ) 1, (volume.restrict (Icc (0 : ℝ) 1)) ((fun x => (x, y)) ⁻¹'
      {q : ℝ × ℝ | q.1 + q.2 ≠ 0 ∧ q.1 / (q.1 + q.2) ≤ 1 / 3}) = ENNReal.ofReal (y / 2) := by
    rintro y ⟨hy, hy1⟩
    rw [Measure.restrict_apply (measurable_prodMk_right hm)]
    have : (fun x => (x, y)) ⁻¹' {q : ℝ × ℝ | q.1 + q.2 ≠ 0 ∧ q.1 / (q.1 + q.2) ≤ 1 / 3} ∩ Icc 0 1 = Icc 0 (y / 2) := by
      ext x
      show ((x + y ≠ 0 ∧ x / (x + y) ≤ 1 / 3) ∧ 0 ≤ x ∧ x ≤ 1) ↔ 0 ≤ x ∧ x ≤ y / 2
      constructor
      · rintro ⟨⟨_, h⟩, h0, h1⟩
        rw [div_le_iff₀ (by linarith)] at h
        exact ⟨h0, by linarith⟩
      · rintro ⟨h0, h1⟩
        refine ⟨⟨by linarith, ?_⟩, h0, by linarith⟩
        rw [div_le_iff₀ (by linarith)]
        linarith
    rw [this, Real.volume_Icc, sub_zero]
  rw [setLIntegral_congr Ioc_ae_eq_Icc.symm, setLIntegral_congr_fun measurableSet_Ioc hsec,
    ← ofReal_integral_eq_lintegral_ofReal]
  · rw [← intervalIntegral.integral_of_le zero_le_one, intervalIntegral.integral_div, integral_id]
    norm_num
  · exact (continuous_id.div_const 2).integrableOn_Ioc
  · filter_upwards [ae_restrict_mem measurableSet_Ioc] with y hy
    exact div_nonneg hy.1.le (by norm_num)

/-! Shapes as in the hypotheses. -/

example : Spec.Samples ((Spec.normals 3).prod (Spec.draw 0 1))
    (fun q => (⟨![1, 2, 3], 1, ![4, 5, 6]⟩ : Ellipsoid ℝ 3).randomPoints q.1 q.2)
    (Spec.uniform 1 (Spec.ellipsoid ![1, 2, 3] 1 ![4, 5, 6])) := by
  refine C90_ellipsoid (k := 2) (by norm_num) ⟨![1, 2, 3], 1, ![4, 5, 6]⟩ Spec.Orthogonal.one fun i => ?_
  fin_cases i <;> norm_num

example : (Spec.draws 3 (-1) 1).map (⟨![1, 2, 3], 1, ![4, 5, 6]⟩ : Box ℝ).randomPoint =
    Spec.uniform 1 (Spec.box ![1, 2, 3] 1 ![4, 5, 6]) := by
  refine C90_box ⟨![1, 2, 3], 1, ![4, 5, 6]⟩ Spec.Orthogonal.one fun i => ?_
  fin_cases i <;> norm_num

example : Spec.Samples ((Spec.draw (-1 / 2) (1 / 2)).prod ((Spec.normals 2).prod (Spec.draw 0 1)))
    (fun q => (⟨3, 2, 1, 0⟩ : Cylinder ℝ).randomPoints q.1 q.2.1 q.2.2) (Spec.uniform 1 (Spec.cylinder 3 2 1 0)) :=
  C90_cylinder ⟨3, 2, 1, 0⟩ Spec.Orthogonal.one (by norm_num) (by norm_num)

end Rigeo
