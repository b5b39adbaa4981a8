import Verif.Spec.Measure
import Verif.Props.Closest
import Mathlib.MeasureTheory.Integral.Pi
import Mathlib.MeasureTheory.Measure.Lebesgue.VolumeOfBalls
import Mathlib.MeasureTheory.Constructions.HaarToSphere
import Mathlib.Analysis.SpecialFunctions.Integrals.Basic

/-!
# Moments of the uniform densities on the unit cube, the unit ball and the unit cylinder
-/

namespace Rigeo

open MeasureTheory Matrix

/-! ### Affine maps -/

/-- The image of a mass distribution under an affine map. -/
theorem HasMoments.map {n k : ℕ} {μ : Measure (Fin n → ℝ)} {m : ℝ} {h : Fin n → ℝ} {H : Matrix (Fin n) (Fin n) ℝ}
    (hm : Spec.HasMoments μ m h H) (T : Matrix (Fin k) (Fin n) ℝ) (c : Fin k → ℝ) :
    Spec.HasMoments (μ.map fun p => T *ᵥ p + c) m (T *ᵥ h + m • c)
      (T * H * Tᵀ + outer (T *ᵥ h) c + outer c (T *ᵥ h) + m • outer c c) := by
  have := hm.finite
  have hf : Continuous fun p : Fin n → ℝ => T *ᵥ p + c := by fun_prop
  have hlin : ∀ i, Integrable (fun p : Fin n → ℝ => (T *ᵥ p) i) μ := by
    intro i
    simp only [mulVec, dotProduct]
    exact integrable_finsetSum _ fun a _ => (hm.integrable a).const_mul _
  have hquad : ∀ i j, Integrable (fun p : Fin n → ℝ => (T *ᵥ p) i * (T *ᵥ p) j) μ := by
    intro i j
    simp only [mulVec, dotProduct, Finset.sum_mul_sum]
    refine integrable_finsetSum _ fun a _ => integrable_finsetSum _ fun l _ => ?_
    have := (hm.integrable_sq a l).const_mul (T i a * T j l)
    refine this.congr (Filter.Eventually.of_forall fun p => ?_)
    simp only
    ring
  have hlinint : ∀ i, ∫ p, (T *ᵥ p) i ∂μ = (T *ᵥ h) i := by
    intro i
    simp only [mulVec, dotProduct]
    rw [integral_finsetSum _ fun a _ => (hm.integrable a).const_mul _]
    refine Finset.sum_congr rfl fun a _ => ?_
    rw [integral_const_mul, hm.first]
  have hquadint : ∀ i j, ∫ p, (T *ᵥ p) i * (T *ᵥ p) j ∂μ = (T * H * Tᵀ) i j := by
    intro i j
    have e1 : ∀ p : Fin n → ℝ, (T *ᵥ p) i * (T *ᵥ p) j = ∑ a, ∑ l, (T i a * T j l) * (p a * p l) := by
      intro p
      simp only [mulVec, dotProduct, Finset.sum_mul_sum]
      refine Finset.sum_congr rfl fun a _ => Finset.sum_congr rfl fun l _ => ?_
      ring
    simp only [e1]
    rw [integral_finsetSum _ fun a _ => integrable_finsetSum _ fun l _ => (hm.integrable_sq a l).const_mul _]
    rw [Matrix.mul_assoc, Matrix.mul_apply]
    refine Finset.sum_congr rfl fun a _ => ?_
    rw [integral_finsetSum _ fun l _ => (hm.integrable_sq a l).const_mul _, Matrix.mul_apply, Finset.mul_sum]
    refine Finset.sum_congr rfl fun l _ => ?_
    rw [integral_const_mul, hm.second, transpose_apply]
    ring
  have hprod : ∀ i j, Integrable (fun p : Fin n → ℝ => (T *ᵥ p + c) i * (T *ᵥ p + c) j) μ ∧
      ∫ p, (T *ᵥ p + c) i * (T *ᵥ p + c) j ∂μ =
        (T * H * Tᵀ + outer (T *ᵥ h) c + outer c (T *ᵥ h) + m • outer c c) i j := by
    intro i j
    have e : ∀ p : Fin n → ℝ, (T *ᵥ p + c) i * (T *ᵥ p + c) j =
        (T *ᵥ p) i * (T *ᵥ p) j + c j * (T *ᵥ p) i + c i * (T *ᵥ p) j + c i * c j := by
      intro p
      simp only [Pi.add_apply]
      ring
    simp only [e]
    have i1 : Integrable (fun p : Fin n → ℝ => (T *ᵥ p) i * (T *ᵥ p) j + c j * (T *ᵥ p) i) μ :=
      (hquad i j).add ((hlin i).const_mul (c j))
    have i2 : Integrable (fun p : Fin n → ℝ => (T *ᵥ p) i * (T *ᵥ p) j + c j * (T *ᵥ p) i + c i * (T *ᵥ p) j) μ :=
      i1.add ((hlin j).const_mul (c i))
    have i3 := i2.add (integrable_const (c i * c j))
    refine ⟨i3, ?_⟩
    rw [integral_add i2 (integrable_const _), integral_add i1 ((hlin j).const_mul _),
      integral_add (hquad i j) ((hlin i).const_mul _), integral_const_mul, integral_const_mul, hlinint, hlinint, hquadint,
      integral_const, hm.mass]
    simp only [Matrix.add_apply, Matrix.smul_apply, outer_apply, smul_eq_mul]
    ring
  have hmeas := hf.measurable
  have hae : AEMeasurable (fun p : Fin n → ℝ => T *ᵥ p + c) μ := hmeas.aemeasurable
  have c1 : ∀ i, AEStronglyMeasurable (fun p : Fin k → ℝ => p i) (μ.map fun p => T *ᵥ p + c) := fun i =>
    (continuous_apply i).aestronglyMeasurable
  have c2 : ∀ i j, AEStronglyMeasurable (fun p : Fin k → ℝ => p i * p j) (μ.map fun p => T *ᵥ p + c) := fun i j =>
    ((continuous_apply i).mul (continuous_apply j)).aestronglyMeasurable
  refine ⟨Measure.isFiniteMeasure_map μ _, fun i => ?_, fun i j => ?_, ?_, fun i => ?_, fun i j => ?_⟩
  · rw [integrable_map_measure (c1 i) hae]
    exact (hlin i).add (integrable_const (c i))
  · rw [integrable_map_measure (c2 i j) hae]
    exact (hprod i j).1
  · rw [measureReal_def, Measure.map_apply hmeas MeasurableSet.univ, Set.preimage_univ, ← measureReal_def, hm.mass]
  · rw [integral_map hae (c1 i)]
    show ∫ p, ((T *ᵥ p) i + c i) ∂μ = _
    rw [integral_add (hlin i) (integrable_const _), hlinint, integral_const, hm.mass]
    rfl
  · rw [integral_map hae (c2 i j)]
    exact (hprod i j).2

theorem HasMoments.add {n : ℕ} {μ μ' : Measure (Fin n → ℝ)} {m m' : ℝ} {h h' : Fin n → ℝ}
    {H H' : Matrix (Fin n) (Fin n) ℝ} (hm : Spec.HasMoments μ m h H) (hm' : Spec.HasMoments μ' m' h' H') :
    Spec.HasMoments (μ + μ') (m + m') (h + h') (H + H') := by
  have := hm.finite
  have := hm'.finite
  refine ⟨inferInstance, fun i => (hm.integrable i).add_measure (hm'.integrable i),
    fun i j => (hm.integrable_sq i j).add_measure (hm'.integrable_sq i j), ?_, fun i => ?_, fun i j => ?_⟩
  · rw [measureReal_add_apply, hm.mass, hm'.mass]
  · rw [integral_add_measure (hm.integrable i) (hm'.integrable i), hm.first, hm'.first]
    rfl
  · rw [integral_add_measure (hm.integrable_sq i j) (hm'.integrable_sq i j), hm.second, hm'.second]
    rfl

theorem HasMoments.zero {n : ℕ} : Spec.HasMoments (0 : Measure (Fin n → ℝ)) 0 0 0 :=
  ⟨inferInstance, by simp, by simp, by simp, by simp, by simp⟩

theorem HasMoments.sum {n : ℕ} {ι : Type} (s : Finset ι) {μ : ι → Measure (Fin n → ℝ)} {m : ι → ℝ} {h : ι → Fin n → ℝ}
    {H : ι → Matrix (Fin n) (Fin n) ℝ} (hm : ∀ i ∈ s, Spec.HasMoments (μ i) (m i) (h i) (H i)) :
    Spec.HasMoments (∑ i ∈ s, μ i) (∑ i ∈ s, m i) (∑ i ∈ s, h i) (∑ i ∈ s, H i) := by
  classical
  induction s using Finset.induction_on with
  | empty => simpa using HasMoments.zero
  | insert a s ha ih =>
    rw [Finset.sum_insert ha, Finset.sum_insert ha, Finset.sum_insert ha, Finset.sum_insert ha]
    exact HasMoments.add (hm a (Finset.mem_insert_self a s)) (ih fun i hi => hm i (Finset.mem_insert_of_mem hi))

theorem HasMoments.smul {n : ℕ} {μ : Measure (Fin n → ℝ)} {m : ℝ} {h : Fin n → ℝ} {H : Matrix (Fin n) (Fin n) ℝ}
    (hm : Spec.HasMoments μ m h H) {a : ℝ} (ha : 0 ≤ a) :
    Spec.HasMoments (ENNReal.ofReal a • μ) (a * m) (a • h) (a • H) := by
  have := hm.finite
  refine ⟨?_, fun i => (hm.integrable i).smul_measure ENNReal.ofReal_ne_top,
    fun i j => (hm.integrable_sq i j).smul_measure ENNReal.ofReal_ne_top, ?_, fun i => ?_, fun i j => ?_⟩
  · refine ⟨?_⟩
    rw [Measure.smul_apply, smul_eq_mul]
    exact ENNReal.mul_lt_top ENNReal.ofReal_lt_top (measure_lt_top _ _)
  · rw [measureReal_def, Measure.smul_apply, smul_eq_mul, ENNReal.toReal_mul, ENNReal.toReal_ofReal ha, ← measureReal_def,
      hm.mass]
  · rw [integral_smul_measure, hm.first, ENNReal.toReal_ofReal ha]
    rfl
  · rw [integral_smul_measure, hm.second, ENNReal.toReal_ofReal ha]
    rfl

/-- An invertible affine map as a measurable equivalence. -/
noncomputable def affineEquiv {n : ℕ} (T : Matrix (Fin n) (Fin n) ℝ) (hT : T.det ≠ 0) (c : Fin n → ℝ) :
    (Fin n → ℝ) ≃ₜ (Fin n → ℝ) where
  toFun p := T *ᵥ p + c
  invFun q := T⁻¹ *ᵥ (q - c)
  left_inv p := by
    simp [mulVec_mulVec, Matrix.nonsing_inv_mul T (isUnit_iff_ne_zero.2 hT)]
  right_inv q := by
    simp [mulVec_mulVec, Matrix.mul_nonsing_inv T (isUnit_iff_ne_zero.2 hT)]
  continuous_toFun := by fun_prop
  continuous_invFun := by fun_prop

theorem map_affine_volume {n : ℕ} (T : Matrix (Fin n) (Fin n) ℝ) (hT : T.det ≠ 0) (c : Fin n → ℝ) :
    (volume : Measure (Fin n → ℝ)).map (fun p => T *ᵥ p + c) = ENNReal.ofReal |T.det⁻¹| • volume := by
  have h1 : (fun p : Fin n → ℝ => T *ᵥ p + c) = (fun p => p + c) ∘ (Matrix.toLin' T) := by
    ext p
    simp
  rw [h1, ← Measure.map_map (by fun_prop) (LinearMap.continuous_of_finiteDimensional _).measurable,
    Real.map_matrix_volume_pi_eq_smul_volume_pi hT, Measure.map_smul, map_add_right_eq_self]

/-- The volume of an affine image. -/
theorem volume_affine {n : ℕ} (T : Matrix (Fin n) (Fin n) ℝ) (c : Fin n → ℝ) (S : Set (Fin n → ℝ)) :
    volume.real ((fun p => T *ᵥ p + c) '' S) = |T.det| * volume.real S := by
  have h1 : (fun p : Fin n → ℝ => T *ᵥ p + c) '' S = (fun p => c + p) '' (Matrix.toLin' T '' S) := by
    rw [Set.image_image]
    refine Set.image_congr fun p _ => ?_
    rw [Matrix.toLin'_apply, add_comm]
  rw [h1, measureReal_def, measureReal_def, Set.image_add_left, measure_preimage_add, Measure.addHaar_image_linearMap, ENNReal.toReal_mul,
    ENNReal.toReal_ofReal (abs_nonneg _), LinearMap.det_toLin']

/-- The image of a uniform density under an invertible affine map is a uniform density on the image. -/
theorem uniform_affine {n : ℕ} (T : Matrix (Fin n) (Fin n) ℝ) (hT : T.det ≠ 0) (c : Fin n → ℝ) (m : ℝ) (S : Set (Fin n → ℝ)) :
    Spec.uniform m ((fun p => T *ᵥ p + c) '' S) = (Spec.uniform m S).map fun p => T *ᵥ p + c := by
  have hemb : MeasurableEmbedding fun p : Fin n → ℝ => T *ᵥ p + c :=
    (affineEquiv T hT c).measurableEmbedding
  have hpre : (fun p : Fin n → ℝ => T *ᵥ p + c) ⁻¹' ((fun p => T *ᵥ p + c) '' S) = S :=
    Set.preimage_image_eq S hemb.injective
  unfold Spec.uniform
  rw [Measure.map_smul, volume_affine T]
  have h1 := hemb.restrict_map volume ((fun p => T *ᵥ p + c) '' S)
  rw [hpre, map_affine_volume T hT, Measure.restrict_smul] at h1
  rw [← h1, smul_smul]
  congr 1
  have hd : |T.det| ≠ 0 := abs_ne_zero.2 hT
  rw [← ENNReal.ofReal_mul' (abs_nonneg _), abs_inv]
  congr 1
  by_cases hV : volume.real S = 0
  · simp [hV]
  · field_simp

/-! ### Symmetric bodies -/

/-- The reflection in the coordinate `i`. -/
def flip {n : ℕ} (i : Fin n) (p : Fin n → ℝ) : Fin n → ℝ := fun k => if k = i then -p k else p k

theorem flip_flip {n : ℕ} (i : Fin n) (p : Fin n → ℝ) : flip i (flip i p) = p := by
  ext k
  by_cases h : k = i <;> simp [flip, h]

theorem flip_preserving {n : ℕ} (i : Fin n) : MeasurePreserving (flip i) volume volume := by
  have := volume_preserving_pi (ι := Fin n) (α' := fun _ => ℝ) (β' := fun _ => ℝ)
    (f := fun k x => if k = i then -x else x) (by
      intro k
      by_cases h : k = i
      · simp only [h, if_true]
        exact Measure.measurePreserving_neg _
      · simp only [h, if_false]
        exact MeasurePreserving.id _)
  exact this

theorem flip_embedding {n : ℕ} (i : Fin n) : MeasurableEmbedding (flip i) := by
  have h : Measurable (flip i) := (flip_preserving i).measurable
  exact (MeasurableEquiv.mk ⟨flip i, flip i, flip_flip i, flip_flip i⟩ h h).measurableEmbedding

theorem integral_flip {n : ℕ} {S : Set (Fin n → ℝ)} (i : Fin n) (hS : ∀ p, p ∈ S → flip i p ∈ S) (f : (Fin n → ℝ) → ℝ) :
    ∫ p in S, f (flip i p) = ∫ p in S, f p := by
  have hpre : flip i ⁻¹' S = S := by
    ext p
    constructor
    · intro h
      have := hS _ h
      rwa [flip_flip] at this
    · exact hS p
  have := (flip_preserving i).setIntegral_preimage_emb (flip_embedding i) f S
  rwa [hpre] at this

/-- The moments of a compact body that is symmetric in all coordinates. -/
theorem restrict_symmetric {n : ℕ} {S : Set (Fin n → ℝ)} (hc : IsCompact S) (hS : ∀ i p, p ∈ S → flip i p ∈ S) :
    Spec.HasMoments (volume.restrict S) (volume.real S) 0 (diagonal fun i => ∫ p in S, p i * p i) := by
  have hfin : IsFiniteMeasure (volume.restrict S) := ⟨by rw [Measure.restrict_apply_univ]; exact hc.measure_lt_top⟩
  have hi1 : ∀ i, Integrable (fun p : Fin n → ℝ => p i) (volume.restrict S) := fun i =>
    (continuous_apply i).continuousOn.integrableOn_compact hc
  have hi2 : ∀ i j, Integrable (fun p : Fin n → ℝ => p i * p j) (volume.restrict S) := fun i j =>
    ((continuous_apply i).mul (continuous_apply j)).continuousOn.integrableOn_compact hc
  refine ⟨hfin, hi1, hi2, ?_, fun i => ?_, fun i j => ?_⟩
  · rw [measureReal_def, measureReal_def, Measure.restrict_apply_univ]
  · have h := integral_flip i (hS i) fun p => p i
    have e : ∀ p : Fin n → ℝ, flip i p i = -p i := fun p => by simp [flip]
    simp only [e] at h
    rw [integral_neg] at h
    rw [Pi.zero_apply]
    linarith
  · by_cases hij : i = j
    · subst hij
      rw [diagonal_apply_eq]
    · have h := integral_flip i (hS i) fun p => p i * p j
      have e : ∀ p : Fin n → ℝ, flip i p i * flip i p j = -(p i * p j) := fun p => by simp [flip, Ne.symm hij]
      simp only [e] at h
      rw [integral_neg] at h
      rw [diagonal_apply_ne _ hij]
      linarith

/-- The moments of the uniform density on a compact body that is symmetric in all coordinates. -/
theorem uniform_symmetric {n : ℕ} {S : Set (Fin n → ℝ)} (hc : IsCompact S) (hV : volume.real S ≠ 0)
    (hS : ∀ i p, p ∈ S → flip i p ∈ S) (D : Fin n → ℝ) (hD : ∀ i, ∫ p in S, p i * p i = D i * volume.real S) (m : ℝ)
    (hm : 0 ≤ m) : Spec.HasMoments (Spec.uniform m S) m 0 (m • diagonal D) := by
  have := HasMoments.smul (restrict_symmetric hc hS) (div_nonneg hm (measureReal_nonneg (μ := volume) (s := S)))
  unfold Spec.uniform
  convert this using 1
  · rw [div_mul_cancel₀ _ hV]
  · rw [smul_zero]
  · simp only [hD]
    ext i j
    by_cases hij : i = j
    · subst hij
      simp only [Matrix.smul_apply, diagonal_apply_eq, smul_eq_mul]
      field_simp
    · simp [diagonal_apply_ne _ hij]

/-! ### Rectangles -/

/-- the rectangle (box, interval) with half extents `h` -/
def rect {n : ℕ} (h : Fin n → ℝ) : Set (Fin n → ℝ) := {y | ∀ i, |y i| ≤ h i}

theorem rect_eq {n : ℕ} (h : Fin n → ℝ) : rect h = Set.univ.pi fun i => Set.Icc (-h i) (h i) := by
  ext y
  simp only [rect, abs_le, Set.mem_ofPred_eq, Set.mem_univ_pi, Set.mem_Icc]

theorem rect_moments {n : ℕ} (h : Fin n → ℝ) (hh : ∀ i, 0 ≤ h i) :
    Spec.HasMoments (volume.restrict (rect h)) (∏ i, 2 * h i) 0 ((∏ i, 2 * h i) • diagonal fun i => h i ^ 2 / 3) := by
  have hc : IsCompact (rect h) := by
    rw [rect_eq]
    exact isCompact_univ_pi fun _ => isCompact_Icc
  have hs : ∀ i p, p ∈ rect h → flip i p ∈ rect h := by
    intro i p hp k
    have := hp k
    by_cases hk : k = i
    · simpa [flip, hk] using hp i
    · simpa [flip, hk] using hp k
  convert restrict_symmetric hc hs using 1
  · rw [rect_eq, measureReal_def, volume_pi_pi, ENNReal.toReal_prod]
    refine Finset.prod_congr rfl fun i _ => ?_
    rw [Real.volume_Icc, ENNReal.toReal_ofReal (by linarith [hh i])]
    ring
  · ext i j
    by_cases hij : i = j
    swap
    · simp [diagonal_apply_ne _ hij]
    subst hij
    rw [Matrix.smul_apply, diagonal_apply_eq, diagonal_apply_eq, rect_eq, volume_pi, Measure.restrict_pi_pi]
    have h1 := integral_fintype_prod_eq_prod (𝕜 := ℝ) (ι := Fin n) (E := fun _ => ℝ)
      (μ := fun k => volume.restrict (Set.Icc (-h k) (h k))) fun k x => if k = i then x * x else 1
    have e : ∀ p : Fin n → ℝ, (∏ k, if k = i then p k * p k else 1) = p i * p i := by
      intro p
      rw [Finset.prod_ite_eq' Finset.univ i fun k => p k * p k]
      simp
    simp only [e] at h1
    rw [h1]
    have e2 : ∀ k, (∫ x in Set.Icc (-h k) (h k), if k = i then x * x else 1) = 2 * h k * if k = i then h k ^ 2 / 3 else 1 := by
      intro k
      have hk := hh k
      rw [integral_Icc_eq_integral_Ioc, ← intervalIntegral.integral_of_le (by linarith)]
      by_cases hki : k = i
      · simp only [hki, if_true]
        simp only [← sq]
        rw [integral_pow]
        ring
      · simp only [hki, if_false]
        simp
        ring
    simp only [e2]
    rw [Finset.prod_mul_distrib (f := fun k => 2 * h k), Finset.prod_ite_eq' Finset.univ i fun k => h k ^ 2 / 3]
    simp

/-! ### The unit cube -/

/-- the cube `[-1, 1]ⁿ` -/
def unitCube (n : ℕ) : Set (Fin n → ℝ) := Set.univ.pi fun _ => Set.Icc (-1) 1

theorem unitCube_compact (n : ℕ) : IsCompact (unitCube n) := isCompact_univ_pi fun _ => isCompact_Icc

theorem unitCube_volume (n : ℕ) : volume.real (unitCube n) = 2 ^ n := by
  rw [unitCube, measureReal_def, volume_pi_pi, Finset.prod_const, Real.volume_Icc, Finset.card_univ, Fintype.card_fin]
  norm_num

theorem integral_sq_Icc : ∫ x in Set.Icc (-1 : ℝ) 1, x * x = 2 / 3 := by
  rw [integral_Icc_eq_integral_Ioc, ← intervalIntegral.integral_of_le (by norm_num)]
  simp only [← sq]
  rw [integral_pow]
  norm_num

theorem integral_one_Icc : ∫ _x in Set.Icc (-1 : ℝ) 1, (1 : ℝ) = 2 := by
  rw [setIntegral_const, measureReal_def, Real.volume_Icc]
  norm_num

theorem unitCube_second {n : ℕ} (i : Fin n) : ∫ p in unitCube n, p i * p i = 1 / 3 * volume.real (unitCube n) := by
  rw [unitCube_volume, unitCube, volume_pi, Measure.restrict_pi_pi]
  have h := integral_fintype_prod_eq_prod (𝕜 := ℝ) (ι := Fin n) (E := fun _ => ℝ)
    (μ := fun _ => volume.restrict (Set.Icc (-1 : ℝ) 1)) fun k x => if k = i then x * x else 1
  have e : ∀ p : Fin n → ℝ, (∏ k, if k = i then p k * p k else 1) = p i * p i := by
    intro p
    rw [Finset.prod_ite_eq' Finset.univ i fun k => p k * p k]
    simp
  simp only [e] at h
  rw [h]
  have e2 : ∀ k, (∫ x in Set.Icc (-1 : ℝ) 1, if k = i then x * x else 1) = 2 * if k = i then 1 / 3 else 1 := by
    intro k
    by_cases hk : k = i
    · simp only [hk, if_true]
      rw [integral_sq_Icc]
      norm_num
    · simp only [hk, if_false]
      rw [integral_one_Icc]
      norm_num
  simp only [e2]
  rw [Finset.prod_mul_distrib, Finset.prod_ite_eq' Finset.univ i fun _ => (1 / 3 : ℝ)]
  simp
  ring

theorem uniform_unitCube {n : ℕ} (m : ℝ) (hm : 0 ≤ m) :
    Spec.HasMoments (Spec.uniform m (unitCube n)) m 0 (m • diagonal fun _ => 1 / 3) := by
  refine uniform_symmetric (unitCube_compact n) (by rw [unitCube_volume]; positivity) ?_ _ unitCube_second m hm
  intro i p hp k hk
  have := hp k hk
  by_cases h : k = i
  · simp only [flip, h, if_true]
    rw [h] at this
    exact ⟨by linarith [this.2], by linarith [this.1]⟩
  · simp only [flip, h, if_false]
    exact this

/-! ### The unit ball -/

/-- the ball `Σ xᵢ² ≤ 1` -/
def unitBall (n : ℕ) : Set (Fin n → ℝ) := {u | u ⬝ᵥ u ≤ 1}

theorem unitBall_compact (n : ℕ) : IsCompact (unitBall n) := by
  have := ball_compact (n := n) 1 0
  convert this using 1
  ext u
  simp [unitBall, Spec.ball]

theorem toLp_preimage_closedBall (n : ℕ) :
    (@WithLp.toLp 2 (Fin n → ℝ)) ⁻¹' Metric.closedBall (0 : EuclideanSpace ℝ (Fin n)) 1 = unitBall n := by
  ext u
  simp only [Set.mem_preimage, mem_closedBall_zero_iff, EuclideanSpace.norm_eq, unitBall, Set.mem_ofPred_eq, dotProduct,
    Real.norm_eq_abs, sq_abs]
  rw [Real.sqrt_le_one]
  simp only [sq]

theorem toLp_embedding (n : ℕ) : MeasurableEmbedding (@WithLp.toLp 2 (Fin n → ℝ)) :=
  (MeasurableEquiv.toLp 2 (Fin n → ℝ)).measurableEmbedding

theorem unitBall_volume_eq (n : ℕ) :
    volume.real (unitBall n) = volume.real (Metric.closedBall (0 : EuclideanSpace ℝ (Fin n)) 1) := by
  rw [← toLp_preimage_closedBall, measureReal_def, measureReal_def,
    (PiLp.volume_preserving_toLp (Fin n)).measure_preimage_emb (toLp_embedding n)]

theorem unitBall_three : volume.real (unitBall 3) = 4 * Real.pi / 3 := by
  rw [unitBall_volume_eq, measureReal_def, EuclideanSpace.volume_closedBall_fin_three]
  simp [ENNReal.toReal_ofReal (show 0 ≤ Real.pi * 4 / 3 by positivity)]
  ring

theorem unitBall_two : volume.real (unitBall 2) = Real.pi := by
  rw [unitBall_volume_eq, measureReal_def, EuclideanSpace.volume_closedBall_fin_two]
  simp [ENNReal.toReal_ofReal Real.pi_pos.le]

/-- `∫ |x|²` over the unit ball -/
theorem unitBall_norm (n : ℕ) :
    ∫ p in unitBall (n + 1), p ⬝ᵥ p = (n + 1 : ℝ) / (n + 3) * volume.real (unitBall (n + 1)) := by
  have h1 : ∫ p in unitBall (n + 1), p ⬝ᵥ p =
      ∫ x in Metric.closedBall (0 : EuclideanSpace ℝ (Fin (n + 1))) 1, ‖x‖ ^ 2 := by
    rw [← (PiLp.volume_preserving_toLp (Fin (n + 1))).setIntegral_preimage_emb (toLp_embedding (n + 1)),
      toLp_preimage_closedBall]
    refine setIntegral_congr_fun (unitBall_compact _).measurableSet fun p _ => ?_
    simp only [EuclideanSpace.norm_sq_eq, dotProduct, Real.norm_eq_abs, sq_abs]
    simp only [sq]
  have h2 : ∫ x in Metric.closedBall (0 : EuclideanSpace ℝ (Fin (n + 1))) 1, ‖x‖ ^ 2 =
      ∫ x : EuclideanSpace ℝ (Fin (n + 1)), (fun y : ℝ => if y ≤ 1 then y ^ 2 else 0) ‖x‖ := by
    rw [← integral_indicator Metric.isClosed_closedBall.measurableSet]
    refine integral_congr_ae (Filter.Eventually.of_forall fun x => ?_)
    simp only [Set.indicator, mem_closedBall_zero_iff]
  rw [h1, h2, integral_fun_norm_addHaar volume (fun y : ℝ => if y ≤ 1 then y ^ 2 else 0), finrank_euclideanSpace, Fintype.card_fin, unitBall_volume_eq,
    measureReal_def, measureReal_def, Measure.addHaar_closedBall_eq_addHaar_ball]
  have h3 : ∫ y in Set.Ioi (0 : ℝ), y ^ (n + 1 - 1) • (if y ≤ 1 then y ^ 2 else 0) = 1 / (n + 3) := by
    have e : ∀ y : ℝ, y ^ (n + 1 - 1) • (if y ≤ 1 then y ^ 2 else 0) = (Set.Iic 1).indicator (fun y => y ^ (n + 2)) y := by
      intro y
      by_cases hy : y ≤ 1
      · simp [hy, Set.indicator, pow_add]
      · simp [hy, Set.indicator]
    simp only [e]
    rw [setIntegral_indicator measurableSet_Iic, Set.Ioi_inter_Iic, ← intervalIntegral.integral_of_le zero_le_one,
      integral_pow]
    simp
    norm_num [add_assoc]
  rw [h3]
  simp only [nsmul_eq_mul, smul_eq_mul]
  push_cast
  ring

theorem unitBall_second {n : ℕ} (i : Fin (n + 1)) :
    ∫ p in unitBall (n + 1), p i * p i = 1 / (n + 3) * volume.real (unitBall (n + 1)) := by
  have hint : ∀ k : Fin (n + 1), Integrable (fun p : Fin (n + 1) → ℝ => p k * p k) (volume.restrict (unitBall (n + 1))) :=
    fun k => ((continuous_apply k).mul (continuous_apply k)).continuousOn.integrableOn_compact (unitBall_compact _)
  have hsym : ∀ k, ∫ p in unitBall (n + 1), p k * p k = ∫ p in unitBall (n + 1), p i * p i := by
    intro k
    let σ : Equiv.Perm (Fin (n + 1)) := Equiv.swap i k
    have hp := volume_measurePreserving_piCongrLeft (fun _ : Fin (n + 1) => ℝ) σ
    have hval : ∀ (p : Fin (n + 1) → ℝ) (j), (MeasurableEquiv.piCongrLeft (fun _ : Fin (n + 1) => ℝ) σ) p j = p (σ.symm j) := by
      intro p j
      have := Equiv.piCongrLeft_apply_apply (fun _ : Fin (n + 1) => ℝ) σ p (σ.symm j)
      rw [Equiv.apply_symm_apply] at this
      exact this
    have h := hp.setIntegral_preimage_emb (MeasurableEquiv.measurableEmbedding _) (fun p => p k * p k) (unitBall (n + 1))
    have hpre : (MeasurableEquiv.piCongrLeft (fun _ : Fin (n + 1) => ℝ) σ) ⁻¹' unitBall (n + 1) = unitBall (n + 1) := by
      ext p
      simp only [Set.mem_preimage, unitBall, Set.mem_ofPred_eq, dotProduct, hval]
      rw [Equiv.sum_comp σ.symm fun j => p j * p j]
    rw [hpre] at h
    simp only [hval] at h
    rw [← h]
    simp [σ]
  have h := unitBall_norm n
  simp only [dotProduct] at h
  rw [integral_finsetSum _ fun k _ => hint k] at h
  simp only [hsym] at h
  rw [Finset.sum_const, Finset.card_univ, Fintype.card_fin, nsmul_eq_mul] at h
  have hn : ((n + 1 : ℕ) : ℝ) ≠ 0 := by positivity
  have hn3 : ((n : ℝ) + 3) ≠ 0 := by positivity
  have : ((n + 1 : ℕ) : ℝ) * ∫ p in unitBall (n + 1), p i * p i =
      ((n + 1 : ℕ) : ℝ) * (1 / (n + 3) * volume.real (unitBall (n + 1))) := by
    rw [h]
    push_cast
    ring
  exact mul_left_cancel₀ hn this

theorem unitBall_flip {n : ℕ} (i : Fin n) (p : Fin n → ℝ) (hp : p ∈ unitBall n) : flip i p ∈ unitBall n := by
  have e : flip i p ⬝ᵥ flip i p = p ⬝ᵥ p := by
    refine Finset.sum_congr rfl fun k _ => ?_
    by_cases h : k = i <;> simp [flip, h]
  show flip i p ⬝ᵥ flip i p ≤ 1
  rw [e]
  exact hp

theorem unitBall_volume_pos (n : ℕ) : volume.real (unitBall n) ≠ 0 := by
  rw [unitBall_volume_eq, measureReal_def]
  refine (ENNReal.toReal_pos ?_ ?_).ne'
  · exact (Metric.measure_closedBall_pos volume _ one_pos).ne'
  · exact (isCompact_closedBall _ _).measure_lt_top.ne

theorem uniform_unitBall {n : ℕ} (m : ℝ) (hm : 0 ≤ m) :
    Spec.HasMoments (Spec.uniform m (unitBall (n + 1))) m 0 (m • diagonal fun _ => 1 / ((n : ℝ) + 3)) :=
  uniform_symmetric (unitBall_compact _) (unitBall_volume_pos _) unitBall_flip _ unitBall_second m hm

/-! ### The unit cylinder -/

/-- the cylinder `x² + y² ≤ 1`, `|z| ≤ 1` -/
def unitCylinder : Set (Fin 3 → ℝ) := {y | |y 2| ≤ 1 ∧ y 0 ^ 2 + y 1 ^ 2 ≤ 1}

theorem unitCylinder_compact : IsCompact unitCylinder := by
  have := AnyShape.compact (s := .cylinder ⟨2, 1, 1, 0⟩) ⟨Spec.Orthogonal.one, by norm_num, by norm_num⟩
  convert this using 1
  ext p
  constructor
  · rintro ⟨h1, h2⟩
    exact ⟨p, by simpa using h1, by simpa using h2, by simp [Spec.rigid]⟩
  · rintro ⟨y, h1, h2, rfl⟩
    have h1' : |y 2| ≤ 1 := by simpa using h1
    have h2' : y 0 ^ 2 + y 1 ^ 2 ≤ 1 := by simpa using h2
    simpa [Spec.rigid, unitCylinder] using ⟨h1', h2'⟩

theorem unitCylinder_preimage :
    (MeasurableEquiv.piFinSuccAbove (fun _ : Fin 3 => ℝ) 2) ⁻¹' (Set.Icc (-1) 1 ×ˢ unitBall 2) = unitCylinder := by
  ext p
  simp only [Set.mem_preimage, Set.mem_prod, Set.mem_Icc, unitBall, unitCylinder, Set.mem_ofPred_eq, abs_le]
  have h0 : (MeasurableEquiv.piFinSuccAbove (fun _ : Fin 3 => ℝ) 2 p).1 = p 2 := rfl
  have h1 : (MeasurableEquiv.piFinSuccAbove (fun _ : Fin 3 => ℝ) 2 p).2 0 = p 0 := rfl
  have h2 : (MeasurableEquiv.piFinSuccAbove (fun _ : Fin 3 => ℝ) 2 p).2 1 = p 1 := rfl
  rw [dotProduct, Fin.sum_univ_two, h0, h1, h2, sq, sq]

theorem unitCylinder_integral (f : ℝ → ℝ) (g : (Fin 2 → ℝ) → ℝ) :
    ∫ p in unitCylinder, f (p 2) * g ![p 0, p 1] = (∫ z in Set.Icc (-1 : ℝ) 1, f z) * ∫ u in unitBall 2, g u := by
  have h := (volume_preserving_piFinSuccAbove (fun _ : Fin 3 => ℝ) 2).setIntegral_preimage_emb
    (MeasurableEquiv.measurableEmbedding _) (fun x => f x.1 * g x.2) (Set.Icc (-1) 1 ×ˢ unitBall 2)
  rw [unitCylinder_preimage] at h
  have e : ∀ p : Fin 3 → ℝ, (MeasurableEquiv.piFinSuccAbove (fun _ : Fin 3 => ℝ) 2 p).2 = ![p 0, p 1] := by
    intro p
    ext k
    fin_cases k <;> rfl
  have e' : ∀ p : Fin 3 → ℝ, (MeasurableEquiv.piFinSuccAbove (fun _ : Fin 3 => ℝ) 2 p).1 = p 2 := fun p => rfl
  simp only [e, e'] at h
  rw [h, Measure.volume_eq_prod, ← Measure.prod_restrict, integral_prod_mul]

theorem unitCylinder_volume : volume.real unitCylinder = 2 * Real.pi := by
  have h := unitCylinder_integral (fun _ => 1) fun _ => 1
  simp only [mul_one, setIntegral_const, smul_eq_mul] at h
  rw [h, unitBall_two, measureReal_def, Real.volume_Icc]
  norm_num

theorem unitCylinder_second (i : Fin 3) :
    ∫ p in unitCylinder, p i * p i = (![1 / 4, 1 / 4, 1 / 3] : Fin 3 → ℝ) i * volume.real unitCylinder := by
  rw [unitCylinder_volume]
  have hb : ∀ k : Fin 2, ∫ p in unitBall 2, p k * p k = 1 / 4 * Real.pi := by
    intro k
    have := unitBall_second (n := 1) k
    rw [unitBall_two] at this
    rw [this]
    norm_num
  fin_cases i
  · have h := unitCylinder_integral (fun _ => 1) fun u => u 0 * u 0
    simp only [one_mul, Matrix.cons_val_zero] at h
    simp only [Fin.zero_eta, Matrix.cons_val_zero]
    rw [h, hb, integral_one_Icc]
    ring
  · have h := unitCylinder_integral (fun _ => 1) fun u => u 1 * u 1
    simp only [one_mul, Matrix.cons_val_one, Matrix.cons_val_zero] at h
    simp only [Fin.mk_one, Matrix.cons_val_one, Matrix.cons_val_zero]
    rw [h, hb, integral_one_Icc]
    ring
  · have h := unitCylinder_integral (fun z => z * z) fun _ => 1
    simp only [mul_one] at h
    show ∫ p in unitCylinder, p 2 * p 2 = 1 / 3 * (2 * Real.pi)
    rw [h, integral_sq_Icc, setIntegral_const, unitBall_two]
    simp
    ring

theorem uniform_unitCylinder (m : ℝ) (hm : 0 ≤ m) :
    Spec.HasMoments (Spec.uniform m unitCylinder) m 0 (m • diagonal ![1 / 4, 1 / 4, 1 / 3]) := by
  refine uniform_symmetric unitCylinder_compact (by rw [unitCylinder_volume]; positivity) ?_ _ unitCylinder_second m hm
  rintro i p ⟨h1, h2⟩
  fin_cases i
  · exact ⟨by simpa [flip] using h1, by simpa [flip] using h2⟩
  · exact ⟨by simpa [flip] using h1, by simpa [flip] using h2⟩
  · exact ⟨by simpa [flip] using h1, by simpa [flip] using h2⟩

end Rigeo
