import Verif.Spec.Measure
import Mathlib.Probability.Moments.Variance
import Mathlib.MeasureTheory.Constructions.Pi

/-!
# The weak law of large numbers for the second moments of independent points
-/

namespace Rigeo

open MeasureTheory ProbabilityTheory Filter Set
open scoped Topology

/-- The mean of a bounded function of independent samples is close to its expectation with high probability. -/
theorem weak_law_fun {α : Type} [MeasurableSpace α] (ν : Measure α) [IsProbabilityMeasure ν] (f : α → ℝ) (hf : Measurable f)
    (hL : MemLp f 2 ν) (n : ℕ) (hn : 0 < n) (ε : ℝ) (hε : 0 < ε) :
    (Measure.pi fun _ : Fin n => ν) {y | ε ≤ |1 / (n : ℝ) * ∑ k, f (y k) - ∫ x, f x ∂ν|} ≤
      ENNReal.ofReal (variance f ν / (n * ε ^ 2)) := by
  have hn' : (0 : ℝ) < n := by exact_mod_cast hn
  set X : (Fin n → α) → ℝ := ∑ k, fun y => f (y k) with hX
  have hmp : ∀ k : Fin n, MeasurePreserving (fun y : Fin n → α => y k) (Measure.pi fun _ : Fin n => ν) ν := fun k =>
    measurePreserving_eval (fun _ => ν) k
  have hLk : ∀ k : Fin n, MemLp (fun y : Fin n → α => f (y k)) 2 (Measure.pi fun _ : Fin n => ν) := fun k =>
    hL.comp_measurePreserving (hmp k)
  have hXL : MemLp X 2 (Measure.pi fun _ : Fin n => ν) := memLp_finsetSum' _ fun k _ => hLk k
  have hvar : variance X (Measure.pi fun _ : Fin n => ν) = n * variance f ν := by
    rw [hX, variance_sum_pi fun _ => hL]
    simp
  have hmean : ∫ y, X y ∂(Measure.pi fun _ : Fin n => ν) = n * ∫ x, f x ∂ν := by
    have h1 : ∀ k : Fin n, ∫ y, f (y k) ∂(Measure.pi fun _ : Fin n => ν) = ∫ x, f x ∂ν := by
      intro k
      rw [← (hmp k).map_eq, integral_map (hmp k).measurable.aemeasurable hf.aestronglyMeasurable]
      rw [(hmp k).map_eq]
    simp only [hX, Finset.sum_apply]
    rw [integral_finsetSum _ fun k _ => (hLk k).integrable (by norm_num)]
    simp [h1]
  have hset : {y : Fin n → α | ε ≤ |1 / (n : ℝ) * ∑ k, f (y k) - ∫ x, f x ∂ν|} =
      {y | (n : ℝ) * ε ≤ |X y - ∫ y, X y ∂(Measure.pi fun _ : Fin n => ν)|} := by
    ext y
    have h1 : X y - ∫ y, X y ∂(Measure.pi fun _ : Fin n => ν) =
        n * (1 / (n : ℝ) * ∑ k, f (y k) - ∫ x, f x ∂ν) := by
      rw [hmean, hX, Finset.sum_apply]
      field_simp
    show ε ≤ _ ↔ (n : ℝ) * ε ≤ _
    rw [h1, abs_mul, abs_of_pos hn', mul_le_mul_iff_right₀ hn']
  rw [hset]
  refine (meas_ge_le_variance_div_sq hXL (mul_pos hn' hε)).trans (le_of_eq ?_)
  rw [hvar]
  congr 1
  field_simp

/-- The mean of `p pᵀ` over independent points tends to the second moment, in probability. -/
theorem weak_law {d : ℕ} (ν : Measure (Fin d → ℝ)) (B : ℝ) (hB : ∀ᵐ p ∂ν, ∀ i, |p i| ≤ B) (h : Fin d → ℝ)
    (H : Matrix (Fin d) (Fin d) ℝ) (hm : Spec.HasMoments ν 1 h H) (ε : ℝ) (hε : 0 < ε) :
    Tendsto (fun n : ℕ => (Measure.pi fun _ : Fin n => ν)
      {y | ∀ i j, |1 / (n : ℝ) * ∑ k, y k i * y k j - H i j| < ε}) atTop (𝓝 1) := by
  have hprob : IsProbabilityMeasure ν := ⟨by
    have := hm.finite
    have h1 := hm.mass
    rwa [measureReal_def, ENNReal.toReal_eq_one_iff] at h1⟩
  have hL : ∀ i j, MemLp (fun p : Fin d → ℝ => p i * p j) 2 ν := by
    intro i j
    refine MemLp.of_bound (by fun_prop) (B * B) ?_
    filter_upwards [hB] with p hp
    rw [Real.norm_eq_abs, abs_mul]
    exact mul_le_mul (hp i) (hp j) (abs_nonneg _) ((abs_nonneg _).trans (hp i))
  have hmeas : ∀ n : ℕ, MeasurableSet {y : Fin n → Fin d → ℝ | ∀ i j, |1 / (n : ℝ) * ∑ k, y k i * y k j - H i j| < ε} := by
    intro n
    have : {y : Fin n → Fin d → ℝ | ∀ i j, |1 / (n : ℝ) * ∑ k, y k i * y k j - H i j| < ε} =
        ⋂ i, ⋂ j, {y | |1 / (n : ℝ) * ∑ k, y k i * y k j - H i j| < ε} := by
      ext y
      simp
    rw [this]
    refine MeasurableSet.iInter fun i => MeasurableSet.iInter fun j => measurableSet_lt ?_ measurable_const
    have : Measurable fun y : Fin n → Fin d → ℝ => 1 / (n : ℝ) * ∑ k, y k i * y k j - H i j := by fun_prop
    exact continuous_abs.measurable.comp this
  -- the probability of the complement tends to zero
  have hc : Tendsto (fun n : ℕ => (Measure.pi fun _ : Fin n => ν)
      {y | ∀ i j, |1 / (n : ℝ) * ∑ k, y k i * y k j - H i j| < ε}ᶜ) atTop (𝓝 0) := by
    have hb : ∀ n : ℕ, 0 < n → (Measure.pi fun _ : Fin n => ν)
        {y | ∀ i j, |1 / (n : ℝ) * ∑ k, y k i * y k j - H i j| < ε}ᶜ ≤
          ∑ i, ∑ j, ENNReal.ofReal (variance (fun p : Fin d → ℝ => p i * p j) ν / (n * ε ^ 2)) := by
      intro n hn
      have hsub : {y : Fin n → Fin d → ℝ | ∀ i j, |1 / (n : ℝ) * ∑ k, y k i * y k j - H i j| < ε}ᶜ ⊆
          ⋃ i, ⋃ j, {y | ε ≤ |1 / (n : ℝ) * ∑ k, y k i * y k j - H i j|} := by
        intro y hy
        simp only [mem_compl_iff, mem_ofPred_eq, not_forall, not_lt] at hy
        obtain ⟨i, j, hij⟩ := hy
        exact mem_iUnion.mpr ⟨i, mem_iUnion.mpr ⟨j, hij⟩⟩
      refine (measure_mono hsub).trans ((measure_iUnion_fintype_le _ _).trans (Finset.sum_le_sum fun i _ =>
        (measure_iUnion_fintype_le _ _).trans (Finset.sum_le_sum fun j _ => ?_)))
      have := weak_law_fun ν (fun p => p i * p j) (by fun_prop) (hL i j) n hn ε hε
      rwa [hm.second i j] at this
    refine tendsto_of_tendsto_of_tendsto_of_le_of_le' tendsto_const_nhds ?_ (Eventually.of_forall fun _ => zero_le)
      ((eventually_gt_atTop 0).mono fun n hn => hb n hn)
    have h0 : ∀ c : ℝ, Tendsto (fun n : ℕ => ENNReal.ofReal (c / (n * ε ^ 2))) atTop (𝓝 0) := by
      intro c
      rw [← ENNReal.ofReal_zero]
      refine ENNReal.tendsto_ofReal ?_
      have : Tendsto (fun n : ℕ => (n : ℝ) * ε ^ 2) atTop atTop :=
        tendsto_natCast_atTop_atTop.atTop_mul_const (by positivity)
      exact this.const_div_atTop c
    have := tendsto_finsetSum (Finset.univ : Finset (Fin d)) fun i _ =>
      tendsto_finsetSum (Finset.univ : Finset (Fin d)) fun j _ =>
        h0 (variance (fun p : Fin d → ℝ => p i * p j) ν)
    simpa using this
  have h1 : ∀ n : ℕ, (Measure.pi fun _ : Fin n => ν) {y | ∀ i j, |1 / (n : ℝ) * ∑ k, y k i * y k j - H i j| < ε} =
      1 - (Measure.pi fun _ : Fin n => ν) {y | ∀ i j, |1 / (n : ℝ) * ∑ k, y k i * y k j - H i j| < ε}ᶜ := by
    intro n
    rw [prob_compl_eq_one_sub (hmeas n), ENNReal.sub_sub_cancel ENNReal.one_ne_top prob_le_one]
  simp only [h1]
  have := ENNReal.Tendsto.sub (tendsto_const_nhds (x := (1 : ENNReal))) hc (Or.inl ENNReal.one_ne_top)
  rwa [tsub_zero] at this

end Rigeo
