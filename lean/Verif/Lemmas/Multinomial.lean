import Verif.Spec.Random
import Mathlib.Data.Fin.Tuple.Sort
import Mathlib.MeasureTheory.Constructions.Pi
import Mathlib.MeasureTheory.Integral.Lebesgue.Countable
import Mathlib.MeasureTheory.Measure.Prod

/-!
# Multinomial counts and a shuffle give independent trials
-/

namespace Rigeo

open MeasureTheory Matrix

theorem sum_counts_lt {n m : ℕ} (k : Fin n → Fin m) (j : Fin m) :
    ∑ l ∈ Finset.univ.filter (· < j), Spec.counts k l = (Finset.univ.filter fun i => k i < j).card := by
  rw [Finset.card_eq_sum_card_fiberwise (f := k) (t := Finset.univ.filter (· < j))]
  · refine Finset.sum_congr rfl fun l hl => ?_
    unfold Spec.counts
    congr 1
    ext i
    simp only [Finset.mem_filter, Finset.mem_univ, true_and] at hl ⊢
    exact ⟨fun h => ⟨h ▸ hl, h⟩, fun h => h.2⟩
  · intro i hi
    simpa using hi

theorem sum_counts_le {n m : ℕ} (k : Fin n → Fin m) (j : Fin m) :
    ∑ l ∈ Finset.univ.filter (· ≤ j), Spec.counts k l = (Finset.univ.filter fun i => k i ≤ j).card := by
  rw [Finset.card_eq_sum_card_fiberwise (f := k) (t := Finset.univ.filter (· ≤ j))]
  · refine Finset.sum_congr rfl fun l hl => ?_
    unfold Spec.counts
    congr 1
    ext i
    simp only [Finset.mem_filter, Finset.mem_univ, true_and] at hl ⊢
    exact ⟨fun h => ⟨h ▸ hl, h⟩, fun h => h.2⟩
  · intro i hi
    simpa using hi

theorem sum_counts {n m : ℕ} (k : Fin n → Fin m) : ∑ l, Spec.counts k l = n := by
  have := Finset.card_eq_sum_card_fiberwise (f := k) (s := Finset.univ) (t := Finset.univ) (fun _ _ => by simp)
  simpa [Spec.counts] using this.symm

/-- The counts list the indices of the trials in increasing order. -/
theorem sorted_counts {n m : ℕ} (k : Fin n → Fin m) : ∃ τ : Equiv.Perm (Fin n), ∀ i : Fin n,
    ∑ l ∈ Finset.univ.filter (· < k (τ i)), Spec.counts k l ≤ i ∧
      (i : ℕ) < ∑ l ∈ Finset.univ.filter (· ≤ k (τ i)), Spec.counts k l := by
  refine ⟨Tuple.sort k, fun i => ?_⟩
  have hm := Tuple.monotone_sort k
  have e1 : (Finset.univ.filter fun i' => k i' < k (Tuple.sort k i)).card =
      (Finset.univ.filter fun i' => k (Tuple.sort k i') < k (Tuple.sort k i)).card := by
    refine (Finset.card_bij (fun a _ => Tuple.sort k a) ?_ ?_ ?_).symm
    · intro a ha; simpa using ha
    · intro a _ b _ h; exact (Tuple.sort k).injective h
    · intro b hb
      exact ⟨(Tuple.sort k).symm b, by simpa using hb, by simp⟩
  have e2 : (Finset.univ.filter fun i' => k i' ≤ k (Tuple.sort k i)).card =
      (Finset.univ.filter fun i' => k (Tuple.sort k i') ≤ k (Tuple.sort k i)).card := by
    refine (Finset.card_bij (fun a _ => Tuple.sort k a) ?_ ?_ ?_).symm
    · intro a ha; simpa using ha
    · intro a _ b _ h; exact (Tuple.sort k).injective h
    · intro b hb
      exact ⟨(Tuple.sort k).symm b, by simpa using hb, by simp⟩
  rw [sum_counts_lt, sum_counts_le, e1, e2]
  constructor
  · calc _ ≤ (Finset.univ.filter fun i' => i' < i).card := by
          refine Finset.card_le_card fun a ha => ?_
          simp only [Finset.mem_filter, Finset.mem_univ, true_and] at ha ⊢
          by_contra h
          exact absurd (hm (not_lt.mp h)) (not_le.mpr ha)
      _ = i := by rw [Finset.filter_gt_eq_Iio, Fin.card_Iio]
  · calc (i : ℕ) < (Finset.univ.filter fun i' => i' ≤ i).card := by rw [Finset.filter_ge_eq_Iic, Fin.card_Iic]; omega
      _ ≤ _ := by
          refine Finset.card_le_card fun a ha => ?_
          simp only [Finset.mem_filter, Finset.mem_univ, true_and] at ha ⊢
          exact hm ha

theorem categorical_probability {m : ℕ} {p : Fin m → ℝ} (h0 : ∀ j, 0 ≤ p j) (h1 : ∑ j, p j = 1) :
    IsProbabilityMeasure (Spec.categorical p) := by
  refine ⟨?_⟩
  unfold Spec.categorical
  rw [Measure.finsetSum_apply]
  simp only [Measure.smul_apply, measure_univ, smul_eq_mul, mul_one]
  rw [← ENNReal.ofReal_sum_of_nonneg fun j _ => h0 j, h1, ENNReal.ofReal_one]

/-- Independent draws may be permuted. -/
theorem pi_perm {n : ℕ} {α : Type} [MeasurableSpace α] (μ : Measure α) [IsProbabilityMeasure μ] (σ : Equiv.Perm (Fin n)) :
    (Measure.pi fun _ : Fin n => μ).map (fun u i => u (σ i)) = Measure.pi fun _ => μ := by
  symm
  refine Measure.pi_eq fun s hs => ?_
  have hmeas : Measurable fun (u : Fin n → α) i => u (σ i) := measurable_pi_lambda _ fun i => measurable_pi_apply _
  rw [Measure.map_apply hmeas (MeasurableSet.univ_pi hs)]
  have : (fun (u : Fin n → α) i => u (σ i)) ⁻¹' Set.univ.pi s = Set.univ.pi fun i => s (σ.symm i) := by
    ext u
    simp only [Set.mem_preimage, Set.mem_univ_pi]
    exact ⟨fun h i => by simpa using h (σ.symm i), fun h i => by simpa using h (σ i)⟩
  rw [this, Measure.pi_pi]
  exact Equiv.prod_comp σ.symm fun i => μ (s i)

theorem categorical_prod {m : ℕ} {α β : Type} [MeasurableSpace α] [MeasurableSpace β] (p : Fin m → ℝ) (μ : Measure α)
    [IsProbabilityMeasure μ] (G : Fin m → α → β) (hG : ∀ j, Measurable (G j)) :
    ((Spec.categorical p).prod μ).map (fun z => G z.1 z.2) = ∑ j, ENNReal.ofReal (p j) • μ.map (G j) := by
  have hm : Measurable fun z : Fin m × α => G z.1 z.2 := measurable_from_prod_countable_right hG
  ext D hD
  rw [Measure.map_apply hm hD, Measure.prod_apply (hm hD), Spec.categorical, lintegral_finsetSum_measure,
    Measure.finsetSum_apply]
  refine Finset.sum_congr rfl fun j _ => ?_
  rw [lintegral_smul_measure, lintegral_dirac, Measure.smul_apply, Measure.map_apply (hG j) hD]
  rfl

theorem lintegral_shuffles {n : ℕ} (f : Equiv.Perm (Fin n) → ENNReal) :
    ∫⁻ σ, f σ ∂Spec.shuffles n = ∑ σ, (n.factorial : ENNReal)⁻¹ * f σ := by
  rw [Spec.shuffles, lintegral_smul_measure, lintegral_count, tsum_fintype, smul_eq_mul, Finset.mul_sum]

instance {n : ℕ} : IsProbabilityMeasure (Spec.shuffles n) := ⟨by
  rw [← setLIntegral_one, setLIntegral_univ, lintegral_shuffles, Finset.sum_const, Finset.card_univ, Fintype.card_perm,
    Fintype.card_fin, mul_one, nsmul_eq_mul, ENNReal.mul_inv_cancel (by simp [Nat.factorial_ne_zero]) (by simp)]⟩

/-- Rows that are assigned to categories by multinomial counts and then shuffled are independent and have the law of a
single row of a random category. -/
theorem rows_law {m n : ℕ} {α β : Type} [MeasurableSpace α] [MeasurableSpace β] (p : Fin m → ℝ) (h0 : ∀ j, 0 ≤ p j)
    (h1 : ∑ j, p j = 1) (μ : Measure α) [IsProbabilityMeasure μ] (G : Fin m → α → β) (hG : ∀ j, Measurable (G j))
    (row : (Fin m → ℕ) → Fin n → α → β) (hrow : ∀ c i, Measurable (row c i))
    (hrG : ∀ (c : Fin m → ℕ) (i : Fin n) (j : Fin m), ∑ l, c l = n → ∑ l ∈ Finset.univ.filter (· < j), c l ≤ i →
      (i : ℕ) < ∑ l ∈ Finset.univ.filter (· ≤ j), c l → row c i = G j)
    (D : Set (Fin n → β)) (hD : MeasurableSet D) :
    ((Spec.multinomial n p).prod ((Measure.pi fun _ : Fin n => μ).prod (Spec.shuffles n)))
        {ω | (fun i => row ω.1 (ω.2.2 i) (ω.2.1 (ω.2.2 i))) ∈ D} =
      (Measure.pi fun _ => ∑ j, ENNReal.ofReal (p j) • μ.map (G j)) D := by
  have hcat := categorical_probability h0 h1
  have hcm : Measurable (Spec.counts : (Fin n → Fin m) → Fin m → ℕ) := measurable_of_countable _
  have hmul : IsProbabilityMeasure (Spec.multinomial n p) := Measure.isProbabilityMeasure_map hcm.aemeasurable
  -- the probability of `D` for given categories
  let H : (Fin n → Fin m) → ENNReal := fun f => (Measure.pi fun _ : Fin n => μ) {u | (fun i => G (f i) (u i)) ∈ D}
  have hmF : ∀ c, Measurable fun z : (Fin n → α) × Equiv.Perm (Fin n) => fun i => row c (z.2 i) (z.1 (z.2 i)) := by
    intro c
    refine measurable_from_prod_countable_left fun σ => measurable_pi_lambda _ fun i => ?_
    have h2 : Measurable fun u : Fin n → α => row c (σ i) (u (σ i)) := (hrow c (σ i)).comp (measurable_pi_apply _)
    exact h2
  have hmeas : Measurable fun ω : (Fin m → ℕ) × (Fin n → α) × Equiv.Perm (Fin n) =>
      fun i => row ω.1 (ω.2.2 i) (ω.2.1 (ω.2.2 i)) := measurable_from_prod_countable_right hmF
  have hset : MeasurableSet {ω : (Fin m → ℕ) × (Fin n → α) × Equiv.Perm (Fin n) |
      (fun i => row ω.1 (ω.2.2 i) (ω.2.1 (ω.2.2 i))) ∈ D} := hmeas hD
  rw [Measure.prod_apply hset, Spec.multinomial, lintegral_map (measurable_of_countable _) hcm]
  -- after the shuffle, the categories are a random rearrangement of those of the trials
  have inner : ∀ k : Fin n → Fin m, ((Measure.pi fun _ : Fin n => μ).prod (Spec.shuffles n))
      (Prod.mk (Spec.counts k) ⁻¹' {ω | (fun i => row ω.1 (ω.2.2 i) (ω.2.1 (ω.2.2 i))) ∈ D}) =
      ∑ π : Equiv.Perm (Fin n), (n.factorial : ENNReal)⁻¹ * H fun i => k (π i) := by
    intro k
    obtain ⟨τ, hτ⟩ := sorted_counts k
    have hsk : MeasurableSet (Prod.mk (Spec.counts k) ⁻¹' {ω : (Fin m → ℕ) × (Fin n → α) × Equiv.Perm (Fin n) |
        (fun i => row ω.1 (ω.2.2 i) (ω.2.1 (ω.2.2 i))) ∈ D}) := hmF (Spec.counts k) hD
    rw [Measure.prod_apply_symm hsk, lintegral_shuffles,
      ← Equiv.sum_comp (Equiv.mulLeft τ) fun π => (n.factorial : ENNReal)⁻¹ * H fun i => k (π i)]
    refine Finset.sum_congr rfl fun σ _ => ?_
    congr 1
    have hrk : ∀ i, row (Spec.counts k) i = G (k (τ i)) := fun i =>
      hrG _ _ _ (sum_counts k) (hτ i).1 (hτ i).2
    have hs : MeasurableSet {u : Fin n → α | (fun i => G (k (τ (σ i))) (u i)) ∈ D} := by
      have : Measurable fun (u : Fin n → α) i => G (k (τ (σ i))) (u i) :=
        measurable_pi_lambda _ fun i => (hG _).comp (measurable_pi_apply i)
      exact this hD
    show (Measure.pi fun _ : Fin n => μ) {u | (fun i => row (Spec.counts k) (σ i) (u (σ i))) ∈ D} =
      (Measure.pi fun _ : Fin n => μ) {u | (fun i => G (k (τ (σ i))) (u i)) ∈ D}
    conv_rhs => rw [← pi_perm μ σ]
    rw [Measure.map_apply (measurable_pi_lambda _ fun i => measurable_pi_apply _) hs]
    simp only [hrk]
    rfl
  simp only [inner]
  rw [lintegral_finsetSum _ fun π _ => measurable_of_countable _]
  have perm : ∀ π : Equiv.Perm (Fin n), ∫⁻ k, (n.factorial : ENNReal)⁻¹ * H (fun i => k (π i))
      ∂(Measure.pi fun _ : Fin n => Spec.categorical p) =
      (n.factorial : ENNReal)⁻¹ * ∫⁻ k, H k ∂(Measure.pi fun _ : Fin n => Spec.categorical p) := by
    intro π
    rw [lintegral_const_mul _ (measurable_of_countable _)]
    congr 1
    conv_rhs => rw [← pi_perm (Spec.categorical p) π]
    rw [lintegral_map (measurable_of_countable _) (measurable_pi_lambda _ fun i => measurable_pi_apply _)]
  simp only [perm, Finset.sum_const, Finset.card_univ, Fintype.card_perm, Fintype.card_fin, nsmul_eq_mul]
  rw [← mul_assoc, ENNReal.mul_inv_cancel (by simp [Nat.factorial_ne_zero]) (by simp), one_mul]
  -- independent categories and draws
  have hGm : Measurable fun z : Fin m × α => G z.1 z.2 := measurable_from_prod_countable_right hG
  have hmp := measurePreserving_arrowProdEquivProdArrow (Fin m) α (Fin n) (fun _ => Spec.categorical p) (fun _ => μ)
  have hE : MeasurableSet {z : (Fin n → Fin m) × (Fin n → α) | (fun i => G (z.1 i) (z.2 i)) ∈ D} := by
    have : Measurable fun (z : (Fin n → Fin m) × (Fin n → α)) i => G (z.1 i) (z.2 i) :=
      measurable_pi_lambda _ fun i => by
        have h2 : Measurable fun z : (Fin n → Fin m) × (Fin n → α) => (z.1 i, z.2 i) :=
          ((measurable_pi_apply i).comp measurable_fst).prodMk ((measurable_pi_apply i).comp measurable_snd)
        exact hGm.comp h2
    exact this hD
  have hp1 : IsProbabilityMeasure ((Spec.categorical p).prod μ) := inferInstance
  have hp2 : IsProbabilityMeasure (((Spec.categorical p).prod μ).map fun z => G z.1 z.2) :=
    Measure.isProbabilityMeasure_map hGm.aemeasurable
  rw [← categorical_prod p μ G hG]
  rw [← Measure.pi_map_pi (μ := fun _ : Fin n => (Spec.categorical p).prod μ) fun _ => hGm.aemeasurable]
  have hGn : Measurable fun (x : Fin n → Fin m × α) i => G (x i).1 (x i).2 :=
    measurable_pi_lambda _ fun i => hGm.comp (measurable_pi_apply i)
  rw [Measure.map_apply hGn hD]
  have := hmp.measure_preimage hE.nullMeasurableSet
  rw [Measure.prod_apply hE] at this
  exact this.symm

end Rigeo
