import Verif.Lemmas.Polar
import Verif.Props.Area

/-!
# The moments of the unit sphere up to the sixth order
-/

namespace Rigeo

open MeasureTheory Matrix Set

theorem sphere_change (Q : Matrix (Fin 3) (Fin 3) ℝ) (hQ : Spec.Orthogonal Q) (f : (Fin 3 → ℝ) → ℝ) (hf : Continuous f) :
    ∫ u, f (Q *ᵥ u) ∂sphereLaw 3 = ∫ u, f u ∂sphereLaw 3 := by
  have hQm : Measurable fun x : Fin 3 → ℝ => Q *ᵥ x :=
    (Continuous.matrix_mulVec continuous_const continuous_id).measurable
  conv_rhs => rw [← sphereLaw_invariant Q hQ]
  rw [integral_map hQm.aemeasurable hf.aestronglyMeasurable]

/-- The moment of given exponents. -/
noncomputable def sphereMoment (a b c : ℕ) : ℝ := ∫ u : Fin 3 → ℝ, u 0 ^ a * u 1 ^ b * u 2 ^ c ∂sphereLaw 3

theorem sphere_coord_le (i : Fin 3) : ∀ᵐ u ∂sphereLaw 3, |u i| ≤ 1 := by
  filter_upwards [sphereLaw_ae 2] with u hu
  have h1 : u i * u i ≤ u ⬝ᵥ u := Finset.single_le_sum (f := fun k => u k * u k) (fun k _ => mul_self_nonneg _)
    (Finset.mem_univ i)
  have hu' : u ⬝ᵥ u = 1 := hu
  exact abs_le_of_sq_le_sq (by rw [hu'] at h1; nlinarith) zero_le_one

theorem integrable_mono (a b c : ℕ) : Integrable (fun u : Fin 3 → ℝ => u 0 ^ a * u 1 ^ b * u 2 ^ c) (sphereLaw 3) := by
  refine Integrable.of_bound (by fun_prop) 1 ?_
  filter_upwards [sphere_coord_le 0, sphere_coord_le 1, sphere_coord_le 2] with u h0 h1 h2
  rw [Real.norm_eq_abs, abs_mul, abs_mul, abs_pow, abs_pow, abs_pow]
  have e0 := pow_le_one₀ (n := a) (abs_nonneg _) h0
  have e1 := pow_le_one₀ (n := b) (abs_nonneg _) h1
  have e2 := pow_le_one₀ (n := c) (abs_nonneg _) h2
  exact mul_le_one₀ (mul_le_one₀ e0 (by positivity) e1) (by positivity) e2

/-- A polynomial as a list of terms `k u₀ᵃ u₁ᵇ u₂ᶜ`. -/
noncomputable def sphereTerms (L : List (ℝ × ℕ × ℕ × ℕ)) (u : Fin 3 → ℝ) : ℝ :=
  (L.map fun t => t.1 * (u 0 ^ t.2.1 * u 1 ^ t.2.2.1 * u 2 ^ t.2.2.2)).sum

theorem integral_terms (L : List (ℝ × ℕ × ℕ × ℕ)) : Integrable (sphereTerms L) (sphereLaw 3) ∧
    ∫ u, sphereTerms L u ∂sphereLaw 3 = (L.map fun t => t.1 * sphereMoment t.2.1 t.2.2.1 t.2.2.2).sum := by
  induction L with
  | nil =>
    have h0 : sphereTerms [] = fun _ => 0 := by
      funext u
      simp [sphereTerms]
    simp [h0]
  | cons t L ih =>
    have h1 : sphereTerms (t :: L) = fun u => t.1 * (u 0 ^ t.2.1 * u 1 ^ t.2.2.1 * u 2 ^ t.2.2.2) + sphereTerms L u := by
      funext u
      simp [sphereTerms]
    have h2 := (integrable_mono t.2.1 t.2.2.1 t.2.2.2).const_mul t.1
    rw [h1]
    refine ⟨h2.add ih.1, ?_⟩
    rw [integral_add h2 ih.1, integral_const_mul, ih.2]
    simp [sphereMoment]

theorem integral_eq_terms (L : List (ℝ × ℕ × ℕ × ℕ)) (f : (Fin 3 → ℝ) → ℝ) (h : ∀ u, f u = sphereTerms L u) :
    ∫ u, f u ∂sphereLaw 3 = (L.map fun t => t.1 * sphereMoment t.2.1 t.2.2.1 t.2.2.2).sum := by
  rw [← (integral_terms L).2, show f = sphereTerms L from funext h]

theorem sphereMoment_zero : sphereMoment 0 0 0 = 1 := by simp [sphereMoment]

theorem sphereMoment_norm (a b c : ℕ) :
    sphereMoment (a + 2) b c + sphereMoment a (b + 2) c + sphereMoment a b (c + 2) = sphereMoment a b c := by
  have h := integral_eq_terms [(1, a + 2, b, c), (1, a, b + 2, c), (1, a, b, c + 2)]
    (fun u => u 0 ^ a * u 1 ^ b * u 2 ^ c * (u 0 * u 0 + u 1 * u 1 + u 2 * u 2)) fun u => by simp [sphereTerms]; ring
  have h2 : sphereMoment a b c =
      ∫ u : Fin 3 → ℝ, u 0 ^ a * u 1 ^ b * u 2 ^ c * (u 0 * u 0 + u 1 * u 1 + u 2 * u 2) ∂sphereLaw 3 := by
    refine integral_congr_ae ?_
    filter_upwards [sphereLaw_ae 2] with u hu
    have hu' : u 0 * u 0 + u 1 * u 1 + u 2 * u 2 = 1 := by
      have : u ⬝ᵥ u = 1 := hu
      simpa [dotProduct, Fin.sum_univ_three] using this
    rw [hu', mul_one]
  rw [h2, h]
  simp
  ring

theorem sphereMoment_swap01 (a b c : ℕ) : sphereMoment a b c = sphereMoment b a c := by
  have := sphere_change !![0, 1, 0; 1, 0, 0; 0, 0, 1]
    (by ext i j; fin_cases i <;> fin_cases j <;> simp [Matrix.mul_apply, Fin.sum_univ_three])
    (fun u => u 0 ^ a * u 1 ^ b * u 2 ^ c) (by fun_prop)
  unfold sphereMoment
  rw [← this]
  refine integral_congr_ae (Filter.Eventually.of_forall fun u => ?_)
  simp [mulVec, dotProduct, Fin.sum_univ_three, mul_comm]

theorem sphereMoment_swap12 (a b c : ℕ) : sphereMoment a b c = sphereMoment a c b := by
  have := sphere_change !![1, 0, 0; 0, 0, 1; 0, 1, 0]
    (by ext i j; fin_cases i <;> fin_cases j <;> simp [Matrix.mul_apply, Fin.sum_univ_three])
    (fun u => u 0 ^ a * u 1 ^ b * u 2 ^ c) (by fun_prop)
  unfold sphereMoment
  rw [← this]
  refine integral_congr_ae (Filter.Eventually.of_forall fun u => ?_)
  simp only [mulVec, dotProduct, Fin.sum_univ_three, of_apply, cons_val', cons_val_zero, cons_val_one, cons_val]
  ring

theorem sphereMoment_odd (a b c : ℕ) (ha : Odd a) : sphereMoment a b c = 0 := by
  have := sphere_change !![-1, 0, 0; 0, 1, 0; 0, 0, 1]
    (by ext i j; fin_cases i <;> fin_cases j <;> simp [Matrix.mul_apply, Fin.sum_univ_three])
    (fun u => u 0 ^ a * u 1 ^ b * u 2 ^ c) (by fun_prop)
  have h2 : sphereMoment a b c = -sphereMoment a b c := by
    conv_lhs => unfold sphereMoment
    rw [← this]
    unfold sphereMoment
    rw [← integral_neg]
    refine integral_congr_ae (Filter.Eventually.of_forall fun u => ?_)
    simp only [mulVec, dotProduct, Fin.sum_univ_three, of_apply, cons_val', cons_val_zero, cons_val_one, cons_val]
    have : (-1 * u 0 + 0 * u 1 + 0 * u 2) ^ a = -(u 0 ^ a) := by
      rw [show -1 * u 0 + 0 * u 1 + 0 * u 2 = -u 0 by ring, ha.neg_pow]
    rw [this]
    ring
  linarith

theorem sphere_turn (f : (Fin 3 → ℝ) → ℝ) (hf : Continuous f) :
    ∫ u : Fin 3 → ℝ, f ![(3 * u 0 - 4 * u 1) / 5, (4 * u 0 + 3 * u 1) / 5, u 2] ∂sphereLaw 3 = ∫ u, f u ∂sphereLaw 3 := by
  rw [← sphere_change !![3 / 5, -4 / 5, 0; 4 / 5, 3 / 5, 0; 0, 0, 1]
    (by ext i j; fin_cases i <;> fin_cases j <;> simp [Matrix.mul_apply, Fin.sum_univ_three] <;> norm_num) f hf]
  refine integral_congr_ae (Filter.Eventually.of_forall fun u => ?_)
  show f _ = f _
  congr 1
  ext i
  fin_cases i <;> simp [mulVec, dotProduct, Fin.sum_univ_three] <;> ring

theorem sphereMoment_four : sphereMoment 4 0 0 = 3 * sphereMoment 2 2 0 := by
  have h := sphere_turn (fun u => u 0 ^ 4) (by fun_prop)
  have h1 : ∫ u : Fin 3 → ℝ, u 0 ^ 4 ∂sphereLaw 3 = sphereMoment 4 0 0 := by simp [sphereMoment]
  have h2 := integral_eq_terms [(81 / 625, 4, 0, 0), (-432 / 625, 3, 1, 0), (864 / 625, 2, 2, 0), (-768 / 625, 1, 3, 0),
    (256 / 625, 0, 4, 0)] (fun u => ((3 * u 0 - 4 * u 1) / 5) ^ 4) fun u => by simp [sphereTerms]; ring
  have h3 := sphereMoment_odd 3 1 0 (by decide)
  have h4 := sphereMoment_odd 1 3 0 (by decide)
  have h5 := sphereMoment_swap01 0 4 0
  have h6 : ∫ u : Fin 3 → ℝ, ((3 * u 0 - 4 * u 1) / 5) ^ 4 ∂sphereLaw 3 = sphereMoment 4 0 0 := by
    rw [← h1, ← h]
    rfl
  rw [h6] at h2
  simp only [List.map_cons, List.map_nil, List.sum_cons, List.sum_nil, h3, h4, h5] at h2
  linarith

theorem sphereMoment_six : sphereMoment 6 0 0 = 5 * sphereMoment 4 2 0 := by
  have h := sphere_turn (fun u => u 0 ^ 6) (by fun_prop)
  have h1 : ∫ u : Fin 3 → ℝ, u 0 ^ 6 ∂sphereLaw 3 = sphereMoment 6 0 0 := by simp [sphereMoment]
  have h2 := integral_eq_terms [(729 / 15625, 6, 0, 0), (19440 / 15625, 4, 2, 0), (34560 / 15625, 2, 4, 0),
    (4096 / 15625, 0, 6, 0), (-5832 / 15625, 5, 1, 0), (-34560 / 15625, 3, 3, 0), (-18432 / 15625, 1, 5, 0)]
    (fun u => ((3 * u 0 - 4 * u 1) / 5) ^ 6) fun u => by simp [sphereTerms]; ring
  have h3 := sphereMoment_odd 5 1 0 (by decide)
  have h4 := sphereMoment_odd 1 5 0 (by decide)
  have h7 := sphereMoment_odd 3 3 0 (by decide)
  have h5 := sphereMoment_swap01 0 6 0
  have h8 := sphereMoment_swap01 2 4 0
  have h6 : ∫ u : Fin 3 → ℝ, ((3 * u 0 - 4 * u 1) / 5) ^ 6 ∂sphereLaw 3 = sphereMoment 6 0 0 := by
    rw [← h1, ← h]
    rfl
  rw [h6] at h2
  simp only [List.map_cons, List.map_nil, List.sum_cons, List.sum_nil, h3, h4, h5, h7, h8] at h2
  linarith

theorem sphereMoment_values : sphereMoment 2 0 0 = 1 / 3 ∧ sphereMoment 4 0 0 = 1 / 5 ∧ sphereMoment 2 2 0 = 1 / 15 ∧
    sphereMoment 6 0 0 = 1 / 7 ∧ sphereMoment 4 2 0 = 1 / 35 ∧ sphereMoment 2 2 2 = 1 / 105 := by
  have a0 := sphereMoment_zero
  have a1 := sphereMoment_norm 0 0 0
  have a2 := sphereMoment_swap01 0 2 0
  have a3 := sphereMoment_swap12 0 0 2
  have b1 := sphereMoment_norm 2 0 0
  have b2 := sphereMoment_swap12 2 0 2
  have b3 := sphereMoment_four
  have c1 := sphereMoment_norm 4 0 0
  have c2 := sphereMoment_swap12 4 0 2
  have c3 := sphereMoment_six
  have d1 := sphereMoment_norm 2 2 0
  have d2 := sphereMoment_swap01 2 4 0
  norm_num at a1 b1 c1 d1
  refine ⟨?_, ?_, ?_, ?_, ?_, ?_⟩ <;> linarith

theorem sphere_second (i j : Fin 3) : ∫ u : Fin 3 → ℝ, u i * u j ∂sphereLaw 3 = if i = j then 1 / 3 else 0 := by
  obtain ⟨m2, -⟩ := sphereMoment_values
  have m11 := sphereMoment_odd 1 1 0 (by decide)
  have m101 := sphereMoment_odd 1 0 1 (by decide)
  have m02 := sphereMoment_swap01 0 2 0
  have m002 := sphereMoment_swap12 0 0 2
  have m011 := sphereMoment_swap01 0 1 1
  rw [m2] at m02
  rw [m02] at m002
  rw [m101] at m011
  unfold sphereMoment at m2 m11 m101 m02 m002 m011
  simp only [pow_two, pow_one, pow_zero, mul_one, one_mul] at m2 m11 m101 m02 m002 m011
  have m10 : ∫ u : Fin 3 → ℝ, u 1 * u 0 ∂sphereLaw 3 = 0 := by
    rw [← m11]
    exact integral_congr_ae (Filter.Eventually.of_forall fun u => mul_comm _ _)
  have m20 : ∫ u : Fin 3 → ℝ, u 2 * u 0 ∂sphereLaw 3 = 0 := by
    rw [← m101]
    exact integral_congr_ae (Filter.Eventually.of_forall fun u => mul_comm _ _)
  have m21 : ∫ u : Fin 3 → ℝ, u 2 * u 1 ∂sphereLaw 3 = 0 := by
    rw [← m011]
    exact integral_congr_ae (Filter.Eventually.of_forall fun u => mul_comm _ _)
  fin_cases i <;> fin_cases j
  · simpa using m2
  · simpa using m11
  · simpa using m101
  · simpa using m10
  · simpa using m02
  · simpa using m011
  · simpa using m20
  · simpa using m21
  · simpa using m002

end Rigeo
