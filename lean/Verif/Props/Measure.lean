import Verif.Spec.Measure
import Verif.Props.Closest
import Verif.Props.Realize3
import Mathlib.Analysis.Convex.Caratheodory
import Mathlib.Analysis.Convex.Integral
import Mathlib.MeasureTheory.Measure.Dirac
import Mathlib.LinearAlgebra.AffineSpace.FiniteDimensional
import Mathlib.MeasureTheory.SpecificCodomains.Pi
import Mathlib.MeasureTheory.Integral.IntegrableOn

/-!
# C60: continuous bodies and point masses
-/

namespace Rigeo

open MeasureTheory Matrix

/-! ### The convex hull of a compact set -/

theorem isCompact_convexHull_of_compact {E : Type} [NormedAddCommGroup E] [NormedSpace ℝ E] [FiniteDimensional ℝ E]
    {s : Set E} (hs : IsCompact s) : IsCompact (convexHull ℝ s) := by
  rcases s.eq_empty_or_nonempty with rfl | ⟨x0, hx0⟩
  · simp
  set N := Module.finrank ℝ E + 1 with hN
  have himg : convexHull ℝ s = (fun wz : (Fin N → ℝ) × (Fin N → E) => ∑ i, wz.1 i • wz.2 i) ''
      (stdSimplex ℝ (Fin N) ×ˢ Set.univ.pi fun _ => s) := by
    ext x
    constructor
    · intro hx
      obtain ⟨ι, _, z, w, hz, hai, hw, hw1, hx⟩ := eq_pos_convex_span_of_mem_convexHull hx
      have hcard : Fintype.card ι ≤ N := hai.card_le_finrank_succ.trans
        (Nat.succ_le_succ (Submodule.finrank_le _))
      obtain ⟨e⟩ : Nonempty (ι ↪ Fin N) := Function.Embedding.nonempty_of_card_le (by simpa using hcard)
      refine ⟨(Function.extend e w 0, Function.extend e z fun _ => x0), ⟨⟨?_, ?_⟩, ?_⟩, ?_⟩
      · intro i
        by_cases hi : ∃ a, e a = i
        · obtain ⟨a, rfl⟩ := hi
          dsimp only
          rw [e.injective.extend_apply]
          exact (hw a).le
        · dsimp only
          rw [Function.extend_apply' _ _ _ hi]
          exact le_rfl
      · rw [← hw1]
        refine (Fintype.sum_of_injective e e.injective _ _ ?_ ?_).symm
        · intro i hi
          exact Function.extend_apply' _ _ _ hi
        · intro a
          dsimp only
          rw [e.injective.extend_apply]
      · intro i _
        by_cases hi : ∃ a, e a = i
        · obtain ⟨a, rfl⟩ := hi
          dsimp only
          rw [e.injective.extend_apply]
          exact hz ⟨a, rfl⟩
        · dsimp only
          rw [Function.extend_apply' _ _ _ hi]
          exact hx0
      · rw [← hx]
        refine (Fintype.sum_of_injective e e.injective _ _ ?_ ?_).symm
        · intro i hi
          have : Function.extend e w 0 i = 0 := Function.extend_apply' _ _ _ hi
          dsimp only
          rw [this, zero_smul]
        · intro a
          dsimp only
          rw [e.injective.extend_apply, e.injective.extend_apply]
    · rintro ⟨⟨w, z⟩, ⟨⟨hw, hw1⟩, hz⟩, rfl⟩
      exact (convex_convexHull ℝ s).sum_mem (fun i _ => hw i) hw1 fun i _ => subset_convexHull ℝ s (hz i (Set.mem_univ i))
  rw [himg]
  refine ((isCompact_stdSimplex ℝ (Fin N)).prod (isCompact_univ_pi fun _ => hs)).image ?_
  exact continuous_finsetSum _ fun i _ =>
    ((continuous_apply i).comp continuous_fst).smul ((continuous_apply i).comp continuous_snd)

/-! ### Scaling -/

theorem _root_.Spec.Realizable.smul {K : Type} [Field K] [LinearOrder K] [IsStrictOrderedRing K] {n : ℕ}
    {S : Set (Fin n → K)} {m : K} {f : Fin n → K} {H : Matrix (Fin n) (Fin n) K} (h : Spec.Realizable S m f H) {a : K}
    (ha : 0 ≤ a) : Spec.Realizable S (a * m) (a • f) (a • H) := by
  refine h.induct (P := fun m f H => Spec.Realizable S (a * m) (a • f) (a • H)) ?_ ?_ ?_
  · simpa using Spec.Realizable.zero (K := K) S
  · intro m f H m' f' H' h h'
    simpa [mul_add, smul_add] using h.add h'
  · intro b p hb hp
    simpa [mul_smul] using Spec.Realizable.point (mul_nonneg ha hb) hp

/-- C60: the mass, first and second moments of a finite measure carried by a compact set are those of a finite system
of non-negative point masses in the set. -/
theorem C60_point_masses {n : ℕ} (S : Set (Fin n → ℝ)) (hS : IsCompact S) (μ : Measure (Fin n → ℝ))
    (hμ : Spec.CarriedBy μ S) (m : ℝ) (h : Fin n → ℝ) (H : Matrix (Fin n) (Fin n) ℝ) (hm : Spec.HasMoments μ m h H) :
    Spec.Realizable S m h H := by
  have := hm.finite
  by_cases h0 : μ = 0
  · subst h0
    have e1 : m = 0 := by rw [← hm.mass]; simp
    have e2 : h = 0 := by ext i; rw [← hm.first i]; simp
    have e3 : H = 0 := by ext i j; rw [← hm.second i j]; simp
    rw [e1, e2, e3]
    exact Spec.Realizable.zero _
  have : NeZero μ := ⟨h0⟩
  let φ : (Fin n → ℝ) → (Fin n → ℝ) × (Fin n → Fin n → ℝ) := fun p => (p, fun i j => p i * p j)
  have hφ : Continuous φ := by
    refine continuous_id.prodMk ?_
    fun_prop
  have hint : Integrable φ μ := by
    refine Integrable.prodMk ?_ ?_
    · exact Integrable.of_eval hm.integrable
    · exact Integrable.of_eval fun i => Integrable.of_eval fun j => hm.integrable_sq i j
  have hcl : IsClosed (convexHull ℝ (φ '' S)) := (isCompact_convexHull_of_compact (hS.image hφ)).isClosed
  have hae : ∀ᵐ p ∂μ, φ p ∈ convexHull ℝ (φ '' S) := by
    have : ∀ᵐ p ∂μ, p ∈ S := hμ
    filter_upwards [this] with p hp
    exact subset_convexHull ℝ _ (Set.mem_image_of_mem φ hp)
  have hmem := (convex_convexHull ℝ (φ '' S)).average_mem hcl hae hint
  have hsub : convexHull ℝ (φ '' S) ⊆ {x | Spec.Realizable S 1 x.1 (Matrix.of x.2)} := by
    refine convexHull_min ?_ ?_
    · rintro _ ⟨p, hp, rfl⟩
      have := Spec.Realizable.point (zero_le_one (α := ℝ)) hp
      rw [one_smul, one_smul] at this
      have e : Matrix.of (φ p).2 = outer p p := by
        ext i j
        rw [outer_apply]
        rfl
      show Spec.Realizable S 1 (φ p).1 (Matrix.of (φ p).2)
      rw [e]
      exact this
    · intro x hx y hy a b ha hb hab
      have := (Spec.Realizable.smul hx ha).add (Spec.Realizable.smul hy hb)
      rw [mul_one, mul_one, hab] at this
      exact this
  have hr := hsub hmem
  have hmpos : 0 < μ.real Set.univ := by
    rw [measureReal_def]
    exact ENNReal.toReal_pos (by simpa using h0) (measure_ne_top μ _)
  have havg : (⨍ p, φ p ∂μ) = (m⁻¹ • h, fun i j => m⁻¹ * H i j) := by
    rw [average_eq, hm.mass]
    have h1 : (∫ p, φ p ∂μ) = (∫ p, p ∂μ, ∫ p, (fun i j => p i * p j : Fin n → Fin n → ℝ) ∂μ) := by
      refine integral_pair ?_ ?_
      · exact Integrable.of_eval hm.integrable
      · exact Integrable.of_eval fun i => Integrable.of_eval fun j => hm.integrable_sq i j
    rw [h1]
    have h2 : (∫ p, p ∂μ : Fin n → ℝ) = h := by
      ext i
      rw [eval_integral (fun i => hm.integrable i)]
      exact hm.first i
    have h3 : (∫ p, (fun i j => p i * p j : Fin n → Fin n → ℝ) ∂μ) = fun i j => H i j := by
      ext i j
      rw [eval_integral (fun i => Integrable.of_eval fun j => hm.integrable_sq i j)]
      rw [eval_integral (fun j => hm.integrable_sq i j)]
      exact hm.second i j
    rw [h2, h3]
    rfl
  rw [havg] at hr
  have hr' : Spec.Realizable S 1 (m⁻¹ • h) (m⁻¹ • H) := hr
  rw [hm.mass] at hmpos
  have := Spec.Realizable.smul hr' hmpos.le
  rwa [mul_one, smul_smul, smul_smul, mul_inv_cancel₀ hmpos.ne', one_smul, one_smul] at this

/-- C60: conversely, point masses are a measure, so the moments of point-mass systems in a set are exactly the moments
of finite measures carried by it. -/
theorem C60_measure {n : ℕ} (S : Set (Fin n → ℝ)) (hS : MeasurableSet S) (m : ℝ) (h : Fin n → ℝ)
    (H : Matrix (Fin n) (Fin n) ℝ) (hr : Spec.Realizable S m h H) :
    ∃ μ : Measure (Fin n → ℝ), Spec.CarriedBy μ S ∧ Spec.HasMoments μ m h H := by
  refine hr.induct (P := fun m h H => ∃ μ : Measure (Fin n → ℝ), Spec.CarriedBy μ S ∧ Spec.HasMoments μ m h H) ?_ ?_ ?_
  · exact ⟨0, by simp [Spec.CarriedBy], inferInstance, by simp, by simp, by simp, by simp, by simp⟩
  · rintro m h H m' h' H' ⟨μ, hμ, hm⟩ ⟨μ', hμ', hm'⟩
    have := hm.finite
    have := hm'.finite
    refine ⟨μ + μ', ?_, inferInstance, fun i => (hm.integrable i).add_measure (hm'.integrable i),
      fun i j => (hm.integrable_sq i j).add_measure (hm'.integrable_sq i j), ?_, fun i => ?_, fun i j => ?_⟩
    · unfold Spec.CarriedBy at *
      simp [hμ, hμ']
    · rw [measureReal_add_apply, hm.mass, hm'.mass]
    · rw [integral_add_measure (hm.integrable i) (hm'.integrable i), hm.first, hm'.first]
      rfl
    · rw [integral_add_measure (hm.integrable_sq i j) (hm'.integrable_sq i j), hm.second, hm'.second]
      rfl
  · intro a p ha hp
    have hd : ∀ f : (Fin n → ℝ) → ℝ, Integrable f (ENNReal.ofReal a • Measure.dirac p) := fun f =>
      (integrable_dirac (by simp)).smul_measure ENNReal.ofReal_ne_top
    have hi : ∀ f : (Fin n → ℝ) → ℝ, ∫ q, f q ∂(ENNReal.ofReal a • Measure.dirac p) = a * f p := by
      intro f
      rw [integral_smul_measure, integral_dirac, ENNReal.toReal_ofReal ha, smul_eq_mul]
    refine ⟨ENNReal.ofReal a • Measure.dirac p, ?_, ?_, fun i => hd _, fun i j => hd _, ?_, fun i => hi _, fun i j => ?_⟩
    · unfold Spec.CarriedBy
      rw [Measure.smul_apply, Measure.dirac_apply' _ hS.compl]
      simp [hp]
    · exact ⟨by simp⟩
    · simp [measureReal_def, ha]
    · rw [hi]
      simp [outer_apply]

/-- C60: both directions. -/
theorem C60_iff {n : ℕ} (S : Set (Fin n → ℝ)) (hS : IsCompact S) (m : ℝ) (h : Fin n → ℝ) (H : Matrix (Fin n) (Fin n) ℝ) :
    Spec.Realizable S m h H ↔ ∃ μ : Measure (Fin n → ℝ), Spec.CarriedBy μ S ∧ Spec.HasMoments μ m h H :=
  ⟨C60_measure S hS.measurableSet m h H, fun ⟨μ, hμ, hm⟩ => C60_point_masses S hS μ hμ m h H hm⟩

/-- C60: the region of a shape of any class is compact, so this applies to it and to bodies made of such shapes. -/
theorem C60_shapes (shapes : List (AnyShape ℝ)) (hs : ∀ s ∈ shapes, s.Valid) (m : ℝ) (h : Fin 3 → ℝ)
    (H : Matrix (Fin 3) (Fin 3) ℝ) :
    Spec.Realizable (Spec.bodyRegion shapes) m h H ↔
      ∃ μ : Measure (Fin 3 → ℝ), Spec.CarriedBy μ (Spec.bodyRegion shapes) ∧ Spec.HasMoments μ m h H := by
  refine C60_iff _ ?_ m h H
  have : Spec.bodyRegion shapes = ⋃ s ∈ {s | s ∈ shapes}, Spec.region s := by
    ext p
    simp [Spec.bodyRegion]
  rw [this]
  exact (List.finite_toSet shapes).isCompact_biUnion fun s h => AnyShape.compact (hs s h)

end Rigeo
