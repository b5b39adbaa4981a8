import Verif.Spec.Surface
import Verif.Props.Laws

/-! # The area measure of an ellipsoid -/

namespace Rigeo

open Matrix MeasureTheory ProbabilityTheory Set

/-- The unit sphere. -/
def unitSphere (n : ℕ) : Set (Fin n → ℝ) := {u | u ⬝ᵥ u = 1}

theorem measurable_dot (n : ℕ) : Measurable fun x : Fin n → ℝ => x ⬝ᵥ x := by
  unfold dotProduct
  fun_prop

theorem unitSphere_measurable (n : ℕ) : MeasurableSet (unitSphere n) :=
  measurableSet_eq_fun (measurable_dot n) measurable_const

theorem unitBall_volume_top (n : ℕ) : volume (unitBall n) ≠ ⊤ := (unitBall_compact n).measure_lt_top.ne

theorem unitBall_volume_zero (n : ℕ) : volume (unitBall n) ≠ 0 := by
  intro h
  exact unitBall_volume_pos n (by rw [measureReal_def, h, ENNReal.toReal_zero])

/-- The volume of a cone over a part of the unit sphere. -/
theorem cone_volume (k : ℕ) (A : Set (Fin (k + 1) → ℝ)) (hA : MeasurableSet A) (hAS : A ⊆ unitSphere (k + 1)) :
    volume (Spec.pyramid 0 A) = volume (unitBall (k + 1)) * sphereLaw (k + 1) A := by
  set C : Set (Fin (k + 1) → ℝ) := {x | x ≠ 0 ∧ x ⬝ᵥ x ≤ 1 ∧ (√(x ⬝ᵥ x))⁻¹ • x ∈ A} with hC
  have hCm : MeasurableSet C := by
    refine (measurableSet_eq_fun measurable_id measurable_const).compl.inter (MeasurableSet.inter ?_ ?_)
    · exact measurableSet_le (measurable_dot _) measurable_const
    · exact (sphereLaw_measurable (k + 1)) hA
  have hCB : C ∩ unitBall (k + 1) = C := inter_eq_left.2 fun x hx => hx.2.1
  have hpos : ∀ x : Fin (k + 1) → ℝ, x ≠ 0 → 0 < x ⬝ᵥ x := fun x hx =>
    lt_of_le_of_ne (dot_self_nonneg x) fun h => hx (dotProduct_self_eq_zero.1 h.symm)
  have hdotsmul : ∀ (r : ℝ) (x : Fin (k + 1) → ℝ), (r • x) ⬝ᵥ (r • x) = r ^ 2 * (x ⬝ᵥ x) := by
    intro r x
    rw [smul_dotProduct, dotProduct_smul, smul_eq_mul, smul_eq_mul]
    ring
  -- the pyramid and `C` differ at the apex only
  have h1 : volume (Spec.pyramid 0 A) = volume C := by
    refine measure_congr ?_
    have h0 : ∀ᵐ x ∂(volume : Measure (Fin (k + 1) → ℝ)), x ≠ 0 := compl_mem_ae_iff.2 (measure_singleton 0)
    filter_upwards [h0] with x hx
    refine propext ⟨?_, ?_⟩
    · rintro ⟨p, hp, t, ht0, ht1, hxt⟩
      rw [zero_add, sub_zero] at hxt
      have hpp : p ⬝ᵥ p = 1 := hAS hp
      have ht : 0 < t := lt_of_le_of_ne ht0 fun h => hx (by rw [hxt, ← h, zero_smul])
      have hxx : x ⬝ᵥ x = t ^ 2 := by rw [hxt, hdotsmul, hpp, mul_one]
      refine ⟨hx, by rw [hxx]; nlinarith, ?_⟩
      rw [hxx, Real.sqrt_sq ht0, hxt, smul_smul, inv_mul_cancel₀ ht.ne', one_smul]
      exact hp
    · rintro ⟨_, hx1, hxA⟩
      have := hpos x hx
      refine ⟨_, hxA, √(x ⬝ᵥ x), Real.sqrt_nonneg _, Real.sqrt_le_one.2 hx1, ?_⟩
      rw [zero_add, sub_zero, smul_smul, mul_inv_cancel₀ (Real.sqrt_pos.2 this).ne', one_smul]
  have hp := draw_probability (zero_lt_one (α := ℝ))
  -- the law of a random point of the ball
  have h2 : ((Spec.normals (k + 1)).prod (Spec.draw 0 1)).map (ballValue k) C = sphereLaw (k + 1) A := by
    rw [Measure.map_apply (measurable_ballValue k) hCm, sphereLaw, Measure.map_apply (sphereLaw_measurable _) hA]
    have h3 : ((Spec.normals (k + 1)).prod (Spec.draw 0 1)) (ballValue k ⁻¹' C) =
        ((Spec.normals (k + 1)).prod (Spec.draw 0 1)) (((fun x => (√(x ⬝ᵥ x))⁻¹ • x) ⁻¹' A) ×ˢ univ) := by
      refine measure_congr ?_
      have hX := (Measure.quasiMeasurePreserving_fst (μ := Spec.normals (k + 1)) (ν := Spec.draw 0 1)).ae
        (normals_ne_zero k)
      have hu : ∀ᵐ c ∂(Spec.draw 0 1), 0 < c ∧ c ≤ 1 := by
        rw [draw_zero_one, ← restrict_Ioc_eq_restrict_Icc]
        filter_upwards [ae_restrict_mem measurableSet_Ioc] with c hc
        exact hc
      have hc := (Measure.quasiMeasurePreserving_snd (μ := Spec.normals (k + 1)) (ν := Spec.draw 0 1)).ae hu
      filter_upwards [hX, hc] with q hq hc
      set s := (√(q.1 ⬝ᵥ q.1))⁻¹ • q.1 with hs
      set r := q.2 ^ (1 / ((k + 1 : ℕ) : ℝ)) with hr
      have hr0 : 0 < r := Real.rpow_pos_of_pos hc.1 _
      have hr1 : r ≤ 1 := Real.rpow_le_one hc.1.le hc.2 (by positivity)
      have hss : s ⬝ᵥ s = 1 := by
        have := hpos _ hq
        rw [hs, hdotsmul, inv_pow, Real.sq_sqrt this.le, inv_mul_cancel₀ this.ne']
      have hval : ballValue k q = r • s := rfl
      have hxx : (r • s) ⬝ᵥ (r • s) = r ^ 2 := by rw [hdotsmul, hss, mul_one]
      have hsr : (√((r • s) ⬝ᵥ (r • s)))⁻¹ • (r • s) = s := by
        rw [hxx, Real.sqrt_sq hr0.le, smul_smul, inv_mul_cancel₀ hr0.ne', one_smul]
      refine propext ⟨?_, ?_⟩
      · intro h
        have h : ballValue k q ∈ C := h
        rw [hval] at h
        refine ⟨?_, trivial⟩
        have := h.2.2
        rwa [hsr] at this
      · rintro ⟨h, -⟩
        have h : s ∈ A := h
        show ballValue k q ∈ C
        rw [hval]
        refine ⟨fun h0 => ?_, by rw [hxx]; nlinarith, by rwa [hsr]⟩
        rw [h0, zero_dotProduct] at hxx
        exact (pow_pos hr0 2).ne hxx
    rw [h3, Measure.prod_prod, measure_univ, mul_one]
  have h4 : ((Spec.normals (k + 1)).prod (Spec.draw 0 1)).map (ballValue k) = Spec.uniform 1 (unitBall (k + 1)) :=
    ball_law_map k
  rw [h1, ← h2, h4, Spec.uniform, Measure.smul_apply, Measure.restrict_apply hCm, hCB, smul_eq_mul, ← mul_assoc,
    measureReal_def, one_div, ENNReal.ofReal_inv_of_pos (ENNReal.toReal_pos (unitBall_volume_zero _) (unitBall_volume_top _)),
    ENNReal.ofReal_toReal (unitBall_volume_top _), ENNReal.mul_inv_cancel (unitBall_volume_zero _) (unitBall_volume_top _),
    one_mul]

theorem pyramid_image {n : ℕ} (T : Matrix (Fin n) (Fin n) ℝ) (c : Fin n → ℝ) (A : Set (Fin n → ℝ)) :
    Spec.pyramid c ((fun p => T *ᵥ p + c) '' A) = (fun p => T *ᵥ p + c) '' Spec.pyramid 0 A := by
  ext x
  constructor
  · rintro ⟨_, ⟨p, hp, rfl⟩, t, h0, h1, rfl⟩
    refine ⟨t • p, ⟨p, hp, t, h0, h1, by rw [zero_add, sub_zero]⟩, ?_⟩
    show T *ᵥ (t • p) + c = c + t • (T *ᵥ p + c - c)
    rw [mulVec_smul, add_sub_cancel_right, add_comm]
  · rintro ⟨_, ⟨p, hp, t, h0, h1, rfl⟩, rfl⟩
    refine ⟨_, ⟨p, hp, rfl⟩, t, h0, h1, ?_⟩
    show T *ᵥ (0 + t • (p - 0)) + c = c + t • (T *ᵥ p + c - c)
    rw [zero_add, sub_zero, mulVec_smul, add_sub_cancel_right, add_comm]

theorem frontier_unitBall (n : ℕ) : frontier (unitBall n) = unitSphere n := by
  have hball : Spec.ellipsoid (fun _ => 1) 1 0 = unitBall n := by
    rw [ellipsoid_image]
    simp
  ext p
  rw [← hball]
  have h1 := C43_ellipsoid_frontier (⟨fun _ => 1, 1, 0⟩ : Ellipsoid ℝ n) Spec.Orthogonal.one
    (fun i => Or.inr (by norm_num)) p
  rw [← h1, C43_ellipsoid _ Spec.Orthogonal.one (fun i => by norm_num)]
  constructor
  · rintro ⟨u, hu, rfl⟩
    have : Spec.rigid (1 : Matrix (Fin n) (Fin n) ℝ) 0 (fun i => 1 * u i) = u := by simp [Spec.rigid]
    exact this.symm ▸ hu
  · intro hp
    exact ⟨p, hp, by simp [Spec.rigid]⟩

theorem frontier_ellipsoid {n : ℕ} {h : Fin n → ℝ} (hh : ∀ i, 0 < h i) {R : Matrix (Fin n) (Fin n) ℝ}
    (hR : Spec.Orthogonal R) (c : Fin n → ℝ) :
    frontier (Spec.ellipsoid h R c) = (fun p => (R * diagonal h) *ᵥ p + c) '' unitSphere n := by
  rw [ellipsoid_image, ← frontier_unitBall]
  exact ((affineEquiv _ (det_stretch_ne R hR h hh) c).image_frontier _).symm

/-- The reciprocal of the height of the centre over the tangent plane at the image of `u`. -/
noncomputable def invHeight {n : ℕ} (h u : Fin n → ℝ) : ℝ := √(∑ i, (u i / h i) ^ 2)

theorem invHeight_pos {n : ℕ} {h : Fin n → ℝ} (hh : ∀ i, 0 < h i) {u : Fin n → ℝ} (hu : u ∈ unitSphere n) :
    0 < invHeight h u := by
  refine Real.sqrt_pos.2 ?_
  refine lt_of_le_of_ne (Finset.sum_nonneg fun i _ => sq_nonneg _) fun h0 => ?_
  have hz := (Finset.sum_eq_zero_iff_of_nonneg fun i _ => sq_nonneg (u i / h i)).1 h0.symm
  have : u = 0 := by
    ext i
    have := hz i (Finset.mem_univ i)
    have := pow_eq_zero_iff (two_ne_zero) |>.1 this
    rcases div_eq_zero_iff.1 this with h' | h'
    · exact h'
    · exact absurd h' (hh i).ne'
  have hu : u ⬝ᵥ u = 1 := hu
  rw [this, zero_dotProduct] at hu
  exact zero_ne_one hu

theorem isHeight_iff {n : ℕ} {h : Fin n → ℝ} (hh : ∀ i, 0 < h i) {R : Matrix (Fin n) (Fin n) ℝ}
    (hR : Spec.Orthogonal R) (c : Fin n → ℝ) {u : Fin n → ℝ} (hu : u ∈ unitSphere n) (d : ℝ) :
    Spec.IsHeight (Spec.ellipsoid h R c) c ((R * diagonal h) *ᵥ u + c) d ↔ d = (invHeight h u)⁻¹ := by
  have hu1 : u ⬝ᵥ u = 1 := hu
  have hpos := invHeight_pos hh hu
  have hsq : invHeight h u ^ 2 = ∑ i, (u i / h i) ^ 2 := Real.sq_sqrt (Finset.sum_nonneg fun i _ => sq_nonneg _)
  have hadj : ∀ ν x : Fin n → ℝ, ν ⬝ᵥ ((R * diagonal h) *ᵥ x) = (fun i => h i * (Rᵀ *ᵥ ν) i) ⬝ᵥ x := by
    intro ν x
    rw [← mulVec_mulVec, dotProduct_mulVec, ← mulVec_transpose]
    simp only [dotProduct, mulVec_diagonal]
    exact Finset.sum_congr rfl fun i _ => by ring
  constructor
  · rintro ⟨ν, hν, hsup, rfl⟩
    rw [add_sub_cancel_right, hadj]
    set w : Fin n → ℝ := fun i => h i * (Rᵀ *ᵥ ν) i with hw
    have hmax : ∀ v : Fin n → ℝ, v ⬝ᵥ v ≤ 1 → w ⬝ᵥ v ≤ w ⬝ᵥ u := by
      intro v hv
      have := hsup ((R * diagonal h) *ᵥ v + c) (by rw [ellipsoid_image]; exact ⟨v, hv, rfl⟩)
      rw [dotProduct_add, dotProduct_add, hadj, hadj] at this
      linarith
    have hw0 : 0 < w ⬝ᵥ w := by
      refine lt_of_le_of_ne (dot_self_nonneg w) fun h0 => ?_
      have hwz := dotProduct_self_eq_zero.1 h0.symm
      have hz : Rᵀ *ᵥ ν = 0 := by
        ext i
        have := congrFun hwz i
        simp only [hw, Pi.zero_apply, mul_eq_zero] at this
        exact this.resolve_left (hh i).ne'
      have : (Rᵀ *ᵥ ν) ⬝ᵥ (Rᵀ *ᵥ ν) = 1 := by rw [dot_mulVec_orthogonal hR.transpose, hν]
      rw [hz, zero_dotProduct] at this
      exact zero_ne_one this
    set l := √(w ⬝ᵥ w) with hl
    have hl0 : 0 < l := Real.sqrt_pos.2 hw0
    have hl2 : l ^ 2 = w ⬝ᵥ w := Real.sq_sqrt hw0.le
    have hge : l ≤ w ⬝ᵥ u := by
      have := hmax (l⁻¹ • w) (by
        rw [smul_dotProduct, dotProduct_smul, smul_eq_mul, smul_eq_mul, ← hl2]
        field_simp
        exact le_refl _)
      rw [dotProduct_smul, smul_eq_mul, ← hl2] at this
      have e : l⁻¹ * l ^ 2 = l := by field_simp
      linarith
    -- equality in Cauchy-Schwarz
    have hwu : w = l • u := by
      have h0 : (w - l • u) ⬝ᵥ (w - l • u) ≤ 0 := by
        have e : (w - l • u) ⬝ᵥ (w - l • u) = w ⬝ᵥ w - 2 * l * (w ⬝ᵥ u) + l ^ 2 * (u ⬝ᵥ u) := by
          rw [sub_dotProduct, dotProduct_sub, dotProduct_sub, smul_dotProduct, dotProduct_smul, smul_dotProduct,
            dotProduct_smul, dotProduct_comm u w]
          simp only [smul_eq_mul]
          ring
        rw [e, hu1, ← hl2]
        nlinarith
      exact sub_eq_zero.1 (dotProduct_self_eq_zero.1 (le_antisymm h0 (dot_self_nonneg _)))
    have hRν : ∀ i, (Rᵀ *ᵥ ν) i = l * (u i / h i) := by
      intro i
      have := congrFun hwu i
      simp only [hw, Pi.smul_apply, smul_eq_mul] at this
      have hi := (hh i).ne'
      field_simp
      linarith
    have hone : (1 : ℝ) = l ^ 2 * invHeight h u ^ 2 := by
      have : (Rᵀ *ᵥ ν) ⬝ᵥ (Rᵀ *ᵥ ν) = 1 := by rw [dot_mulVec_orthogonal hR.transpose, hν]
      rw [hsq, ← this, Finset.mul_sum, dotProduct]
      exact Finset.sum_congr rfl fun i _ => by rw [hRν]; ring
    rw [hwu, smul_dotProduct, hu1, smul_eq_mul, mul_one, ← one_div, eq_div_iff hpos.ne']
    have : (l * invHeight h u) ^ 2 = 1 := by rw [mul_pow]; exact hone.symm
    nlinarith [mul_pos hl0 hpos]
  · rintro rfl
    set l := (invHeight h u)⁻¹ with hl
    have hl0 : 0 < l := inv_pos.2 hpos
    have hRR : Rᵀ * R = 1 := hR
    refine ⟨R *ᵥ fun i => l * (u i / h i), ?_, ?_, ?_⟩
    · rw [dot_mulVec_orthogonal hR]
      have : (fun i => l * (u i / h i)) ⬝ᵥ (fun i => l * (u i / h i)) = l ^ 2 * ∑ i, (u i / h i) ^ 2 := by
        rw [dotProduct, Finset.mul_sum]
        exact Finset.sum_congr rfl fun i _ => by ring
      rw [this, ← hsq, ← mul_pow, hl, inv_mul_cancel₀ hpos.ne', one_pow]
    all_goals
      have hw : (fun i => h i * (Rᵀ *ᵥ (R *ᵥ fun i => l * (u i / h i))) i) = l • u := by
        ext i
        rw [mulVec_mulVec, hRR, one_mulVec, Pi.smul_apply, smul_eq_mul]
        have := (hh i).ne'
        field_simp
    · intro x hx
      rw [ellipsoid_image] at hx
      obtain ⟨v, hv, rfl⟩ := hx
      show _ ⬝ᵥ ((R * diagonal h) *ᵥ v + c) ≤ _
      rw [dotProduct_add, dotProduct_add, hadj, hadj, hw, smul_dotProduct, smul_dotProduct, hu1, smul_eq_mul, smul_eq_mul]
      have huv : u ⬝ᵥ v ≤ 1 := by
        have h0 := dot_self_nonneg (u - v)
        rw [sub_dotProduct, dotProduct_sub, dotProduct_sub, dotProduct_comm v u, hu1] at h0
        have hv : v ⬝ᵥ v ≤ 1 := hv
        linarith
      nlinarith
    · rw [add_sub_cancel_right, hadj, hw, smul_dotProduct, hu1, smul_eq_mul, mul_one]

theorem measurable_invHeight {n : ℕ} (h : Fin n → ℝ) : Measurable (invHeight h) := by
  unfold invHeight
  fun_prop

/-- The area measure of an ellipsoid, as the image of a density on the unit sphere. -/
noncomputable def ellipsoidArea {n : ℕ} (h : Fin n → ℝ) (R : Matrix (Fin n) (Fin n) ℝ) (c : Fin n → ℝ) :
    Measure (Fin n → ℝ) :=
  ((ENNReal.ofReal (n * ∏ i, h i) * volume (unitBall n)) •
    (sphereLaw n).withDensity fun u => ENNReal.ofReal (invHeight h u)).map fun p => (R * diagonal h) *ᵥ p + c

section
variable {k : ℕ} {h : Fin (k + 1) → ℝ} (hh : ∀ i, 0 < h i) {R : Matrix (Fin (k + 1)) (Fin (k + 1)) ℝ}
  (hR : Spec.Orthogonal R) (c : Fin (k + 1) → ℝ)

theorem stretch_measurable {n : ℕ} (M : Matrix (Fin n) (Fin n) ℝ) (c : Fin n → ℝ) : Measurable fun p => M *ᵥ p + c :=
  ((Continuous.matrix_mulVec continuous_const continuous_id).add continuous_const).measurable

theorem sphereLaw_ae (k : ℕ) : ∀ᵐ u ∂sphereLaw (k + 1), u ∈ unitSphere (k + 1) := sphereLaw_carried k

include hh hR in
theorem ellipsoidArea_isArea : Spec.IsArea (Spec.ellipsoid h R c) c (ellipsoidArea h R c) := by
  have hemb : MeasurableEmbedding fun p => (R * diagonal h) *ᵥ p + c :=
    (affineEquiv _ (det_stretch_ne R hR h hh) c).measurableEmbedding
  have hfr := frontier_ellipsoid hh hR c
  have hfm : MeasurableSet (frontier (Spec.ellipsoid h R c)) := isClosed_frontier.measurableSet
  constructor
  · show ellipsoidArea h R c (frontier _)ᶜ = 0
    rw [ellipsoidArea, Measure.map_apply hemb.measurable hfm.compl, Measure.smul_apply, smul_eq_mul]
    refine mul_eq_zero_of_right _ (withDensity_absolutelyContinuous _ _ ?_)
    refine measure_mono_null ?_ (sphereLaw_carried k)
    intro u hu hus
    exact hu (by rw [hfr]; exact ⟨u, hus, rfl⟩)
  · intro d hd A hAS hA
    have hpre : (fun p => (R * diagonal h) *ᵥ p + c) '' ((fun p => (R * diagonal h) *ᵥ p + c) ⁻¹' A) = A := by
      rw [image_preimage_eq_iff]
      exact hAS.trans (hfr.trans_subset (image_subset_range _ _))
    set A' := (fun p => (R * diagonal h) *ᵥ p + c) ⁻¹' A with hA'
    have hA'm : MeasurableSet A' := hemb.measurable hA
    have hA's : A' ⊆ unitSphere (k + 1) := by
      intro u hu
      have : (R * diagonal h) *ᵥ u + c ∈ frontier (Spec.ellipsoid h R c) := hAS hu
      rw [hfr] at this
      obtain ⟨v, hv, he⟩ := this
      rwa [hemb.injective he] at hv
    have hvol : volume (Spec.pyramid c A) = ENNReal.ofReal (∏ i, h i) * volume (Spec.pyramid 0 A') := by
      have htop : volume (Spec.pyramid 0 A') ≠ ⊤ := by
        rw [cone_volume k A' hA'm hA's]
        exact ENNReal.mul_ne_top (unitBall_volume_top _) (measure_ne_top _ _)
      have hv := volume_affine (R * diagonal h) c (Spec.pyramid 0 A')
      rw [← hpre, pyramid_image, ← det_stretch R hR h fun i => (hh i).le]
      have htop' : volume ((fun p => (R * diagonal h) *ᵥ p + c) '' Spec.pyramid 0 A') ≠ ⊤ := by
        have hsub : Spec.pyramid 0 A' ⊆ unitBall (k + 1) := by
          rintro x ⟨p, hp, t, ht0, ht1, rfl⟩
          have hp1 : p ⬝ᵥ p = 1 := hA's hp
          show (0 + t • (p - 0)) ⬝ᵥ (0 + t • (p - 0)) ≤ 1
          rw [zero_add, sub_zero, smul_dotProduct, dotProduct_smul, hp1, smul_eq_mul, smul_eq_mul]
          nlinarith
        refine ne_top_of_le_ne_top ?_ (measure_mono (image_mono hsub))
        exact ((unitBall_compact _).image
          ((Continuous.matrix_mulVec continuous_const continuous_id).add continuous_const)).measure_lt_top.ne
      rw [← ENNReal.ofReal_toReal htop', ← ENNReal.ofReal_toReal htop, ← ENNReal.ofReal_mul (abs_nonneg _)]
      exact congrArg _ hv
    rw [ellipsoidArea, hemb.restrict_map, hemb.lintegral_map, ← hA', Measure.restrict_smul, lintegral_smul_measure,
      restrict_withDensity hA'm]
    have hcongr : ∀ u ∈ A', ENNReal.ofReal (d ((R * diagonal h) *ᵥ u + c)) = (ENNReal.ofReal (invHeight h u))⁻¹ := by
      intro u hu
      rw [(isHeight_iff hh hR c (hA's hu) _).1 (hd _ (hAS hu)), ENNReal.ofReal_inv_of_pos (invHeight_pos hh (hA's hu))]
    have hint : ∫⁻ u, ENNReal.ofReal (d ((R * diagonal h) *ᵥ u + c))
        ∂((sphereLaw (k + 1)).restrict A').withDensity (fun u => ENNReal.ofReal (invHeight h u)) = sphereLaw (k + 1) A' := by
      have hae : (fun u => ENNReal.ofReal (d ((R * diagonal h) *ᵥ u + c))) =ᵐ[((sphereLaw (k + 1)).restrict A').withDensity
          fun u => ENNReal.ofReal (invHeight h u)] fun u => (ENNReal.ofReal (invHeight h u))⁻¹ := by
        refine withDensity_absolutelyContinuous _ _ ?_
        filter_upwards [ae_restrict_mem hA'm] with u hu
        exact hcongr u hu
      have hm := (measurable_invHeight h).ennreal_ofReal
      have hmi : Measurable fun u => (ENNReal.ofReal (invHeight h u))⁻¹ := hm.inv
      rw [lintegral_congr_ae hae, lintegral_withDensity_eq_lintegral_mul _ hm hmi]
      have : ∀ u ∈ A', ((fun u => ENNReal.ofReal (invHeight h u)) * fun u => (ENNReal.ofReal (invHeight h u))⁻¹) u = 1 := by
        intro u hu
        exact ENNReal.mul_inv_cancel (ENNReal.ofReal_pos.2 (invHeight_pos hh (hA's hu))).ne' ENNReal.ofReal_ne_top
      rw [setLIntegral_congr_fun hA'm this, setLIntegral_one]
    rw [hint, hvol, cone_volume k A' hA'm hA's, smul_eq_mul, ENNReal.ofReal_mul (by positivity), ENNReal.ofReal_natCast]
    ring

include hh hR in
theorem area_unique {ν : Measure (Fin (k + 1) → ℝ)} (hν : Spec.IsArea (Spec.ellipsoid h R c) c ν) :
    ν = ellipsoidArea h R c := by
  have hμ := ellipsoidArea_isArea hh hR c
  have hemb : MeasurableEmbedding fun p => (R * diagonal h) *ᵥ p + c :=
    (affineEquiv _ (det_stretch_ne R hR h hh) c).measurableEmbedding
  have hfr := frontier_ellipsoid hh hR c
  have hfm : MeasurableSet (frontier (Spec.ellipsoid h R c)) := isClosed_frontier.measurableSet
  set e := affineEquiv _ (det_stretch_ne R hR h hh) c with he
  set d : (Fin (k + 1) → ℝ) → ℝ := fun p => (invHeight h (e.symm p))⁻¹ with hd
  have hdm : Measurable fun p => ENNReal.ofReal (d p) :=
    (((measurable_invHeight h).comp e.symm.continuous.measurable).inv).ennreal_ofReal
  have hdh : ∀ p ∈ frontier (Spec.ellipsoid h R c), Spec.IsHeight (Spec.ellipsoid h R c) c p (d p) ∧ 0 < d p := by
    intro p hp
    rw [hfr] at hp
    obtain ⟨u, hu, rfl⟩ := hp
    have hs : e.symm ((R * diagonal h) *ᵥ u + c) = u := e.symm_apply_apply u
    refine ⟨(isHeight_iff hh hR c hu _).2 ?_, ?_⟩
    · simp only [hd, hs]
    · simp only [hd, hs]
      exact inv_pos.2 (invHeight_pos hh hu)
  have hwd : ν.withDensity (fun p => ENNReal.ofReal (d p)) = (ellipsoidArea h R c).withDensity fun p => ENNReal.ofReal (d p) := by
    ext A hA
    have hinter : ∀ τ : Measure (Fin (k + 1) → ℝ), Spec.IsArea (Spec.ellipsoid h R c) c τ →
        τ.withDensity (fun p => ENNReal.ofReal (d p)) A =
          (k + 1 : ℕ) * volume (Spec.pyramid c (A ∩ frontier (Spec.ellipsoid h R c))) := by
      intro τ hτ
      rw [← hτ.pyramids d (fun p hp => (hdh p hp).1) _ inter_subset_right (hA.inter hfm), withDensity_apply _ hA]
      refine setLIntegral_congr ?_
      have : ∀ᵐ p ∂τ, p ∈ frontier (Spec.ellipsoid h R c) := hτ.carried
      filter_upwards [this] with p hp
      exact propext ⟨fun h => ⟨h, hp⟩, fun h => h.1⟩
    rw [hinter ν hν, hinter _ hμ]
  have hback : ∀ τ : Measure (Fin (k + 1) → ℝ), Spec.IsArea (Spec.ellipsoid h R c) c τ →
      (τ.withDensity fun p => ENNReal.ofReal (d p)).withDensity (fun p => (ENNReal.ofReal (d p))⁻¹) = τ := by
    intro τ hτ
    have hcar : ∀ᵐ p ∂τ, p ∈ frontier (Spec.ellipsoid h R c) := hτ.carried
    refine withDensity_inv_same hdm ?_ ?_
    · filter_upwards [hcar] with p hp
      exact (ENNReal.ofReal_pos.2 (hdh p hp).2).ne'
    · exact Filter.Eventually.of_forall fun p => ENNReal.ofReal_ne_top
  rw [← hback ν hν, hwd, hback _ hμ]

include hh hR in
/-- C92: the surface of an ellipsoid has exactly one area measure. -/
theorem C92_area : ∃! ν, Spec.IsArea (Spec.ellipsoid h R c) c ν :=
  ⟨_, ellipsoidArea_isArea hh hR c, fun _ hν => area_unique hh hR c hν⟩

end

end Rigeo
