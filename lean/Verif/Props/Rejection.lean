import Verif.Lemmas.Rejection
import Verif.Props.Laws
import Verif.Props.Shapes4

/-! # The distribution of rejection samples: C91 -/

namespace Rigeo

open Matrix MeasureTheory ProbabilityTheory Set

/-! ### Membership tests at positive tolerances -/

section Field
variable {K : Type} [Field K] [LinearOrder K] [IsStrictOrderedRing K]

/-- C27: what `Ellipsoid.contains(p, tol)` accepts is in the ellipsoid grown by the factor `1 + tol`. -/
theorem C27_sound {d : ℕ} (e : Ellipsoid K d) (hR : Spec.Orthogonal e.rotation)
    (he : ∀ i, 1 / 100000000 < e.halfExtents i) (p : Fin d → K) (tol : K) (ht : 0 ≤ tol)
    (h : e.contains p tol = true) :
    p ∈ Spec.ellipsoid (fun i => (1 + tol) * e.halfExtents i) e.rotation e.center := by
  have hres : ∀ i, Spec.Resolved (e.halfExtents i) := fun i => Or.inr (he i)
  have hpos : ∀ i, 0 < e.halfExtents i := fun i => lt_trans (by norm_num) (he i)
  have hz : ∀ i, e.z i = false := by
    intro i
    rw [← Bool.not_eq_true, e.z_iff_zero hres]
    exact (hpos i).ne'
  rw [Spec_ellipsoid_iff hR]
  simp only [Ellipsoid.contains, Bool.and_eq_true, decide_eq_true_eq, hz, vecMul_eq_transpose] at h
  refine ⟨fun i hi => absurd hi (mul_pos (by linarith) (hpos i)).ne', ?_⟩
  have h2 := h.2
  simp only [Finset.filter_true] at h2
  have h3 : ∀ i, e.hInvNz i ^ 2 * (e.rotationᵀ *ᵥ (p - e.center)) i * (e.rotationᵀ *ᵥ (p - e.center)) i =
      (1 + tol) ^ 2 * ((e.rotationᵀ *ᵥ (p - e.center)) i / ((1 + tol) * e.halfExtents i)) ^ 2 := by
    intro i
    have h0 := (hpos i).ne'
    have h1 : (1 + tol) ≠ 0 := by linarith
    rw [e.hInvNz_eq i (hz i)]
    field_simp
  simp only [h3, ← Finset.mul_sum] at h2
  set s := ∑ i, ((e.rotationᵀ *ᵥ (p - e.center)) i / ((1 + tol) * e.halfExtents i)) ^ 2
  have h4 : (1 + tol) * ((1 + tol) * s) ≤ (1 + tol) * 1 := by linarith
  have h5 := le_of_mul_le_mul_left h4 (by linarith)
  have hs : 0 ≤ s := Finset.sum_nonneg fun i _ => sq_nonneg _
  nlinarith [mul_nonneg ht hs]

/-- C32: what `Capsule.contains(p)` accepts at the default tolerance is in the slightly grown capsule. -/
theorem C32_sound_default (c : Capsule K) (hR : Spec.Orthogonal c.cylinder.rotation)
    (hL : 1 / 100000000 < c.cylinder.length / 2) (hr : 1 / 100000000 < c.cylinder.radius) (p : Fin 3 → K)
    (hp : c.contains p = .ok true) :
    p ∈ Spec.capsule (c.cylinder.length * (1 + 1 / 100000000) + 2 / 100000000)
      (c.cylinder.radius * (1 + 1 / 100000000) + 2 / 100000000) c.cylinder.rotation c.cylinder.center := by
  have hrn : 0 ≤ c.cylinder.radius := le_trans (by norm_num) hr.le
  have hLn : 0 ≤ c.cylinder.length := by
    have : (0 : K) ≤ 1 / 100000000 := by norm_num
    linarith
  unfold Capsule.contains at hp
  rw [c.caps_ok hrn] at hp
  simp only [bind, Except.bind, pure, Except.pure, List.any_cons, List.any_nil, Bool.or_false] at hp
  have hp := Except.ok.inj hp
  simp only [Bool.or_eq_true] at hp
  have hmono := capsule_mono (R := c.cylinder.rotation) c.cylinder.center
    (L := c.cylinder.length) (L' := c.cylinder.length * (1 + 1 / 100000000) + 2 / 100000000)
    (r := (1 + tol8) * c.cylinder.radius) (r' := c.cylinder.radius * (1 + 1 / 100000000) + 2 / 100000000)
    (by nlinarith) (by simp only [tol8]; positivity) (by simp only [tol8]; linarith)
  have hball : ∀ q, (⟨fun _ => c.cylinder.radius, 1, q⟩ : Ellipsoid K 3).contains p = true →
      p ∈ Spec.ball ((1 + tol8) * c.cylinder.radius) q := by
    intro q h
    have := C27_sound _ Spec.Orthogonal.one (fun _ => hr) p tol8 (by simp only [tol8]; norm_num) h
    exact (ellipsoid_ball _ (by simp only [tol8]; positivity) Spec.Orthogonal.one _ _).mp this
  rcases hp with (hp | hp) | hp
  · apply hmono
    rw [C32_union hR _ _ hLn]
    exact Or.inl (Or.inl (hball _ hp))
  · apply hmono
    rw [C32_union hR _ _ hLn]
    exact Or.inl (Or.inr (hball _ hp))
  · rw [C32_union hR _ _ (by positivity)]
    exact Or.inr (C31_sound _ hR (Or.inr hL) (Or.inr hr) _ _ hp)

end Field

/-! ### C91 -/

theorem measurable_any {α : Type} [MeasurableSpace α] : ∀ (actual : List (α → Bool)), (∀ c ∈ actual, Measurable c) →
    Measurable fun p => actual.any fun c => c p
  | [], _ => by
    simp only [List.any_nil]
    exact measurable_const
  | c :: actual, h => by
    simp only [List.any_cons]
    have h1 := h c (by simp)
    have h2 := measurable_any actual fun c' hc' => h c' (List.mem_cons_of_mem _ hc')
    exact (measurable_of_countable fun q : Bool × Bool => (q.1 || q.2)).comp (h1.prodMk h2)

/-- C91: given that `rejection_sample` succeeds, the returned points are independent, and each has the distribution of a
candidate given that one of the shapes contains it. -/
theorem C91_law (μ : Measure (Fin 3 → ℝ)) [IsProbabilityMeasure μ] (actual : List ((Fin 3 → ℝ) → Bool))
    (hm : ∀ c ∈ actual, Measurable c) (h0 : μ {p | ∃ c ∈ actual, c p = true} ≠ 0) (n maxTries : ℕ)
    (D : Set (Fin n → Fin 3 → ℝ)) (hD : MeasurableSet D) :
    Spec.rounds maxTries n μ
        {x | ∃ y ∈ D, rejectionSample actual (Spec.candidates x) n maxTries = .ok (List.ofFn y)} =
      Spec.rounds maxTries n μ {x | ∃ ps, rejectionSample actual (Spec.candidates x) n maxTries = .ok ps} *
        (Measure.pi fun _ => μ[|{p | ∃ c ∈ actual, c p = true}]) D := by
  have hset : {p | ∃ c ∈ actual, c p = true} = {p : Fin 3 → ℝ | (actual.any fun c => c p) = true} := by
    ext p
    simp only [mem_ofPred_eq, List.any_eq_true]
  rw [hset] at h0 ⊢
  simp only [rejectionSample, rejectionLoop_eq_loopG]
  exact loop_law μ (measurable_any actual hm) h0 D hD

/-- C91: `rejection_sample` succeeds with the probability `(1 - q ^ max_tries) ^ n`, where `q` is the probability that a
candidate is outside of all shapes. -/
theorem C91_success (μ : Measure (Fin 3 → ℝ)) [IsProbabilityMeasure μ] (actual : List ((Fin 3 → ℝ) → Bool))
    (hm : ∀ c ∈ actual, Measurable c) (n maxTries : ℕ) :
    Spec.rounds maxTries n μ {x | ∃ ps, rejectionSample actual (Spec.candidates x) n maxTries = .ok ps} =
      (1 - μ {p | ∀ c ∈ actual, c p = false} ^ maxTries) ^ n := by
  have hset : {p | ∀ c ∈ actual, c p = false} = {p : Fin 3 → ℝ | (actual.any fun c => c p) = false} := by
    ext p
    simp only [mem_ofPred_eq, List.any_eq_false, Bool.not_eq_true]
  rw [hset]
  simp only [rejectionSample, rejectionLoop_eq_loopG]
  exact success_probability μ (measurable_any actual hm) n maxTries [] (Nat.zero_le n)

theorem measurable_ellipsoid_contains {d : ℕ} (e : Ellipsoid ℝ d) (tol : ℝ) : Measurable fun p => e.contains p tol := by
  refine measurable_to_bool ?_
  have : (fun p => e.contains p tol) ⁻¹' {true} =
      (⋂ i, {p | e.z i = true → |((p - e.center) ᵥ* e.rotation) i| ≤ tol}) ∩
        {p | ∑ i ∈ Finset.univ.filter (fun i => e.z i = false),
          (e.hInvNz i ^ 2 * ((p - e.center) ᵥ* e.rotation) i) * ((p - e.center) ᵥ* e.rotation) i ≤ 1 + tol} := by
    ext p
    simp only [mem_preimage, mem_singleton_iff, Ellipsoid.contains, Bool.and_eq_true, decide_eq_true_eq, mem_inter_iff,
      mem_iInter, mem_ofPred_eq, isclose_zero_right]
  rw [this]
  have hc : ∀ i, Continuous fun p : Fin d → ℝ => ((p - e.center) ᵥ* e.rotation) i := by
    intro i
    exact (continuous_apply i).comp (Continuous.matrix_vecMul (continuous_id.sub continuous_const) continuous_const)
  refine (MeasurableSet.iInter fun i => ?_).inter ?_
  · by_cases hi : e.z i = true
    · simp only [hi, true_imp_iff]
      exact measurableSet_le (hc i).abs.measurable measurable_const
    · convert MeasurableSet.univ using 1
      exact eq_univ_of_forall fun p h => absurd h hi
  · refine measurableSet_le (Continuous.measurable ?_) measurable_const
    exact continuous_finsetSum _ fun i _ => (continuous_const.mul (hc i)).mul (hc i)

theorem measurable_cylinder_contains (c : Cylinder ℝ) (tol : ℝ) : Measurable fun p => c.contains p tol := by
  have h1 : Measurable fun p : Fin 3 → ℝ => c.ell1.contains (fun _ => p ⬝ᵥ c.longitudinalAxis) := by
    refine (measurable_ellipsoid_contains c.ell1 tol8).comp (measurable_pi_lambda _ fun _ => ?_)
    exact (Continuous.dotProduct continuous_id continuous_const).measurable
  have h2 : Measurable fun p : Fin 3 → ℝ => c.ell2.contains (p ᵥ* c.transverseAxes) :=
    (measurable_ellipsoid_contains c.ell2 tol8).comp
      (Continuous.matrix_vecMul continuous_id continuous_const).measurable
  exact (measurable_of_countable fun q : Bool × Bool => (q.1 && q.2)).comp (h1.prodMk h2)

theorem measurable_capsule_contains (c : Capsule ℝ) (hr : 0 ≤ c.cylinder.radius) :
    Measurable fun p => (c.contains p).toOption.getD false := by
  have : (fun p => (c.contains p).toOption.getD false) = fun p =>
      ((⟨fun _ => c.cylinder.radius, 1, Spec.rigid c.cylinder.rotation c.cylinder.center ![0, 0, c.cylinder.length / 2]⟩ :
        Ellipsoid ℝ 3).contains p ||
      (⟨fun _ => c.cylinder.radius, 1, Spec.rigid c.cylinder.rotation c.cylinder.center ![0, 0, -(c.cylinder.length / 2)]⟩ :
        Ellipsoid ℝ 3).contains p) || c.cylinder.contains p := by
    funext p
    unfold Capsule.contains
    rw [c.caps_ok hr]
    simp only [bind, Except.bind, pure, Except.pure, List.any_cons, List.any_nil, Bool.or_false, Except.toOption,
      Option.getD_some]
  rw [this]
  exact (measurable_of_countable fun q : (Bool × Bool) × Bool => (q.1.1 || q.1.2) || q.2).comp
    (((measurable_ellipsoid_contains _ tol8).prodMk (measurable_ellipsoid_contains _ tol8)).prodMk
      (measurable_cylinder_contains _ tol8))

/-- `loop_law` when the candidates are computed from the draws. -/
theorem loop_law_map {Ω α : Type} [MeasurableSpace Ω] [MeasurableSpace α] (μ : Measure Ω) [IsProbabilityMeasure μ]
    {f : Ω → α} (hf : Measurable f) {accept : α → Bool} (hS : Measurable accept) {T n : ℕ}
    (h0 : μ.map f {a | accept a = true} ≠ 0) (D : Set (Fin n → α)) (hD : MeasurableSet D) :
    Spec.rounds T n μ
        {x | ∃ y ∈ D, loopG accept (fun k c => (Spec.candidates x k c).map f) n T 0 [] = .ok (List.ofFn y)} =
      Spec.rounds T n μ {x | ∃ l, loopG accept (fun k c => (Spec.candidates x k c).map f) n T 0 [] = .ok l} *
        (Measure.pi fun _ => (μ.map f)[|{a | accept a = true}]) D := by
  have hS' : Measurable fun ω => accept (f ω) := hS.comp hf
  have hA := measurableSet_accept hS true
  have hpre : f ⁻¹' {a | accept a = true} = {ω | accept (f ω) = true} := rfl
  have h0' : μ {ω | accept (f ω) = true} ≠ 0 := by
    rwa [Measure.map_apply hf hA] at h0
  have hcond : μ[|{ω | accept (f ω) = true}].map f = (μ.map f)[|{a | accept a = true}] := by
    unfold ProbabilityTheory.cond
    rw [Measure.map_smul, Measure.map_apply hf hA, Measure.restrict_map hf hA, hpre]
  have hp1 : IsProbabilityMeasure μ[|{ω | accept (f ω) = true}] := cond_isProbabilityMeasure h0'
  have hp2 : IsProbabilityMeasure (μ[|{ω | accept (f ω) = true}].map f) :=
    Measure.isProbabilityMeasure_map hf.aemeasurable
  have hF : Measurable fun (u : Fin n → Ω) i => f (u i) :=
    measurable_pi_lambda _ fun i => hf.comp (measurable_pi_apply i)
  have hrun : ∀ x : Fin T → Fin n → Ω, loopG accept (fun k c => (Spec.candidates x k c).map f) n T 0 [] =
      (loopG (fun ω => accept (f ω)) (Spec.candidates x) n T 0 []).map (List.map f) := fun x =>
    loopG_map f accept (Spec.candidates x) n T 0 []
  have e1 : {x : Fin T → Fin n → Ω | ∃ y ∈ D, loopG accept (fun k c => (Spec.candidates x k c).map f) n T 0 [] =
      .ok (List.ofFn y)} = {x | ∃ u ∈ (fun (u : Fin n → Ω) i => f (u i)) ⁻¹' D,
        loopG (fun ω => accept (f ω)) (Spec.candidates x) n T 0 [] = .ok (List.ofFn u)} := by
    ext x
    simp only [mem_ofPred_eq, hrun]
    constructor
    · rintro ⟨y, hy, h⟩
      rcases hl : loopG (fun ω => accept (f ω)) (Spec.candidates x) n T 0 [] with e | l
      · rw [hl] at h
        cases h
      · rw [hl] at h
        have h : l.map f = List.ofFn y := Except.ok.inj h
        have hlen : l.length = n := by
          have := congrArg List.length h
          rwa [List.length_map, List.length_ofFn] at this
        subst hlen
        refine ⟨l.get, ?_, by rw [List.ofFn_get]⟩
        have : (fun i => f (l.get i)) = y := by
          refine List.ofFn_injective ?_
          rw [← h]
          conv_rhs => rw [← List.ofFn_get l]
          rw [List.map_ofFn]
          rfl
        show (fun i => f (l.get i)) ∈ D
        rw [this]
        exact hy
    · rintro ⟨u, hu, h⟩
      refine ⟨fun i => f (u i), hu, ?_⟩
      rw [h]
      show Except.ok _ = _
      rw [List.map_ofFn]
      rfl
  have e2 : {x : Fin T → Fin n → Ω | ∃ l, loopG accept (fun k c => (Spec.candidates x k c).map f) n T 0 [] = .ok l} =
      {x | ∃ l, loopG (fun ω => accept (f ω)) (Spec.candidates x) n T 0 [] = .ok l} := by
    ext x
    simp only [mem_ofPred_eq, hrun]
    exact except_map_ok _ _
  rw [e1, e2, loop_law μ hS' h0' _ (hF hD), ← hcond, ← Measure.pi_map_pi fun _ => hf.aemeasurable,
    Measure.map_apply hF hD]

theorem uniform_cond {n : ℕ} (B S : Set (Fin n → ℝ)) (hB : MeasurableSet B) (hBt : volume B ≠ ⊤) (hB0 : volume B ≠ 0)
    (hS : MeasurableSet S) (h0 : volume (B ∩ S) ≠ 0) : (Spec.uniform 1 B)[|S] = Spec.uniform 1 (B ∩ S) := by
  have hS0 : volume (B ∩ S) ≠ ⊤ := ne_top_of_le_ne_top hBt (measure_mono inter_subset_left)
  unfold Spec.uniform ProbabilityTheory.cond
  rw [Measure.smul_apply, Measure.restrict_apply hS, Measure.restrict_smul, Measure.restrict_restrict hS, smul_smul,
    inter_comm S B, smul_eq_mul, measureReal_def, measureReal_def, one_div, one_div,
    ENNReal.ofReal_inv_of_pos (ENNReal.toReal_pos hB0 hBt), ENNReal.ofReal_inv_of_pos (ENNReal.toReal_pos h0 hS0),
    ENNReal.ofReal_toReal hBt, ENNReal.ofReal_toReal hS0]
  congr 1
  rw [ENNReal.mul_inv (Or.inl (ENNReal.inv_ne_zero.2 hBt)) (Or.inl (ENNReal.inv_ne_top.2 hB0)), inv_inv, mul_right_comm,
    ENNReal.mul_inv_cancel hB0 hBt, one_mul]

theorem box_compact_set (h : Fin 3 → ℝ) (hh : ∀ i, 0 ≤ h i) (R : Matrix (Fin 3) (Fin 3) ℝ) (c : Fin 3 → ℝ) :
    IsCompact (Spec.box h R c) := by
  rw [box_image h R c hh]
  refine (unitCube_compact 3).image ?_
  exact (Continuous.matrix_mulVec continuous_const continuous_id).add continuous_const

/-- The points of the bounding box that `Capsule.contains` accepts. By `C91_capsule_points` this is the capsule up to the
tolerance. -/
def acceptedPoints (c : Capsule ℝ) : Set (Fin 3 → ℝ) :=
  Spec.box ![c.cylinder.radius, c.cylinder.radius, c.fullLength / 2] c.cylinder.rotation c.cylinder.center ∩
    {p | c.contains p = .ok true}

/-- C91: the points that `Capsule.random_points` accepts include the capsule and lie in the slightly grown capsule. -/
theorem C91_capsule_points (c : Capsule ℝ) (hR : Spec.Orthogonal c.cylinder.rotation)
    (hL : 1 / 100000000 < c.cylinder.length / 2) (hr : 1 / 100000000 < c.cylinder.radius) :
    Spec.capsule c.cylinder.length c.cylinder.radius c.cylinder.rotation c.cylinder.center ⊆ acceptedPoints c ∧
    acceptedPoints c ⊆ Spec.capsule (c.cylinder.length * (1 + 1 / 100000000) + 2 / 100000000)
      (c.cylinder.radius * (1 + 1 / 100000000) + 2 / 100000000) c.cylinder.rotation c.cylinder.center := by
  have hrn : 0 ≤ c.cylinder.radius := by linarith
  have hLn : 0 ≤ c.cylinder.length := by linarith
  refine ⟨fun p hp => ⟨?_, C32_complete c hR (Or.inr hL) (Or.inr hr) p tol8 (by simp only [tol8]; norm_num) hp⟩,
    fun p hp => C32_sound_default c hR hL hr p hp.2⟩
  obtain ⟨bb, hbb, hsub⟩ := C35_capsule c hR hLn hrn
  have := hsub hp
  have hn : ∀ i, 0 ≤ (![c.cylinder.radius, c.cylinder.radius, c.fullLength / 2] : Fin 3 → ℝ) i := by
    intro i; fin_cases i
    · exact hrn
    · exact hrn
    · simp [Capsule.fullLength]; positivity
  unfold Capsule.mbb at hbb
  rw [Box.init_ok _ hn] at hbb
  cases hbb
  exact this

/-- The run of `Capsule.random_points` as a loop over the draws. -/
theorem capsule_run (c : Capsule ℝ) (hR : Spec.Orthogonal c.cylinder.rotation)
    (hL : 1 / 100000000 < c.cylinder.length / 2) (hr : 1 / 100000000 < c.cylinder.radius) :
    ∃ (b : Box ℝ) (accept : (Fin 3 → ℝ) → Bool), Measurable b.randomPoint ∧ Measurable accept ∧
      (Spec.draws 3 (-1) 1).map b.randomPoint = Spec.uniform 1 (Spec.box ![c.cylinder.radius, c.cylinder.radius,
        c.fullLength / 2] c.cylinder.rotation c.cylinder.center) ∧
      {p | accept p = true} = {p | c.contains p = .ok true} ∧
      ∀ (n : ℕ) (x : Fin 10000 → Fin n → Fin 3 → ℝ), c.randomPoints (Spec.candidates x) n =
        loopG accept (fun k m => (Spec.candidates x k m).map b.randomPoint) n 10000 0 [] := by
  have hrn : 0 < c.cylinder.radius := by linarith
  have hLn : 0 < c.cylinder.length := by linarith
  set b : Box ℝ := ⟨![c.cylinder.radius, c.cylinder.radius, c.fullLength / 2], c.cylinder.rotation, c.cylinder.center⟩
    with hb
  have hn : ∀ i, 0 < b.halfExtents i := by
    intro i; fin_cases i
    · exact hrn
    · exact hrn
    · show 0 < c.fullLength / 2
      simp only [Capsule.fullLength]; positivity
  have hbox : c.mbb = .ok b := Box.init_ok _ (fun i => (hn i).le) _ _
  refine ⟨b, fun p => (c.contains p).toOption.getD false, ?_, measurable_capsule_contains c hrn.le,
    C90_box b hR hn, ?_, ?_⟩
  · unfold Box.randomPoint
    refine (Continuous.add (Continuous.matrix_mulVec continuous_const ?_) continuous_const).measurable
    exact continuous_id.mul continuous_const
  · ext p
    simp only [mem_ofPred_eq]
    rcases c.contains p with e | t
    · simp [Except.toOption]
    · simp [Except.toOption]
  · intro n x
    unfold Capsule.randomPoints
    rw [hbox, c.caps_ok hrn.le]
    simp only [bind, Except.bind, rejectionSample, rejectionLoop_eq_loopG, List.any_cons, List.any_nil, Bool.or_false]

theorem acceptedPoints_pos (c : Capsule ℝ) (hR : Spec.Orthogonal c.cylinder.rotation)
    (hL : 1 / 100000000 < c.cylinder.length / 2) (hr : 1 / 100000000 < c.cylinder.radius) :
    volume (acceptedPoints c) ≠ 0 := by
  have hrn : 0 < c.cylinder.radius := by linarith
  have hLn : 0 < c.cylinder.length := by linarith
  intro h
  have h1 : volume (Spec.cylinder c.cylinder.length c.cylinder.radius c.cylinder.rotation c.cylinder.center) = 0 := by
    refine measure_mono_null (subset_trans ?_ (C91_capsule_points c hR hL hr).1) h
    rw [C32_union hR _ _ hLn.le]
    exact subset_union_right
  have h2 := C73_cylinder c.cylinder hLn.le hrn.le hR
  rw [measureReal_def, h1, ENNReal.toReal_zero, Cylinder.volume] at h2
  have : 0 < Real.pi * c.cylinder.radius ^ 2 * c.cylinder.length := by
    have := Real.pi_pos
    positivity
  nlinarith

theorem draws_probability (d : ℕ) : IsProbabilityMeasure (Spec.draws d (-1) 1) := by
  have : IsProbabilityMeasure (Spec.draw (-1) 1) := draw_probability (by norm_num)
  unfold Spec.draws
  infer_instance

/-- C91: given that `Capsule.random_points` succeeds, the returned points are independent and uniformly distributed over
the accepted points. -/
theorem C91_capsule (c : Capsule ℝ) (hR : Spec.Orthogonal c.cylinder.rotation)
    (hL : 1 / 100000000 < c.cylinder.length / 2) (hr : 1 / 100000000 < c.cylinder.radius) (n : ℕ)
    (D : Set (Fin n → Fin 3 → ℝ)) (hD : MeasurableSet D) :
    Spec.rounds 10000 n (Spec.draws 3 (-1) 1)
        {x | ∃ y ∈ D, c.randomPoints (Spec.candidates x) n = .ok (List.ofFn y)} =
      Spec.rounds 10000 n (Spec.draws 3 (-1) 1) {x | ∃ ps, c.randomPoints (Spec.candidates x) n = .ok ps} *
        (Measure.pi fun _ => Spec.uniform 1 (acceptedPoints c)) D := by
  obtain ⟨b, accept, hf, hS, hlaw, haccept, hrun⟩ := capsule_run c hR hL hr
  have hp := draws_probability 3
  have hacc0 := acceptedPoints_pos c hR hL hr
  set B := Spec.box ![c.cylinder.radius, c.cylinder.radius, c.fullLength / 2] c.cylinder.rotation c.cylinder.center
    with hB
  have hBc : IsCompact B := box_compact_set _ (fun i => by
    have hrn : 0 < c.cylinder.radius := by linarith
    have hLn : 0 < c.cylinder.length := by linarith
    fin_cases i
    · exact hrn.le
    · exact hrn.le
    · show 0 ≤ c.fullLength / 2
      simp only [Capsule.fullLength]; positivity) _ _
  have hB0 : volume B ≠ 0 := fun h => hacc0 (measure_mono_null inter_subset_left h)
  have hBt : volume B ≠ ⊤ := hBc.measure_lt_top.ne
  have hSm := measurableSet_accept hS true
  have hinter : B ∩ {p | accept p = true} = acceptedPoints c := by
    rw [haccept]
    rfl
  have h0 : (Spec.draws 3 (-1) 1).map b.randomPoint {a | accept a = true} ≠ 0 := by
    rw [hlaw, Spec.uniform, Measure.smul_apply, Measure.restrict_apply hSm, inter_comm, hinter, smul_eq_mul]
    refine mul_ne_zero ?_ hacc0
    rw [ne_eq, ENNReal.ofReal_eq_zero, not_le]
    exact div_pos one_pos (ENNReal.toReal_pos hB0 hBt)
  simp only [hrun]
  rw [loop_law_map _ hf hS h0 D hD, hlaw, uniform_cond B _ hBc.measurableSet hBt hB0 hSm (by rwa [hinter]), hinter]

/-- C91: `Capsule.random_points` succeeds with the probability `(1 - q ^ 10000) ^ n`, where `q` is the fraction of the
bounding box that `contains` rejects. -/
theorem C91_capsule_success (c : Capsule ℝ) (hR : Spec.Orthogonal c.cylinder.rotation)
    (hL : 1 / 100000000 < c.cylinder.length / 2) (hr : 1 / 100000000 < c.cylinder.radius) (n : ℕ) :
    Spec.rounds 10000 n (Spec.draws 3 (-1) 1) {x | ∃ ps, c.randomPoints (Spec.candidates x) n = .ok ps} =
      (1 - Spec.uniform 1 (Spec.box ![c.cylinder.radius, c.cylinder.radius, c.fullLength / 2] c.cylinder.rotation
        c.cylinder.center) {p | c.contains p ≠ .ok true} ^ 10000) ^ n := by
  obtain ⟨b, accept, hf, hS, hlaw, haccept, hrun⟩ := capsule_run c hR hL hr
  have hp := draws_probability 3
  have hset : {p | c.contains p ≠ .ok true} = {p | accept p = false} := by
    ext p
    have := Set.ext_iff.mp haccept p
    simp only [mem_ofPred_eq] at this ⊢
    rw [ne_eq, ← this, Bool.not_eq_true]
  rw [hset, ← hlaw, Measure.map_apply hf (measurableSet_accept hS false)]
  have hS' : Measurable fun ω => accept (b.randomPoint ω) := hS.comp hf
  have := success_probability (Spec.draws 3 (-1) 1) hS' n 10000 [] (Nat.zero_le n)
  simp only [hrun, loopG_map b.randomPoint accept _ n 10000 0 []]
  have h2 : ∀ x : Fin 10000 → Fin n → Fin 3 → ℝ,
      (∃ ps, loopG accept (fun k m => (Spec.candidates x k m).map b.randomPoint) n 10000 0 [] = .ok ps) ↔
      ∃ ps, loopG (fun ω => accept (b.randomPoint ω)) (Spec.candidates x) n 10000 0 [] = .ok ps := by
    intro x
    have := loopG_map b.randomPoint accept (Spec.candidates x) n 10000 0 []
    simp only [List.map_nil] at this
    rw [this]
    exact except_map_ok _ _
  simp only [h2]
  exact this

/-! ### The volume of a capsule -/

theorem ball_volume (r : ℝ) (hr : 0 ≤ r) (c : Fin 3 → ℝ) : volume.real (Spec.ball r c) = 4 / 3 * Real.pi * r ^ 3 := by
  have h := C73_ellipsoid ⟨fun _ => r, 1, c⟩ (fun _ => hr) Spec.Orthogonal.one
  have hset : Spec.ellipsoid (fun _ => r) 1 c = Spec.ball r c := Set.ext fun p => ellipsoid_ball r hr Spec.Orthogonal.one c p
  simp only [Ellipsoid.volume, hset, Fin.prod_univ_three] at h
  rw [← h]
  ring

theorem mem_ball_axis (r a : ℝ) (y : Fin 3 → ℝ) :
    y ∈ Spec.ball r (![0, 0, a] : Fin 3 → ℝ) ↔ y 0 ^ 2 + y 1 ^ 2 + (y 2 - a) ^ 2 ≤ r ^ 2 := by
  simp only [Spec.ball, mem_ofPred_eq, dotProduct, Fin.sum_univ_three, Pi.sub_apply]
  have : ∀ y : Fin 3 → ℝ, (y 0 - (![0, 0, a] : Fin 3 → ℝ) 0) * (y 0 - (![0, 0, a] : Fin 3 → ℝ) 0) +
      (y 1 - (![0, 0, a] : Fin 3 → ℝ) 1) * (y 1 - (![0, 0, a] : Fin 3 → ℝ) 1) +
      (y 2 - (![0, 0, a] : Fin 3 → ℝ) 2) * (y 2 - (![0, 0, a] : Fin 3 → ℝ) 2) =
      y 0 ^ 2 + y 1 ^ 2 + (y 2 - a) ^ 2 := by
    intro y
    simp only [Matrix.cons_val]
    ring
  rw [this]

/-- The volume of a capsule is the volume of its cylinder and of one ball. -/
theorem capsule_volume {L r : ℝ} (hL : 0 ≤ L) (hr : 0 ≤ r) {R : Matrix (Fin 3) (Fin 3) ℝ} (hR : Spec.Orthogonal R)
    (c : Fin 3 → ℝ) : volume.real (Spec.capsule L r R c) = Real.pi * r ^ 2 * L + 4 / 3 * Real.pi * r ^ 3 := by
  have himage : Spec.capsule L r R c = (fun p => R *ᵥ p + c) '' Spec.capsule L r 1 0 := by
    ext p
    rw [Spec_capsule_iff hR]
    constructor
    · rintro ⟨z, hz, h⟩
      refine ⟨Rᵀ *ᵥ (p - c), (Spec_capsule_iff Spec.Orthogonal.one _ _ _ _).mpr ⟨z, hz, ?_⟩, ?_⟩
      · simpa using h
      · show R *ᵥ (Rᵀ *ᵥ (p - c)) + c = p
        rw [mulVec_mulVec, hR.mul_transpose, one_mulVec, sub_add_cancel]
    · rintro ⟨y, hy, rfl⟩
      obtain ⟨z, hz, h⟩ := (Spec_capsule_iff Spec.Orthogonal.one _ _ _ _).mp hy
      refine ⟨z, hz, ?_⟩
      simp only [add_sub_cancel_right, mulVec_mulVec]
      rw [show Rᵀ * R = 1 from hR, one_mulVec]
      simpa using h
  have hdet : |R.det| = 1 := by
    have := det_orthogonal_sq hR
    rw [← sq_eq_sq₀ (abs_nonneg _) one_pos.le, sq_abs, one_pow]
    exact this
  rw [himage, volume_affine, hdet, one_mul]
  set up : Set (Fin 3 → ℝ) := {y | 0 < y 2} with hup
  set down : Set (Fin 3 → ℝ) := {y | y 2 < 0} with hdown
  have hupm : MeasurableSet up := measurableSet_lt measurable_const (measurable_pi_apply 2)
  have hdownm : MeasurableSet down := measurableSet_lt (measurable_pi_apply 2) measurable_const
  set C := Spec.cylinder L r 1 0 with hC
  set B := Spec.ball r (0 : Fin 3 → ℝ) with hB
  set v : Fin 3 → ℝ := ![0, 0, L / 2] with hv
  have hBc : IsCompact B := by
    have hset : Spec.ellipsoid (fun _ => r) 1 0 = B := Set.ext fun p => ellipsoid_ball r hr Spec.Orthogonal.one 0 p
    rw [← hset, ellipsoid_image]
    exact (unitBall_compact 3).image ((Continuous.matrix_mulVec continuous_const continuous_id).add continuous_const)
  have hCc : IsCompact C := by
    rw [hC, cylinder_image _ _ _ _ hL hr]
    exact unitCylinder_compact.image ((Continuous.matrix_mulVec continuous_const continuous_id).add continuous_const)
  have hmem0 : ∀ y : Fin 3 → ℝ, y ∈ B ↔ y 0 ^ 2 + y 1 ^ 2 + y 2 ^ 2 ≤ r ^ 2 := by
    intro y
    have h0 : (0 : Fin 3 → ℝ) = ![0, 0, 0] := by ext i; fin_cases i <;> rfl
    rw [hB, h0, mem_ball_axis, sub_zero]
  have hmemC : ∀ y : Fin 3 → ℝ, y ∈ C ↔ |y 2| ≤ L / 2 ∧ y 0 ^ 2 + y 1 ^ 2 ≤ r ^ 2 := by
    intro y
    constructor
    · rintro ⟨x, h1, h2, rfl⟩
      simpa [Spec.rigid] using ⟨h1, h2⟩
    · rintro ⟨h1, h2⟩
      exact ⟨y, h1, h2, by simp [Spec.rigid]⟩
  have hsplit : Spec.capsule L r 1 0 = C ∪ ((fun y => y + -v) ⁻¹' (B ∩ up) ∪ (fun y => y + v) ⁻¹' (B ∩ down)) := by
    ext y
    rw [Spec_capsule_iff Spec.Orthogonal.one]
    simp only [transpose_one, one_mulVec, sub_zero, mem_union, mem_preimage, mem_inter_iff, hmem0, hmemC, hup, hdown,
      mem_ofPred_eq, Pi.add_apply, Pi.neg_apply, hv, Matrix.cons_val, neg_zero, add_zero]
    constructor
    · rintro ⟨z, hz, h⟩
      rw [abs_le] at hz
      by_cases h1 : L / 2 < y 2
      · right; left
        exact ⟨by nlinarith, by linarith⟩
      · by_cases h2 : y 2 < -(L / 2)
        · right; right
          exact ⟨by nlinarith, by linarith⟩
        · left
          exact ⟨abs_le.mpr ⟨by linarith, by linarith⟩, by nlinarith [sq_nonneg (y 2 - z)]⟩
    · rintro (⟨h1, h2⟩ | ⟨h1, h2⟩ | ⟨h1, h2⟩)
      · exact ⟨y 2, h1, by rw [sub_self]; linarith⟩
      · exact ⟨L / 2, by rw [abs_of_nonneg (by linarith)], by linarith⟩
      · exact ⟨-(L / 2), by rw [abs_neg, abs_of_nonneg (by linarith)], by linarith⟩
  have hfin : ∀ S : Set (Fin 3 → ℝ), volume (B ∩ S) ≠ ⊤ := fun S =>
    ne_top_of_le_ne_top hBc.measure_lt_top.ne (measure_mono inter_subset_left)
  have hd1 : Disjoint ((fun y => y + -v) ⁻¹' (B ∩ up)) ((fun y => y + v) ⁻¹' (B ∩ down)) := by
    rw [Set.disjoint_left]
    intro y h1 h2
    have h1 : 0 < y 2 + -(L / 2) := h1.2
    have h2 : y 2 + L / 2 < 0 := h2.2
    linarith
  have hd2 : Disjoint C ((fun y => y + -v) ⁻¹' (B ∩ up) ∪ (fun y => y + v) ⁻¹' (B ∩ down)) := by
    rw [Set.disjoint_left]
    rintro y h1 (h2 | h2)
    · have h2 : 0 < y 2 + -(L / 2) := h2.2
      linarith [(abs_le.mp ((hmemC y).mp h1).1).2]
    · have h2 : y 2 + L / 2 < 0 := h2.2
      linarith [(abs_le.mp ((hmemC y).mp h1).1).1]
  have hm1 : MeasurableSet ((fun y : Fin 3 → ℝ => y + -v) ⁻¹' (B ∩ up)) :=
    (measurable_id.add_const _) (hBc.measurableSet.inter hupm)
  have hm2 : MeasurableSet ((fun y : Fin 3 → ℝ => y + v) ⁻¹' (B ∩ down)) :=
    (measurable_id.add_const _) (hBc.measurableSet.inter hdownm)
  have e1 : volume ((fun y : Fin 3 → ℝ => y + -v) ⁻¹' (B ∩ up)) = volume (B ∩ up) := measure_preimage_add_right _ _ _
  have e2 : volume ((fun y : Fin 3 → ℝ => y + v) ⁻¹' (B ∩ down)) = volume (B ∩ down) := measure_preimage_add_right _ _ _
  have hball : volume.real B = volume.real (B ∩ up) + volume.real (B ∩ down) := by
    have h0 : volume {y : Fin 3 → ℝ | y 2 = 0} = 0 := Measure.pi_hyperplane _ 2 0
    have hae : (B : Set (Fin 3 → ℝ)) =ᵐ[volume] ((B ∩ up ∪ B ∩ down : Set (Fin 3 → ℝ))) := by
      have : ∀ᵐ y ∂(volume : Measure (Fin 3 → ℝ)), y 2 ≠ 0 := compl_mem_ae_iff.2 h0
      filter_upwards [this] with y hy
      refine propext ⟨fun h => ?_, fun h => ?_⟩
      · rcases lt_or_gt_of_ne hy with h' | h'
        · exact Or.inr ⟨h, h'⟩
        · exact Or.inl ⟨h, h'⟩
      · rcases h with h | h
        · exact h.1
        · exact h.1
    rw [measureReal_congr hae, measureReal_union ?_ (hBc.measurableSet.inter hdownm) (hfin _) (hfin _)]
    rw [Set.disjoint_left]
    rintro y ⟨_, h1⟩ ⟨_, h2⟩
    exact lt_asymm (show 0 < y 2 from h1) (show y 2 < 0 from h2)
  rw [hsplit, measureReal_union hd2 (hm1.union hm2) hCc.measure_lt_top.ne
      (measure_union_ne_top (by rw [e1]; exact hfin _) (by rw [e2]; exact hfin _)),
    measureReal_union hd1 hm2 (by rw [e1]; exact hfin _) (by rw [e2]; exact hfin _), measureReal_def, measureReal_def,
    measureReal_def, e1, e2, ← measureReal_def, ← measureReal_def, ← measureReal_def, ← hball, hB, ball_volume r hr, hC,
    ← C73_cylinder ⟨L, r, 1, 0⟩ hL hr Spec.Orthogonal.one, Cylinder.volume]

/-- C91: `Capsule.random_points` practically never fails: it succeeds with probability at least
`(1 - 2 ^ (-10000)) ^ n`, because more than half of the bounding box is inside of the capsule. -/
theorem C91_capsule_bound (c : Capsule ℝ) (hR : Spec.Orthogonal c.cylinder.rotation)
    (hL : 1 / 100000000 < c.cylinder.length / 2) (hr : 1 / 100000000 < c.cylinder.radius) (n : ℕ) :
    (1 - (1 / 2) ^ 10000) ^ n ≤
      Spec.rounds 10000 n (Spec.draws 3 (-1) 1) {x | ∃ ps, c.randomPoints (Spec.candidates x) n = .ok ps} := by
  have hrn : 0 < c.cylinder.radius := by linarith
  have hLn : 0 < c.cylinder.length := by linarith
  rw [C91_capsule_success c hR hL hr n]
  refine pow_le_pow_left₀ (zero_le) (tsub_le_tsub_left (pow_le_pow_left₀ (zero_le) ?_ _) _) _
  have hn : ∀ i, 0 ≤ (![c.cylinder.radius, c.cylinder.radius, c.fullLength / 2] : Fin 3 → ℝ) i := by
    intro i; fin_cases i
    · exact hrn.le
    · exact hrn.le
    · show 0 ≤ c.fullLength / 2
      simp only [Capsule.fullLength]; positivity
  set h : Fin 3 → ℝ := ![c.cylinder.radius, c.cylinder.radius, c.fullLength / 2] with hh
  set B := Spec.box h c.cylinder.rotation c.cylinder.center with hB
  set A := Spec.capsule c.cylinder.length c.cylinder.radius c.cylinder.rotation c.cylinder.center with hA
  have hBc : IsCompact B := box_compact_set _ hn _ _
  have hsub : A ⊆ B := fun p hp => ((C91_capsule_points c hR hL hr).1 hp).1
  have hrej : B ∩ {p | c.contains p ≠ .ok true} ⊆ B \ A := fun p hp =>
    ⟨hp.1, fun hpA => hp.2 ((C91_capsule_points c hR hL hr).1 hpA).2⟩
  have hvA : volume.real A = _ := capsule_volume hLn.le hrn.le hR _
  have hvB : volume.real B = _ := (C73_box ⟨h, c.cylinder.rotation, c.cylinder.center⟩ hn hR).symm
  have hvB' : volume.real B = 4 * c.cylinder.radius ^ 2 * (c.cylinder.length + 2 * c.cylinder.radius) := by
    rw [hvB]
    simp only [Box.volume, Box.sideLengths, hh, Capsule.fullLength, Fin.prod_univ_three, Matrix.cons_val, Pi.smul_apply,
      smul_eq_mul]
    ring
  have hAm : MeasurableSet A := by
    have hball : ∀ q : Fin 3 → ℝ, MeasurableSet (Spec.ball c.cylinder.radius q) := by
      intro q
      refine (isClosed_le ?_ continuous_const).measurableSet
      exact Continuous.dotProduct (continuous_id.sub continuous_const) (continuous_id.sub continuous_const)
    rw [hA, C32_union hR _ _ hLn.le]
    refine ((hball _).union (hball _)).union ?_
    rw [cylinder_image _ _ _ _ hLn.le hrn.le]
    exact (unitCylinder_compact.image
      ((Continuous.matrix_mulVec continuous_const continuous_id).add continuous_const)).measurableSet
  have hAB : volume.real B ≤ 2 * volume.real A := by
    rw [hvA, hvB']
    have h3 := Real.pi_gt_three
    have h1 : 0 ≤ (Real.pi - 3) * c.cylinder.radius ^ 2 * c.cylinder.length := by
      have : 0 ≤ Real.pi - 3 := by linarith
      positivity
    have h2 : 0 ≤ (Real.pi - 3) * c.cylinder.radius ^ 3 := by
      have : 0 ≤ Real.pi - 3 := by linarith
      positivity
    have h4 : 0 ≤ c.cylinder.radius ^ 2 * c.cylinder.length := by positivity
    linarith
  have hBp : 0 < volume.real B := by rw [hvB']; positivity
  have hdiff : volume.real (B \ A) = volume.real B - volume.real A :=
    measureReal_sdiff hsub hAm hBc.measure_lt_top.ne
  rw [Spec.uniform, Measure.smul_apply, smul_eq_mul, Measure.restrict_apply' hBc.measurableSet, inter_comm]
  calc ENNReal.ofReal (1 / volume.real B) * volume (B ∩ {p | c.contains p ≠ .ok true})
      ≤ ENNReal.ofReal (1 / volume.real B) * volume (B \ A) := by gcongr
    _ = ENNReal.ofReal (1 / volume.real B) * ENNReal.ofReal (volume.real (B \ A)) := by
      rw [ofReal_measureReal (ne_top_of_le_ne_top hBc.measure_lt_top.ne (measure_mono sdiff_subset))]
    _ = ENNReal.ofReal (1 / volume.real B * (volume.real B - volume.real A)) := by
      rw [hdiff, ENNReal.ofReal_mul (by positivity)]
    _ ≤ ENNReal.ofReal (1 / 2) := by
      refine ENNReal.ofReal_le_ofReal ?_
      rw [one_div_mul_eq_div, div_le_iff₀ hBp]
      linarith
    _ = 1 / 2 := by
      rw [ENNReal.ofReal_div_of_pos two_pos]
      simp

/-- The hypotheses of `C91_capsule` hold for a capsule of length 2 and radius 1. -/
example (n : ℕ) (D : Set (Fin n → Fin 3 → ℝ)) (hD : MeasurableSet D) :
    let c : Capsule ℝ := ⟨⟨2, 1, 1, ![1, 0, 0]⟩⟩
    Spec.rounds 10000 n (Spec.draws 3 (-1) 1)
        {x | ∃ y ∈ D, c.randomPoints (Spec.candidates x) n = .ok (List.ofFn y)} =
      Spec.rounds 10000 n (Spec.draws 3 (-1) 1) {x | ∃ ps, c.randomPoints (Spec.candidates x) n = .ok ps} *
        (Measure.pi fun _ => Spec.uniform 1 (acceptedPoints c)) D :=
  C91_capsule _ Spec.Orthogonal.one (by norm_num) (by norm_num) n D hD

end Rigeo
