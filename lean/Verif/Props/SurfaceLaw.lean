import Verif.Props.Area
import Verif.Lemmas.Rejection

/-! # The distribution of random points on the surface of an ellipsoid: C92 -/

namespace Rigeo

open Matrix MeasureTheory ProbabilityTheory Set Filter Topology

section
variable {k : ℕ} (e : Ellipsoid ℝ (k + 1))

/-- The smallest half extent. -/
noncomputable def Ellipsoid.leastExtent : ℝ := Finset.univ.inf' Finset.univ_nonempty e.halfExtents

/-- The normalized normal draw. -/
noncomputable def direction {n : ℕ} (X : Fin n → ℝ) : Fin n → ℝ := (√(X ⬝ᵥ X))⁻¹ • X

/-- Whether a draw is accepted. -/
noncomputable def Ellipsoid.acceptDraw (q : (Fin (k + 1) → ℝ) × ℝ) : Bool := (e.surfaceRow q).isSome

variable {e}

theorem direction_sphere {n : ℕ} {X : Fin n → ℝ} (hX : X ≠ 0) : direction X ∈ unitSphere n := by
  have h0 : 0 < X ⬝ᵥ X := lt_of_le_of_ne (dot_self_nonneg X) fun h => hX (dotProduct_self_eq_zero.1 h.symm)
  show direction X ⬝ᵥ direction X = 1
  rw [direction, smul_dotProduct, dotProduct_smul, smul_eq_mul, smul_eq_mul, ← mul_assoc, ← mul_inv, Real.mul_self_sqrt h0.le,
    inv_mul_cancel₀ h0.ne']

theorem accept_iff (he : ∀ i, 0 < e.halfExtents i) (p : Fin (k + 1) → ℝ) (u : ℝ) :
    e.surfaceAccept p u = true ↔ u ≤ e.leastExtent * invHeight e.halfExtents p := by
  unfold Ellipsoid.surfaceAccept Ellipsoid.leastExtent invHeight
  rw [decide_eq_true_eq]
  have : ∀ i, (p i * e.halfExtents i) ^ 2 * (1 / e.halfExtents i ^ 4) = (p i / e.halfExtents i) ^ 2 := by
    intro i
    have := (he i).ne'
    field_simp
  simp only [this]

theorem surfaceRow_eq (hk : 1 ≤ k) (he : ∀ i, 0 < e.halfExtents i) (q : (Fin (k + 1) → ℝ) × ℝ) :
    e.surfaceRow q = if q.1 ≠ 0 ∧ q.2 ≤ e.leastExtent * invHeight e.halfExtents (direction q.1) then
      some (direction q.1 * e.halfExtents) else none := by
  unfold Ellipsoid.surfaceRow
  by_cases h : q.1 = 0
  · have : hyperspherePoint k q.1 = .error .nonfinite := by
      unfold hyperspherePoint vdiv
      simp [pyAssert, hk, h, Bind.bind, Except.bind]
    rw [this, if_neg (by simp [h])]
  · rw [hyperspherePoint_eq hk h]
    show (if e.surfaceAccept (direction q.1) q.2 = true then _ else _) = _
    have := accept_iff he (direction q.1) q.2
    by_cases ha : e.surfaceAccept (direction q.1) q.2 = true
    · rw [if_pos ha, if_pos ⟨h, this.1 ha⟩]
      rfl
    · rw [if_neg ha, if_neg fun h' => ha (this.2 h'.2)]

theorem acceptDraw_iff (hk : 1 ≤ k) (he : ∀ i, 0 < e.halfExtents i) (q : (Fin (k + 1) → ℝ) × ℝ) :
    e.acceptDraw q = true ↔ q.1 ≠ 0 ∧ q.2 ≤ e.leastExtent * invHeight e.halfExtents (direction q.1) := by
  unfold Ellipsoid.acceptDraw
  rw [surfaceRow_eq hk he]
  split_ifs with h
  · simp [h]
  · simp [h]

theorem measurable_direction (n : ℕ) : Measurable (direction : (Fin n → ℝ) → Fin n → ℝ) := sphereLaw_measurable n

theorem measurable_acceptDraw (hk : 1 ≤ k) (he : ∀ i, 0 < e.halfExtents i) : Measurable e.acceptDraw := by
  refine measurable_to_bool ?_
  have : e.acceptDraw ⁻¹' {true} =
      {q | q.1 ≠ 0} ∩ {q | q.2 ≤ e.leastExtent * invHeight e.halfExtents (direction q.1)} := by
    ext q
    exact acceptDraw_iff hk he q
  rw [this]
  refine (measurableSet_eq_fun measurable_fst measurable_const).compl.inter ?_
  have hm : Measurable fun q : (Fin (k + 1) → ℝ) × ℝ => e.leastExtent * invHeight e.halfExtents (direction q.1) :=
    ((measurable_invHeight _).comp ((measurable_direction _).comp measurable_fst)).const_mul _
  exact measurableSet_le measurable_snd hm

theorem filterMap_rows (hk : 1 ≤ k) (he : ∀ i, 0 < e.halfExtents i) : ∀ l : List ((Fin (k + 1) → ℝ) × ℝ),
    l.filterMap e.surfaceRow = (l.filter e.acceptDraw).map fun q => direction q.1 * e.halfExtents
  | [] => rfl
  | q :: l => by
    have ih := filterMap_rows hk he l
    have hr := surfaceRow_eq hk he q
    have ha := acceptDraw_iff hk he q
    by_cases h : q.1 ≠ 0 ∧ q.2 ≤ e.leastExtent * invHeight e.halfExtents (direction q.1)
    · rw [if_pos h] at hr
      rw [List.filterMap_cons_some hr, List.filter_cons_of_pos (ha.2 h), List.map_cons, ih]
    · rw [if_neg h] at hr
      rw [List.filterMap_cons_none hr, List.filter_cons_of_neg fun h' => h (ha.1 h'), ih]

theorem surfaceLoop_eq (hk : 1 ≤ k) (he : ∀ i, 0 < e.halfExtents i) (draw : ℕ → ℕ → List ((Fin (k + 1) → ℝ) × ℝ))
    (n : ℕ) : ∀ (fuel round : ℕ) (acc : List ((Fin (k + 1) → ℝ) × ℝ)),
    e.surfaceLoop draw n fuel round (acc.map fun q => direction q.1 * e.halfExtents) =
      (loopG e.acceptDraw draw n fuel round acc).toOption.map (List.map fun q => direction q.1 * e.halfExtents)
  | 0, round, acc => by
    rw [Ellipsoid.surfaceLoop.eq_def]
    simp only [List.length_map]
    by_cases h : acc.length < n
    · rw [loopG_zero _ _ _ _ _ h, if_pos h]
      rfl
    · rw [loopG_done _ _ _ _ _ _ h, if_neg h]
      rfl
  | fuel + 1, round, acc => by
    rw [Ellipsoid.surfaceLoop.eq_def]
    simp only [List.length_map]
    by_cases h : acc.length < n
    · rw [loopG_succ _ _ _ _ _ _ h, if_pos h]
      rw [filterMap_rows hk he, ← List.map_append]
      exact surfaceLoop_eq hk he draw n fuel (round + 1) _
    · rw [loopG_done _ _ _ _ _ _ h, if_neg h]
      rfl

/-- The point returned for an accepted draw. -/
theorem surfacePoint_eq (u : Fin (k + 1) → ℝ) :
    (u * e.halfExtents) ᵥ* e.rotation + e.center = (e.rotationᵀ * diagonal e.halfExtents) *ᵥ u + e.center := by
  rw [← mulVec_transpose, ← mulVec_mulVec]
  congr 2
  ext i
  rw [mulVec_diagonal, Pi.mul_apply, mul_comm]

theorem randomSurfacePoints_eq (hk : 1 ≤ k) (he : ∀ i, 0 < e.halfExtents i)
    (draw : ℕ → ℕ → List ((Fin (k + 1) → ℝ) × ℝ)) (n fuel : ℕ) :
    e.randomSurfacePoints draw n fuel = .ok ((loopG e.acceptDraw draw n fuel 0 []).toOption.map
      (List.map fun q => (e.rotationᵀ * diagonal e.halfExtents) *ᵥ direction q.1 + e.center)) := by
  unfold Ellipsoid.randomSurfacePoints
  have h := surfaceLoop_eq hk he draw n fuel 0 []
  rw [List.map_nil] at h
  simp only [pyAssert, he, hk, implies_true, decide_true, if_true, Bind.bind, Except.bind, pure, Except.pure, h, Option.map_map]
  congr 2
  funext l
  simp only [Function.comp, List.map_map]
  congr 1
  funext q
  exact surfacePoint_eq _

theorem leastExtent_pos (he : ∀ i, 0 < e.halfExtents i) : 0 < e.leastExtent :=
  (Finset.lt_inf'_iff _).mpr fun i _ => he i

theorem accept_le_one (he : ∀ i, 0 < e.halfExtents i) {u : Fin (k + 1) → ℝ} (hu : u ∈ unitSphere (k + 1)) :
    e.leastExtent * invHeight e.halfExtents u ≤ 1 := by
  by_contra h
  push Not at h
  have h1 := (C42_acceptance e he u hu).2 _ h
  rw [(accept_iff he u _).2 le_rfl] at h1
  cases h1

/-- The law of the accepted points, before normalization. -/
theorem accepted_measure (hk : 1 ≤ k) (he : ∀ i, 0 < e.halfExtents i) :
    (((Spec.normals (k + 1)).prod (Spec.draw 0 1)).restrict {q | e.acceptDraw q = true}).map
        (fun q => (e.rotationᵀ * diagonal e.halfExtents) *ᵥ direction q.1 + e.center) =
      ENNReal.ofReal e.leastExtent • ((sphereLaw (k + 1)).withDensity
        fun u => ENNReal.ofReal (invHeight e.halfExtents u)).map
        fun u => (e.rotationᵀ * diagonal e.halfExtents) *ᵥ u + e.center := by
  have hp := draw_probability (zero_lt_one (α := ℝ))
  have hT := stretch_measurable (e.rotationᵀ * diagonal e.halfExtents) e.center
  have hF : Measurable fun q : (Fin (k + 1) → ℝ) × ℝ =>
      (e.rotationᵀ * diagonal e.halfExtents) *ᵥ direction q.1 + e.center :=
    hT.comp ((measurable_direction _).comp measurable_fst)
  have hacc := measurableSet_accept (measurable_acceptDraw hk he) true
  have hih := (measurable_invHeight e.halfExtents).ennreal_ofReal
  have hihd : Measurable fun X : Fin (k + 1) → ℝ => ENNReal.ofReal (invHeight e.halfExtents ((√(X ⬝ᵥ X))⁻¹ • X)) :=
    hih.comp (sphereLaw_measurable _)
  ext A hA
  have hA' : MeasurableSet {X : Fin (k + 1) → ℝ | (e.rotationᵀ * diagonal e.halfExtents) *ᵥ direction X + e.center ∈ A} :=
    (hT.comp (measurable_direction _)) hA
  rw [Measure.map_apply hF hA, Measure.restrict_apply (hF hA), Measure.prod_apply ((hF hA).inter hacc), Measure.smul_apply,
    Measure.map_apply hT hA, withDensity_apply _ (hT hA), sphereLaw,
    setLIntegral_map (hT hA) hih (sphereLaw_measurable _), smul_eq_mul, ← lintegral_const_mul _ hihd,
    ← lintegral_indicator ((sphereLaw_measurable _) (hT hA))]
  refine lintegral_congr_ae ?_
  filter_upwards [normals_ne_zero k] with X hX
  have hdir := direction_sphere hX
  by_cases hXA : (e.rotationᵀ * diagonal e.halfExtents) *ᵥ direction X + e.center ∈ A
  · rw [indicator_of_mem (show X ∈ _ from hXA)]
    have hset : Prod.mk X ⁻¹' ((fun q : (Fin (k + 1) → ℝ) × ℝ =>
        (e.rotationᵀ * diagonal e.halfExtents) *ᵥ direction q.1 + e.center) ⁻¹' A ∩ {q | e.acceptDraw q = true}) =
        Iic (e.leastExtent * invHeight e.halfExtents (direction X)) := by
      ext u
      constructor
      · rintro ⟨_, h⟩
        exact ((acceptDraw_iff hk he (X, u)).1 h).2
      · intro h
        exact ⟨hXA, (acceptDraw_iff hk he (X, u)).2 ⟨hX, h⟩⟩
    rw [hset, draw_zero_one, Measure.restrict_apply measurableSet_Iic]
    have hint : Iic (e.leastExtent * invHeight e.halfExtents (direction X)) ∩ Icc 0 1 =
        Icc 0 (e.leastExtent * invHeight e.halfExtents (direction X)) := by
      ext u
      constructor
      · rintro ⟨h1, h2, _⟩
        exact ⟨h2, h1⟩
      · rintro ⟨h1, h2⟩
        exact ⟨h2, h1, h2.trans (accept_le_one he hdir)⟩
    rw [hint, Real.volume_Icc, sub_zero, ENNReal.ofReal_mul (leastExtent_pos he).le]
    rfl
  · rw [indicator_of_notMem (show X ∉ _ from hXA)]
    have hset : Prod.mk X ⁻¹' ((fun q : (Fin (k + 1) → ℝ) × ℝ =>
        (e.rotationᵀ * diagonal e.halfExtents) *ᵥ direction q.1 + e.center) ⁻¹' A ∩ {q | e.acceptDraw q = true}) = ∅ := by
      ext u
      exact ⟨fun h => hXA h.1, fun h => h.elim⟩
    rw [hset, measure_empty]

theorem evenly_smul {n : ℕ} {a : ENNReal} (ha0 : a ≠ 0) (hat : a ≠ ⊤) (ν : Measure (Fin n → ℝ)) (h0 : ν univ ≠ 0)
    (ht : ν univ ≠ ⊤) : Spec.evenly 1 (a • ν) = (ν univ)⁻¹ • ν := by
  have hb0 : (a * ν univ) ≠ 0 := mul_ne_zero ha0 h0
  have hbt : (a * ν univ) ≠ ⊤ := ENNReal.mul_ne_top hat ht
  unfold Spec.evenly
  rw [measureReal_def, Measure.smul_apply, smul_eq_mul, one_div, ENNReal.ofReal_inv_of_pos (ENNReal.toReal_pos hb0 hbt),
    ENNReal.ofReal_toReal hbt, smul_smul, ENNReal.mul_inv (Or.inl ha0) (Or.inl hat), mul_right_comm,
    ENNReal.inv_mul_cancel ha0 hat, one_mul]

theorem density_univ (he : ∀ i, 0 < e.halfExtents i) :
    (((sphereLaw (k + 1)).withDensity fun u => ENNReal.ofReal (invHeight e.halfExtents u)).map
        fun u => (e.rotationᵀ * diagonal e.halfExtents) *ᵥ u + e.center) univ ≠ 0 ∧
    (((sphereLaw (k + 1)).withDensity fun u => ENNReal.ofReal (invHeight e.halfExtents u)).map
        fun u => (e.rotationᵀ * diagonal e.halfExtents) *ᵥ u + e.center) univ ≠ ⊤ := by
  have hT := stretch_measurable (e.rotationᵀ * diagonal e.halfExtents) e.center
  have hih := (measurable_invHeight e.halfExtents).ennreal_ofReal
  rw [Measure.map_apply hT MeasurableSet.univ, preimage_univ, withDensity_apply _ MeasurableSet.univ, Measure.restrict_univ]
  constructor
  · intro h
    rw [lintegral_eq_zero_iff hih] at h
    have : ∀ᵐ u ∂sphereLaw (k + 1), False := by
      filter_upwards [h, sphereLaw_ae k] with u h0 hu
      exact (ENNReal.ofReal_pos.2 (invHeight_pos he hu)).ne' h0
    have := ae_iff.1 this
    simp at this
  · refine ne_top_of_le_ne_top (b := ∫⁻ _, ENNReal.ofReal (1 / e.leastExtent) ∂sphereLaw (k + 1)) ?_ (lintegral_mono_ae ?_)
    · rw [lintegral_const, measure_univ, mul_one]
      exact ENNReal.ofReal_ne_top
    · filter_upwards [sphereLaw_ae k] with u hu
      refine ENNReal.ofReal_le_ofReal ?_
      rw [le_div_iff₀ (leastExtent_pos he), mul_comm]
      exact accept_le_one he hu

/-- The law of the accepted points. -/
theorem accepted_law (hk : 1 ≤ k) (he : ∀ i, 0 < e.halfExtents i) :
    ((Spec.normals (k + 1)).prod (Spec.draw 0 1)) {q | e.acceptDraw q = true} ≠ 0 ∧
    (((Spec.normals (k + 1)).prod (Spec.draw 0 1))[|{q | e.acceptDraw q = true}]).map
        (fun q => (e.rotationᵀ * diagonal e.halfExtents) *ᵥ direction q.1 + e.center) =
      Spec.evenly 1 (ellipsoidArea e.halfExtents e.rotationᵀ e.center) := by
  have hT := stretch_measurable (e.rotationᵀ * diagonal e.halfExtents) e.center
  have hF : Measurable fun q : (Fin (k + 1) → ℝ) × ℝ =>
      (e.rotationᵀ * diagonal e.halfExtents) *ᵥ direction q.1 + e.center :=
    hT.comp ((measurable_direction _).comp measurable_fst)
  have hm := accepted_measure hk he
  obtain ⟨h0, ht⟩ := density_univ (e := e) he
  set ν := ((sphereLaw (k + 1)).withDensity fun u => ENNReal.ofReal (invHeight e.halfExtents u)).map
        fun u => (e.rotationᵀ * diagonal e.halfExtents) *ᵥ u + e.center with hν
  have hmin := leastExtent_pos he
  have hc0 : ENNReal.ofReal e.leastExtent ≠ 0 := (ENNReal.ofReal_pos.2 hmin).ne'
  have hacc : ((Spec.normals (k + 1)).prod (Spec.draw 0 1)) {q | e.acceptDraw q = true} =
      ENNReal.ofReal e.leastExtent * ν univ := by
    have := congrArg (fun μ => μ univ) hm
    simp only [Measure.smul_apply, smul_eq_mul] at this
    rw [← this, Measure.map_apply hF MeasurableSet.univ, preimage_univ, Measure.restrict_apply_univ]
  refine ⟨by rw [hacc]; exact mul_ne_zero hc0 h0, ?_⟩
  have harea : ellipsoidArea e.halfExtents e.rotationᵀ e.center =
      (ENNReal.ofReal ((k + 1 : ℕ) * ∏ i, e.halfExtents i) * volume (unitBall (k + 1))) • ν := by
    rw [ellipsoidArea, Measure.map_smul]
  have hpos : 0 < ((k + 1 : ℕ) : ℝ) * ∏ i, e.halfExtents i :=
    mul_pos (by positivity) (Finset.prod_pos fun i _ => he i)
  rw [harea, evenly_smul (mul_ne_zero (ENNReal.ofReal_pos.2 hpos).ne' (unitBall_volume_zero _))
    (ENNReal.mul_ne_top ENNReal.ofReal_ne_top (unitBall_volume_top _)) ν h0 ht, ProbabilityTheory.cond, Measure.map_smul, hm,
    smul_smul, hacc, ENNReal.mul_inv (Or.inl hc0) (Or.inl ENNReal.ofReal_ne_top), mul_right_comm,
    ENNReal.inv_mul_cancel hc0 ENNReal.ofReal_ne_top, one_mul]

theorem toOption_map_some {α β : Type} (f : α → β) (m : Py α) (b : β) :
    m.toOption.map f = some b ↔ ∃ a, m = .ok a ∧ f a = b := by
  rcases m with er | a
  · simp [Except.toOption]
  · simp [Except.toOption]

/-- The law of the points returned within `T` rounds. -/
theorem surface_rounds (hk : 1 ≤ k) (he : ∀ i, 0 < e.halfExtents i) (T n : ℕ) (D : Set (Fin n → Fin (k + 1) → ℝ))
    (hD : MeasurableSet D) :
    Spec.rounds T n ((Spec.normals (k + 1)).prod (Spec.draw 0 1))
        {x | ∃ y ∈ D, e.randomSurfacePoints (Spec.candidates x) n T = .ok (some (List.ofFn y))} =
      (1 - ((Spec.normals (k + 1)).prod (Spec.draw 0 1)) {q | e.acceptDraw q = false} ^ T) ^ n *
        (Measure.pi fun _ => Spec.evenly 1 (ellipsoidArea e.halfExtents e.rotationᵀ e.center)) D := by
  have hp := draw_probability (zero_lt_one (α := ℝ))
  obtain ⟨h0, hlaw⟩ := accepted_law hk he
  have hS := measurable_acceptDraw hk he
  have hT := stretch_measurable (e.rotationᵀ * diagonal e.halfExtents) e.center
  set F : (Fin (k + 1) → ℝ) × ℝ → Fin (k + 1) → ℝ := fun q =>
      (e.rotationᵀ * diagonal e.halfExtents) *ᵥ direction q.1 + e.center with hFdef
  have hF : Measurable F := hT.comp ((measurable_direction _).comp measurable_fst)
  have hFn : Measurable fun (u : Fin n → (Fin (k + 1) → ℝ) × ℝ) i => F (u i) :=
    measurable_pi_lambda _ fun i => hF.comp (measurable_pi_apply i)
  have hp1 : IsProbabilityMeasure ((Spec.normals (k + 1)).prod (Spec.draw 0 1))[|{q | e.acceptDraw q = true}] :=
    cond_isProbabilityMeasure h0
  have hp2 : IsProbabilityMeasure (((Spec.normals (k + 1)).prod (Spec.draw 0 1))[|{q | e.acceptDraw q = true}].map F) :=
    Measure.isProbabilityMeasure_map hF.aemeasurable
  have hev : {x : Fin T → Fin n → (Fin (k + 1) → ℝ) × ℝ | ∃ y ∈ D,
        e.randomSurfacePoints (Spec.candidates x) n T = .ok (some (List.ofFn y))} =
      {x | ∃ u ∈ (fun (u : Fin n → (Fin (k + 1) → ℝ) × ℝ) i => F (u i)) ⁻¹' D,
        loopG e.acceptDraw (Spec.candidates x) n T 0 [] = .ok (List.ofFn u)} := by
    ext x
    simp only [mem_ofPred_eq, randomSurfacePoints_eq hk he, Except.ok.injEq, toOption_map_some]
    constructor
    · rintro ⟨y, hy, l, hl, h⟩
      have hlen : l.length = n := by
        have := congrArg List.length h
        rwa [List.length_map, List.length_ofFn] at this
      subst hlen
      refine ⟨l.get, ?_, by rw [List.ofFn_get]; exact hl⟩
      have : (fun i => F (l.get i)) = y := by
        refine List.ofFn_injective ?_
        rw [← h]
        conv_rhs => rw [← List.ofFn_get l]
        rw [List.map_ofFn]
        rfl
      show (fun i => F (l.get i)) ∈ D
      rw [this]
      exact hy
    · rintro ⟨u, hu, h⟩
      refine ⟨fun i => F (u i), hu, _, h, ?_⟩
      rw [List.map_ofFn]
      rfl
  rw [hev, loop_law _ hS h0 _ (hFn hD), success_probability _ hS n T [] (Nat.zero_le n), ← hlaw,
    ← Measure.pi_map_pi fun _ => hF.aemeasurable, Measure.map_apply hFn hD]
  rfl

/-- C92: `Ellipsoid.random_points_on_surface` terminates with probability one, and the points that it returns are
independent and uniformly distributed with respect to the area of a surface; as it rotates with the transpose, this is
the surface of the ellipsoid with the inverse rotation. -/
theorem C92_ellipsoid (hk : 1 ≤ k) (hR : Spec.Orthogonal e.rotation) (he : ∀ i, 0 < e.halfExtents i) (n : ℕ) :
    ∃ ν, Spec.IsArea (Spec.ellipsoid e.halfExtents e.rotationᵀ e.center) e.center ν ∧
      (∀ D : Set (Fin n → Fin (k + 1) → ℝ), MeasurableSet D →
        Tendsto (fun T => Spec.rounds T n ((Spec.normals (k + 1)).prod (Spec.draw 0 1))
          {x | ∃ y ∈ D, e.randomSurfacePoints (Spec.candidates x) n T = .ok (some (List.ofFn y))}) atTop
          (𝓝 ((Measure.pi fun _ => Spec.evenly 1 ν) D))) ∧
      Tendsto (fun T => Spec.rounds T n ((Spec.normals (k + 1)).prod (Spec.draw 0 1))
          {x | ∃ y : Fin n → Fin (k + 1) → ℝ,
            e.randomSurfacePoints (Spec.candidates x) n T = .ok (some (List.ofFn y))}) atTop (𝓝 1) := by
  have hp := draw_probability (zero_lt_one (α := ℝ))
  refine ⟨_, ellipsoidArea_isArea he hR.transpose e.center, ?_⟩
  obtain ⟨h0, hlaw⟩ := accepted_law hk he
  have hq : ((Spec.normals (k + 1)).prod (Spec.draw 0 1)) {q | e.acceptDraw q = false} < 1 := by
    have hS := measurable_acceptDraw hk he
    have hc : {q | e.acceptDraw q = false} = {q | e.acceptDraw q = true}ᶜ := by
      ext q
      simp
    rw [hc, prob_compl_eq_one_sub (measurableSet_accept hS true)]
    exact ENNReal.sub_lt_self ENNReal.one_ne_top one_ne_zero h0
  have hpow : Tendsto (fun T : ℕ => (1 - ((Spec.normals (k + 1)).prod (Spec.draw 0 1)) {q | e.acceptDraw q = false} ^ T) ^ n)
      atTop (𝓝 1) := by
    have h1 := ENNReal.tendsto_pow_atTop_nhds_zero_of_lt_one hq
    have h2 := ENNReal.Tendsto.sub (tendsto_const_nhds (x := (1 : ENNReal))) h1 (Or.inl ENNReal.one_ne_top)
    rw [tsub_zero] at h2
    have h3 := ENNReal.Tendsto.pow (n := n) h2
    rwa [one_pow] at h3
  have hprob : IsProbabilityMeasure (Spec.evenly 1 (ellipsoidArea e.halfExtents e.rotationᵀ e.center)) := by
    rw [← hlaw]
    have := cond_isProbabilityMeasure h0
    refine Measure.isProbabilityMeasure_map (Measurable.aemeasurable ?_)
    exact (stretch_measurable _ _).comp ((measurable_direction _).comp measurable_fst)
  have hD : ∀ D : Set (Fin n → Fin (k + 1) → ℝ), MeasurableSet D →
        Tendsto (fun T => Spec.rounds T n ((Spec.normals (k + 1)).prod (Spec.draw 0 1))
          {x | ∃ y ∈ D, e.randomSurfacePoints (Spec.candidates x) n T = .ok (some (List.ofFn y))}) atTop
          (𝓝 ((Measure.pi fun _ => Spec.evenly 1 (ellipsoidArea e.halfExtents e.rotationᵀ e.center)) D)) := by
    intro D hD
    simp only [surface_rounds hk he _ n D hD]
    have := ENNReal.Tendsto.mul_const (b := (Measure.pi fun _ => Spec.evenly 1
      (ellipsoidArea e.halfExtents e.rotationᵀ e.center)) D) hpow (Or.inl one_ne_zero)
    rwa [one_mul] at this
  refine ⟨hD, ?_⟩
  have := hD univ MeasurableSet.univ
  rw [measure_univ] at this
  refine this.congr fun T => ?_
  congr 1
  ext x
  exact ⟨fun ⟨y, _, h⟩ => ⟨y, h⟩, fun ⟨y, h⟩ => ⟨y, mem_univ _, h⟩⟩

end

/-- The hypotheses of `C92_ellipsoid` hold, for an ellipsoid that is not rotated. -/
example : ∃ ν, Spec.IsArea (Spec.ellipsoid ![1, 2, 3] 1 ![4, 5, 6]) ![4, 5, 6] ν ∧
    ∀ D : Set (Fin 7 → Fin 3 → ℝ), MeasurableSet D → Tendsto (fun T => Spec.rounds T 7 ((Spec.normals 3).prod (Spec.draw 0 1))
      {x | ∃ y ∈ D, (⟨![1, 2, 3], 1, ![4, 5, 6]⟩ : Ellipsoid ℝ 3).randomSurfacePoints (Spec.candidates x) 7 T =
        .ok (some (List.ofFn y))}) atTop (𝓝 ((Measure.pi fun _ => Spec.evenly 1 ν) D)) := by
  obtain ⟨ν, h1, h2, -⟩ := C92_ellipsoid (k := 2) (e := ⟨![1, 2, 3], 1, ![4, 5, 6]⟩) (by norm_num) Spec.Orthogonal.one
    (fun i => by fin_cases i <;> norm_num) 7
  rw [transpose_one] at h1
  exact ⟨ν, h1, h2⟩

end Rigeo
