import Verif.Props.Shells
import Verif.Props.RigidBody
import Verif.Props.Body

/-!
# C59: the parameters of the density methods are realizable on their shapes
-/

namespace Rigeo

open MeasureTheory Matrix

/-! ### Where the distributions sit -/

theorem CarriedBy.map {n k : ℕ} {μ : Measure (Fin n → ℝ)} {S : Set (Fin n → ℝ)} (h : Spec.CarriedBy μ S)
    {f : (Fin n → ℝ) → Fin k → ℝ} (hf : Measurable f) {T : Set (Fin k → ℝ)} (hT : MeasurableSet T)
    (hST : ∀ p ∈ S, f p ∈ T) : Spec.CarriedBy (μ.map f) T := by
  rw [Spec.CarriedBy, Measure.map_apply hf hT.compl]
  refine measure_mono_null ?_ h
  intro p hp hpS
  exact hp (hST p hpS)

theorem CarriedBy.sum {n : ℕ} {ι : Type} (s : Finset ι) {μ : ι → Measure (Fin n → ℝ)} {S : Set (Fin n → ℝ)}
    (h : ∀ i ∈ s, Spec.CarriedBy (μ i) S) : Spec.CarriedBy (∑ i ∈ s, μ i) S := by
  rw [Spec.CarriedBy, Measure.finsetSum_apply]
  exact Finset.sum_eq_zero h

theorem CarriedBy.smul {n : ℕ} {μ : Measure (Fin n → ℝ)} {S : Set (Fin n → ℝ)} (h : Spec.CarriedBy μ S) (a : ENNReal) :
    Spec.CarriedBy (a • μ) S := by
  rw [Spec.CarriedBy, Measure.smul_apply, h, smul_zero]

theorem CarriedBy.restrict {n : ℕ} {S : Set (Fin n → ℝ)} (hS : MeasurableSet S) :
    Spec.CarriedBy (volume.restrict S) S := by
  rw [Spec.CarriedBy, Measure.restrict_apply hS.compl, Set.compl_inter_self, measure_empty]

theorem box_compact (h : Fin 3 → ℝ) (hh : ∀ i, 0 ≤ h i) {R : Matrix (Fin 3) (Fin 3) ℝ} (hR : Spec.Orthogonal R)
    (c : Fin 3 → ℝ) : IsCompact (Spec.box h R c) :=
  AnyShape.compact (s := .box ⟨h, R, c⟩) ⟨hR, hh⟩

theorem ellipsoid_compact (h : Fin 3 → ℝ) (hh : ∀ i, 0 ≤ h i) {R : Matrix (Fin 3) (Fin 3) ℝ} (hR : Spec.Orthogonal R)
    (c : Fin 3 → ℝ) : IsCompact (Spec.ellipsoid h R c) :=
  AnyShape.compact (s := .ellipsoid ⟨h, R, c⟩) ⟨hR, hh⟩

theorem cylinder_compact (L r : ℝ) (hL : 0 ≤ L) (hr : 0 ≤ r) {R : Matrix (Fin 3) (Fin 3) ℝ} (hR : Spec.Orthogonal R)
    (c : Fin 3 → ℝ) : IsCompact (Spec.cylinder L r R c) :=
  AnyShape.compact (s := .cylinder ⟨L, r, R, c⟩) ⟨hR, hL, hr⟩

/-- Faces and edges are parts of the box. -/
theorem boxFaces_carried (h : Fin 3 → ℝ) (hh : ∀ i, 0 ≤ h i) : Spec.CarriedBy (Spec.boxFaces h) (Spec.box h 1 0) := by
  have hm := (box_compact h hh Spec.Orthogonal.one 0).measurableSet
  refine CarriedBy.sum _ fun i _ => CarriedBy.sum _ fun s _ => ?_
  have hr : MeasurableSet {y : Fin 2 → ℝ | ∀ j, |y j| ≤ h (i.succAbove j)} := by
    have := rect_eq fun j => h (i.succAbove j)
    rw [rect] at this
    rw [this]
    exact (isCompact_univ_pi fun _ => isCompact_Icc).measurableSet
  refine CarriedBy.map (CarriedBy.restrict hr) ?_ hm ?_
  · simp only [insertMat_mulVec]
    fun_prop
  · intro y hy
    refine ⟨_, fun k => ?_, by rw [Spec.rigid, one_mulVec, add_zero]⟩
    rcases Fin.eq_self_or_eq_succAbove i k with rfl | ⟨j, rfl⟩
    · rw [Fin.insertNth_apply_same]
      cases s <;> simp [abs_of_nonneg (hh _)]
    · rw [Fin.insertNth_apply_succAbove]
      exact hy j

theorem boxEdges_carried (h : Fin 3 → ℝ) (hh : ∀ i, 0 ≤ h i) : Spec.CarriedBy (Spec.boxEdges h) (Spec.box h 1 0) := by
  have hm := (box_compact h hh Spec.Orthogonal.one 0).measurableSet
  refine CarriedBy.sum _ fun i _ => CarriedBy.sum _ fun s _ => CarriedBy.sum _ fun t _ => ?_
  have hr : MeasurableSet {y : Fin 1 → ℝ | |y 0| ≤ h i} := by
    have : Continuous fun y : Fin 1 → ℝ => |y 0| := by fun_prop
    exact (isClosed_le this continuous_const).measurableSet
  refine CarriedBy.map (CarriedBy.restrict hr) ?_ hm ?_
  · simp only [insertMat_mulVec]
    refine Continuous.measurable ?_
    refine continuous_const.add ?_
    exact (continuous_single i).comp (continuous_apply 0)
  · intro y hy
    refine ⟨_, fun k => ?_, by rw [Spec.rigid, one_mulVec, add_zero]⟩
    rcases Fin.eq_self_or_eq_succAbove i k with rfl | ⟨j, rfl⟩
    · rw [Fin.insertNth_apply_same]
      exact hy
    · rw [Fin.insertNth_apply_succAbove]
      fin_cases j
      · cases s <;> simp [abs_of_nonneg (hh _)]
      · cases t <;> simp [abs_of_nonneg (hh _)]

theorem rigid_box (h : Fin 3 → ℝ) (R : Matrix (Fin 3) (Fin 3) ℝ) (c p : Fin 3 → ℝ) (hp : p ∈ Spec.box h 1 0) :
    Spec.rigid R c p ∈ Spec.box h R c := by
  obtain ⟨y, hy, rfl⟩ := hp
  exact ⟨y, hy, by rw [Spec.rigid, Spec.rigid, Spec.rigid, one_mulVec, add_zero]⟩

/-! ### C59 -/

/-- C59: the three density methods of a box, whenever they return, return parameters that are realizable on the box. -/
theorem C59_box (b : Box ℝ) (hb : ∀ i, 0 ≤ b.halfExtents i) (hR : Spec.Orthogonal b.rotation) (m : ℝ) (hm : 0 < m) (p : IP ℝ)
    (hp : b.uniformDensityParams m = .ok p ∨ b.hollowDensityParams m = .ok p ∨ b.wireframeDensityParams m = .ok p) :
    Spec.Realizable (Spec.box b.halfExtents b.rotation b.center) p.mass p.h p.H := by
  have hc := box_compact b.halfExtents hb hR b.center
  have hmeas : Measurable (Spec.rigid b.rotation b.center) := by
    unfold Spec.rigid
    fun_prop
  rcases hp with hp | hp | hp
  · obtain ⟨q, hq, hmom⟩ := C57_box_flat b m hm
    rw [hp] at hq
    obtain rfl := Except.ok.inj hq
    refine C60_point_masses _ hc _ ?_ _ _ _ hmom
    have hu : MeasurableSet {u : Fin 3 → ℝ | ∀ i, |u i| ≤ 1} := by
      have := rect_eq fun _ : Fin 3 => (1 : ℝ)
      rw [rect] at this
      rw [this]
      exact (isCompact_univ_pi fun _ => isCompact_Icc).measurableSet
    refine CarriedBy.map (CarriedBy.smul (CarriedBy.restrict hu) _) (by unfold Spec.rigid; fun_prop) hc.measurableSet ?_
    intro u hu
    refine ⟨_, fun i => ?_, rfl⟩
    rw [abs_mul, abs_of_nonneg (hb i)]
    have := hu i
    nlinarith [hb i]
  · have hA : (Spec.boxFaces b.halfExtents).real Set.univ ≠ 0 := by
      intro h
      rw [((C58_nonfinite b hb m hm).1).2 h] at hp
      cases hp
    obtain ⟨q, hq, hmom⟩ := C58_hollow b hb m hm hA
    rw [hp] at hq
    obtain rfl := Except.ok.inj hq
    refine C60_point_masses _ hc _ ?_ _ _ _ hmom
    exact CarriedBy.map (CarriedBy.smul (boxFaces_carried _ hb) _) hmeas hc.measurableSet (rigid_box _ _ _)
  · have hA : (Spec.boxEdges b.halfExtents).real Set.univ ≠ 0 := by
      intro h
      rw [((C58_nonfinite b hb m hm).2).2 h] at hp
      cases hp
    obtain ⟨q, hq, hmom⟩ := C58_wireframe b hb m hm hA
    rw [hp] at hq
    obtain rfl := Except.ok.inj hq
    refine C60_point_masses _ hc _ ?_ _ _ _ hmom
    exact CarriedBy.map (CarriedBy.smul (boxEdges_carried _ hb) _) hmeas hc.measurableSet (rigid_box _ _ _)

/-- C59: cylinders. -/
theorem C59_cylinder (c : Cylinder ℝ) (hL : 0 ≤ c.length) (hr : 0 ≤ c.radius) (hR : Spec.Orthogonal c.rotation) (m : ℝ)
    (hm : 0 < m) (p : IP ℝ) (hp : c.uniformDensityParams m = .ok p) :
    Spec.Realizable (Spec.cylinder c.length c.radius c.rotation c.center) p.mass p.h p.H := by
  have hc := cylinder_compact c.length c.radius hL hr hR c.center
  obtain ⟨q, hq, hmom⟩ := C57_cylinder_flat c m hm
  rw [hp] at hq
  obtain rfl := Except.ok.inj hq
  refine C60_point_masses _ hc _ ?_ _ _ _ hmom
  have hu : MeasurableSet {u : Fin 3 → ℝ | |u 2| ≤ 1 ∧ u 0 ^ 2 + u 1 ^ 2 ≤ 1} := unitCylinder_compact.measurableSet
  refine CarriedBy.map (CarriedBy.smul (CarriedBy.restrict hu) _) ?_ hc.measurableSet ?_
  · have h2 : (fun u : Fin 3 → ℝ => Spec.rigid c.rotation c.center ![c.radius * u 0, c.radius * u 1, c.length / 2 * u 2]) =
        fun p => (c.rotation * diagonal ![c.radius, c.radius, c.length / 2]) *ᵥ p + c.center := by
      ext1 u
      rw [Spec.rigid, ← mulVec_mulVec]
      congr 2
      ext i
      rw [mulVec_diagonal]
      fin_cases i <;> rfl
    rw [h2]
    fun_prop
  · rintro u ⟨h1, h2⟩
    refine ⟨_, ?_, ?_, rfl⟩
    · show |c.length / 2 * u 2| ≤ c.length / 2
      rw [abs_mul, abs_of_nonneg (by positivity)]
      nlinarith
    · show (c.radius * u 0) ^ 2 + (c.radius * u 1) ^ 2 ≤ c.radius ^ 2
      nlinarith [sq_nonneg c.radius]

/-- C59: the uniform density of an ellipsoid, flat or not. -/
theorem C59_ellipsoid_uniform (e : Ellipsoid ℝ 3) (he : ∀ i, 0 ≤ e.halfExtents i) (hR : Spec.Orthogonal e.rotation) (m : ℝ)
    (hm : 0 < m) (p : IP ℝ) (hp : e.uniformDensityParams m = .ok p) :
    Spec.Realizable (Spec.ellipsoid e.halfExtents e.rotation e.center) p.mass p.h p.H := by
  have hc := ellipsoid_compact e.halfExtents he hR e.center
  rw [e.uniformDensityParams_ok m hm] at hp
  obtain rfl := Except.ok.inj hp
  have := moments_stretch (uniform_unitBall (n := 2) m hm.le) e.halfExtents e.rotation e.center
  have h5 : (1 : ℝ) / (((2 : ℕ) : ℝ) + 3) = 1 / 5 := by norm_num
  rw [h5] at this
  refine C60_point_masses _ hc _ ?_ _ _ _ (density_moments this)
  refine CarriedBy.map (CarriedBy.smul (CarriedBy.restrict (unitBall_compact 3).measurableSet) _) (by fun_prop)
    hc.measurableSet ?_
  intro u hu
  rw [ellipsoid_image]
  exact ⟨u, hu, rfl⟩

/-- C59: the shell of an ellipsoid, flat or not, although it is not an even distribution over the surface, is realizable
on the surface. -/
theorem C59_ellipsoid_hollow (e : Ellipsoid ℝ 3) (he : ∀ i, 0 ≤ e.halfExtents i) (m : ℝ) (hm : 0 < m)
    (p : IP ℝ) (hp : e.hollowDensityParams m = .ok p) :
    Spec.Realizable {q | ∃ u : Fin 3 → ℝ, u ⬝ᵥ u = 1 ∧ q = Spec.rigid e.rotation e.center fun i => e.halfExtents i * u i}
      p.mass p.h p.H := by
  set x := e.halfExtents 0 with hx
  set y := e.halfExtents 1 with hy
  set z := e.halfExtents 2 with hz
  have h0 : 0 ≤ x := he 0
  have h1 : 0 ≤ y := he 1
  have h2 : 0 ≤ z := he 2
  have hS : x * y + x * z + y * z ≠ 0 := by
    intro h
    have h5 : 5 * (x * y + x * z + y * z) = 0 := by rw [h, mul_zero]
    rw [Ellipsoid.hollowDensityParams] at hp
    simp only [pyAssert, hm.le, decide_true, if_true, pdiv, ← hx, ← hy, ← hz, if_pos h5] at hp
    cases hp
  have hSpos : 0 < x * y + x * z + y * z := lt_of_le_of_ne (by positivity) (Ne.symm hS)
  rw [e.hollowDensityParams_ok m hm hS] at hp
  obtain rfl := Except.ok.inj hp
  set S := x * y + x * z + y * z with hSdef
  set T : Set (Fin 3 → ℝ) := {q | ∃ u : Fin 3 → ℝ, u ⬝ᵥ u = 1 ∧ q = fun i => e.halfExtents i * u i} with hT
  -- in the body frame: the masses sit at the ends of the axes
  have hpt : ∀ (i : Fin 3) (a : ℝ), a ^ 2 = 1 → (Pi.single i (e.halfExtents i * a) : Fin 3 → ℝ) ∈ T := by
    intro i a ha
    refine ⟨Pi.single i a, ?_, ?_⟩
    · rw [dotProduct_single, Pi.single_eq_same, ← sq, ha]
    · ext k
      by_cases hk : k = i
      · subst hk
        simp
      · simp [hk]
  have hax : ∀ (i : Fin 3) (w : ℝ), 0 ≤ w →
      Spec.Realizable T w 0 (w • diagonal (Pi.single i (e.halfExtents i ^ 2))) := by
    intro i w hw
    have a := Spec.Realizable.point (div_nonneg hw zero_le_two) (hpt i 1 (by norm_num))
    have b := Spec.Realizable.point (div_nonneg hw zero_le_two) (hpt i (-1) (by norm_num))
    convert a.add b using 1
    · ring
    · ext k
      by_cases hk : k = i
      · subst hk
        simp
      · simp [hk]
    · ext k l
      simp only [Matrix.smul_apply, Matrix.add_apply, outer_apply, smul_eq_mul]
      by_cases hk : k = i
      · subst hk
        by_cases hl : k = l
        · subst hl
          simp
          ring
        · simp [diagonal_apply_ne _ hl, Ne.symm hl]
      · by_cases hl : k = l
        · subst hl
          simp [hk]
        · simp [diagonal_apply_ne _ hl, hk]
  have hloc := ((hax 0 (m * ((x * y + x * z + 3 * y * z) / (5 * S))) (by positivity)).add
    (hax 1 (m * ((x * y + 3 * x * z + y * z) / (5 * S))) (by positivity))).add
    (hax 2 (m * ((3 * x * y + x * z + y * z) / (5 * S))) (by positivity))
  have hmv := hloc.moved e.rotation e.center
  have hmass : m * ((x * y + x * z + 3 * y * z) / (5 * S)) + m * ((x * y + 3 * x * z + y * z) / (5 * S)) +
      m * ((3 * x * y + x * z + y * z) / (5 * S)) = m := by
    rw [← mul_add, ← mul_add, ← add_div, ← add_div]
    rw [show x * y + x * z + 3 * y * z + (x * y + 3 * x * z + y * z) + (3 * x * y + x * z + y * z) = 5 * S by
      rw [hSdef]; ring, div_self (by positivity), mul_one]
  rw [hmass] at hmv
  convert hmv using 1
  · ext q
    constructor
    · rintro ⟨u, hu, rfl⟩
      exact ⟨_, ⟨u, hu, rfl⟩, rfl⟩
    · rintro ⟨_, ⟨u, hu, rfl⟩, rfl⟩
      exact ⟨u, hu, rfl⟩
  · simp [IP.h]
  · simp only [add_zero, mulVec_zero, outer_zero_left, outer_zero_right]
    congr 3
    ext k l
    by_cases hkl : k = l
    · subst hkl
      fin_cases k
      · simp [diagonal, ← hx]
        ring
      · simp [diagonal, ← hy]
        ring
      · simp [diagonal, ← hz]
        ring
    · simp [diagonal_apply_ne _ hkl]

/-- C59: the vertex point masses of a polyhedron, given as a total mass or as one mass per vertex. -/
theorem C59_vertices (P : Poly ℝ 3) (mass : ℝ ⊕ List ℝ) (p : IP ℝ) (hp : P.vertexPointMassParams mass = .ok p) :
    Spec.Realizable {q | q ∈ P.vertices} p.mass p.h p.H := by
  obtain ⟨masses, hlen, hnn, hp⟩ : ∃ masses : List ℝ, masses.length = P.vertices.length ∧ (∀ m ∈ masses, 0 ≤ m) ∧
      IP.fromPointMasses masses P.vertices = .ok p := by
    have key : ∀ masses : List ℝ, (do
        pyAssert (masses.length == P.vertices.length)
        pyAssert (masses.all fun m => decide (0 ≤ m))
        IP.fromPointMasses masses P.vertices) = .ok p → masses.length = P.vertices.length ∧ (∀ m ∈ masses, 0 ≤ m) ∧
        IP.fromPointMasses masses P.vertices = .ok p := by
      intro masses h
      by_cases h1 : masses.length = P.vertices.length
      · by_cases h2 : ∀ m ∈ masses, 0 ≤ m
        · refine ⟨h1, h2, ?_⟩
          have h2' : (masses.all fun m => decide (0 ≤ m)) = true := by simpa using h2
          simp only [pyAssert, h1, h2', beq_self_eq_true, if_true] at h
          exact h
        · have h2' : (masses.all fun m => decide (0 ≤ m)) = false := by
            rw [← Bool.not_eq_true]
            simpa using h2
          simp [pyAssert, h1, h2'] at h
          cases h
      · simp [pyAssert, h1] at h
        cases h
    cases mass with
    | inl m => exact ⟨_, key _ hp⟩
    | inr ms => exact ⟨ms, key _ hp⟩
  set s : Spec.PointMasses ℝ 3 := masses.zip P.vertices with hs
  have e1 : s.map Prod.fst = masses := List.map_fst_zip hlen.le
  have e2 : s.map Prod.snd = P.vertices := List.map_snd_zip hlen.ge
  rw [← e1, ← e2] at hp
  have hpos : 0 < s.mass := by
    rcases lt_trichotomy 0 s.mass with h | h | h
    · exact h
    · by_cases hn : s = []
      · rw [hn] at hp
        have := (C13_errors (K := ℝ)).2.1
        exfalso
        rw [show List.map Prod.fst ([] : Spec.PointMasses ℝ 3) = [] from rfl,
          show List.map Prod.snd ([] : Spec.PointMasses ℝ 3) = [] from rfl, this] at hp
        cases hp
      · rw [C13_errors.2.2.1 s hn h.symm] at hp
        cases hp
    · rw [C13_errors.2.2.2 s h] at hp
      cases hp
  obtain ⟨q, hq, h1, h2, h3, -⟩ := C13_moments s hpos
  rw [hp] at hq
  obtain rfl := Except.ok.inj hq
  refine ⟨s, ?_, ?_, h1.symm, h2.symm, h3.symm⟩
  · intro mp hmp
    exact hnn _ (List.of_mem_zip hmp).1
  · intro mp hmp
    exact (List.of_mem_zip hmp).2

/-- C59: such parameters are physically consistent, and pass the tests of their shapes. -/
theorem C59_consistent {S : Set (Fin 3 → ℝ)} (p : IP ℝ) (h : Spec.Realizable S p.mass p.h p.H) : p.consistent = true := by
  rw [C16_consistent_iff p h.symm, zero_smul, sub_zero]
  exact h.psd

/-- C59: `can_realize` of an ellipsoid accepts its uniform and its hollow parameters. -/
theorem C59_can_realize (e : Ellipsoid ℝ 3) (he : ∀ i, Spec.Resolved (e.halfExtents i)) (hR : Spec.Orthogonal e.rotation)
    (m : ℝ) (hm : 0 < m) (p : IP ℝ) (hp : e.uniformDensityParams m = .ok p ∨ e.hollowDensityParams m = .ok p) :
    e.canRealize p = .ok true ∧ ∀ useTrace, Py.Holds (e.momentConstraints (.vec p.vec) 0 useTrace) := by
  have hnn : ∀ i, 0 ≤ e.halfExtents i := fun i => (he i).nonneg
  have hr : Spec.Realizable (Spec.ellipsoid e.halfExtents e.rotation e.center) p.mass p.h p.H := by
    rcases hp with hp | hp
    · exact C59_ellipsoid_uniform e hnn hR m hm p hp
    · refine (C59_ellipsoid_hollow e hnn m hm p hp).mono ?_
      rintro q ⟨u, hu, rfl⟩
      exact ⟨u, hu.le, rfl⟩
  have hpsd : Spec.PSD (p.J - (0 : ℝ) • (1 : Matrix (Fin 4) (Fin 4) ℝ)) := by
    rw [zero_smul, sub_zero]
    exact hr.psd
  constructor
  · by_cases hz : ∃ i, e.halfExtents i = 0
    · obtain ⟨b, hb, h1, -⟩ := C50_degenerate e hR he hz p hr.symm 0 le_rfl
      rw [hb, h1 hr hpsd]
    · push Not at hz
      obtain ⟨b, hb, h1⟩ := C50_exact e hR (fun i => (he i).resolve_left (hz i)) p hr.symm
      rw [hb, h1.2 hr]
  · intro useTrace
    obtain ⟨c, hc, h1⟩ := C51_vec e hR he p hr.symm 0 le_rfl useTrace
    exact ⟨c, hc, h1.2 ⟨hpsd, hr⟩⟩

/-- C59: the constraints that a body made of one shape poses accept the parameters of the shape's densities, at every
order of the relaxation. -/
theorem C59_constraints (s : AnyShape ℝ) (hs : s.Usable) (hv : s.Valid) (m : ℝ) (hm : 0 < m) (p : IP ℝ)
    (hp : match s with
      | .ellipsoid e => e.uniformDensityParams m = .ok p ∨ e.hollowDensityParams m = .ok p
      | .box b => b.uniformDensityParams m = .ok p ∨ b.hollowDensityParams m = .ok p ∨
          b.wireframeDensityParams m = .ok p ∨ b.toPoly.vertexPointMassParams (.inl m) = .ok p
      | .poly P => P.vertexPointMassParams (.inl m) = .ok p
      | .cylinder c => c.uniformDensityParams m = .ok p
      | .capsule _ => False) (d : ℕ) (hd : 1 ≤ d) :
    Spec.Realizable (Spec.region s) p.mass p.h p.H ∧ p.consistent = true ∧
      Py.Holds ((⟨[s], p⟩ : RigidBody ℝ).momentSdpConstraints (.mat p.J) 0 d) ∧
      Py.Holds ((⟨[s], p⟩ : RigidBody ℝ).momentSdpConstraints (.vec p.vec) 0 d) := by
  have hr : Spec.Realizable (Spec.region s) p.mass p.h p.H := by
    cases s with
    | ellipsoid e =>
      rcases hp with hp | hp
      · exact C59_ellipsoid_uniform e hv.2 hv.1 m hm p hp
      · refine (C59_ellipsoid_hollow e hv.2 m hm p hp).mono ?_
        rintro q ⟨u, hu, rfl⟩
        exact ⟨u, hu.le, rfl⟩
    | box b =>
      rcases hp with hp | hp | hp | hp
      · exact C59_box b hv.2 hv.1 m hm p (.inl hp)
      · exact C59_box b hv.2 hv.1 m hm p (.inr (.inl hp))
      · exact C59_box b hv.2 hv.1 m hm p (.inr (.inr hp))
      · refine (C59_vertices _ _ p hp).mono ?_
        intro q hq
        show q ∈ Spec.box b.halfExtents b.rotation b.center
        rw [← C25_vertices b hv.2]
        exact subset_convexHull ℝ _ hq
    | poly P =>
      refine (C59_vertices _ _ p hp).mono ?_
      intro q hq
      show q ∈ Spec.halfspaces P.faceForm.faces
      rw [← hv.2.2]
      exact subset_convexHull ℝ _ hq
    | cylinder c => exact C59_cylinder c hv.2.1 hv.2.2 hv.1 m hm p hp
    | capsule c => exact hp.elim
  refine ⟨hr, C59_consistent p hr, ?_⟩
  have hb : Spec.bodyRegion (⟨[s], p⟩ : RigidBody ℝ).shapes = Spec.region s := by
    ext q
    simp [Spec.bodyRegion]
  refine C56_necessary ⟨[s], p⟩ (by simpa using hs) p (by rw [hb]; exact hr) 0 le_rfl ?_ d hd
  rw [zero_smul, sub_zero]
  exact hr.psd

example : ∃ p, (⟨![1, 2, 0], 1, ![1, 0, 0]⟩ : Ellipsoid ℝ 3).hollowDensityParams 6 = .ok p ∧
    (⟨![1, 2, 0], 1, ![1, 0, 0]⟩ : Ellipsoid ℝ 3).canRealize p = .ok true := by
  have h := Ellipsoid.hollowDensityParams_ok ⟨![1, 2, 0], 1, ![1, 0, 0]⟩ 6 (by norm_num) (by simp)
  refine ⟨_, h, (C59_can_realize _ ?_ Spec.Orthogonal.one 6 (by norm_num) _ (.inr h)).1⟩
  intro i
  fin_cases i
  · exact .inr (by norm_num)
  · exact .inr (by norm_num)
  · exact .inl rfl

example : ∃ p, (⟨![1, 2, 0], 1, ![1, 0, 0]⟩ : Box ℝ).wireframeDensityParams 6 = .ok p ∧
    Spec.Realizable (Spec.box ![1, 2, 0] 1 ![1, 0, 0]) p.mass p.h p.H := by
  have h := Box.wireframeDensityParams_ok ⟨![1, 2, 0], 1, ![1, 0, 0]⟩ 6 (by norm_num) (by simp; norm_num)
  refine ⟨_, h, C59_box ⟨![1, 2, 0], 1, ![1, 0, 0]⟩ ?_ Spec.Orthogonal.one 6 (by norm_num) _ (.inr (.inr h))⟩
  intro i
  fin_cases i <;> norm_num

example : ∃ p : IP ℝ, p.mass = 5 ∧ Spec.Realizable {q : Fin 3 → ℝ | q ∈ [![1, 0, 0], ![0, 1, 0]]} p.mass p.h p.H := by
  have h := fromPointMasses_eq (K := ℝ) [(2, ![1, 0, 0]), (3, ![0, 1, 0])] (by norm_num [Spec.PointMasses.mass])
  refine ⟨_, ?_, C59_vertices ⟨[![1, 0, 0], ![0, 1, 0]], ⟨[]⟩⟩ (.inr [2, 3]) _ (Eq.trans ?_ h)⟩
  · norm_num [Spec.PointMasses.mass]
  · rw [Poly.vertexPointMassParams]
    have : (([2, 3] : List ℝ).all fun m => decide (0 ≤ m)) = true := by norm_num
    simp only [this, pyAssert]
    rfl

end Rigeo
