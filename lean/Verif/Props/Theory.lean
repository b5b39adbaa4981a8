import Verif.Model.Theory
import Verif.Props.ThinShell

/-!
# C96: the derivations in `scripts/theory`
-/

namespace Rigeo

open Matrix MeasureTheory Filter Topology Theory

/-- The limit taken by the shell scripts. -/
theorem shellInertia_limit (k a b c : ℝ) (ha : 0 < a) (hb : 0 < b) (hc : 0 < c) :
    ∀ i j, Tendsto (fun δ => shellInertia k a b c δ i j) (𝓝[>] 0) (𝓝 ((diagonal
      ![1 / k * (b ^ 2 + c ^ 2 + 2 * (a * b * c) * (b + c) / (a * b + a * c + b * c)),
        1 / k * (a ^ 2 + c ^ 2 + 2 * (a * b * c) * (a + c) / (a * b + a * c + b * c)),
        1 / k * (a ^ 2 + b ^ 2 + 2 * (a * b * c) * (a + b) / (a * b + a * c + b * c))] : Matrix (Fin 3) (Fin 3) ℝ) i j)) := by
  have key : ∀ x y : ℝ, Tendsto (fun δ => 1 / k * (1 / ((a + δ) * (b + δ) * (c + δ) - a * b * c) *
      ((a + δ) * (b + δ) * (c + δ) * ((x + δ) ^ 2 + (y + δ) ^ 2) - a * b * c * (x ^ 2 + y ^ 2)))) (𝓝[>] 0)
      (𝓝 (1 / k * (x ^ 2 + y ^ 2 + 2 * (a * b * c) * (x + y) / (a * b + a * c + b * c)))) := by
    intro x y
    refine Tendsto.const_mul _ ?_
    have hden : ∀ δ : ℝ, 0 ≤ δ → 0 < a * b + a * c + b * c + (a + b + c) * δ + δ ^ 2 := fun δ hδ => by positivity
    have hc : ContinuousAt (fun δ : ℝ => x ^ 2 + y ^ 2 + 2 * ((a + δ) * (b + δ) * (c + δ)) * (x + y + δ) /
        (a * b + a * c + b * c + (a + b + c) * δ + δ ^ 2)) 0 := by
      refine ContinuousAt.add continuousAt_const (ContinuousAt.div ?_ ?_ (hden 0 le_rfl).ne')
      · fun_prop
      · fun_prop
    have ht := hc.tendsto.mono_left (nhdsWithin_le_nhds (s := Set.Ioi 0))
    simp only [add_zero, mul_zero, ne_eq, OfNat.ofNat_ne_zero, not_false_eq_true, zero_pow] at ht
    refine ht.congr' ?_
    filter_upwards [self_mem_nhdsWithin] with δ hδ
    have hδ' : 0 < δ := hδ
    have h1 := hden δ hδ'.le
    have hfac : (a + δ) * (b + δ) * (c + δ) - a * b * c =
        δ * (a * b + a * c + b * c + (a + b + c) * δ + δ ^ 2) := by ring
    rw [hfac]
    have h2 := h1.ne'
    have h3 : (a + δ) * (b + δ) * (c + δ) = a * b * c + δ * (a * b + a * c + b * c + (a + b + c) * δ + δ ^ 2) := by ring
    generalize a * b + a * c + b * c + (a + b + c) * δ + δ ^ 2 = F at h2 h3 ⊢
    rw [h3]
    field_simp
    ring
  intro i j
  fin_cases i <;> fin_cases j <;> simp [shellInertia, S] <;> first | simpa using key b c | simpa using key a c | simpa using key a b

theorem boxShellParax_eq (a b c : ℝ) (h : a * b + a * c + b * c ≠ 0) : boxShellParax a b c = diagonal
      ![a ^ 2 * (a * b + a * c + 3 * b * c) / (3 * (a * b + a * c + b * c)),
        b ^ 2 * (a * b + 3 * a * c + b * c) / (3 * (a * b + a * c + b * c)),
        c ^ 2 * (3 * a * b + a * c + b * c) / (3 * (a * b + a * c + b * c))] := by
  have h8 : 2 * 4 * b * c + 2 * 4 * a * c + 2 * 4 * a * b = 8 * (a * b + a * c + b * c) := by ring
  unfold boxShellParax
  dsimp only
  rw [h8]
  generalize a * b + a * c + b * c = F at h
  ext i j
  fin_cases i <;> fin_cases j <;> simp <;> field_simp <;> ring

theorem inertia_diag (x y z : ℝ) : (diagonal ![x, y, z]).trace • (1 : Matrix (Fin 3) (Fin 3) ℝ) - diagonal ![x, y, z] =
    diagonal ![y + z, x + z, x + y] := by
  ext i j
  fin_cases i <;> fin_cases j <;> simp [Matrix.trace, Fin.sum_univ_three] <;> ring

theorem pose_trivial (M : Matrix (Fin 3) (Fin 3) ℝ) :
    (1 : Matrix (Fin 3) (Fin 3) ℝ) * ((1 : ℝ) • M) * (1 : Matrix (Fin 3) (Fin 3) ℝ)ᵀ + (1 : ℝ) • outer 0 0 = M := by
  ext i j
  simp [outer]

theorem secondMoment_inertia (H : Matrix (Fin 3) (Fin 3) ℝ) : secondMoment (inertia H) = H := by
  ext i j
  fin_cases i <;> fin_cases j <;> simp [secondMoment, inertia, Matrix.trace, Fin.sum_univ_three] <;> ring

/-- C96: the limit in `box_shell_inertia.py` is the inertia derived there with the parallel axis theorem, and the inertia of
`Box.hollow_density_params`; so are the second moments. -/
theorem C96_box_shell (a b c : ℝ) (ha : 0 < a) (hb : 0 < b) (hc : 0 < c) :
    ∃ p, (⟨![a, b, c], 1, 0⟩ : Box ℝ).hollowDensityParams 1 = .ok p ∧
      (∀ i j, Tendsto (fun δ => shellInertia 3 a b c δ i j) (𝓝[>] 0) (𝓝 (p.I i j))) ∧
      inertia (boxShellParax a b c) = p.I ∧ boxShellParax a b c = p.H ∧ secondMoment p.I = p.H := by
  have hA : 0 < a * b + a * c + b * c := by positivity
  refine ⟨_, Box.hollowDensityParams_ok ⟨![a, b, c], 1, 0⟩ 1 one_pos (by simpa using hA.ne'), ?_⟩
  simp only [cons_val_zero, cons_val_one, cons_val, pose_trivial, IP.I, H2I]
  rw [← boxShellParax_eq a b c hA.ne']
  refine ⟨fun i j => ?_, rfl, rfl, secondMoment_inertia _⟩
  convert shellInertia_limit 3 a b c ha hb hc i j using 2
  rw [boxShellParax_eq a b c hA.ne', inertia_diag]
  have h2 := hA.ne'
  refine congrFun (congrFun (congrArg diagonal ?_) i) j
  generalize hF : a * b + a * c + b * c = F at h2
  ext l
  fin_cases l <;> simp <;> field_simp
  · linear_combination (b ^ 2 + c ^ 2) * hF
  · linear_combination (a ^ 2 + c ^ 2) * hF
  · linear_combination (a ^ 2 + b ^ 2) * hF

/-- C96: the assertions of `box_shell_inertia.py` on the cube. -/
theorem C96_cube_shell (r : ℝ) (hr : r ≠ 0) : boxShellParax r r r = (5 / 9 * r ^ 2) • (1 : Matrix (Fin 3) (Fin 3) ℝ) ∧
    inertia (boxShellParax r r r) = (5 / 9 : ℝ) • inertia (r ^ 2 • 1) := by
  have h : boxShellParax r r r = (5 / 9 * r ^ 2) • (1 : Matrix (Fin 3) (Fin 3) ℝ) := by
    have h2 : r * r + r * r + r * r ≠ 0 := by
      rw [show r * r + r * r + r * r = 3 * r ^ 2 by ring]
      positivity
    rw [boxShellParax_eq r r r h2]
    ext i j
    fin_cases i <;> fin_cases j <;> simp <;> field_simp <;> ring
  refine ⟨h, ?_⟩
  rw [h]
  ext i j
  fin_cases i <;> fin_cases j <;> simp [inertia, Matrix.trace, Fin.sum_univ_three] <;> ring

/-- C96: the limit in `ellipsoid_shell_inertia.py` is the inertia of `Ellipsoid.hollow_density_params`. -/
theorem C96_ellipsoid_shell (a b c : ℝ) (ha : 0 < a) (hb : 0 < b) (hc : 0 < c) :
    ∃ p, (⟨![a, b, c], 1, 0⟩ : Ellipsoid ℝ 3).hollowDensityParams 1 = .ok p ∧
      (∀ i j, Tendsto (fun δ => shellInertia 5 a b c δ i j) (𝓝[>] 0) (𝓝 (p.I i j))) ∧ secondMoment p.I = p.H := by
  have hA : 0 < a * b + a * c + b * c := by positivity
  refine ⟨_, Ellipsoid.hollowDensityParams_ok ⟨![a, b, c], 1, 0⟩ 1 one_pos (by simpa using hA.ne'), ?_⟩
  simp only [cons_val_zero, cons_val_one, cons_val, pose_trivial, IP.I, H2I]
  refine ⟨fun i j => ?_, secondMoment_inertia _⟩
  convert shellInertia_limit 5 a b c ha hb hc i j using 2
  rw [inertia_diag]
  have h2 := hA.ne'
  refine congrFun (congrFun (congrArg diagonal ?_) i) j
  generalize hF : a * b + a * c + b * c = F at h2
  ext l
  fin_cases l <;> simp <;> field_simp
  · linear_combination (b ^ 2 + c ^ 2) * hF
  · linear_combination (a ^ 2 + c ^ 2) * hF
  · linear_combination (a ^ 2 + b ^ 2) * hF

/-- C96: the limit printed by `sphere_shell_inertia`, and the inertia of a spherical shell that follows from it. -/
theorem C96_sphere_shell (r : ℝ) (hr : 0 < r) : Tendsto (sphereShell r) (𝓝[>] 0) (𝓝 (5 / 3 * r ^ 2)) ∧
    ∀ i j, Tendsto (fun δ => shellInertia 5 r r r δ i j) (𝓝[>] 0)
      (𝓝 (((2 / 5 * (5 / 3 * r ^ 2)) • (1 : Matrix (Fin 3) (Fin 3) ℝ)) i j)) := by
  constructor
  · have hc : ContinuousAt (fun δ : ℝ => (5 * r ^ 4 + 10 * r ^ 3 * δ + 10 * r ^ 2 * δ ^ 2 + 5 * r * δ ^ 3 + δ ^ 4) /
        (3 * r ^ 2 + 3 * r * δ + δ ^ 2)) 0 := by
      refine ContinuousAt.div ?_ ?_ (by simp; positivity)
      · fun_prop
      · fun_prop
    have ht := hc.tendsto.mono_left (nhdsWithin_le_nhds (s := Set.Ioi 0))
    simp only [add_zero, mul_zero, ne_eq, OfNat.ofNat_ne_zero, not_false_eq_true, zero_pow] at ht
    rw [show 5 * r ^ 4 / (3 * r ^ 2) = 5 / 3 * r ^ 2 by field_simp] at ht
    refine ht.congr' ?_
    filter_upwards [self_mem_nhdsWithin] with δ hδ
    have hδ' : 0 < δ := hδ
    have h1 : 3 * r ^ 2 + 3 * r * δ + δ ^ 2 ≠ 0 := by positivity
    unfold sphereShell
    rw [show (r + δ) ^ 3 - r ^ 3 = δ * (3 * r ^ 2 + 3 * r * δ + δ ^ 2) by ring,
      show (r + δ) ^ 5 - r ^ 5 = δ * (5 * r ^ 4 + 10 * r ^ 3 * δ + 10 * r ^ 2 * δ ^ 2 + 5 * r * δ ^ 3 + δ ^ 4) by ring,
      mul_div_mul_left _ _ hδ'.ne']
  · intro i j
    convert shellInertia_limit 5 r r r hr hr hr i j using 2
    fin_cases i <;> fin_cases j <;> simp <;> field_simp <;> ring

/-- C96: `box_vertex_inertia.py`: the eighth masses at the vertices have the second moments `a², b², c²`, which are those that
`InertialParameters.from_point_masses` computes from the vertices of the box. -/
theorem C96_vertices (a b c : ℝ) : boxVertex a b c = diagonal ![a ^ 2, b ^ 2, c ^ 2] ∧
    ∃ p, IP.fromPointMasses (List.replicate 8 (1 / 8)) (⟨![a, b, c], 1, 0⟩ : Box ℝ).vertices = .ok p ∧
      p.H = boxVertex a b c ∧ p.I = inertia (boxVertex a b c) := by
  have h : boxVertex a b c = diagonal ![a ^ 2, b ^ 2, c ^ 2] := by
    unfold boxVertex
    ext i j
    fin_cases i <;> fin_cases j <;> simp [outer] <;> ring
  have hv : (⟨![a, b, c], 1, 0⟩ : Box ℝ).vertices = [![a, b, c], ![a, b, -c], ![a, -b, c], ![a, -b, -c], ![-a, b, c],
      ![-a, b, -c], ![-a, -b, c], ![-a, -b, -c]] := by
    simp [Box.vertices, Box.toPoly, Box.boxVerts, boxVertices, signCombos]
    refine ⟨?_, ?_, ?_, ?_, ?_, ?_, ?_, ?_⟩ <;> ext i <;> fin_cases i <;> simp <;>
      first | exact one_mul c | exact neg_one_mul c
  have hs := fromPointMasses_eq ((⟨![a, b, c], 1, 0⟩ : Box ℝ).vertices.map fun v => ((1 / 8 : ℝ), v))
    (by rw [hv]; simp [Spec.PointMasses.mass]; norm_num)
  have e1 : (((⟨![a, b, c], 1, 0⟩ : Box ℝ).vertices.map fun v => ((1 / 8 : ℝ), v)).map Prod.fst) =
      List.replicate 8 (1 / 8) := by
    rw [hv]
    rfl
  have e2 : (((⟨![a, b, c], 1, 0⟩ : Box ℝ).vertices.map fun v => ((1 / 8 : ℝ), v)).map Prod.snd) =
      (⟨![a, b, c], 1, 0⟩ : Box ℝ).vertices := by
    rw [hv]
    rfl
  rw [e1, e2] at hs
  refine ⟨h, _, hs, ?_⟩
  have hH : Spec.PointMasses.second ((⟨![a, b, c], 1, 0⟩ : Box ℝ).vertices.map fun v => ((1 / 8 : ℝ), v)) =
      boxVertex a b c := by
    rw [hv]
    simp [Spec.PointMasses.second, boxVertex, outer_eq_vecMulVec]
  rw [hH]
  exact ⟨rfl, rfl⟩

/-- C96: the assertions of `box_vertex_inertia.py` on the cube. -/
theorem C96_cube_vertices (r : ℝ) : boxVertex r r r = r ^ 2 • (1 : Matrix (Fin 3) (Fin 3) ℝ) := by
  unfold boxVertex
  ext i j
  fin_cases i <;> fin_cases j <;> simp [outer] <;> ring

theorem boxEdge_eq (a b c : ℝ) (h : a + b + c ≠ 0) : boxEdge a b c = diagonal
      ![a ^ 2 * (a / 3 + b + c) / (a + b + c), b ^ 2 * (a + b / 3 + c) / (a + b + c),
        c ^ 2 * (a + b + c / 3) / (a + b + c)] := by
  unfold boxEdge
  dsimp only
  generalize hF : a + b + c = F at h
  ext i j
  fin_cases i <;> fin_cases j <;> simp [outer] <;> field_simp <;> ring

/-- C96: the second moments derived in `box_wireframe_inertia.py` are those of `Box.wireframe_density_params`. -/
theorem C96_wireframe (a b c : ℝ) (h : a + b + c ≠ 0) :
    ∃ p, (⟨![a, b, c], 1, 0⟩ : Box ℝ).wireframeDensityParams 1 = .ok p ∧ boxEdge a b c = p.H ∧
      inertia (boxEdge a b c) = p.I := by
  refine ⟨_, Box.wireframeDensityParams_ok ⟨![a, b, c], 1, 0⟩ 1 one_pos (by simpa using h), ?_⟩
  simp only [cons_val_zero, cons_val_one, cons_val, pose_trivial, IP.I, H2I]
  rw [← boxEdge_eq a b c h]
  exact ⟨rfl, rfl⟩

/-- C96: the assertions of `box_wireframe_inertia.py` on the cube. -/
theorem C96_cube_wireframe (r : ℝ) (hr : r ≠ 0) : boxEdge r r r = (7 / 9 * r ^ 2) • (1 : Matrix (Fin 3) (Fin 3) ℝ) ∧
    inertia (boxEdge r r r) = (7 / 9 : ℝ) • inertia (r ^ 2 • 1) := by
  have h : boxEdge r r r = (7 / 9 * r ^ 2) • (1 : Matrix (Fin 3) (Fin 3) ℝ) := by
    have h2 : r + r + r ≠ 0 := by
      rw [show r + r + r = 3 * r by ring]
      positivity
    rw [boxEdge_eq r r r h2]
    ext i j
    fin_cases i <;> fin_cases j <;> simp <;> field_simp <;> ring
  refine ⟨h, ?_⟩
  rw [h]
  ext i j
  fin_cases i <;> fin_cases j <;> simp [inertia, Matrix.trace, Fin.sum_univ_three] <;> ring


section
variable {K : Type} [Field K] [CharZero K]

/-- C96: the assertion of `cuboid_density_realizability_proof.py`: `A μ = b`, whatever `α` is. -/
theorem C96_cuboid (rx ry rz α Hxy Hxz Hyz hx hy hz m : K) (h1 : rx ≠ 0) (h2 : ry ≠ 0) (h3 : rz ≠ 0) :
    cuboidA rx ry rz *ᵥ cuboidMu rx ry rz α Hxy Hxz Hyz hx hy hz m = ![Hxy, Hxz, Hyz, hx, hy, hz, m] := by
  ext i
  fin_cases i <;> simp [cuboidA, cuboidMu, cuboidVertices, outer, mulVec, dotProduct, Fin.sum_univ_eight] <;> field_simp <;> ring

/-- C96: the matrix `P` of `cylinder_density_realizability_proof.py` agrees with that of the point `(px, py, pz, 1)` except
that the square of `pz` is replaced by that of `rz`. -/
theorem C96_cylinder (rz px py pz : K) (h : rz ≠ 0) :
    cylinderP rz px py pz = outer ![px, py, pz, 1] ![px, py, pz, 1] + (rz ^ 2 - pz ^ 2) • Matrix.single 2 2 1 := by
  ext i j
  fin_cases i <;> fin_cases j <;> simp [cylinderP, outer, Matrix.single_apply] <;> field_simp <;> ring

end

/-- C96: the conclusion of the proof in `cuboid_density_realizability_proof.py`: whatever the distribution of mass in the
box, the integrals of `φ` are non-negative masses at the vertices with the same mass, first moments and products of
inertia. -/
theorem C96_cuboid_necessary (r : Fin 3 → ℝ) (hr : ∀ i, 0 < r i) (μ : Measure (Fin 3 → ℝ))
    (hμ : Spec.CarriedBy μ (Spec.box r 1 0)) (m : ℝ) (h : Fin 3 → ℝ) (H : Matrix (Fin 3) (Fin 3) ℝ)
    (hm : Spec.HasMoments μ m h H) :
    (∀ i, 0 ≤ ∫ p, cuboidPhi (r 0) (r 1) (r 2) p i ∂μ) ∧
      (cuboidA (r 0) (r 1) (r 2) *ᵥ fun i => ∫ p, cuboidPhi (r 0) (r 1) (r 2) p i ∂μ) =
        ![H 0 1, H 0 2, H 1 2, h 0, h 1, h 2, m] := by
  have h0 := hr 0; have h1 := hr 1; have h2 := hr 2
  have hfin := hm.finite
  have hae : ∀ᵐ p ∂μ, ∀ i, |p i| ≤ r i := by
    have : ∀ᵐ p ∂μ, p ∈ Spec.box r 1 0 := hμ
    filter_upwards [this] with p hp i
    obtain ⟨y, hy, rfl⟩ := hp
    simpa [Spec.rigid] using hy i
  have hi3 : Integrable (fun p : Fin 3 → ℝ => p 0 * p 1 * p 2) μ := by
    refine Integrable.of_bound (by fun_prop) (r 0 * r 1 * r 2) ?_
    filter_upwards [hae] with p hp
    rw [Real.norm_eq_abs, abs_mul, abs_mul]
    gcongr
    · exact hp 0
    · exact hp 1
    · exact hp 2
  have key : ∀ sx sy sz : ℝ, ∫ p, (r 0 + sx * p 0) * (r 1 + sy * p 1) * (r 2 + sz * p 2) ∂μ =
      r 0 * r 1 * r 2 * m + sx * r 1 * r 2 * h 0 + sy * r 0 * r 2 * h 1 + sz * r 0 * r 1 * h 2 +
      sx * sy * r 2 * H 0 1 + sx * sz * r 1 * H 0 2 + sy * sz * r 0 * H 1 2 +
      sx * sy * sz * ∫ p, p 0 * p 1 * p 2 ∂μ := by
    intro sx sy sz
    have e : ∀ p : Fin 3 → ℝ, (r 0 + sx * p 0) * (r 1 + sy * p 1) * (r 2 + sz * p 2) =
        r 0 * r 1 * r 2 + sx * r 1 * r 2 * p 0 + sy * r 0 * r 2 * p 1 + sz * r 0 * r 1 * p 2 +
        sx * sy * r 2 * (p 0 * p 1) + sx * sz * r 1 * (p 0 * p 2) + sy * sz * r 0 * (p 1 * p 2) +
        sx * sy * sz * (p 0 * p 1 * p 2) := fun p => by ring
    simp only [e]
    have i0 : Integrable (fun _ : Fin 3 → ℝ => r 0 * r 1 * r 2) μ := integrable_const _
    have i1 : Integrable (fun p => r 0 * r 1 * r 2 + sx * r 1 * r 2 * p 0) μ := i0.add ((hm.integrable 0).const_mul _)
    have i2 : Integrable (fun p => r 0 * r 1 * r 2 + sx * r 1 * r 2 * p 0 + sy * r 0 * r 2 * p 1) μ :=
      i1.add ((hm.integrable 1).const_mul _)
    have i3 : Integrable (fun p => r 0 * r 1 * r 2 + sx * r 1 * r 2 * p 0 + sy * r 0 * r 2 * p 1 +
      sz * r 0 * r 1 * p 2) μ := i2.add ((hm.integrable 2).const_mul _)
    have i4 : Integrable (fun p => r 0 * r 1 * r 2 + sx * r 1 * r 2 * p 0 + sy * r 0 * r 2 * p 1 +
      sz * r 0 * r 1 * p 2 + sx * sy * r 2 * (p 0 * p 1)) μ := i3.add ((hm.integrable_sq 0 1).const_mul _)
    have i5 : Integrable (fun p => r 0 * r 1 * r 2 + sx * r 1 * r 2 * p 0 + sy * r 0 * r 2 * p 1 +
      sz * r 0 * r 1 * p 2 + sx * sy * r 2 * (p 0 * p 1) + sx * sz * r 1 * (p 0 * p 2)) μ :=
      i4.add ((hm.integrable_sq 0 2).const_mul _)
    have i6 : Integrable (fun p => r 0 * r 1 * r 2 + sx * r 1 * r 2 * p 0 + sy * r 0 * r 2 * p 1 +
      sz * r 0 * r 1 * p 2 + sx * sy * r 2 * (p 0 * p 1) + sx * sz * r 1 * (p 0 * p 2) + sy * sz * r 0 * (p 1 * p 2)) μ :=
      i5.add ((hm.integrable_sq 1 2).const_mul _)
    rw [MeasureTheory.integral_add i6 (hi3.const_mul _), MeasureTheory.integral_add i5 ((hm.integrable_sq 1 2).const_mul _),
      MeasureTheory.integral_add i4 ((hm.integrable_sq 0 2).const_mul _), MeasureTheory.integral_add i3 ((hm.integrable_sq 0 1).const_mul _),
      MeasureTheory.integral_add i2 ((hm.integrable 2).const_mul _), MeasureTheory.integral_add i1 ((hm.integrable 1).const_mul _),
      MeasureTheory.integral_add i0 ((hm.integrable 0).const_mul _)]
    simp only [integral_const_mul, hm.first, hm.second, integral_const, hm.mass, smul_eq_mul]
    ring
  have hpos : ∀ sx sy sz : ℝ, |sx| = 1 → |sy| = 1 → |sz| = 1 →
      0 ≤ ∫ p, (r 0 + sx * p 0) * (r 1 + sy * p 1) * (r 2 + sz * p 2) ∂μ := by
    intro sx sy sz hx hy hz
    refine integral_nonneg_of_ae ?_
    filter_upwards [hae] with p hp
    have b : ∀ (s : ℝ) (i : Fin 3), |s| = 1 → 0 ≤ r i + s * p i := by
      intro s i hs
      have : |s * p i| ≤ r i := by rw [abs_mul, hs, one_mul]; exact hp i
      linarith [(abs_le.mp this).1]
    exact mul_nonneg (mul_nonneg (b _ 0 hx) (b _ 1 hy)) (b _ 2 hz)
  have hφ : (fun i => ∫ p, cuboidPhi (r 0) (r 1) (r 2) p i ∂μ) =
      cuboidMu (r 0) (r 1) (r 2) (∫ p, p 0 * p 1 * p 2 ∂μ) (H 0 1) (H 0 2) (H 1 2) (h 0) (h 1) (h 2) m := by
    funext i
    unfold cuboidMu
    dsimp only
    simp only [← key, cuboidPhi, integral_div]
    congr 1
    fin_cases i <;> simp [sub_eq_add_neg]
  rw [hφ]
  refine ⟨fun i => ?_, C96_cuboid _ _ _ _ _ _ _ _ _ _ _ h0.ne' h1.ne' h2.ne'⟩
  rw [show ∫ p, cuboidPhi (r 0) (r 1) (r 2) p i ∂μ = _ from congrFun hφ i]
  have hp1 : |(1 : ℝ)| = 1 := abs_one
  have hm1 : |(-1 : ℝ)| = 1 := by norm_num
  unfold cuboidMu
  dsimp only
  simp only [← key]
  refine div_nonneg ?_ (by positivity)
  fin_cases i
  · exact hpos 1 1 1 hp1 hp1 hp1
  · exact hpos 1 1 (-1) hp1 hp1 hm1
  · exact hpos 1 (-1) 1 hp1 hm1 hp1
  · exact hpos 1 (-1) (-1) hp1 hm1 hm1
  · exact hpos (-1) 1 1 hm1 hp1 hp1
  · exact hpos (-1) 1 (-1) hm1 hp1 hm1
  · exact hpos (-1) (-1) 1 hm1 hm1 hp1
  · exact hpos (-1) (-1) (-1) hm1 hm1 hm1

/-- A body that meets the hypotheses: the unit mass at the centre of a box. -/
example : Spec.CarriedBy (Measure.dirac (0 : Fin 3 → ℝ)) (Spec.box ![1, 2, 3] 1 0) ∧
    Spec.HasMoments (Measure.dirac (0 : Fin 3 → ℝ)) 1 0 0 := by
  refine ⟨?_, inferInstance, fun i => ?_, fun i j => ?_, by simp, fun i => by simp, fun i j => by simp⟩
  · have : ∀ᵐ p ∂Measure.dirac (0 : Fin 3 → ℝ), p ∈ Spec.box ![(1 : ℝ), 2, 3] 1 0 := by
      rw [ae_dirac_eq]
      exact ⟨0, fun i => by fin_cases i <;> simp, by simp [Spec.rigid]⟩
    exact this
  · exact integrable_dirac (by simp)
  · exact integrable_dirac (by simp)

end Rigeo
