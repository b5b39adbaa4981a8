import Verif.Props.RigidBody
import Verif.Props.DensityRealizable
import Verif.Props.Moment3

/-!
# Stronger forms of earlier properties

* C72 and C56 for `(10,)` parameter variables: every constraint builder treats the vector of a body exactly as its
  pseudo-inertia matrix.
* C53, C54, C56 with the default `eps = 0`: no hypothesis besides realizability.
* C17 in terms of the method `consistent`.
-/

namespace Rigeo

open Matrix

section Field
variable {K : Type} [Field K] [LinearOrder K] [IsStrictOrderedRing K]

theorem pimMustEqualParamVar_vec (p : IP K) (hH : p.Hᵀ = p.H) (eps : K) :
    pimMustEqualParamVar (.vec p.vec) eps = pimMustEqualParamVar (.mat p.J) eps := by
  simp only [pimMustEqualParamVar, C12_pim_of_vec p hH]

/-- C19: every constraint builder of the library gives the same constraints (and the same exceptions) for the
parameter vector of a body as for its pseudo-inertia matrix. -/
theorem C19_builders (p : IP K) (hH : p.Hᵀ = p.H) (eps : K) :
    (∀ (e : Ellipsoid K 3) t, e.momentConstraints (.vec p.vec) eps t = e.momentConstraints (.mat p.J) eps t) ∧
    (∀ P : Poly K 3, P.momentVertexConstraints (.vec p.vec) eps = P.momentVertexConstraints (.mat p.J) eps) ∧
    (∀ b : Box K, b.momentCustomVertexConstraints (.vec p.vec) eps =
      b.momentCustomVertexConstraints (.mat p.J) eps) ∧
    (∀ c : Cylinder K, c.momentCustomVertexConstraints (.vec p.vec) eps =
      c.momentCustomVertexConstraints (.mat p.J) eps) ∧
    (∀ (P : Poly K 3) d, P.momentSdpConstraints (.vec p.vec) eps d = P.momentSdpConstraints (.mat p.J) eps d) ∧
    (∀ (b : Box K) d, b.momentSdpConstraints (.vec p.vec) eps d = b.momentSdpConstraints (.mat p.J) eps d) ∧
    (∀ (c : Cylinder K) d, c.momentSdpConstraints (.vec p.vec) eps d = c.momentSdpConstraints (.mat p.J) eps d) := by
  have h := pimMustEqualParamVar_vec p hH eps
  have hP : ∀ (P : Poly K 3) d, P.momentSdpConstraints (.vec p.vec) eps d =
      P.momentSdpConstraints (.mat p.J) eps d := fun P d => by unfold Poly.momentSdpConstraints; rw [h]
  refine ⟨fun e t => ?_, fun P => ?_, fun b => ?_, fun c => ?_, hP, fun b d => hP _ d, fun c d => ?_⟩
  · unfold Ellipsoid.momentConstraints; rw [h]
  · unfold Poly.momentVertexConstraints; rw [h]
  · unfold Box.momentCustomVertexConstraints; rw [h]
  · unfold Cylinder.momentCustomVertexConstraints; rw [h]
  · unfold Cylinder.momentSdpConstraints; rw [h]

/-- C19, C56: and so do the constraints of bodies made of any number of shapes. -/
theorem C19_body (p : IP K) (hH : p.Hᵀ = p.H) (eps : K) (body : RigidBody K) (d : ℕ) :
    body.momentSdpConstraints (.vec p.vec) eps d = body.momentSdpConstraints (.mat p.J) eps d := by
  obtain ⟨h1, -, -, -, h2, h3, h4⟩ := C19_builders p hH eps
  have hs : ∀ s : AnyShape K, s.momentConstraints (.vec p.vec) eps d = s.momentConstraints (.mat p.J) eps d := by
    intro s
    cases s with
    | ellipsoid e => exact h1 e _
    | box b => exact h3 b d
    | poly P => exact h2 P d
    | cylinder c => exact h4 c d
    | capsule c => rfl
  unfold RigidBody.momentSdpConstraints
  rw [pimMustEqualParamVar_vec p hH eps]
  split
  · exact hs _
  · rfl

/-- C53 with the default `eps`: a body whose mass lies in the hull of the vertices satisfies the vertex
constraints, as a matrix and as a vector. -/
theorem C53_default (P : Poly K 3) (p : IP K)
    (hp : Spec.Realizable (Spec.hull P.vertices) p.mass p.h p.H) :
    Py.Holds (P.momentVertexConstraints (.mat p.J)) ∧ Py.Holds (P.momentVertexConstraints (.vec p.vec)) :=
  C53_necessary P p hp 0 le_rfl (by rw [zero_smul, sub_zero]; exact hp.psd)

/-- C54 with the default `eps`. -/
theorem C54_default (b : Box K) (hR : Spec.Orthogonal b.rotation) (p : IP K)
    (hp : Spec.Realizable (Spec.box b.halfExtents b.rotation b.center) p.mass p.h p.H) :
    Py.Holds (b.momentCustomVertexConstraints (.mat p.J)) ∧
      Py.Holds (b.momentCustomVertexConstraints (.vec p.vec)) :=
  C54_necessary b hR p hp 0 le_rfl (by rw [zero_smul, sub_zero]; exact hp.psd)

/-- C22: a polynomial of degree above `2 d` cannot be localized: `localize` raises `ValueError`. -/
theorem C22_degree_too_high {n d : ℕ} (M : Matrix (Fin (Polynomial.dim n d)) (Fin (Polynomial.dim n d)) K)
    (p : Polynomial K n) {D : ℕ} (hD : p.degree = .ok D) (hv : 2 * d < D) :
    MomentMatrix.localize n d M p = .error .value := by
  have hlt : d < MomentMatrix.halfDegree D := by unfold MomentMatrix.halfDegree; split <;> omega
  unfold MomentMatrix.localize
  rw [hD]
  simp only [bind, Except.bind, hlt, if_true]
  rfl

/-- `x³` and moments of order 1. -/
example : (⟨[(![3], 1)]⟩ : Polynomial ℚ 1).degree = .ok 3 ∧ 2 * 1 < 3 := ⟨by decide +kernel, by norm_num⟩

end Field

/-- C56 with the default `eps` and order. -/
theorem C56_default (body : RigidBody ℝ) (hs : ∀ s ∈ body.shapes, s.Usable) (p : IP ℝ)
    (hp : Spec.Realizable (Spec.bodyRegion body.shapes) p.mass p.h p.H) :
    Py.Holds (body.momentSdpConstraints (.mat p.J)) ∧ Py.Holds (body.momentSdpConstraints (.vec p.vec)) :=
  C56_necessary body hs p hp 0 le_rfl (by rw [zero_smul, sub_zero]; exact hp.psd) 2 (by norm_num)

/-- C60 on a continuous body: the uniform distribution of the mass 2 over the box with half extents 1, 2, 3 is carried
by the box, and so has the moments of finitely many point masses in it. -/
example : ∃ p : IP ℝ,
    (⟨![1, 2, 3], 1, 0⟩ : Box ℝ).uniformDensityParams 2 = .ok p ∧
    Spec.CarriedBy (Spec.uniform 2 (Spec.box ![1, 2, 3] 1 0)) (Spec.box ![1, 2, 3] 1 0) ∧
    Spec.HasMoments (Spec.uniform 2 (Spec.box ![1, 2, 3] 1 0)) p.mass p.h p.H ∧
    Spec.Realizable (Spec.box (![1, 2, 3] : Fin 3 → ℝ) 1 0) p.mass p.h p.H := by
  have ho : Spec.Orthogonal (1 : Matrix (Fin 3) (Fin 3) ℝ) := by simp [Spec.Orthogonal]
  obtain ⟨p, hp, hmom⟩ := C57_box ⟨![1, 2, 3], 1, 0⟩ (fun i => by fin_cases i <;> norm_num) ho 2 (by norm_num)
  have hc : IsCompact (Spec.box (![1, 2, 3] : Fin 3 → ℝ) 1 0) :=
    box_compact _ (fun i => by fin_cases i <;> norm_num) ho 0
  have hcar : Spec.CarriedBy (Spec.uniform 2 (Spec.box ![1, 2, 3] 1 0)) (Spec.box (![1, 2, 3] : Fin 3 → ℝ) 1 0) := by
    simp [Spec.CarriedBy, Spec.uniform, MeasureTheory.Measure.restrict_apply hc.measurableSet.compl]
  exact ⟨p, hp, hcar, hmom, C60_point_masses _ hc _ hcar _ _ _ hmom⟩

/-- C17 in terms of `consistent`: adding any consistent body to a consistent body of positive mass, moving it by any
rotation and translation (given or left out) and scaling it by a positive factor all succeed and give a body for
which `consistent()` is True. -/
theorem C17_consistent (p q : IP ℝ) (hp : p.Hᵀ = p.H) (hq : q.Hᵀ = q.H) (hm : 0 < p.mass)
    (cp : p.consistent = true) (cq : q.consistent = true) :
    (∃ r, p.add q = .ok r ∧ r.consistent = true) ∧
    (∀ R t, ∃ r, p.transform R t = .ok r ∧ r.consistent = true) ∧
    (∀ c : ℝ, 0 < c → ∃ r, IP.fromPim (c • p.J) = .ok r ∧ r.J = c • p.J ∧ r.consistent = true) := by
  have key : ∀ r : IP ℝ, Spec.PSD r.J → r.consistent = true := by
    intro r hr
    have hs := hr.1
    rw [IP.J, bordered_transpose, bordered_inj] at hs
    rw [C16_consistent_iff r hs.1, zero_smul, sub_zero]
    exact hr
  have hp' : Spec.PSD p.J := by
    have := (C16_consistent_iff p hp 0).mp cp
    rwa [zero_smul, sub_zero] at this
  have hq' : Spec.PSD q.J := by
    have := (C16_consistent_iff q hq 0).mp cq
    rwa [zero_smul, sub_zero] at this
  have hqm : 0 ≤ q.mass := (C17_energy q hq').2.1
  obtain ⟨h1, h2, h3⟩ := C17_closure p q hp' hq'
  refine ⟨?_, fun R t => ?_, fun c hc => ?_⟩
  · obtain ⟨r, hr, -⟩ := C15_add p q (by linarith)
    exact ⟨r, hr, key r (h1 r hr)⟩
  · obtain ⟨r, hr, -⟩ := C14_J p hm.le (R.getD 1) (t.getD 0)
    exact ⟨r, hr, key r (h2 R t r hr)⟩
  · have hr := IP.fromPim_bordered (c • p.H) (c • p.h) (c • p.h) (c * p.mass) (mul_pos hc hm)
    rw [← bordered_smul] at hr
    refine ⟨_, hr, ?_, key _ (h3 c _ hc.le hr)⟩
    rw [IP.J, IP.J, bordered_smul, bordered_inj]
    refine ⟨rfl, ?_, ?_, rfl⟩ <;>
    · ext i; simp only [IP.h, Pi.smul_apply, smul_eq_mul]; field_simp

/-- A unit mass at `(1, 0, 0)` meets the hypotheses of `C17_consistent`. -/
example : ∃ p : IP ℝ, p.Hᵀ = p.H ∧ 0 < p.mass ∧ p.consistent = true ∧ p.com ≠ 0 := by
  have hH : (outer ![1, 0, 0] ![1, 0, 0] : Matrix (Fin 3) (Fin 3) ℝ)ᵀ = outer ![1, 0, 0] ![1, 0, 0] := by
    ext i j; simp [outer, mul_comm]
  refine ⟨⟨1, ![1, 0, 0], outer ![1, 0, 0] ![1, 0, 0]⟩, hH, one_pos, ?_, fun h => by simpa using congrFun h 0⟩
  rw [C16_consistent_iff _ hH, zero_smul, sub_zero, C17_Hc _ one_pos]
  simpa [IP.Hc] using (Spec.PSD.zero (K := ℝ) (n := 3))

/-- C72 for parameter vectors: whatever vector satisfies the ellipsoid, vertex or box constraints with `eps`, it is
the vector of a body with `J - eps 1` PSD. -/
theorem C72_vec (p : IP ℝ) (hH : p.Hᵀ = p.H) (eps : ℝ)
    (h : (∃ (e : Ellipsoid ℝ 3) (t : Bool), Py.Holds (e.momentConstraints (.vec p.vec) eps t)) ∨
      (∃ P : Poly ℝ 3, Py.Holds (P.momentVertexConstraints (.vec p.vec) eps)) ∨
      ∃ b : Box ℝ, Py.Holds (b.momentCustomVertexConstraints (.vec p.vec) eps)) :
    0 ≤ eps ∧ Spec.PSD (p.J - eps • (1 : Matrix (Fin 4) (Fin 4) ℝ)) := by
  obtain ⟨h1, h2, h3, -⟩ := C19_builders p hH eps
  rcases h with ⟨e, t, h⟩ | ⟨P, h⟩ | ⟨b, h⟩
  · rw [h1] at h; exact C72_ellipsoid e p.J eps t h
  · rw [h2] at h; exact C72_vertex P p.J eps h
  · rw [h3] at h; exact C72_box b p.J eps h

/-- The hypotheses of `C72_vec` can be met with `eps > 0`: four unit masses at the origin and at distance 2 along the
axes, in the tetrahedron they span. -/
example : ∃ (p : IP ℝ) (P : Poly ℝ 3), p.Hᵀ = p.H ∧
    Py.Holds (P.momentVertexConstraints (.vec p.vec) (1 / 4)) := by
  let P : Poly ℝ 3 := ⟨[0, ![2, 0, 0], ![0, 2, 0], ![0, 0, 2]], ⟨[]⟩⟩
  let p : IP ℝ := ⟨4, ![1 / 2, 1 / 2, 1 / 2], (4 : ℝ) • 1⟩
  have hH : p.Hᵀ = p.H := by simp [p]
  have hreal : Spec.Realizable (Spec.hull P.vertices) p.mass p.h p.H := by
    refine ⟨[(1, 0), (1, ![2, 0, 0]), (1, ![0, 2, 0]), (1, ![0, 0, 2])], ?_, ?_, ?_, ?_, ?_⟩
    · intro mp hmp
      simp only [List.mem_cons, List.not_mem_nil, or_false] at hmp
      rcases hmp with rfl | rfl | rfl | rfl <;> norm_num
    · intro mp hmp
      refine subset_convexHull ℝ _ ?_
      simp only [List.mem_cons, List.not_mem_nil, or_false] at hmp
      rcases hmp with rfl | rfl | rfl | rfl <;> simp [P]
    · norm_num [Spec.PointMasses.mass, p]
    · ext i; fin_cases i <;> norm_num [Spec.PointMasses.first, p, IP.h]
    · ext i j; fin_cases i <;> fin_cases j <;> norm_num [Spec.PointMasses.second, p, outer, Matrix.one_apply]
  refine ⟨p, P, hH, (C53_necessary P p hreal (1 / 4) (by norm_num) ⟨?_, fun v => ?_⟩).2⟩
  · rw [transpose_sub, transpose_smul, transpose_one, IP.J, bordered_transpose, hH]
  · have e : v ⬝ᵥ ((p.J - (1 / 4 : ℝ) • (1 : Matrix (Fin 4) (Fin 4) ℝ)) *ᵥ v) =
        (15 / 4) * (v 0 ^ 2 + v 1 ^ 2 + v 2 ^ 2 + v 3 ^ 2) + 4 * v 3 * (v 0 + v 1 + v 2) := by
      have hJ : p.J = !![4, 0, 0, 2; 0, 4, 0, 2; 0, 0, 4, 2; 2, 2, 2, 4] := by
        rw [IP.J]
        apply ext_last
        · intro i j; rw [bordered_cc]; fin_cases i <;> fin_cases j <;> norm_num [p, Matrix.one_apply] <;> rfl
        · intro i; rw [bordered_cl]; fin_cases i <;> norm_num [p, IP.h] <;> rfl
        · intro i; rw [bordered_lc]; fin_cases i <;> norm_num [p, IP.h] <;> rfl
        · rw [bordered_ll]; rfl
      rw [hJ]
      simp [dotProduct, mulVec, Fin.sum_univ_four, Matrix.one_apply]
      ring
    rw [e]
    nlinarith [sq_nonneg (v 0 + v 3 * (8 / 15)), sq_nonneg (v 1 + v 3 * (8 / 15)), sq_nonneg (v 2 + v 3 * (8 / 15)), sq_nonneg (v 3)]

/-- C72 for parameter vectors: the semidefinite relaxations of polyhedra, boxes and cylinders ignore `eps`. -/
theorem C72_vec_ignored (p : IP ℝ) (hH : p.Hᵀ = p.H) (eps : ℝ) (heps : 0 ≤ eps) (P : Poly ℝ 3) (c : Cylinder ℝ)
    (d : ℕ) :
    P.momentSdpConstraints (.vec p.vec) eps d = P.momentSdpConstraints (.vec p.vec) 0 d ∧
      c.momentSdpConstraints (.vec p.vec) eps d = c.momentSdpConstraints (.vec p.vec) 0 d := by
  obtain ⟨-, -, -, -, h1, -, h2⟩ := C19_builders p hH eps
  obtain ⟨-, -, -, -, h3, -, h4⟩ := C19_builders p hH 0
  rw [h1, h2, h3, h4]
  exact C72_sdp_ignores_eps P c p.J eps heps d

end Rigeo
