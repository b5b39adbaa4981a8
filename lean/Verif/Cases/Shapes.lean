import Verif.Cases.Inertial

/-!
# Concrete cases: shapes

Cases for the theorems of Props/Shapes, Props/Shapes2, Props/Shapes3, Props/Shapes4, Props/Rejection, Props/Extremal, Props/Same,
Props/Surface, Props/Polydd, Props/Strengthen3 and Props/Strengthen4.
-/

namespace Rigeo.Case

open Matrix MeasureTheory

/-! ## Props/Shapes -/

example : (box : Box ℚ).contains pt 0 = true := (C25_contains box R_orth pt).mpr pt_box

example := C25_contains_tol (box : Box ℚ) R_orth pt (1 / 100)

example := C26_fromPointsToBound [(pt : Fin 3 → ℚ), t, ext] (by simp)

theorem ellipsoid_contains {K : Type} [Field K] [LinearOrder K] [IsStrictOrderedRing K] : (ellipsoid : Ellipsoid K 3).contains pt 0 = true :=
  (C27_contains ellipsoid R_orth ext_resolved pt).mpr pt_ellipsoid

theorem disk_resolved {K : Type} [Field K] [LinearOrder K] [IsStrictOrderedRing K] : ∀ i, Spec.Resolved ((disk : Ellipsoid K 3).halfExtents i) := by
  intro i; fin_cases i
  · right; norm_num [disk]
  · right; norm_num [disk]
  · left; norm_num [disk]

example := C27_contains (disk : Ellipsoid ℚ 3) R_orth disk_resolved pt

example : (ellipsoid : Ellipsoid ℚ 3).contains pt (1 / 100) = true := C27_mono _ _ 0 _ (by norm_num) ellipsoid_contains

example : ¬ (ellipsoid : Ellipsoid ℚ 3).mustContain pt (-1) := C29_negative_scale _ _ _ (by norm_num)

example : (ellipsoid : Ellipsoid ℚ 3).mustContain pt := (C29_unit_scale ellipsoid R_orth pt).mpr pt_ellipsoid

example := C29_zero_scale (ellipsoid : Ellipsoid ℚ 3) R_orth pt

/-! ## Props/Rejection -/

example : (pt : Fin 3 → ℚ) ∈ Spec.ellipsoid (fun i => (1 + 1 / 100) * ext i) R t :=
  C27_sound ellipsoid R_orth ext_big pt (1 / 100) (by norm_num) (C27_mono _ _ 0 _ (by norm_num) ellipsoid_contains)

example : (pt : Fin 3 → ℚ) ∈ Spec.capsule (4 * (1 + 1 / 100000000) + 2 / 100000000) (2 * (1 + 1 / 100000000) + 2 / 100000000) R t :=
  C32_sound_default capsule R_orth len_big rad_big pt
    (C32_complete capsule R_orth len_resolved rad_resolved pt _ (by norm_num [tol8]) pt_capsule)

example := C91_capsule_bound capsule R_orth len_big rad_big 5

example := C91_capsule_points capsule R_orth len_big rad_big

example := C91_capsule_success capsule R_orth len_big rad_big 5

/-- The test of one coordinate, with candidates drawn uniformly from the cube. -/
noncomputable def upperHalf : (Fin 3 → ℝ) → Bool := fun p => decide (0 ≤ p 0)

theorem upperHalf_measurable : ∀ c ∈ [upperHalf], Measurable c := by
  intro c hc
  simp only [List.mem_cons, List.not_mem_nil, or_false] at hc
  subst hc
  refine measurable_to_bool ?_
  have : upperHalf ⁻¹' {true} = {p | 0 ≤ p 0} := by ext p; simp [upperHalf]
  rw [this]
  exact measurableSet_le measurable_const (measurable_pi_apply 0)

instance : IsProbabilityMeasure (Spec.draws 3 (-1) 1) := draws_probability 3

theorem upperHalf_pos : Spec.draws 3 (-1) 1 {p | ∃ c ∈ [upperHalf], c p = true} ≠ 0 := by
  have hd : Spec.draw (-1) 1 (Set.Icc 0 1) ≠ 0 := by
    simp only [Spec.draw, Measure.smul_apply, smul_eq_mul]
    rw [Measure.restrict_apply measurableSet_Icc, Set.inter_eq_left.mpr (Set.Icc_subset_Icc (by norm_num) le_rfl), Real.volume_Icc]
    norm_num
  have : IsProbabilityMeasure (Spec.draw (-1) 1) := draw_probability (by norm_num)
  refine fun h => ?_
  have h1 : Spec.draws 3 (-1) 1 (Set.univ.pi fun _ => Set.Icc 0 1) = 0 := by
    refine measure_mono_null (fun p hp => ?_) h
    exact ⟨upperHalf, by simp, by simpa [upperHalf] using (hp 0 trivial).1⟩
  rw [Spec.draws, Measure.pi_pi, Finset.prod_eq_zero_iff] at h1
  obtain ⟨i, -, hi⟩ := h1
  exact hd hi

example := C91_success (Spec.draws 3 (-1) 1) [upperHalf] upperHalf_measurable 5 100

example := C91_law (Spec.draws 3 (-1) 1) [upperHalf] upperHalf_measurable upperHalf_pos 5 100
  (Set.univ.pi fun _ => Set.univ.pi fun _ => Set.Icc 0 (1 / 2))
  (MeasurableSet.univ_pi fun _ => MeasurableSet.univ_pi fun _ => measurableSet_Icc)

/-! ## Props/Shapes2 -/

example := C28_degenerate (disk : Ellipsoid ℚ 3) 2 rfl

example := C28_representations (ellipsoid : Ellipsoid ℚ 3) R_orth ext_big

example := C30_box (box : Box ℚ) R_orth pt (5 / 4) (by norm_num)

example := C30_capsule (capsule : Capsule ℚ) R_orth len_nonneg rad_nonneg pt (5 / 4) (by norm_num)

example := C30_com (box : Box ℚ) R_orth capsule R_orth len_nonneg rad_nonneg pt 3 (by norm_num)

example := C30_cylinder (cylinder : Cylinder ℚ) R_orth len_nonneg rad_nonneg pt (5 / 4) (by norm_num)

example := C30_poly (poly : Poly ℚ 3) pt (5 / 4) (by norm_num)

theorem cylinder_contains {K : Type} [Field K] [LinearOrder K] [IsStrictOrderedRing K] (tol : K) :
    (cylinder : Cylinder K).contains pt tol = true := C31_complete cylinder R_orth len_resolved rad_resolved pt tol pt_cylinder

example := C31_contains (cylinder : Cylinder ℚ) len_resolved rad_resolved pt _ rfl (1 / 100)

example : (pt : Fin 3 → ℚ) ∈ Spec.cylinder (4 * (1 + 1 / 100000000) + 2 / 100000000) (2 * (1 + 1 / 100000000) + 2 / 100000000) R t :=
  C31_sound cylinder R_orth len_resolved rad_resolved pt (1 / 100) (cylinder_contains _)

theorem capsule_contains {K : Type} [Field K] [LinearOrder K] [IsStrictOrderedRing K] :
    (capsule : Capsule K).contains pt 0 = .ok true := C32_complete capsule R_orth len_resolved rad_resolved pt 0 le_rfl pt_capsule

example := C32_hull (K := ℚ) R_orth 4 2 (by norm_num) t

example := C32_union (K := ℚ) R_orth 4 2 (by norm_num) t

example := C32_sound (capsule : Capsule ℚ) R_orth len_resolved rad_resolved pt capsule_contains

/-! ## Props/Shapes3 -/

theorem ext_small : ∀ i, (ext i : ℝ) < 100000000 := by
  intro i; fin_cases i <;> norm_num [ext]

example := C28_fromAffine eigh eigh_ok lstsq lstsq_ok ellipsoid R_orth ext_big ext_small

example := C28_fromShapeMatrix eigh eigh_ok ellipsoid R_orth ext_big ext_small

example : Ellipsoid.fromShapeMatrix eigh (!![1, 2; 2, 1] : Matrix (Fin 2) (Fin 2) ℝ) none = .error .assertion := by
  refine C28_singular eigh eigh_ok _ ?_ ![1, -1] ?_ ?_ none
  · ext i j; fin_cases i <;> fin_cases j <;> rfl
  · intro h; have := congrFun h 0; simp at this
  · norm_num [Matrix.mulVec, dotProduct]

example := C33_box (box : Box ℚ) ext_nonneg R R_orth ext

example := C33_capsule_partial (capsule : Capsule ℚ) len_nonneg rad_nonneg R R_orth ext

example := C33_cylinder (cylinder : Cylinder ℚ) len_nonneg rad_nonneg R R_orth ext

example := C33_ellipsoid (ellipsoid : Ellipsoid ℚ 3) ext_nonneg R R_orth ext

example := C33_rotateAboutCenter (box : Box ℚ) ext_nonneg ellipsoid ext_nonneg R

/-! ## Props/Strengthen3 -/

example := C30_cylinder_contains (cylinder : Cylinder ℚ) R_orth len_resolved rad_resolved pt (5 / 4) (by norm_num) (1 / 100)

/-! ## Props/Shapes4 -/

example := C34_box (box : Box ℚ) ext_nonneg

example := C34_capsule capsule R_orth len_nonneg rad_nonneg

example := C34_cylinder cylinder R_orth len_nonneg rad_nonneg

theorem poly_consistent {K : Type} [Field K] [LinearOrder K] [IsStrictOrderedRing K] : (poly : Poly K 3).Consistent :=
  Box.toPoly_consistent box ext_nonneg R_orth

example := C34_poly (poly : Poly ℚ 3) poly_consistent.1

example := C35_box_mbe box ext_nonneg R_orth true

example := C35_box_mie box ext_nonneg R_orth true

example := C35_capsule capsule R_orth len_nonneg rad_nonneg

example := C35_cylinder cylinder R_orth len_nonneg rad_nonneg

example := C35_ellipsoid ellipsoid ext_nonneg R_orth

/-! ## Props/Extremal -/

example := C36_box_mbe box ext_nonneg R_orth

example := C36_cylinder_mbe cylinder R_orth len_nonneg rad_nonneg

example := C37_box_mie box ext_nonneg R_orth

example := C37_box_mie_sphere box ext_nonneg R_orth

example := C38_ellipsoid_boxes ellipsoid ext_nonneg R_orth

example := C39_ellipsoid_mbe ellipsoid ext_nonneg R_orth

/-! ## Props/Same and Props/Strengthen4 -/

/-- The box in another pose with the same region: turned by a right angle. -/
example := C45_box (box : Box ℚ) ⟨![2, 1, 3], R * !![0, -1, 0; 1, 0, 0; 0, 0, 1], t⟩ ext_nonneg R_orth
  (by intro i; fin_cases i <;> norm_num)
  (R_orth.mul (by unfold Spec.Orthogonal; ext i j; fin_cases i <;> fin_cases j <;> simp [Matrix.mul_apply, Fin.sum_univ_three]))

example := C45_box_poly (box : Box ℚ) ext_nonneg R_orth poly poly_consistent poly_hull (1 / 100) (by norm_num)

example : (disk : Ellipsoid ℚ 3).isSame disk (1 / 100) = false := C45_degenerate disk 2 0 (by simp [disk]) (by simp [disk, R]) _

example := C45_degenerate_points (1 : ℚ) 2 (by norm_num) (by norm_num) (1 / 100)

example := C45_ellipsoid ellipsoid ⟨ext, 1, t⟩ R_orth Spec.Orthogonal.one ext_big ext_big

example := C45_poly (poly : Poly ℚ 3) (⟨ext, 1, t⟩ : Box ℚ).toPoly poly_consistent (Box.toPoly_consistent _ ext_nonneg Spec.Orthogonal.one)

example : (poly : Poly ℚ 3).isSame poly (1 / 100) = true := C45_poly_tol _ _ poly_consistent poly_consistent _ (by norm_num) rfl

example := C45_degenerate_self (3 / 5 : ℚ) (4 / 5) 2 1 (-1) (1 / 100) (by norm_num) (by norm_num) (by norm_num)

example := C64_as_poly cdd cdd_ok (box : Box ℚ) ext_nonneg

/-! ## Props/Surface -/

example := C43_box (box : Box ℚ) R_orth pt

example := C43_box_frontier box R_orth pt

example := C43_box_tol (box : Box ℚ) R_orth pt (1 / 100)

example := C43_degenerate (disk : Ellipsoid ℚ 3) R_orth disk_resolved ⟨2, rfl⟩ pt

example := C43_ellipsoid (ellipsoid : Ellipsoid ℚ 3) R_orth ext_big pt

example := C43_ellipsoid_frontier ellipsoid R_orth ext_resolved pt

/-! ## Props/Polydd -/

example : ∃ P₁ P₂, (poly : Poly ℚ 3).transform cdd (some R) (some t) = .ok P₁ ∧ P₁.transform cdd (some R) (some ext) = .ok P₂ ∧
    poly.transform cdd (some (R * R)) (some (R *ᵥ t + ext)) = .ok P₂ := by
  obtain ⟨P₁, h₁, hc, -⟩ := C33_poly_partial cdd cdd_ok (poly : Poly ℚ 3) poly_consistent R R_orth t
  obtain ⟨P₂, h₂, -⟩ := C33_poly_partial cdd cdd_ok P₁ hc R R_orth ext
  exact ⟨P₁, P₂, h₁, h₂, C33_poly_compose cdd poly R R t ext P₁ P₂ h₁ h₂⟩

example := C61_canonical (d := 3) (cdd : CddLib ℚ) cdd_ok

/-- A wedge: two vertices, a ray and a line. -/
def wedge : CddMat ℚ 3 := ⟨[(1, 0), (1, ![1, 0, 0]), (0, ![0, 1, 0]), (0, ![0, 0, 1])], [3]⟩

theorem wedge_lin : Spec.LinInRange wedge := by unfold Spec.LinInRange; decide +kernel

example := C61_face_from_cdd wedge wedge_lin

example := C61_face_roundtrip (poly : Poly ℚ 3).faceForm poly_consistent.2.1

example := C61_span_from_cdd wedge ⟨wedge_lin, by decide +kernel, by decide +kernel⟩

example : SpanForm.fromCdd (⟨[(1, 0), (1, ![1, 0, 0])], [1]⟩ : CddMat ℚ 3) = .error .assertion :=
  C61_span_from_cdd_assert _ (by unfold Spec.LinInRange; decide +kernel) ⟨(1, ![1, 0, 0]), by decide +kernel, by norm_num [tol8]⟩

def halfStrip : SpanForm ℚ 2 := ⟨some [![0, 0], ![1, 0]], some [![0, 1]]⟩

theorem halfStrip_proper : halfStrip.Proper := ⟨by simp [halfStrip], by simp [halfStrip], by simp [halfStrip]⟩

example := C61_span_roundtrip halfStrip halfStrip_proper

example := C61_to_face_form cdd cdd_ok halfStrip halfStrip_proper

example := C61_to_span_form cdd cdd_ok (poly : Poly ℚ 3).faceForm poly_consistent.2.1

example := C62_boxes cdd cdd_ok (box : Box ℚ) ⟨ext, 1, 0⟩ ext_nonneg ext_nonneg R_orth Spec.Orthogonal.one

example := C62_intersect cdd cdd_ok (poly : Poly ℚ 3) (⟨ext, 1, 0⟩ : Box ℚ).toPoly poly_consistent
  (Box.toPoly_consistent _ ext_nonneg Spec.Orthogonal.one)

example := C63_face (poly : Poly ℚ 3).faceForm R R_orth ext

example := C63_span (poly : Poly ℚ 3).vertices poly_consistent.1 R ext

example := C64_convex_hull cdd cdd_ok [![(0 : ℚ), 0], ![1, 0], ![1 / 2, 0], ![0, 1]]

example := C64_face_form cdd cdd_ok (poly : Poly ℚ 3).faceForm poly_consistent.2.1

example := C64_from_halfspaces cdd cdd_ok (poly : Poly ℚ 3).faceForm.faces poly_consistent.2.1

theorem box_bounded {K : Type} [Field K] [LinearOrder K] [IsStrictOrderedRing K] : Spec.Bounded (Spec.box (ext : Fin 3 → K) R t) := by
  obtain ⟨b, -, hR, h1, -⟩ := C34_poly (poly : Poly K 3) poly_consistent.1
  rw [poly_hull] at h1
  refine ⟨∑ i, (|b.center i| + |b.halfExtents i|), fun x hx i => ?_⟩
  obtain ⟨y, hy, rfl⟩ := h1 hx
  rw [hR]
  have h2 : |Spec.rigid 1 b.center y i| ≤ |b.center i| + |b.halfExtents i| := by
    simp only [Spec.rigid, Matrix.one_mulVec, Pi.add_apply]
    refine (abs_add_le _ _).trans ?_
    linarith [hy i, le_abs_self (b.halfExtents i)]
  exact h2.trans (Finset.single_le_sum (f := fun i => |b.center i| + |b.halfExtents i|) (fun j _ => by positivity) (Finset.mem_univ i))

theorem poly_halfspaces : Spec.halfspaces (poly : Poly ℚ 3).faceForm.faces = Spec.box ext R t := by
  rw [← poly_consistent.2.2, poly_hull]

example := C64_from_halfspaces_prune cdd cdd_ok (poly : Poly ℚ 3).faceForm.faces poly_consistent.2.1
  (by rw [poly_halfspaces]; exact ⟨pt, pt_box⟩) (by rw [poly_halfspaces]; exact box_bounded)

example := C64_from_vertices cdd cdd_ok [![(0 : ℚ), 0], ![1, 0], ![1 / 2, 0], ![0, 1]] (by simp)

example := C64_from_vertices_prune cdd cdd_ok [![(0 : ℚ), 0], ![1, 0], ![1 / 2, 0], ![0, 1]] (by simp)

example : Poly.init cdd none (some halfStrip) = .error .value := C64_rejects_rays cdd cdd_ok halfStrip halfStrip_proper (by simp [halfStrip])

end Rigeo.Case
