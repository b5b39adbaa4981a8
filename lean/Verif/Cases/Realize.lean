import Verif.Cases.Moment
import Verif.Props.Wrappers
import Verif.Props.Polydd3
import Verif.Props.TestClaims
import Verif.Props.Support

/-!
# Concrete cases: realizability and mass distributions

Cases for the theorems of Props/Realize, Props/Realize2, Props/Realize3, Props/Realize4, Props/RigidBody, Props/Density, Props/Shells,
Props/DensityRealizable, Props/Measure, Props/Extent, Props/Support, Props/TestClaims, Props/Wrappers and Props/Polydd3.
-/

namespace Rigeo.Case

open Matrix MeasureTheory

/-! ## Props/Realize -/

theorem disk_flat : ∃ i, (disk : Ellipsoid ℝ 3).halfExtents i = 0 := ⟨2, rfl⟩

example := C50_degenerate disk R_orth disk_resolved disk_flat ip ip_symm (1 / 1000000000) (by norm_num)

example : disk.canRealize ip (1 / 10) = .ok false := C50_degenerate_eps disk R_orth disk_resolved disk_flat ip ip_symm (1 / 10) (by norm_num)

theorem ellipsoid_accepts : ellipsoid.canRealize ip = .ok true := by
  obtain ⟨b, hb, h⟩ := C50_exact ellipsoid R_orth ext_big ip ip_symm
  rw [hb, h.mpr ip_ellipsoid]

example := C50_exact_eps ellipsoid R_orth ext_big ip ip_symm (1 / 100) (by norm_num)

/-- An ellipsoid thinner than the code resolves. -/
noncomputable def thin : Ellipsoid ℝ 3 := ⟨![1, 2, 1 / 1000000000], R, t⟩

example : thin.canRealize ip 0 = .error .assertion :=
  C50_unresolved thin (by intro i; fin_cases i <;> simp [thin]) 2 (by simp [thin, abs_le]; norm_num) ip 0 ip_consistent

theorem ellipsoid_holds (useTrace : Bool) : Py.Holds (ellipsoid.momentConstraints (.vec (ip : IP ℝ).vec) 0 useTrace) :=
  (C51_agrees ellipsoid R_orth ext_big ip ip_symm 0 le_rfl useTrace).mpr ellipsoid_accepts

example := C51_degenerate_eps disk R_orth disk_resolved disk_flat (ip : IP ℝ).J (1 / 10) (by norm_num) true

example := C51_mat disk R_orth disk_resolved (ip : IP ℝ).J (1 / 10) (by norm_num) true

example := C51_unresolved thin 2 (by simp [thin, abs_le]; norm_num) (by simp [thin]) (ip : IP ℝ).J 0 le_rfl

example := C51_vec disk R_orth disk_resolved ip ip_symm (1 / 10) (by norm_num) true

/-! ## Props/Realize2, Props/Realize3, Props/Realize4 -/

theorem poly_holds {K : Type} [Field K] [LinearOrder K] [IsStrictOrderedRing K] :
    Py.Holds ((poly : Poly K 3).momentVertexConstraints (.mat (ip : IP K).J) 0) := (C53_default poly ip ip_poly).1

theorem box_holds {K : Type} [Field K] [LinearOrder K] [IsStrictOrderedRing K] :
    Py.Holds ((box : Box K).momentCustomVertexConstraints (.mat (ip : IP K).J) 0) := (C54_default box R_orth ip ip_box).1

example := C53_com (poly : Poly ℚ 3) ip.J 0 poly_holds J_pos

example := C54_com (box : Box ℚ) R_orth ext_nonneg ip.J 0 box_holds J_pos

example := C54_mbe box R_orth ext_nonneg (ip : IP ℝ).J 0 box_holds

example := C54_necessary (box : Box ℚ) R_orth ip ip_box 0 le_rfl (by rw [zero_smul, sub_zero]; exact ip_psd)

theorem cylinder_holds : Py.Holds (cylinder.momentCustomVertexConstraints (.mat (ip : IP ℝ).J) 0) :=
  (C55_vertex_necessary cylinder R_orth rad_resolved ip ip_cylinder).1

example := C55_vertex_com cylinder R_orth rad_resolved len_nonneg (ip : IP ℝ).J cylinder_holds J_pos

example : ¬ Py.Holds (cylinder.momentCustomVertexConstraints (.mat (ip : IP ℝ).J) (1 / 10)) :=
  C55_vertex_eps cylinder rad_nonneg _ _ (by norm_num)

example := C72_box box (ip : IP ℝ).J 0 box_holds

example := C72_ellipsoid ellipsoid (ip : IP ℝ).J 0 true
  (by rw [← (C19_builders (ip : IP ℝ) ip_symm 0).1 ellipsoid true]; exact ellipsoid_holds true)

example := C72_vertex poly (ip : IP ℝ).J 0 poly_holds

example := C52_trivial_row (⟨poly.vertices, ⟨(0, 0) :: poly.faceForm.faces⟩⟩ : Poly ℚ 3) (by simp) ip.J 0 le_rfl 2 (by norm_num)

example := C72_sdp_ignores_eps (poly : Poly ℚ 3) cylinder ip.J (1 / 10) (by norm_num) 2

/-! ## Props/RigidBody -/

example := C56_capsule ⟨[.box box, .capsule capsule], ip⟩ capsule (by simp)
  (by
    intro s hs
    simp only [List.mem_cons, List.not_mem_nil, or_false] at hs
    rcases hs with rfl | rfl
    exacts [Or.inr R_orth, Or.inl ⟨_, rfl⟩]) (ip : IP ℝ).J 0 le_rfl 2 (by norm_num)

example := C56_ellipsoids ⟨[.ellipsoid ellipsoid, .ellipsoid disk], ip⟩
  (by
    intro s hs
    simp only [List.mem_cons, List.not_mem_nil, or_false] at hs
    rcases hs with rfl | rfl
    exacts [⟨R_orth, ext_resolved⟩, ⟨R_orth, disk_resolved⟩])
  (by
    intro s hs
    simp only [List.mem_cons, List.not_mem_nil, or_false] at hs
    rcases hs with rfl | rfl
    exacts [⟨_, rfl⟩, ⟨_, rfl⟩]) (ip : IP ℝ).J 0 le_rfl 2 (by norm_num)

theorem body_holds (d : ℕ) (hd : 1 ≤ d) : Py.Holds ((body : RigidBody ℝ).momentSdpConstraints (.mat (ip : IP ℝ).J) 0 d) :=
  (C56_necessary body body_usable ip ip_body 0 le_rfl (by rw [zero_smul, sub_zero]; exact ip_psd) d hd).1

example := C56_no_shapes ip (ip : IP ℝ).J 0 le_rfl 2 (by norm_num)

/-! ## Props/Density, Props/Shells, Props/DensityRealizable, Props/Measure -/

example := C57_box_flat ⟨![1, 2, 0], R, t⟩ 3 (by norm_num)

example := C57_cylinder_flat ⟨0, 2, R, t⟩ 3 (by norm_num)

example := C57_disk_wrong 2 (by norm_num) R R_orth t 3 (by norm_num)

example := C73_box box ext_nonneg R_orth

example := C73_cylinder cylinder len_nonneg rad_nonneg R_orth

example := C73_ellipse_wrong ⟨![1, 2], 1, ![4, 5]⟩ (by intro i; fin_cases i <;> norm_num) Spec.Orthogonal.one

example := C73_ellipsoid ellipsoid ext_nonneg R_orth

example := C58_area ext ext_nonneg

example := C58_disk_shell_wrong 2 (by norm_num) R R_orth t 3 (by norm_num)

theorem faces_pos : (Spec.boxFaces (ext : Fin 3 → ℝ)).real Set.univ ≠ 0 := by
  rw [Ne, (C58_area ext ext_nonneg).1]
  rintro ⟨i, -, -, h, -⟩
  exact (ext_pos i).ne' h

theorem edges_pos : (Spec.boxEdges (ext : Fin 3 → ℝ)).real Set.univ ≠ 0 := by
  rw [Ne, (C58_area ext ext_nonneg).2]
  intro h
  exact (ext_pos 0).ne' (h 0)

example := C58_hollow box ext_nonneg 3 (by norm_num) faces_pos

example := C58_nonfinite box ext_nonneg 3 (by norm_num)

example : ∃ (μ : Measure (Fin 3 → ℝ)) (p : IP ℝ), μ.real Set.univ = 3 ∧ (⟨fun _ => 2, R, t⟩ : Ellipsoid ℝ 3).hollowDensityParams 3 = .ok p ∧
    Spec.HasMoments (μ.map fun p => p + t) p.mass p.h p.H := by
  obtain ⟨μ, hf, h1, h2, h3⟩ := exists_sphere_shell 2 (by norm_num) 3 (by norm_num)
  obtain ⟨p, hp, h⟩ := C58_sphere_shell 2 (by norm_num) R R_orth t 3 (by norm_num) μ h1 h2 h3
  exact ⟨μ, p, h1, hp, h⟩

example := C58_wireframe box ext_nonneg 3 (by norm_num) edges_pos

example := C59_consistent (S := Spec.box ext R t) ip ip_box

example : ∃ p, (cylinder : Cylinder ℝ).uniformDensityParams 3 = .ok p ∧ Spec.Realizable (Spec.cylinder 4 2 R t) p.mass p.h p.H := by
  obtain ⟨p, hp, -⟩ := C57_cylinder_flat cylinder 3 (by norm_num)
  exact ⟨p, hp, C59_cylinder cylinder len_nonneg rad_nonneg R_orth 3 (by norm_num) p hp⟩

example : ∃ p, (box : Box ℝ).hollowDensityParams 3 = .ok p ∧
    Py.Holds ((⟨[.box box], p⟩ : RigidBody ℝ).momentSdpConstraints (.mat p.J) 0 2) := by
  obtain ⟨p, hp, -⟩ := C58_hollow box ext_nonneg 3 (by norm_num) faces_pos
  exact ⟨p, hp, (C59_constraints (.box box) R_orth ⟨R_orth, ext_nonneg⟩ 3 (by norm_num) p (Or.inr (Or.inl hp)) 2 (by norm_num)).2.2.1⟩

example : ∃ p, (ellipsoid : Ellipsoid ℝ 3).uniformDensityParams 3 = .ok p ∧ Spec.Realizable (Spec.ellipsoid ext R t) p.mass p.h p.H := by
  obtain ⟨p, hp, -⟩ := C57_ellipsoid ellipsoid ext_pos R_orth 3 (by norm_num)
  exact ⟨p, hp, C59_ellipsoid_uniform ellipsoid ext_nonneg R_orth 3 (by norm_num) p hp⟩

example := C60_iff (Metric.closedBall (0 : Fin 3 → ℝ) 1) (isCompact_closedBall _ _) 3 t 1

example := C60_shapes (body : RigidBody ℝ).shapes
  (by
    intro s hs
    simp only [body, List.mem_cons, List.not_mem_nil, or_false] at hs
    rcases hs with rfl | rfl
    exacts [⟨R_orth, ext_nonneg⟩, ⟨R_orth, ext_nonneg⟩]) 3 t 1

/-! ## Props/Extent and Props/Support -/

theorem body_compact : IsCompact (Spec.bodyRegion (body : RigidBody ℝ).shapes) :=
  bodyRegion_compact _ body_usable (by intro P hP; simp [body] at hP)

theorem body_nonempty : (Spec.bodyRegion (body : RigidBody ℝ).shapes).Nonempty := ⟨pt, .box box, by simp [body], pt_box⟩

/-- The extent of the body in a direction. -/
theorem body_extent : ∃ a b : ℝ, IsLeast ((fun x => ![1, 2, 3] ⬝ᵥ x) '' Spec.bodyRegion (body : RigidBody ℝ).shapes) a ∧
    IsGreatest ((fun x => ![1, 2, 3] ⬝ᵥ x) '' Spec.bodyRegion (body : RigidBody ℝ).shapes) b := by
  have hc : IsCompact ((fun x : Fin 3 → ℝ => ![1, 2, 3] ⬝ᵥ x) '' Spec.bodyRegion (body : RigidBody ℝ).shapes) :=
    body_compact.image (by unfold dotProduct; fun_prop)
  obtain ⟨a, ha⟩ := hc.exists_isLeast (body_nonempty.image _)
  obtain ⟨b, hb⟩ := hc.exists_isGreatest (body_nonempty.image _)
  exact ⟨a, b, ha, hb⟩

example : ∃ a b : ℝ, (a * (ip : IP ℝ).mass ≤ ![1, 2, 3] ⬝ᵥ ip.h ∧ ![1, 2, 3] ⬝ᵥ ip.h ≤ b * ip.mass) ∧
    ![1, 2, 3] ⬝ᵥ (ip : IP ℝ).H *ᵥ ![1, 2, 3] ≤ ip.mass * max (a ^ 2) (b ^ 2) ∧
    IsGreatest (sdpValues body (fun q => .mat q.J) 2 3 fun q => ![1, 2, 3] ⬝ᵥ q.H *ᵥ ![1, 2, 3]) (3 * max (a ^ 2) (b ^ 2)) := by
  obtain ⟨a, b, ha, hb⟩ := body_extent
  have ha' : ∀ x ∈ Spec.bodyRegion (body : RigidBody ℝ).shapes, a ≤ ![1, 2, 3] ⬝ᵥ x := fun x hx => ha.2 ⟨x, hx, rfl⟩
  have hb' : ∀ x ∈ Spec.bodyRegion (body : RigidBody ℝ).shapes, ![1, 2, 3] ⬝ᵥ x ≤ b := fun x hx => hb.2 ⟨x, hx, rfl⟩
  obtain ⟨x, hx⟩ := body_nonempty
  exact ⟨a, b,
    C101_first body body_usable 0 le_rfl 1 le_rfl ip ip_symm (body_holds 1 le_rfl) _ a b ha' hb',
    (C101_second body body_usable 0 le_rfl 2 le_rfl ip ip_symm (body_holds 2 (by norm_num)) _ a b ((ha' x hx).trans (hb' x hx)) ha' hb').2,
    C101_second_greatest body body_usable 2 le_rfl 3 (by norm_num) _ a b ha hb _ (Or.inl rfl)⟩

example := C101_order_one poly poly_rows_ne pt (by rw [← poly_consistent.2.2, poly_hull]; exact pt_box) 1000

example := C103_box box R_orth ext_nonneg ![1, 2, 3]

example := C103_capsule capsule R_orth len_nonneg rad_nonneg ![1, 2, 3]

example := C103_cylinder cylinder R_orth len_nonneg rad_nonneg ![1, 2, 3]

example := C103_ellipsoid_moments ellipsoid R_orth ext_resolved true _ (Or.inl rfl) ![1, 2, 3] 3 (by norm_num)

example : ∃ v, IsGreatest (programValues (fun p => (poly : Poly ℝ 3).mustContain p) ![1, 2, 3]) v := by
  have hfin : {t | ∃ x ∈ (poly : Poly ℝ 3).vertices, ![1, 2, 3] ⬝ᵥ x = t}.Finite := by
    have : {t | ∃ x ∈ (poly : Poly ℝ 3).vertices, ![1, 2, 3] ⬝ᵥ x = t} = (fun x => ![1, 2, 3] ⬝ᵥ x) '' {x | x ∈ (poly : Poly ℝ 3).vertices} := by
      ext t; simp
    rw [this]
    exact (List.finite_toSet _).image _
  obtain ⟨x, hx⟩ := List.exists_mem_of_ne_nil _ (poly_consistent (K := ℝ)).1
  obtain ⟨v, hv⟩ := hfin.isCompact.exists_isGreatest ⟨_, x, hx, rfl⟩
  exact ⟨v, (C103_poly poly poly_consistent _ v hv).1⟩

/-! ## Props/TestClaims -/

/-- The unit disk in the square of side four. -/
def unitDisk : Ellipsoid ℚ 2 := ⟨1, 1, 0⟩

theorem unitDisk_square : Spec.ellipsoid unitDisk.halfExtents unitDisk.rotation unitDisk.center ⊆ {x : Fin 2 → ℚ | ∀ i, |x i| ≤ 2} := by
  rintro x ⟨u, hu, rfl⟩ i
  have h1 : u i * u i ≤ u ⬝ᵥ u := Finset.single_le_sum (f := fun i => u i * u i) (fun j _ => mul_self_nonneg (u j)) (Finset.mem_univ i)
  have h2 : |u i| ≤ 1 := by rw [abs_le_one_iff_mul_self_le_one]; exact h1.trans hu
  simpa [Spec.rigid, unitDisk] using h2.trans one_le_two

example : ∃ M, unitDisk.S = .ok M ∧ 1 ≤ (![2, 2] - unitDisk.center) ⬝ᵥ M *ᵥ (![2, 2] - unitDisk.center) := by
  refine C104_inscribed (by norm_num) unitDisk Spec.Orthogonal.one (by intro i; norm_num [unitDisk]) _ unitDisk_square ![2, 2] ?_
  refine mem_extremePoints.mpr ⟨by intro i; fin_cases i <;> simp, ?_⟩
  rintro x hx y hy ⟨a, b, ha, hb, hab, h⟩
  have key : ∀ i, x i = 2 ∧ y i = 2 := by
    intro i
    have h1 := congrFun h i
    have h2 : (![2, 2] : Fin 2 → ℚ) i = 2 := by fin_cases i <;> rfl
    simp only [Pi.add_apply, Pi.smul_apply, smul_eq_mul, h2] at h1
    have h3 := (abs_le.mp (hx i)).2
    have h4 := (abs_le.mp (hy i)).2
    constructor <;> nlinarith
  constructor
  · ext i; rw [(key i).1]; fin_cases i <;> rfl
  · ext i; rw [(key i).2]; fin_cases i <;> rfl

example := C104_inscribed_redundant unitDisk (by intro i; norm_num [unitDisk]) (boxVertices fun _ => 2)
  (by rw [hull_boxVertices _ (fun _ => by norm_num)]; exact unitDisk_square)

/-- A half-plane that does not end at the origin. -/
example := C104_mixed_span cdd cdd_ok (⟨[(![1, 0], (1 : ℚ))]⟩ : FaceForm ℚ 2) (by simp)
  (by
    rintro ⟨B, hB⟩
    have := hB ![0, |B| + 1] (by intro f hf; simp at hf; subst hf; simp [dotProduct]) 1
    simp at this
    have h1 := le_abs_self B
    rw [abs_of_nonneg (by positivity)] at this
    linarith)
  ![1, 0] (by intro f hf; simp at hf; subst hf; simp [dotProduct]) 2 (by norm_num)
  (by
    intro h
    have := h (![1, 0], 1) (by simp)
    norm_num [dotProduct] at this)

example := C104_hollow_linear box ellipsoid 3 2 (by norm_num) (by norm_num) (by simp [box, ext]; norm_num) (by simp [ellipsoid, ext]; norm_num)

example := C104_mib_vertices cylinder R_orth len_nonneg rad_nonneg

example := C104_open_box cdd cdd_ok (box : Box ℚ) R_orth ext_pos 3 (by norm_num)

/-! ## Props/Wrappers and Props/Polydd3 -/

example := C107_box_not_exact box R_orth ext_pos 2 (by norm_num)

example := C107_poly poly poly_rows (by rw [← poly_consistent.2.2, poly_hull]; exact box_bounded) ip ip_symm 0 le_rfl

noncomputable def cdd3 : Cdd3Lib ℚ := (sameLib_exists cdd).choose

theorem cdd3_same : SameLib cdd3 cdd := (sameLib_exists cdd).choose_spec

example := C106_faces cdd3 cdd cdd3_same halfStrip ⟨[(![1, 0], 1)]⟩

example := C106_spans cdd3 cdd cdd3_same halfStrip ⟨[(![1, 0], 1)]⟩ [![0, 0], ![1, 0], ![0, 1]]

example : ∃ f, FaceForm.fromCdd3 (⟨[![0, 1, 0], ![1, -1, 0], ![2, 0, -1]], [2]⟩ : Cdd3Mat ℚ 2) = .ok f ∧
    ∀ x, (∀ ab ∈ f.faces, ab.1 ⬝ᵥ x ≤ ab.2) → x 1 = 2 := by
  obtain ⟨f, hf, _⟩ := (fromCdd3_face (⟨[![0, 1, 0], ![1, -1, 0], ![2, 0, -1]], [2]⟩ : Cdd3Mat ℚ 2)).1
    ⟨⟨0, by decide, by decide⟩, by decide⟩
  refine ⟨f, hf, fun x hx => ?_⟩
  have := (((C106_face_set _ f hf x).mp hx) 2 ![2, 0, -1] rfl).2 (by simp)
  simp [Fin.tail, dotProduct] at this
  linarith

example := C107_cylinder cylinder R_orth ip ip_symm 0 le_rfl

end Rigeo.Case
