import Verif.Cases.Realize
import Verif.Cases.Sampling
import Verif.Props.Identify3
import Verif.Props.MultiBody
import Verif.Props.CylinderExact

/-!
# Concrete cases: identification, robots, and the tightness of the tests

Cases for the theorems of Props/Identify, Props/Identify2, Props/Identify3, Props/MultiBody, Props/Tightness, Props/Exactness,
Props/Convergence and Props/CylinderExact.
-/

namespace Rigeo.Case

open Matrix

/-! ## Props/Identify -/

theorem pd_mul (T : Matrix (Fin 4) (Fin 4) ℝ) (hT : T.det ≠ 0) : Spec.PD (T * Tᵀ) := by
  refine ⟨by simp, fun v hv => ?_⟩
  rw [← mulVec_mulVec, dotProduct_mulVec, ← mulVec_transpose]
  refine lt_of_le_of_ne (dot_self_nonneg _) fun h => hv ?_
  have h0 := dot_self_eq_zero.mp h.symm
  exact Matrix.eq_zero_of_mulVec_eq_zero (by rwa [det_transpose]) h0

/-- A matrix with linearly independent rows. -/
def T : Matrix (Fin 4) (Fin 4) ℝ := !![1, 2, 0, 0; 0, 1, 0, 3; 0, 0, 2, 1; 0, 0, 0, 1]

theorem T_det : T.det ≠ 0 := by
  have h : T.BlockTriangular id := by
    intro i j hij
    fin_cases i <;> fin_cases j <;> simp [T] at hij ⊢
  rw [det_of_isUpperTriangular h, Fin.prod_univ_four]
  simp [T]

theorem pds : ∀ J ∈ [T * Tᵀ, 1], Spec.PD J := by
  intro J hJ
  simp only [List.mem_cons, List.not_mem_nil, or_false] at hJ
  rcases hJ with rfl | rfl
  exacts [pd_mul T T_det, pd_one]

theorem pds' : ∀ J ∈ [1, T * Tᵀ], Spec.PD J := by
  intro J hJ
  simp only [List.mem_cons, List.not_mem_nil, or_false] at hJ
  rcases hJ with rfl | rfl
  exacts [pd_one, pd_mul T T_det]

theorem dets : ∀ J ∈ [1, T * Tᵀ], J.det ≠ 0 := by
  intro J hJ
  simp only [List.mem_cons, List.not_mem_nil, or_false] at hJ
  rcases hJ with rfl | rfl <;> simp [T_det]

example := C77_convex [T * Tᵀ, 1] [1, T * Tᵀ] [1, T * Tᵀ] rfl rfl (by simp) pds pds' dets (1 / 3) (2 / 3) (by norm_num) (by norm_num)
  (by norm_num)

example := C77_divergence [T * Tᵀ, 1] [1, T * Tᵀ] rfl (by simp) dets

example := C77_frame [T * Tᵀ, 1] [1, T * Tᵀ] rfl (by simp) pds pds' T T_det

example := C77_minimum [T * Tᵀ, 1] [1, T * Tᵀ] rfl (by simp) pds pds'

example := C78_empty (n := 2) (no := 0) (k := 6) (fun _ => (ip : IP ℝ).vec) Fin.elim0 Fin.elim0 none (Or.inl rfl)

example := C78_value (n := 1) (fun _ => (ip : IP ℝ).vec) (fun _ : Fin 2 => (1 : Matrix (Fin 10) (Fin 10) ℝ)) (fun _ _ => 3) none
  (by norm_num) (by norm_num)

example := C78_wrench (no := 2) (ip : IP ℝ) ip_symm ![⟨![1, 2, 3, 4, 5, 6]⟩, ⟨![-1, 0, 2, 3, 1, 1]⟩] ![⟨0⟩, ⟨![1, 1, 0, 0, 0, 2]⟩] (fun _ => 0) (by norm_num)

example := C78_zero_iff (n := 1) (fun _ => (ip : IP ℝ).vec) (fun _ : Fin 2 => (1 : Matrix (Fin 10) (Fin 10) ℝ)) (fun _ _ => 3) none
  Spec.PD.one (by norm_num) (by norm_num)

/-! ## Props/Identify2 -/

/-- Direct measurements of the parameters of the body. -/
noncomputable def measured : IdentificationProblem 1 1 10 := ⟨fun _ => (1 : Matrix (Fin 10) (Fin 10) ℝ), fun _ => (ip : IP ℝ).vec, 0, 0, none⟩

noncomputable def identSolver : ((Fin 1 → Fin 10 → ℝ) → ℝ) → ((Fin 1 → Fin 10 → ℝ) → Prop) → Option (Fin 1 → Fin 10 → ℝ) :=
  (exists_solver (Fin 1 → Fin 10 → ℝ)).choose

theorem identSolver_ok : Spec.IsSolver identSolver ∧ Spec.FindsOptimum identSolver := (exists_solver (Fin 1 → Fin 10 → ℝ)).choose_spec

noncomputable def oval : RigidBody ℝ := ⟨[.ellipsoid ellipsoid], ⟨0, 0, 0⟩⟩

theorem oval_usable : ∀ s ∈ oval.shapes, s.Usable ∧ ∃ e, s = .ellipsoid e := by
  intro s hs
  rw [List.mem_singleton.mp hs]
  exact ⟨⟨R_orth, ext_resolved⟩, _, rfl⟩

theorem ip_com_box : (ip : IP ℝ).com ∈ Spec.region (.box box) := by
  have hc : Convex ℝ (Spec.box (ext : Fin 3 → ℝ) R t) := by rw [← poly_hull]; exact convex_convexHull ℝ _
  have h := ip_box.com hc mass_pos
  rwa [IP.h, smul_smul, inv_mul_cancel₀ (mass_pos (K := ℝ)).ne', one_smul] at h

theorem oval_admissible : Spec.Admissible (fun _ : Fin 1 => oval.shapes) true (some [.box box]) 0 (fun _ => (ip : IP ℝ)) := by
  refine ⟨fun _ => mass_pos, fun _ => ip_symm, fun _ => ?_, fun _ _ => ip_ellipsoid.mono fun _ hp => ⟨.ellipsoid ellipsoid, by simp [oval], hp⟩, ?_⟩
  · simpa using ip_psd
  · intro l hl i hi
    obtain rfl := Option.some.inj hl
    obtain rfl : i = 0 := Subsingleton.elim _ _
    exact ip_com_box

theorem oval_solved : measured.solve identSolver (fun _ => oval) true (some [.box box]) = .ok ⟨[ip], 0⟩ := by
  refine C79_recovers identSolver identSolver_ok.1 identSolver_ok.2 measured rfl le_rfl Spec.PD.one one_ne_zero one_ne_zero
    (fun _ => oval) true (fun _ _ s hs => (oval_usable s hs).1) _ ?_ (fun _ => ip) oval_admissible ?_ ?_
  · intro shapes h
    obtain rfl := Option.some.inj h
    refine ⟨rfl, fun s hs => ?_⟩
    rw [List.mem_singleton.mp hs]
    exact ⟨R_orth, ext_nonneg⟩
  · intro o; exact (residual_one _ _).trans (sub_self _)
  · intro θs h
    funext i
    obtain rfl : i = 0 := Subsingleton.elim _ _
    exact sub_eq_zero.mp ((residual_one _ _).symm.trans (h 0))

theorem com_valid : ∀ shapes, some [AnyShape.box (box : Box ℝ)] = some shapes → ∀ s ∈ shapes, s.Valid := by
  intro shapes h s hs
  obtain rfl := Option.some.inj h
  rw [List.mem_singleton.mp hs]
  exact ⟨R_orth, ext_nonneg⟩

example := C79_ellipsoids identSolver identSolver_ok.1 measured le_rfl le_rfl (fun _ => oval) (fun _ => oval_usable) _ com_valid _
  oval_solved

example := C79_optimal identSolver identSolver_ok.1 measured le_rfl le_rfl (fun _ => oval) true (fun _ _ s hs => (oval_usable s hs).1)
  _ com_valid _ oval_solved _ oval_admissible (fun h => absurd h (lt_irrefl _))

example := C79_result identSolver identSolver_ok.1 measured le_rfl le_rfl (fun _ => oval) true _ com_valid _ oval_solved

example := C79_capsule identSolver measured le_rfl le_rfl one_ne_zero (fun _ => ⟨[.box box, .capsule capsule], ip⟩)
  (fun h => absurd h (lt_irrefl _))
  (by
    intro _ s hs
    simp only [List.mem_cons, List.not_mem_nil, or_false] at hs
    rcases hs with rfl | rfl
    exacts [Or.inr R_orth, Or.inl ⟨_, rfl⟩])
  ⟨0, capsule, by simp⟩

/-! ## Props/MultiBody -/

theorem links : ∀ x ∈ [(⟨0, 0, 0⟩ : PinInertia ℚ), ⟨1, 0, 1⟩, ⟨2, 1, 1⟩], 0 ≤ x.mass := by simp

theorem geoms : ∀ g ∈ [(⟨.box ext, R, t, 2⟩ : GeomObj ℚ), ⟨.sphere 2, halfTurn, t, 1⟩, ⟨.cylinder 1 2, R, t, 2⟩],
    Spec.GeomOk g.geometry ∧ Spec.Orthogonal g.rotation ∧ g.parentJoint < 3 := by
  intro g hg
  simp only [List.mem_cons, List.not_mem_nil, or_false] at hg
  rcases hg with rfl | rfl | rfl
  exacts [⟨ext_nonneg, R_orth, by norm_num⟩, ⟨by norm_num [Spec.GeomOk], halfTurn_orth, by norm_num⟩,
    ⟨by norm_num [Spec.GeomOk], R_orth, by norm_num⟩]

example := C82_bodies cdd _ _ links geoms

example := C82_shape cdd (⟨.box ext, R, t, 2⟩ : GeomObj ℚ) ext_nonneg R_orth

example := C82_get_bodies (⟨⟨["universe", "a", "b"], [], [], [], 0⟩, none, [(2, body), (1, body)]⟩ : MultiBody ℚ) (by decide) [.inl 2, .inr "a"]

example := C83_index_error (Matrix.of fun (_ : Fin 2) (c : Fin (2 * 10)) => ((c : ℕ) : ℚ)) 3 (by norm_num)

example := C83_too_few (Matrix.of fun (_ : Fin 2) (c : Fin (2 * 10)) => ((c : ℕ) : ℚ)) 1 1 le_rfl 0 (by decide +kernel)

example := C83_torques (Matrix.of fun (_ : Fin 2) (c : Fin (2 * 10)) => ((c : ℕ) : ℚ)) ![⟨1, 0, 1⟩, ⟨2, 1, 1⟩]
  (by intro i; fin_cases i <;> simp) _ rfl

/-! ## Props/Tightness -/

example := C84_implies_order_one (box : Box ℚ) R_orth ext_nonneg _ 0 box_holds

example := C84_not_sufficient (box : Box ℚ) R_orth ext_pos

example := C84_not_tighter (box : Box ℚ) R_orth ext_pos

example := C84_objective (box : Box ℚ) R_orth ext_pos

example := C84_order_one (poly : Poly ℚ 3) poly_rows_ne (ip : IP ℚ).J ip_psd.1 (1 / 100) (by norm_num)

/-! ## Props/Exactness -/

example := C85_box (box : Box ℚ) R_orth ext_pos

example := C86_measure cylinder R_orth (by norm_num [cylinder]) (by norm_num [cylinder]) 3 (by norm_num)

/-- The octant of points with non-negative coordinates, and a point on one of its edges. -/
def octant : Poly ℚ 3 := ⟨[0], ⟨[(![-1, 0, 0], 0), (![0, -1, 0], 0), (![0, 0, -1], 0)]⟩⟩

theorem octant_rows : ∀ f ∈ octant.faceForm.faces, f.1 ≠ 0 := by decide +kernel

theorem octant_indep : LinearIndependent ℚ ![![-1, 0, 0], ![0, -1, (0 : ℚ)]] := by
  rw [LinearIndependent.pair_iff]
  intro s t h
  have h0 := congrFun h 0
  have h1 := congrFun h 1
  simp at h0 h1
  exact ⟨h0, h1⟩

example := C85_not_exact octant octant_rows (![-1, 0, 0], 0) (![0, -1, 0], 0) (by decide +kernel) (by decide +kernel) octant_indep ![0, 0, 1]
  (by decide +kernel) (by decide +kernel) (by decide +kernel) 3 (by norm_num)

example := C85_objective octant octant_rows (![-1, 0, 0], 0) (![0, -1, 0], 0) (by decide +kernel) (by decide +kernel) octant_indep ![0, 0, 1]
  (by decide +kernel) (by decide +kernel) (by decide +kernel)

/-! ## Props/Convergence -/

theorem body_polys : ∀ P, .poly P ∈ (body : RigidBody ℝ).shapes → Spec.Bounded (Spec.halfspaces P.faceForm.faces) := by
  intro P hP
  simp [body] at hP

example := C87_body body body_usable body_polys ip ip_symm

example := C87_body_close body body_usable body_polys (1 / 100) (by norm_num) (1 / 1000) (by norm_num)

example := C87_body_objective body body_usable body_polys 0 0 (by simp) (1 / 100) (by norm_num) (1 / 1000) (by norm_num)

example := C87_box box R_orth ip ip_symm (1 / 100) (by norm_num)

example := C87_cylinder cylinder R_orth ip ip_symm (1 / 100) (by norm_num)

example := C87_cylinder_close cylinder R_orth (1 / 100) (by norm_num) (1 / 1000) (by norm_num)

/-- The mass of every body is at least its mass. -/
theorem mass_bound (q : IP ℝ) (h : q.mass = 1) : (1 : ℝ) ≤ (Matrix.single 3 3 (1 : ℝ) * q.J).trace := by
  have : q.J 3 3 = q.mass := rfl
  simp [Matrix.trace, Matrix.diag, Fin.sum_univ_four, Matrix.single_mul_apply_same, this, h]

example := C87_cylinder_objective cylinder R_orth (Matrix.single 3 3 1) 1 (fun q _ h => mass_bound q h) (1 / 100) (by norm_num) (1 / 1000) (by norm_num)

theorem poly_bounded : Spec.Bounded (Spec.halfspaces (poly : Poly ℝ 3).faceForm.faces) := by
  rw [← poly_consistent.2.2, poly_hull]
  exact box_bounded

example := C87_poly poly poly_rows poly_bounded ip ip_symm (1 / 100) (by norm_num)

example := C87_poly_close poly poly_rows poly_bounded (1 / 100) (by norm_num) (1 / 1000) (by norm_num)

example := C87_poly_objective poly poly_rows poly_bounded (Matrix.single 3 3 1) 1 (fun q _ h => mass_bound q h) (1 / 100) (by norm_num)
  (1 / 1000) (by norm_num)

/-! ## Props/CylinderExact -/

example := C88_exact_vec cylinder R_orth rad_resolved len_nonneg ip ip_symm

example := C88_inequalities 4 2 (by norm_num) (by norm_num) ip

example := C88_measure cylinder R_orth rad_resolved len_nonneg ip

example := C88_strictly_tighter cylinder R_orth rad_big (by norm_num [cylinder])

example := C88_tighter cylinder R_orth rad_resolved len_nonneg ip cylinder_holds (1 / 100) (by norm_num) 3 (by norm_num)

end Rigeo.Case
