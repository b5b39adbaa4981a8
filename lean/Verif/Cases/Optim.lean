import Verif.Cases.Sampling
import Verif.Props.Optim3
import Verif.Props.Uniformity
import Verif.Props.FloatContains
import Verif.Props.Float

/-!
# Concrete cases: extremal ellipsoids, the uniformity tests and rounding

Cases for the theorems of Props/Optim, Props/Optim2, Props/Optim3, Props/Uniformity, Props/Float and Props/FloatContains. Beside
`C48_minimal`, `C48_sphere_wrong` and `C49_maximal` Props/Optim has examples of optimal answers.
-/

namespace Rigeo.Case

open Matrix MeasureTheory

/-! ## Props/Optim -/

/-- A solver that answers every program for points with a feasible point. -/
noncomputable def mbeSolver : (n : ℕ) → List (Fin n → ℝ) → Bool → MbeVars n := exists_mbe_solver.choose

theorem mbeSolver_ok : ∀ n Q s, mbeFeasible Q s (mbeSolver n Q s) := exists_mbe_solver.choose_spec

example := C48_contains eigh eigh_ok lstsq lstsq_ok orth orth_ok nullSpace nullSpace_ok mbeSolver t [pt, ext] (mbeSolver_ok _ _ _)

example := C48_poly eigh eigh_ok lstsq lstsq_ok orth orth_ok nullSpace nullSpace_ok mbeSolver poly poly_consistent
  (fun n Q => mbeSolver_ok n Q false)

example := C48_sphere_displaced eigh eigh_ok lstsq lstsq_ok orth orth_ok nullSpace nullSpace_ok mbeSolver t [pt, ext] (mbeSolver_ok _ _ _)

/-- The square `|x|, |y| ≤ 2`. -/
def sides : List ((Fin 2 → ℝ) × ℝ) := [(![1, 0], 2), (![-1, 0], 2), (![0, 1], 2), (![0, -1], 2)]

/-- A solver that answers with the ball of radius one half around the origin. -/
noncomputable def mieSolver : (n : ℕ) → List ((Fin n → ℝ) × ℝ) → Bool → MieVars n := fun _ _ _ => ⟨(1 / 2 : ℝ) • 1, 0⟩

theorem sides_feasible : mieFeasible sides false (mieSolver 2 sides false) := by
  refine ⟨⟨by simp [mieSolver], fun v => ?_⟩, ?_, ?_, by simp⟩
  · simp only [mieSolver, smul_mulVec, one_mulVec, dotProduct_smul]
    exact mul_nonneg (by norm_num) (dot_self_nonneg v)
  · simp [mieSolver, det_fin_two]
  · intro f hf
    simp only [sides, List.mem_cons, List.not_mem_nil, or_false] at hf
    rcases hf with rfl | rfl | rfl | rfl <;> simp [mieSolver, norm2, smul_mulVec] <;>
      norm_num

theorem sides_ok : ∃ e, mieInequalityForm eigh mieSolver sides false = .ok e := by
  refine C49_ok eigh eigh_ok mieSolver sides false sides_feasible fun v hv => ?_
  have h : 0 < norm2 v := Real.sqrt_pos.mpr (lt_of_le_of_ne (dot_self_nonneg v) fun h0 => hv (dot_self_eq_zero.mp h0.symm))
  have h2 : norm2 ((1 / 2 : ℝ) • v) = 1 / 2 * norm2 v := by
    unfold norm2
    rw [smul_dotProduct, dotProduct_smul, smul_eq_mul, smul_eq_mul, ← mul_assoc, Real.sqrt_mul (by norm_num),
      show (1 / 2 * (1 / 2) : ℝ) = (1 / 2) ^ 2 by norm_num, Real.sqrt_sq (by norm_num)]
  simp only [mieSolver, smul_mulVec, one_mulVec]
  rw [h2]
  linarith

example : ∃ e, mieInequalityForm eigh mieSolver sides false = .ok e ∧
    Spec.ellipsoid e.halfExtents e.rotation e.center ⊆ Spec.halfspaces sides := by
  obtain ⟨e, he⟩ := sides_ok
  exact ⟨e, he, C49_inside eigh eigh_ok mieSolver sides false sides_feasible e he⟩

/-! ## Props/Optim2 and Props/Optim3 -/

/-- A smaller ellipsoid. -/
noncomputable def small : Ellipsoid ℝ 3 := ⟨fun _ => 1 / 2, halfTurn, t⟩

theorem small_big : ∀ i, 1 / 100000000 < small.halfExtents i := fun _ => by norm_num [small]

example := C46_intended_sound ellipsoid small R_orth halfTurn_orth ext_big small_big

example := C46_spheres (n := 2) 3 2 (by norm_num) (by norm_num)

example := C47_intended ellipsoid R_orth ext_big

example := C46_centred (⟨ext, R, 0⟩ : Ellipsoid ℝ 3) ⟨fun _ => 1 / 2, halfTurn, 0⟩ R_orth halfTurn_orth ext_big small_big rfl rfl

example := C46_decides ellipsoid small R_orth halfTurn_orth ext_big small_big

example := C46_intended_exact ellipsoid small R_orth halfTurn_orth ext_big small_big

example := C47_intended_exact ellipsoid R_orth ext_big

example := C47_centred [(⟨ext, R, 0⟩ : Ellipsoid ℝ 3), ⟨fun _ => 1 / 2, halfTurn, 0⟩] (by
  intro E hE
  simp only [List.mem_cons, List.not_mem_nil, or_false] at hE
  rcases hE with rfl | rfl
  exacts [⟨R_orth, ext_big, rfl⟩, ⟨halfTurn_orth, small_big, rfl⟩])

example (S) (d) := C47_feasible_iff [((1 / 4 : ℝ) • (1 : Matrix (Fin 3) (Fin 3) ℝ), 0)]
  (by
    intro E hE x hx
    rw [List.mem_singleton.mp hE] at hx
    rw [smul_mulVec, one_mulVec, dotProduct_smul, smul_eq_mul] at hx
    exact dot_self_eq_zero.mp (le_antisymm (by linarith) (dot_self_nonneg x)))
  (by intro E hE; rw [List.mem_singleton.mp hE]; exact ⟨0, by simp⟩) true S d

/-- A solver for the program of one ball around the origin. -/
noncomputable def ballSolver (r : ℝ) (hr : 0 < r) (sphere : Bool) : List (Matrix (Fin 3) (Fin 3) ℝ × (Fin 3 → ℝ)) → Bool → MbeeVars 3 :=
  fun _ _ => (mbee_sphere_exists (n := 3) hr sphere).choose

example (sphere : Bool) : ∃ e, mbeOfEllipsoids eigh (ballSolver 4 (by norm_num) sphere) [⟨fun _ => 4, 1, 0⟩] sphere = .ok e ∧
    ∀ p : Fin 3 → ℝ, p ⬝ᵥ p ≤ 4 → p ∈ Spec.ellipsoid e.halfExtents e.rotation e.center := by
  have hs := (mbee_sphere_exists (n := 3) (r := 4) (by norm_num) sphere).choose_spec
  obtain ⟨e, h1, -⟩ := C47_sphere eigh eigh_ok (ballSolver 4 (by norm_num) sphere) 4 (by norm_num) (by norm_num) sphere hs.1 hs.2
  refine ⟨e, h1, fun p hp => ?_⟩
  exact C47_spheres_guarantee eigh eigh_ok (ballSolver 4 (by norm_num) sphere) [(4, 0)] (by simp; norm_num) sphere hs.1 e h1 (4, 0) (by simp) p
    (by simpa using hp)

example (sphere : Bool) : ∃ e, mbeOfEllipsoids eigh (ballSolver 1 (by norm_num) sphere) [⟨fun _ => 1, 1, 0⟩] sphere = .ok e ∧
    Spec.ball 1 0 ⊆ Spec.ellipsoid e.halfExtents e.rotation e.center := by
  have hs := (mbee_sphere_exists (n := 3) (r := 1) (by norm_num) sphere).choose_spec
  obtain ⟨e, h1, -⟩ := C47_sphere eigh eigh_ok (ballSolver 1 (by norm_num) sphere) 1 (by norm_num) (by norm_num) sphere hs.1 hs.2
  exact ⟨e, h1, C47_unit_spheres eigh eigh_ok (ballSolver 1 (by norm_num) sphere) [(1, 0)] (by simp) sphere hs.1 e h1 (1, 0) (by simp)⟩

/-! ## Props/Uniformity -/

theorem ellipsoid_samples : Spec.Samples ((Spec.normals 3).prod (Spec.draw 0 1)) (fun q => ellipsoid.randomPoints q.1 q.2)
    (Spec.uniform 1 (Spec.ellipsoid (ext : Fin 3 → ℝ) R t)) := C90_ellipsoid (k := 2) (by norm_num) ellipsoid R_orth ext_pos

instance : IsProbabilityMeasure (Spec.draw 0 1) := draw_probability (by norm_num)

/-- The test passes if its tolerance leaves room around the actual probability … -/
example := C102_passes ellipsoid_samples box ((Spec.uniform 1 (Spec.ellipsoid (ext : Fin 3 → ℝ) R t)).real (tolBox box)) (1 / 100)
  10000 (by norm_num) (by simp)

/-- … and fails if the expected ratio is off by one tenth. -/
example := C102_detects ellipsoid_samples box ((Spec.uniform 1 (Spec.ellipsoid (ext : Fin 3 → ℝ) R t)).real (tolBox box) + 1 / 10)
  (1 / 100) 10000 (by norm_num) (by rw [sub_add_cancel_left, abs_neg]; norm_num [abs_of_pos])

example := C102_same ellipsoid_samples ellipsoid_samples box rfl (1 / 2) (1 / 100) 10000

example := C102_ellipsoid ellipsoid R_orth ext_pos

theorem box_contains_zero : (box : Box ℝ).contains 0 = false := by
  rw [← Bool.not_eq_true, C25_contains_tol box R_orth 0]
  rintro ⟨y, hy, h⟩
  have h2 := congrFun h 2
  have h3 := (abs_le.mp (hy 2)).1
  simp [box, Spec.rigid, R, t, Matrix.mulVec, dotProduct, Fin.sum_univ_three] at h2
  simp [box, ext, tol8] at h3
  norm_num at h3
  linarith

theorem box_contains_pt_real : (box : Box ℝ).contains pt = true :=
  (C25_contains_tol box R_orth pt _).mpr (by
    obtain ⟨y, hy, h⟩ := pt_box (K := ℝ)
    exact ⟨y, fun i => (hy i).trans (by show ext i ≤ ext i + tol8; norm_num [tol8]), h⟩)

example := C102_two_points ellipsoid_samples box pt 0 box_contains_pt_real box_contains_zero (1 / 2) (1 / 100) 10000

/-! ## Props/Float -/

/-- A rounding. -/
noncomputable def fl : ℝ → ℝ := exists_rounding.choose

theorem fl_ok : Spec.IsRounding fl := exists_rounding.choose_spec

example := C94_bound_wrong fl_ok
example := C94_times_wrong fl_ok
example := C94_triangular fl_ok 5050 (by norm_num) 100
example := C94_triangular_wrong fl_ok
example := C94_unvech fl_ok [1, 2, 3, 4, 5, (6 : ℚ)] (by simp)

/-! ## Props/FloatContains -/

theorem R_entries : ∀ j i, |(R : Matrix (Fin 3) (Fin 3) ℝ) j i| ≤ 101 / 100 := by
  intro j i; fin_cases j <;> fin_cases i <;> simp [R, abs_le] <;> norm_num

theorem t_size : ∀ j, |(t : Fin 3 → ℝ) j| ≤ 10 ^ 6 := by intro j; fin_cases j <;> simp [t, abs_le] <;> norm_num

theorem ext_size : ∀ j, |(ext : Fin 3 → ℝ) j| ≤ 10 ^ 6 := by intro j; fin_cases j <;> simp [ext, abs_le] <;> norm_num

theorem pt_size : ∀ j, |(pt : Fin 3 → ℝ) j| ≤ 10 ^ 6 := by
  intro j
  fin_cases j <;> simp [pt, Spec.rigid, R, t, Matrix.mulVec, dotProduct, Fin.sum_univ_three, abs_le] <;> norm_num

theorem pt_local : (Rᵀ : Matrix (Fin 3) (Fin 3) ℝ) *ᵥ (pt - t) = ![1 / 2, 1 / 2, 1] := by
  rw [pt, Spec.rigid, add_sub_cancel_right, mulVec_mulVec, R_orth, one_mulVec]

example := C105_box fl_ok box R_orth pt t_size pt_size ext_size

example : ∃ answer, (box : Box ℝ).containsFloat fl pt (fl (1 / 10 ^ 8)) answer ∧ answer = true ∧
    ∀ i, |((R : Matrix (Fin 3) (Fin 3) ℝ)ᵀ *ᵥ (pt - t)) i| ≤ ext i + 17 / 10 ^ 9 := by
  obtain ⟨answer, h⟩ := (C105_total fl).2.1 box pt (fl (1 / 10 ^ 8))
  have ha := C105_box_accepts fl_ok box pt R_entries t_size pt_size ext_size (by
    intro i
    change |((R : Matrix (Fin 3) (Fin 3) ℝ)ᵀ *ᵥ (pt - t)) i| ≤ ext i
    rw [pt_local]
    fin_cases i <;> simp [ext, abs_le] <;> norm_num) h
  subst ha
  exact ⟨true, h, rfl, C105_box_sound fl_ok box pt R_entries t_size pt_size ext_size h⟩

theorem ellipsoid_scale : EllipsoidScale (ellipsoid : Ellipsoid ℝ 3) pt where
  dim := le_rfl
  extents := by intro i; right; fin_cases i <;> simp [ellipsoid, ext] <;> norm_num
  rotation := R_entries
  zero := by intro i hi; exact absurd hi (ext_pos i).ne'
  ratio := by
    intro i _ j
    have h1 : (1 : ℝ) ≤ ext i := by fin_cases i <;> simp [ext]
    have h2 : |(pt : Fin 3 → ℝ) j - t j| ≤ 10 := by
      fin_cases j <;> simp [pt, Spec.rigid, R, t, Matrix.mulVec, dotProduct, Fin.sum_univ_three, abs_le] <;> norm_num
    change |pt j - t j| ≤ 3 * 10 ^ 5 * ext i
    nlinarith

example := C105_ellipsoid fl_ok ellipsoid R_orth pt ellipsoid_scale

example : ∃ answer, (ellipsoid : Ellipsoid ℝ 3).containsFloat fl pt (fl (1 / 10 ^ 8)) answer ∧ answer = true ∧
    ∑ i, (((R : Matrix (Fin 3) (Fin 3) ℝ)ᵀ *ᵥ (pt - t)) i / ext i) ^ 2 ≤ 1 + 2 / 10 ^ 8 := by
  obtain ⟨answer, h⟩ := (C105_total fl).2.2 3 ellipsoid pt (fl (1 / 10 ^ 8))
  have ha := C105_ellipsoid_accepts fl_ok ellipsoid pt ellipsoid_scale (fun i hi => absurd hi (ext_pos i).ne') (by
    change ∑ i, (((R : Matrix (Fin 3) (Fin 3) ℝ)ᵀ *ᵥ (pt - t)) i / ext i) ^ 2 ≤ 1
    rw [pt_local]
    simp [ext, Fin.sum_univ_three]
    norm_num) h
  subst ha
  exact ⟨true, h, rfl, (C105_ellipsoid_sound fl_ok ellipsoid pt ellipsoid_scale h).2⟩

theorem sides_size : ∀ f ∈ sides, ((2 : ℕ) : ℝ) * ∑ j, |f.1 j * (![1, -1] : Fin 2 → ℝ) j| ≤ 10 ^ 7 ∧ |f.2| ≤ 10 ^ 7 := by
  intro f hf
  simp only [sides, List.mem_cons, List.not_mem_nil, or_false] at hf
  rcases hf with rfl | rfl | rfl | rfl <;> simp [Fin.sum_univ_two] <;> norm_num

example : ∃ answer, facesContainFloat fl sides ![1, -1] (fl (1 / 10 ^ 8)) answer ∧ answer = true ∧
    ∀ f ∈ sides, f.1 ⬝ᵥ ![1, -1] ≤ f.2 + 14 / 10 ^ 9 := by
  obtain ⟨answer, h⟩ := (C105_total fl).1 2 sides ![1, -1] (fl (1 / 10 ^ 8))
  have ha := C105_poly_accepts fl_ok (by norm_num) (by
    intro f hf
    simp only [sides, List.mem_cons, List.not_mem_nil, or_false] at hf
    rcases hf with rfl | rfl | rfl | rfl <;> simp [dotProduct, Fin.sum_univ_two] <;> norm_num) sides_size h
  subst ha
  exact ⟨true, h, rfl, C105_poly_sound fl_ok (by norm_num) sides_size h⟩

example := C105_poly_rejects fl_ok

example : ∃ s, FlDot fl [(1, 1 / 3), (2, 1 / 7), (3, -5)] s ∧
    |s - ([(1, 1 / 3), (2, 1 / 7), (3, (-5 : ℝ))].map fun t => t.1 * t.2).sum| ≤
      2 * 3 * 2 ^ (-53 : ℤ) * ([(1, 1 / 3), (2, 1 / 7), (3, (-5 : ℝ))].map fun t => |t.1 * t.2|).sum + 1 / 10 ^ 190 := by
  obtain ⟨s, hs⟩ := FlDot.exists fl [(1, 1 / 3), (2, 1 / 7), (3, -5)]
  exact ⟨s, hs, C105_dot fl_ok hs (by simp) (by simp [abs_of_pos]; norm_num)⟩

example : ∃ s, FlSum fl [1 / 3, 1 / 7, -5] s ∧
    |s - [1 / 3, 1 / 7, (-5 : ℝ)].sum| ≤ 2 * 3 * 2 ^ (-53 : ℤ) * ([1 / 3, 1 / 7, (-5 : ℝ)].map abs).sum + 1 / 10 ^ 190 := by
  obtain ⟨s, hs⟩ := FlSum.exists fl [1 / 3, 1 / 7, -5]
  exact ⟨s, hs, C105_sum fl_ok hs (by simp) (by simp [abs_of_pos]; norm_num)⟩

end Rigeo.Case
