import Verif.Cases.Identify
import Verif.Cases.Optim
import Verif.Props.MonteCarlo
import Verif.Props.Theory
import Verif.Props.Drip
import Verif.Props.Batch
import Verif.Props.Batch2
import Verif.Props.Area

/-!
# Concrete cases: distributions, scripts and arrays

Cases for the theorems of Props/ThinShell, Props/Laws, Props/Area, Props/BoxLaw, Props/MonteCarlo, Props/Theory, Props/Drip, Props/Batch
and Props/Batch2.
-/

namespace Rigeo.Case

open Matrix MeasureTheory

/-! ## Props/ThinShell, Props/Laws, Props/Area and Props/BoxLaw -/

theorem ext_ne : (ext : Fin 3 → ℝ) ≠ 0 := fun h => (ext_pos (K := ℝ) 0).ne' (congrFun h 0)

theorem ext_area : 0 < (ext : Fin 3 → ℝ) 0 * ext 1 + ext 0 * ext 2 + ext 1 * ext 2 := by
  have h0 := ext_pos (K := ℝ) 0
  have h1 := ext_pos (K := ℝ) 1
  have h2 := ext_pos (K := ℝ) 2
  positivity

example := C89_box box ext_pos R_orth 2 (by norm_num)

example : ∃ (μ : Measure (Fin 3 → ℝ)) (p : IP ℝ), (ellipsoid : Ellipsoid ℝ 3).hollowDensityParams 3 = .ok p ∧
    Spec.HasMoments μ p.mass p.h p.H ∧
    Spec.CarriedBy μ {q | ∃ u : Fin 3 → ℝ, u ⬝ᵥ u = 1 ∧ q = Spec.rigid R t fun i => ext i * u i} := by
  obtain ⟨p, hp⟩ : ∃ p, (ellipsoid : Ellipsoid ℝ 3).hollowDensityParams 3 = .ok p :=
    ⟨_, Ellipsoid.hollowDensityParams_ok ellipsoid 3 (by norm_num) ext_area.ne'⟩
  have hr := C59_ellipsoid_hollow ellipsoid ext_nonneg 3 (by norm_num) p hp
  obtain ⟨μ, h1, h2⟩ := C60_measure _ (ellipsoid_compact ext ext_nonneg R_orth t).isClosed.measurableSet _ _ _
    (hr.mono (by rintro q ⟨u, hu, rfl⟩; exact ⟨u, hu.le, rfl⟩))
  exact ⟨μ, p, hp, h2, C89_on_surface ellipsoid ext_pos R_orth 3 (by norm_num) p hp μ h2 h1⟩

example := C90_ball 2 (by norm_num)

example := C90_hypersphere 2 (by norm_num)

example := C92_area (k := 2) (h := ext) ext_pos (R := R) R_orth (c := t)

example := C93_edges (b := box) ext_nonneg ext_ne 100 {y | y 0 = 0} (measurableSet_eq_fun (measurable_pi_apply 0) measurable_const)

example := C93_surface (b := ⟨ext, 1, 0⟩) ext_nonneg ext_area rfl rfl 100 (by norm_num) {y | y 0 = 0}
  (measurableSet_eq_fun (measurable_pi_apply 0) measurable_const)

example := C93_surface_posed (b := box) ext_nonneg ext_area 100 (by norm_num) {y | y 0 = 0}
  (measurableSet_eq_fun (measurable_pi_apply 0) measurable_const)

/-! ## Props/Strengthen3 and Props/Identify3 -/

theorem exists_capsule_solver (sphere : Bool) : ∃ x : MbeeVars 3,
    mbeeFeasible [((1 / 4 : ℝ) • 1, 0), ((1 / 4 : ℝ) • 1, 0)] sphere x ∧
    ∀ y : MbeeVars 3, mbeeFeasible [((1 / 4 : ℝ) • 1, 0), ((1 / 4 : ℝ) • 1, 0)] sphere y → y.S.det ≤ x.S.det := by
  have hz : (0 : Fin 3 → ℝ) = -((1 / 4 : ℝ) • 0) := by simp
  obtain ⟨x, hx, hopt⟩ := mbee_sphere_exists (n := 3) (r := 4) (by norm_num) sphere
  refine ⟨⟨x.S, x.d, x.ts ++ x.ts⟩, ?_, ?_⟩
  · obtain ⟨S, d, ts⟩ := x
    obtain ⟨h1, h2, h3, h4, h5, h6⟩ := hx
    obtain ⟨t, rfl⟩ : ∃ t, ts = [t] := List.length_eq_one_iff.mp h3
    rw [hz]
    exact ⟨h1, h2, rfl, by simpa using h4, fun Et hEt => h5 Et (by simpa using hEt), h6⟩
  · rintro ⟨S, d, ts⟩ ⟨h1, h2, h3, h4, h5, h6⟩
    obtain ⟨t, u, rfl⟩ : ∃ t u, ts = [t, u] := List.length_eq_two.mp h3
    refine hopt ⟨S, d, [t]⟩ ⟨h1, h2, rfl, by simpa using h4 t (by simp), fun Et hEt => h5 Et ?_, h6⟩
    rw [← hz] at hEt
    simp only [List.zip_cons_cons, List.zip_nil_right, List.mem_singleton] at hEt
    simp [hEt]

example := C69_mbes_capsule eigh eigh_ok lstsq orth nullSpace mbeSolver (fun _ s => (exists_capsule_solver s).choose) true 4
  (by norm_num) (by norm_num) _ rfl (exists_capsule_solver true).choose_spec.1 (exists_capsule_solver true).choose_spec.2 R ip

/-- Measurements that no parameters fit: the same row reports the masses one and two. -/
noncomputable def conflict : IdentificationProblem 1 2 1 :=
  ⟨fun _ => Matrix.of fun _ i => if i = 0 then 1 else 0, ![fun _ => 1, fun _ => 2], 0, 0, none⟩

example := C80_result (exists_solver (Fin 10 → ℝ)).choose (exists_solver (Fin 10 → ℝ)).choose_spec.1 conflict
  [![1, 0, 0], ![0, 1, 0], ![0, 0, 5]] (some (.box box)) (by rintro s ⟨⟩; exact box_valid)

example := C80_errors (fun _ _ => none) conflict [![1, 0, 0], ![0, 1, 0], ![0, 0, 5]] (some (.box box)) (by rintro s ⟨⟩; exact box_valid)

/-! ## Props/MonteCarlo -/

example := C95_box_shell ext ext_nonneg ext_area (1 / 100) (by norm_num)

example := C95_box_shell_single ext ext_nonneg ext_area ![1 / 2, 0, -1] (fun _ => 0) id

example := C95_ellipsoid ext ext_pos _ (C92_area (k := 2) (h := ext) ext_pos (R := 1) Spec.Orthogonal.one (c := 0)).choose_spec.1
  (Matrix.of fun i j => ∫ p, p i * p j ∂Spec.evenly 1
    (C92_area (k := 2) (h := ext) ext_pos (R := 1) Spec.Orthogonal.one (c := 0)).choose) (fun _ _ => rfl)

example := C95_ellipsoid_shell (1 / 2) (by simp)

example := C95_sphere 3 (by norm_num) (1 / 100) (by norm_num) (1 / 2) (by simp)

example := C95_wireframe ext ext_nonneg ext_ne (1 / 100) (by norm_num)

/-! ## Props/Theory -/

example := C96_box_shell 1 2 3 (by norm_num) (by norm_num) (by norm_num)
example := C96_cube_shell 2 (by norm_num)
example := C96_cube_wireframe 2 (by norm_num)
example := C96_cuboid (1 : ℚ) 2 3 4 5 6 7 8 9 10 11 (by norm_num) (by norm_num) (by norm_num)
example := C96_cylinder (2 : ℚ) 1 1 1 (by norm_num)
example := C96_ellipsoid_shell 1 2 3 (by norm_num) (by norm_num) (by norm_num)
example := C96_sphere_shell 2 (by norm_num)
example := C96_wireframe 1 2 3 (by norm_num)

example : ∃ (μ : Measure (Fin 3 → ℝ)) (p : IP ℝ), (⟨ext, 1, 0⟩ : Box ℝ).hollowDensityParams 3 = .ok p ∧
    (Theory.cuboidA 1 2 3 *ᵥ fun i => ∫ q, Theory.cuboidPhi 1 2 3 q i ∂μ) = ![p.H 0 1, p.H 0 2, p.H 1 2, p.h 0, p.h 1, p.h 2, p.mass] := by
  obtain ⟨p, hp, -⟩ := C58_hollow ⟨ext, 1, 0⟩ ext_nonneg 3 (by norm_num) faces_pos
  obtain ⟨μ, h1, h2⟩ := C60_measure _ (box_compact ext ext_nonneg Spec.Orthogonal.one 0).isClosed.measurableSet _ _ _
    (C59_box ⟨ext, 1, 0⟩ ext_nonneg Spec.Orthogonal.one 3 (by norm_num) p (.inr (.inl hp)))
  exact ⟨μ, p, hp, (C96_cuboid_necessary ext ext_pos μ h1 _ _ _ h2).2⟩

/-! ## Props/Drip -/

theorem exists_drip_solver : ∃ solve : Set ℝ → Py ℝ, Spec.Solves 0 solve ∧ Spec.Complete solve := by
  classical
  refine ⟨fun S => if S.Nonempty ∧ BddAbove S then .ok (sSup S) else .error .assertion, fun S v h => ?_, fun S h1 h2 => ?_⟩
  · dsimp only at h
    split_ifs at h with hS
    obtain rfl := Except.ok.inj h
    exact ⟨_, isLUB_csSup hS.1 hS.2, by simp⟩
  · exact ⟨_, if_pos ⟨h1, h2⟩⟩

def directions : List (List ℝ) := [[1, 2, 3, 4, 5, 6, 7, 8, 9, 10], [0, 0, 1, 0, -1, 0, 0, 0, 0, 1]]

theorem directions_length : ∀ v ∈ directions, v.length = 10 := by
  intro v hv
  simp only [directions, List.mem_cons, List.not_mem_nil, or_false] at hv
  rcases hv with rfl | rfl <;> rfl

theorem drip_lengths {α : Type} {l : List α} {d : List (List ℝ)} (hd : d ≠ []) (h : l.length = d.length) : l ≠ [] := by
  rintro rfl
  exact hd (List.length_eq_zero_iff.mp h.symm)

example : ∃ solve data, boxDripData solve box directions = .ok data ∧ data.customValues.length = 2 ∧
    ∃ r, processDripData data = .ok r := by
  obtain ⟨solve, h1, h2⟩ := exists_drip_solver
  obtain ⟨data, h⟩ := C97_box_runs solve h2 box R_orth ext_pos directions directions_length
  obtain ⟨l2, l3, lc, -⟩ := C97_box 0 solve h1 box R_orth ext_nonneg directions directions_length data h
  obtain ⟨r, hr, -⟩ := (C97_report data (l2.trans lc.symm) (l3.trans lc.symm)).2 (drip_lengths (by simp [directions]) lc)
  exact ⟨solve, data, h, lc, r, hr⟩

example := C97_box_report box R_orth ext_pos

example : ∃ solve data r, cylinderDripData solve cylinder directions = .ok data ∧ data.customValues.length = 2 ∧
    processDripData data = .ok r ∧ 0 ≤ r.minD3 := by
  obtain ⟨solve, h1, h2⟩ := exists_drip_solver
  obtain ⟨data, h⟩ := C97_cylinder_runs solve h2 cylinder R_orth rad_resolved (by norm_num [cylinder]) directions directions_length
  obtain ⟨-, -, lc, -⟩ := C97_cylinder 0 solve h1 cylinder R_orth rad_resolved len_nonneg directions directions_length data h
  obtain ⟨r, hr, h3, -⟩ := C97_cylinder_report 0 solve h1 cylinder R_orth rad_resolved len_nonneg directions (by simp [directions])
    directions_length data h
  exact ⟨solve, data, r, h, lc, hr, by simpa using h3⟩

/-! ## Props/Batch -/

example := C98_back [pt, t, ext, (0 : Fin 3 → ℚ), pt, t] (.tuple [2, 3]) (by decide) rfl

example := C98_back_one (by decide) (pt : Fin 3 → ℚ) (.int 1) rfl

example := C98_ball (.tuple [2, 3]) (by simp) 3 (by norm_num) (fun _ => 1) (fun _ => 1 / 2)

example := C98_ball_line (.tuple [2, 3]) 1 le_rfl (fun _ => 1) (fun _ => 1 / 2)

example := C98_ball_one 3 (by norm_num) (fun _ => 1) (fun _ => 1 / 2)

example := C98_box_inside box ext_nonneg (.tuple [2, 3]) (by decide) (by decide) (fun _ => 1 / 2) (fun _ => by norm_num [abs_le])

example := C98_box_one (box : Box ℚ) (.int 1) rfl (fun _ => 1 / 2)

example := C98_cylinder cylinder (.tuple [2, 3]) (by simp) (fun _ => 1 / 3) (fun _ => 1) (fun _ => 1 / 2)

example := C98_cylinder_inside cylinder len_nonneg (.tuple [2, 3]) (by simp) (fun _ => 1 / 3) (fun _ => 1) (fun _ => 1 / 2)
  (fun _ _ h => one_ne_zero (congrFun h 0)) (fun _ => ⟨by norm_num, by norm_num⟩) (fun _ => by norm_num [abs_le])

example := C98_ellipsoid (by norm_num) ellipsoid (.tuple [2, 3]) (by simp) (fun _ => 1) (fun _ => 1 / 2)

example := C98_ellipsoid_one (by norm_num) ellipsoid (fun _ => 1) (fun _ => 1 / 2)

example := C98_hypersphere (.tuple [2, 3]) (by decide) 2 (by norm_num) (fun _ => 1)

example := C98_hypersphere_one (.int 1) rfl 2 (by norm_num) (fun _ => 1)

example := C98_poly triangle (.tuple [2, 3]) (by decide) (fun _ => 1)

example := C98_poly_inside (⟨[![0, 0], ![1, 0], ![0, 1]], ⟨[(![-1, 0], 0), (![0, -1], 0), (![1, 1], 1)]⟩⟩ : Poly ℝ 2) (.tuple [2, 3]) (by decide)
  (fun _ => 1) (fun _ => by norm_num) (fun _ _ => by simp)

example := C98_poly_line (⟨[![0], ![1]], ⟨[(![-1], 0), (![1], 1)]⟩⟩ : Poly ℚ 1) (.int 1) rfl (fun _ => 1) tol8

example := C98_poly_one (by decide) triangle (.int 1) rfl (fun _ => 1)

/-! ## Props/Batch2 -/

/-- An array of two times three points, and an array of two points. -/
def points23 : NdArray ℚ := ⟨[2, 3, 3], fun i => (i.sum : ℚ)⟩

theorem points23_rows : Spec.Rows points23 [2, 3] 3 fun i k => ((i ++ [(k : ℕ)]).sum : ℕ) := ⟨rfl, fun _ _ _ => rfl⟩

def points2 : NdArray ℚ := ⟨[2, 3], fun i => (i.sum : ℚ)⟩

theorem points2_rows : Spec.Rows points2 [2] 3 fun i k => ((i ++ [(k : ℕ)]).sum : ℕ) := ⟨rfl, fun _ _ _ => rfl⟩

example := C99_axes (ellipsoid : Ellipsoid ℚ 3) box tol8 points23 (by decide)

theorem exists_caps : ∃ caps, (capsule : Capsule ℚ).caps = .ok caps :=
  ⟨_, Capsule.caps_ok capsule rad_nonneg⟩

example := C99_axes_capsule (capsule : Capsule ℚ) tol8 exists_caps.choose_spec (by decide) points23_rows

example := C99_axes_cylinder (cylinder : Cylinder ℚ) tol8 (by decide) points23_rows

example := C99_box_surface (box : Box ℚ) tol8 (Or.inr ⟨2, rfl⟩) points2_rows

example := C99_capsule (capsule : Capsule ℚ) tol8 exists_caps.choose_spec (Or.inr ⟨2, rfl⟩) points2_rows

example := C99_cylinder (cylinder : Cylinder ℚ) tol8 (Or.inr ⟨2, rfl⟩) points2_rows

example := C99_ellipsoid (ellipsoid : Ellipsoid ℚ 3) tol8 (Or.inr ⟨2, rfl⟩) points2_rows

example := C99_ellipsoid_broadcast (by decide) (ellipsoid : Ellipsoid ℚ 3) tol8 2 fun i => (i.sum : ℚ)

example := C99_ellipsoid_surface (ellipsoid : Ellipsoid ℚ 3) tol8 (Or.inr ⟨2, rfl⟩) points2_rows

end Rigeo.Case
