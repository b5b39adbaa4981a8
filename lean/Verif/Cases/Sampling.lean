import Verif.Cases.Realize
import Verif.Props.Sampling2
import Verif.Props.TestUtil
import Verif.Props.Geodesic

/-!
# Concrete cases: grids, random points, rigid bodies and distances

Cases for the theorems of Props/Sampling, Props/Sampling2, Props/Closest, Props/TestUtil, Props/Body, Props/Constructors and Props/Geodesic.
-/

namespace Rigeo.Case

open Matrix

/-! ## Props/Sampling -/

example := C40_corners (box : Box ℚ) ![2, 3, 4] (by intro i; fin_cases i <;> simp) ![1, -1, 1] (by intro i; fin_cases i <;> simp)

example : ∃ g, Box.shapeGrid (.ok (box : Box ℚ)) (fun p => ellipsoid.contains p) 3 = .ok g ∧
    ∀ p ∈ box.grid (fun _ => 3), p ∈ Spec.ellipsoid ext R t → p ∈ g := by
  obtain ⟨b, hb, -, h⟩ := C40_ellipsoid (e := (ellipsoid : Ellipsoid ℚ 3)) R_orth ext_resolved (.ok box) 3 _ rfl
  cases hb
  exact ⟨_, rfl, h⟩

example := C40_inside (box : Box ℚ) ext_nonneg ![2, 3, 4]

example : ∃ g, Box.polyGrid (poly : Poly ℚ 3) 3 = .ok g := by
  obtain ⟨b, hb, -⟩ := C26_fromPointsToBound (poly : Poly ℚ 3).vertices poly_consistent.1
  have h : ∃ g, Box.polyGrid (poly : Poly ℚ 3) 3 = .ok g := by
    unfold Box.polyGrid
    rw [hb]
    exact ⟨_, rfl⟩
  obtain ⟨g, hg⟩ := h
  obtain ⟨b', -, -⟩ := C40_poly poly 3 g hg
  exact ⟨g, hg⟩

example : (box : Box ℚ).randomPoint ![1 / 2, -1 / 3, 1] ∈ Spec.box ext R t :=
  C41_box box ext_nonneg _ (by intro i; fin_cases i <;> simp [abs_le] <;> norm_num)

example : ∃ u : Fin 3 → ℚ, (∀ i, |u i| ≤ 1) ∧ box.randomPoint u = pt := C41_box_onto box ext_nonneg pt pt_box

example := C41_cylinder_disk (cylinder : Cylinder ℚ) len_nonneg (1 / 3) (by norm_num [abs_le]) ![3 / 5, -3 / 5] (by norm_num [dotProduct])

example := C41_ellipsoid_ball (ellipsoid : Ellipsoid ℚ 3) R_orth ![1 / 2, 1 / 2, -1 / 2] (by simp [dotProduct, Fin.sum_univ_three]; norm_num)

/-- A triangle, with weights that are not normalized. -/
def triangle : Poly ℚ 2 := ⟨[![0, 0], ![1, 0], ![0, 1]], ⟨[(![-1, 0], 0), (![0, -1], 0), (![1, 1], 1)]⟩⟩

def weights : Fin triangle.vertices.length → ℚ := fun i => ![1, 2, 3] i

theorem weights_nonneg : ∀ i, 0 ≤ weights i := by decide +kernel

theorem weights_sum : (∑ i, weights i) ≠ 0 := by decide +kernel

theorem triangle_point : ∃ p, triangle.randomPoints weights = .ok p := by
  unfold Poly.randomPoints randomWeightVector vdiv
  rw [if_neg weights_sum]
  exact ⟨_, rfl⟩

example : ∃ p, triangle.randomPoints weights = .ok p ∧ p ∈ Spec.hull triangle.vertices := by
  obtain ⟨p, hp⟩ := triangle_point
  exact ⟨p, hp, C41_poly triangle weights weights_nonneg p hp⟩

theorem box_weights : ∃ (w : Fin (poly : Poly ℚ 3).vertices.length → ℚ) (p : Fin 3 → ℚ), (∀ i, 0 ≤ w i) ∧ poly.randomPoints w = .ok p := by
  have hne : (poly : Poly ℚ 3).vertices.length ≠ 0 := by
    rw [Ne, List.length_eq_zero_iff]; exact poly_consistent.1
  refine ⟨fun _ => 1, ?_⟩
  unfold Poly.randomPoints randomWeightVector vdiv
  rw [if_neg (by simpa using hne)]
  exact ⟨_, fun _ => by norm_num, rfl⟩

example : ∃ w p, (poly : Poly ℚ 3).randomPoints w = .ok p ∧ poly.contains p (1 / 100) = true := by
  obtain ⟨w, p, hw, hp⟩ := box_weights
  exact ⟨w, p, hp, C41_poly_contains poly poly_consistent w hw p hp (1 / 100) (by norm_num)⟩

example := C44_box (box : Box ℚ) R_orth [pt, t] (1 / 100)

example := C44_capsule (capsule : Capsule ℚ) R_orth len_resolved rad_resolved [pt, t]

example := C44_cylinder (cylinder : Cylinder ℚ) R_orth len_resolved rad_resolved [pt, t] (1 / 100)

example := C44_ellipsoid (disk : Ellipsoid ℚ 3) R_orth disk_resolved [pt, t]

example := C44_poly (poly : Poly ℚ 3) poly_consistent [pt, t]

/-- Draws that are accepted in every other round. -/
def draws : ℕ → ℕ → List (Fin 3 → ℚ) := fun k m => List.replicate m (if k % 2 = 0 then pt else 0)

theorem draws_length : ∀ k m, (draws k m).length = m := by simp [draws]

theorem box_contains_pt : (box : Box ℚ).contains pt = true :=
  (C25_contains_tol box R_orth pt _).mpr (by
    obtain ⟨y, hy, h⟩ := pt_box (K := ℚ)
    exact ⟨y, fun i => (hy i).trans (by show ext i ≤ ext i + tol8; norm_num [tol8]), h⟩)

theorem draws_accepted : rejectionSample [fun p => (box : Box ℚ).contains p] draws 4 10 = .ok (draws 0 4) :=
  C65_all_accepted _ draws 4 10 draws_length (by norm_num) (by norm_num)
    (by intro p hp; rw [show p = pt from by simpa [draws] using hp]; exact ⟨_, List.mem_singleton_self _, box_contains_pt⟩)

example : rejectionSample [] draws 4 10 = .error .value := C65_no_shapes draws 4 10 (by norm_num)

example := C65_returns _ draws 4 10 draws_length _ draws_accepted

example : ∃ v, randomWeightVector ![1, 2, (3 : ℚ)] = .ok v ∧ (∀ i, 0 ≤ v i) ∧ ∑ i, v i = 1 := by
  have h : ∃ v, randomWeightVector ![1, 2, (3 : ℚ)] = .ok v := by
    unfold randomWeightVector vdiv
    rw [if_neg (by simp [Fin.sum_univ_three]; norm_num)]
    exact ⟨_, rfl⟩
  obtain ⟨v, hv⟩ := h
  exact ⟨v, hv, C68_weights _ v (by intro i; fin_cases i <;> simp) hv⟩

example := C68_weights_fail ![1, 2, (3 : ℚ)] (by intro i; fin_cases i <;> simp)

/-! ## Props/Sampling2 -/

theorem hypersphere_point : ∃ s, hyperspherePoint 2 ![1, 2, 3] = .ok s :=
  C68_hypersphere_ok 2 (by norm_num) _ (by intro h; have := congrFun h 0; simp at this)

theorem ball_point : ∃ x, ballPoint 3 ![1, 2, 3] (1 / 8) = .ok x := by
  obtain ⟨s, hs⟩ := hypersphere_point
  exact ⟨_, by rw [ballPoint, hs]; rfl⟩

theorem disk_point : ∃ x, ballPoint 2 ![1, 2] (1 / 8) = .ok x := by
  obtain ⟨s, hs⟩ := C68_hypersphere_ok 1 le_rfl ![1, 2] (by intro h; have := congrFun h 0; simp at this)
  exact ⟨_, by rw [ballPoint, hs]; rfl⟩

example : ∃ p, cylinder.randomPoints (1 / 3) ![1, 2] (1 / 8) = .ok p ∧ p ∈ Spec.cylinder (4 : ℝ) 2 R t := by
  obtain ⟨x, hx⟩ := disk_point
  have h : ∃ p, cylinder.randomPoints (1 / 3) ![1, 2] (1 / 8) = .ok p := by
    unfold Cylinder.randomPoints
    rw [hx]
    exact ⟨_, rfl⟩
  obtain ⟨p, hp⟩ := h
  exact ⟨p, hp, C41_cylinder cylinder len_nonneg (1 / 3) (by norm_num [abs_le]) _ (1 / 8) (by norm_num) (by norm_num) p hp⟩

example : ∃ p, ellipsoid.randomPoints ![1, 2, 3] (1 / 8) = .ok p ∧ p ∈ Spec.ellipsoid (ext : Fin 3 → ℝ) R t := by
  obtain ⟨x, hx⟩ := ball_point
  have h : ∃ p, ellipsoid.randomPoints ![1, 2, 3] (1 / 8) = .ok p := by
    unfold Ellipsoid.randomPoints
    rw [hx]
    exact ⟨_, rfl⟩
  obtain ⟨p, hp⟩ := h
  exact ⟨p, hp, C41_ellipsoid ellipsoid R_orth _ (1 / 8) (by norm_num) (by norm_num) p hp⟩

def unitVec {K : Type} [Field K] : Fin 3 → K := ![2 / 3, -2 / 3, 1 / 3]

theorem unitVec_one {K : Type} [Field K] [CharZero K] : (unitVec : Fin 3 → K) ⬝ᵥ unitVec = 1 := by
  simp [unitVec, dotProduct, Fin.sum_univ_three]; norm_num

example := C42_acceptance (k := 2) ellipsoid ext_pos unitVec unitVec_one

theorem edges_ok : ∃ ps, (box : Box ℚ).randomPointsOnEdges 12 (fun _ => 1) (fun i => (-1) ^ i / 2) id = .ok ps := by
  unfold Box.randomPointsOnEdges
  rw [if_neg (by simp [box, ext]; norm_num)]
  exact ⟨_, rfl⟩

example : ∃ ps, (box : Box ℚ).randomPointsOnEdges 12 (fun _ => 1) (fun i => (-1) ^ i / 2) id = .ok ps ∧ ps.length = 12 ∧
    ∀ p ∈ ps, OnEdge ext R t p := by
  obtain ⟨ps, h⟩ := edges_ok
  exact ⟨ps, h, C42_edges box ext_nonneg 12 _ _ (by intro i; rw [abs_div, abs_pow]; norm_num) id (fun _ => List.Perm.refl _) ps h⟩

example := C42_ellipsoid_inverse (ellipsoid : Ellipsoid ℚ 3) unitVec unitVec_one

example := C42_ellipsoid_sphere (⟨fun _ => 2, R, t⟩ : Ellipsoid ℚ 3) R_orth 2 (fun _ => rfl) unitVec unitVec_one

/-- A turn by half a circle about the axis through `(1, 2, 0)`: a symmetric rotation. -/
def halfTurn {K : Type} [Field K] : Matrix (Fin 3) (Fin 3) K := !![-3 / 5, 4 / 5, 0; 4 / 5, 3 / 5, 0; 0, 0, -1]

theorem halfTurn_orth {K : Type} [Field K] [CharZero K] : Spec.Orthogonal (halfTurn : Matrix (Fin 3) (Fin 3) K) := by
  unfold Spec.Orthogonal halfTurn
  ext i j
  fin_cases i <;> fin_cases j <;> simp [Matrix.mul_apply, Fin.sum_univ_three] <;> norm_num

theorem halfTurn_symm {K : Type} [Field K] : (halfTurn : Matrix (Fin 3) (Fin 3) K)ᵀ = halfTurn := by
  ext i j; fin_cases i <;> fin_cases j <;> simp [halfTurn]

noncomputable def turned : Ellipsoid ℝ 3 := ⟨ext, halfTurn, t⟩

example : ∃ p, turned.randomPointsOnSurface (k := 2) ![1, 2, 3] = .ok p ∧ turned.onSurface p 0 = true := by
  obtain ⟨s, hs⟩ := hypersphere_point
  have h : ∃ p, turned.randomPointsOnSurface (k := 2) ![1, 2, 3] = .ok p := by
    unfold Ellipsoid.randomPointsOnSurface
    rw [hs]
    have : decide (∀ i, 0 < turned.halfExtents i) = true := decide_eq_true fun i => ext_pos (K := ℝ) i
    rw [this]
    exact ⟨_, rfl⟩
  obtain ⟨p, hp⟩ := h
  exact ⟨p, hp, (C42_ellipsoid_surface (k := 2) turned halfTurn_orth halfTurn_symm ext_big _ p hp).1⟩

example := C42_ellipsoid_symmetric (⟨ext, halfTurn, t⟩ : Ellipsoid ℚ 3) halfTurn_symm unitVec unitVec_one

example : ∃ ps, (⟨ext, 1, 0⟩ : Box ℚ).randomPointsOnSurface [0, ![1 / 2, 0, 0], ![0, 1, 0]] ![1, 0, 1, 0, 0, 1] id = .ok ps ∧
    ps.length = 3 ∧ ∀ p ∈ ps, OnFace ext 1 0 p := by
  have h : ∃ ps, (⟨ext, 1, 0⟩ : Box ℚ).randomPointsOnSurface [0, ![1 / 2, 0, 0], ![0, 1, 0]] ![1, 0, 1, 0, 0, 1] id = .ok ps := by
    unfold Box.randomPointsOnSurface
    simp only []
    rw [if_neg (by simp [ext]; norm_num), if_neg (by simp)]
    exact ⟨_, rfl⟩
  obtain ⟨ps, hps⟩ := h
  refine ⟨ps, hps, C42_surface_centred _ ext_nonneg rfl rfl _ ?_ _ id (fun _ => List.Perm.refl _) ps hps⟩
  intro u hu
  simp only [List.mem_cons, List.not_mem_nil, or_false] at hu
  rcases hu with rfl | rfl | rfl <;> intro i <;> fin_cases i <;> simp [abs_le] <;> norm_num

example := C65_capsule (capsule : Capsule ℚ) len_nonneg rad_nonneg draws draws_length 4

example : ∃ x, ballPoint 3 ![1, 2, 3] (1 / 8) = .ok x ∧ x ⬝ᵥ x ≤ 1 ∧ Real.sqrt (x ⬝ᵥ x) ^ 3 = 1 / 8 := by
  obtain ⟨x, hx⟩ := ball_point
  exact ⟨x, hx, C68_ball 3 _ x _ (by norm_num) (by norm_num) hx, C68_ball_radius 2 _ x _ (by norm_num) hx⟩

example : ∃ s, hyperspherePoint 2 ![1, 2, 3] = .ok s ∧ s ⬝ᵥ s = 1 := by
  obtain ⟨s, hs⟩ := hypersphere_point
  exact ⟨s, hs, C68_hypersphere 2 _ s hs⟩

/-! ## Props/Closest -/

theorem exists_optimal : ∃ solver, Spec.Optimal solver := by
  classical
  refine ⟨fun f C => if h : ∃ p q, C p q ∧ ∀ p' q', C p' q' → f p q ≤ f p' q' then (h.choose, h.choose_spec.choose) else 0, ?_⟩
  intro f C h
  simp only [dif_pos h]
  exact h.choose_spec.choose_spec

theorem box_valid : (AnyShape.box (box : Box ℝ)).Valid := ⟨R_orth, ext_nonneg⟩

theorem cylinder_valid : (AnyShape.cylinder (⟨4, 2, R, ![20, 0, 0]⟩ : Cylinder ℝ)).Valid := ⟨R_orth, by norm_num, by norm_num⟩

example : ∃ solver info info', closestPoints solver (.box (box : Box ℝ)) (.cylinder ⟨4, 2, R, ![20, 0, 0]⟩) = .ok info ∧
    closestPoints solver (.cylinder ⟨4, 2, R, ![20, 0, 0]⟩) (.box box) = .ok info' ∧ info.dist = info'.dist ∧
    (info.dist = 0 ↔ (Spec.region (.box (box : Box ℝ)) ∩ Spec.region (.cylinder ⟨4, 2, R, ![20, 0, 0]⟩)).Nonempty) := by
  obtain ⟨solver, hs⟩ := exists_optimal
  obtain ⟨info, h, -⟩ := C67_closest solver hs _ _ box_valid cylinder_valid
  obtain ⟨info', h', -⟩ := C67_closest solver hs _ _ cylinder_valid box_valid
  exact ⟨solver, info, info', h, h', C67_symm solver solver hs hs _ _ box_valid cylinder_valid info info' h h',
    (C67_intersect solver hs _ _ box_valid cylinder_valid info h).1⟩

/-! ## Props/TestUtil -/

theorem close_ok : allcloseUnordered [![1, 2], ![3, (4 : ℚ)]] [![3, 4 + 1 / 1000], ![1, 2]] 0 (1 / 100) = .ok true := by
  refine C66_complete _ _ _ _ ?_ ⟨[![1, 2], ![3, 4 + 1 / 1000]], List.Perm.swap _ _ _, ?_⟩
  · intro a ha b hb b' hb' h h'
    simp only [List.mem_cons, List.not_mem_nil, or_false] at hb hb'
    rcases hb with rfl | rfl <;> rcases hb' with rfl | rfl
    · rfl
    · have h1 := abs_le.mp (h 0)
      have h2 := abs_le.mp (h' 0)
      simp at h1 h2
      linarith
    · have h1 := abs_le.mp (h 0)
      have h2 := abs_le.mp (h' 0)
      simp at h1 h2
      linarith
    · rfl
  · refine List.Forall₂.cons ?_ (List.Forall₂.cons ?_ List.Forall₂.nil)
    · intro j; fin_cases j <;> simp
    · intro j; fin_cases j <;> simp [abs_le] <;> norm_num

example := C66_exact [![1, 2], ![3, (4 : ℚ)]] [![3, 4], ![1, 2]] rfl

example := C66_sound _ _ _ _ close_ok

/-! ## Props/Body -/

theorem ip_mass_add {K : Type} [Field K] [LinearOrder K] [IsStrictOrderedRing K] : 0 < (body : RigidBody K).params.mass + (body : RigidBody K).params.mass :=
  add_pos mass_pos mass_pos

example := C69_add (body : RigidBody ℚ) body ip_mass_add

theorem ip_body' {K : Type} [Field K] [LinearOrder K] [IsStrictOrderedRing K] :
    Spec.Realizable (Spec.bodyRegion (body : RigidBody K).shapes) (body : RigidBody K).params.mass (body : RigidBody K).params.h
      (body : RigidBody K).params.H := ip_box.mono fun _ hp => ⟨.box box, by simp [body], hp⟩

example : ∃ c, (body : RigidBody ℚ).add body = .ok c ∧ Spec.Realizable (Spec.bodyRegion c.shapes) c.params.mass c.params.h c.params.H := by
  obtain ⟨c, hc, -⟩ := C69_add (body : RigidBody ℚ) body ip_mass_add
  exact ⟨c, hc, C69_add_realizable body body c hc ip_body' ip_body'⟩

example := C69_assoc (body : RigidBody ℚ) body body mass_pos mass_pos mass_pos

example := C69_massless [.box (box : Box ℚ)] [.ellipsoid ellipsoid] body mass_pos

example := C69_shape_transform cdd cdd_ok (.poly (poly : Poly ℚ 3)) poly_consistent R R_orth ext

example := C69_sum [(body : RigidBody ℚ), body, body] (by intro b hb; simp at hb; rw [hb]; exact mass_pos)

theorem body_valid {K : Type} [Field K] [LinearOrder K] [IsStrictOrderedRing K] : ∀ s ∈ (body : RigidBody K).shapes, s.Valid := by
  intro s hs
  simp only [body, List.mem_cons, List.not_mem_nil, or_false] at hs
  rcases hs with rfl | rfl
  exacts [⟨R_orth, ext_nonneg⟩, ⟨R_orth, ext_nonneg⟩]

example := C69_transform cdd cdd_ok (body : RigidBody ℚ) body_valid mass_pos.le R R_orth ext

example (solver) (solver') := C69_mbes_ellipsoid eigh lstsq orth nullSpace solver solver' body true [.box box] [] ellipsoid rfl

example (solver) (solver') := C69_mbes_sphere eigh lstsq orth nullSpace solver solver' ⟨[.box box, .cylinder cylinder], ip⟩
  (by
    intro s hs
    simp only [List.mem_cons, List.not_mem_nil, or_false] at hs
    rcases hs with rfl | rfl
    exacts [⟨⟨R_orth, ext_nonneg⟩, Or.inl ⟨_, rfl⟩⟩, ⟨⟨R_orth, len_nonneg, rad_nonneg⟩, Or.inr ⟨_, rfl⟩⟩])

theorem exists_mbe_solver : ∃ solver : (n : ℕ) → List (Fin n → ℝ) → Bool → MbeVars n, ∀ n Q s, mbeFeasible Q s (solver n Q s) := by
  exact ⟨fun n Q s => (mbe_feasible_exists Q s).choose, fun n Q s => (mbe_feasible_exists Q s).choose_spec⟩

example (solver') := C69_mbes eigh eigh_ok lstsq lstsq_ok orth orth_ok nullSpace nullSpace_ok exists_mbe_solver.choose
  (fun n Q => exists_mbe_solver.choose_spec n Q false) solver' ⟨[.box box, .poly poly, .cylinder cylinder], ip⟩
  (by
    intro s hs
    simp only [List.mem_cons, List.not_mem_nil, or_false] at hs
    rcases hs with rfl | rfl | rfl
    exacts [⟨⟨R_orth, ext_nonneg⟩, by simp, by simp⟩, ⟨poly_consistent, by simp, by simp⟩, ⟨⟨R_orth, len_nonneg, rad_nonneg⟩, by simp, by simp⟩])

/-! ## Props/Constructors -/

example := C74_diaglen box ext_nonneg R_orth

/-- Two bodies of a few milligrams, that the comparison cannot tell apart. -/
example : (⟨1 / 10 ^ 9, 0, 0⟩ : IP ℚ).isSame ⟨1 / 10 ^ 10, 0, 0⟩ = true := by
  refine C75_light _ _ ?_ ?_ <;> intro i j <;> fin_cases i <;> fin_cases j <;> decide +kernel

example : (ip : IP ℚ).isSame ip = true := C75_refl ip ip rfl rfl rfl

example : Spec.Bounded (Spec.spanned (⟨some [![0, 0], ![1, (2 : ℚ)]], none⟩ : SpanForm ℚ 2)) := C81_bounded _ rfl (by simp)

example : (2 : ℚ) • ![1, 2] ∈ Spec.spanned (⟨none, some [![1, 2]]⟩ : SpanForm ℚ 2) := by
  refine C81_cone _ rfl _ ⟨0, ![1, 2], 0, by simp, ⟨fun _ => 1, by simp, by simp⟩, ⟨fun _ => 0, by simp⟩, by simp⟩ 2 (by norm_num)

/-! ## Props/Geodesic -/

theorem pd_pair : Spec.PD !![2, 1; 1, (2 : ℝ)] := by
  refine ⟨by ext i j; fin_cases i <;> fin_cases j <;> rfl, fun v hv => ?_⟩
  have h : v ⬝ᵥ (!![2, 1; 1, (2 : ℝ)] *ᵥ v) = v 0 ^ 2 + v 1 ^ 2 + (v 0 + v 1) ^ 2 := by
    simp [Matrix.mulVec, dotProduct, Fin.sum_univ_two]; ring
  rw [h]
  by_contra hc
  apply hv
  have h0 : v 0 = 0 := by nlinarith [sq_nonneg (v 0), sq_nonneg (v 1), sq_nonneg (v 0 + v 1)]
  have h1 : v 1 = 0 := by nlinarith [sq_nonneg (v 0), sq_nonneg (v 1), sq_nonneg (v 0 + v 1)]
  ext i; fin_cases i <;> assumption

theorem pd_one {n : ℕ} : Spec.PD (1 : Matrix (Fin n) (Fin n) ℝ) := by
  refine ⟨by simp, fun v hv => ?_⟩
  rw [Matrix.one_mulVec]
  exact lt_of_le_of_ne (dot_self_nonneg v) fun h => hv (dot_self_eq_zero.mp h.symm)

example := C76_congr _ _ !![1, 3; 0, 1] pd_pair pd_one (by simp [Matrix.det_fin_two])

example := C76_defined _ _ pd_pair pd_one

example := C76_symm _ _ pd_pair pd_one

example := C76_zero_iff _ _ pd_pair pd_one

example : positiveDefiniteDistance !![1, 1; 1, 1] !![2, 1; 1, (2 : ℝ)] = .error .value := C76_singular _ _ (by simp [Matrix.det_fin_two])

example := C76_value _ _ !![1, 3; 0, 1] ![2, 3] (by simp [Matrix.det_fin_two]) (by intro i; fin_cases i <;> simp) rfl rfl

/-- A body of mass `m` with second moments `m` about its centre. -/
def solid (m : ℝ) : IP ℝ := ⟨m, 0, m • 1⟩

theorem solid_J (m : ℝ) : (solid m).J = m • 1 := by
  ext i j
  induction i using Fin.lastCases with
  | last =>
    induction j using Fin.lastCases with
    | last => simp [-Fin.reduceLast, solid, IP.J, IP.h, bordered]
    | cast j => simp [-Fin.reduceLast, solid, IP.J, IP.h, bordered, Matrix.one_apply, (Fin.castSucc_lt_last j).ne']
  | cast i =>
    induction j using Fin.lastCases with
    | last => simp [-Fin.reduceLast, solid, IP.J, IP.h, bordered, Matrix.one_apply, (Fin.castSucc_lt_last i).ne]
    | cast j => simp [-Fin.reduceLast, solid, IP.J, IP.h, bordered, Matrix.one_apply]

theorem solid_pd {m : ℝ} (hm : 0 < m) : Spec.PD (solid m).J := by
  rw [solid_J]
  refine ⟨by simp, fun v hv => ?_⟩
  rw [Matrix.smul_mulVec, dotProduct_smul, smul_eq_mul]
  exact mul_pos hm (pd_one.2 v hv)

example : ∃ p' q', (solid 1).transform (some R) (some t) = .ok p' ∧ (solid 3).transform (some R) (some t) = .ok q' ∧
    positiveDefiniteDistance p'.J q'.J = positiveDefiniteDistance (solid 1).J (solid 3).J := by
  obtain ⟨p', hp, -⟩ := C14_J (solid 1) (by norm_num [solid]) R t
  obtain ⟨q', hq, -⟩ := C14_J (solid 3) (by norm_num [solid]) R t
  exact ⟨p', q', hp, hq, C76_frame _ _ _ _ R t R_orth (solid_pd (by norm_num)) (solid_pd (by norm_num)) hp hq⟩

end Rigeo.Case
