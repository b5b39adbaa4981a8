import Mathlib.Analysis.Convex.Join
import Verif.Props.Shapes

/-! # Ellipsoid representations, cylinders and capsules: properties C28, C30, C31, C32 -/

namespace Rigeo

open Matrix

section Field
variable {K : Type} [Field K] [LinearOrder K] [IsStrictOrderedRing K]

/-! ## C28: representations of an ellipsoid -/

theorem Ellipsoid.z_false_of_lt {d : ℕ} (e : Ellipsoid K d) (he : ∀ i, 1 / 100000000 < e.halfExtents i)
    (i : Fin d) : e.z i = false := by
  rw [e.z_false_iff (fun i => Or.inr (he i))]
  exact (tol8_pos (K := K)).trans (he i)

theorem Ellipsoid.hInvFin_ok {d : ℕ} (e : Ellipsoid K d) (he : ∀ i, 1 / 100000000 < e.halfExtents i) :
    e.hInvFin = .ok fun i => 1 / e.halfExtents i := by
  unfold Ellipsoid.hInvFin
  rw [if_pos]
  · congr 1; ext i; exact e.hInvNz_eq i (e.z_false_of_lt he i)
  · intro i
    rw [Option.isSome_iff_ne_none]
    intro h
    rw [e.hInv_eq_none, e.z_false_of_lt he] at h
    exact Bool.noConfusion h

omit [IsStrictOrderedRing K] [LinearOrder K] in
theorem quad_diag {d : ℕ} (R : Matrix (Fin d) (Fin d) K) (w v : Fin d → K) :
    v ⬝ᵥ ((R * Matrix.diagonal w * Rᵀ) *ᵥ v) = ∑ i, w i * (Rᵀ *ᵥ v) i ^ 2 := by
  rw [← mulVec_mulVec, ← mulVec_mulVec, dotProduct_mulVec, ← mulVec_transpose, dotProduct]
  refine Finset.sum_congr rfl fun i _ => ?_
  rw [mulVec_diagonal]; ring

omit [IsStrictOrderedRing K] [LinearOrder K] in
theorem conj_diag_mul {d : ℕ} {R : Matrix (Fin d) (Fin d) K} (hR : Spec.Orthogonal R) (u v : Fin d → K) :
    (R * Matrix.diagonal u * Rᵀ) * (R * Matrix.diagonal v * Rᵀ) =
      R * Matrix.diagonal (fun i => u i * v i) * Rᵀ := by
  calc _ = R * Matrix.diagonal u * (Rᵀ * R) * Matrix.diagonal v * Rᵀ := by simp only [Matrix.mul_assoc]
    _ = _ := by rw [hR, Matrix.mul_one, Matrix.mul_assoc R, Matrix.diagonal_mul_diagonal]

omit [IsStrictOrderedRing K] [LinearOrder K] in
theorem conj_diag_transpose {d : ℕ} (R : Matrix (Fin d) (Fin d) K) (u : Fin d → K) :
    (R * Matrix.diagonal u * Rᵀ)ᵀ = R * Matrix.diagonal u * Rᵀ := by
  simp [transpose_mul, Matrix.mul_assoc]

omit [LinearOrder K] [IsStrictOrderedRing K] in
theorem conj_diag_one {d : ℕ} {R : Matrix (Fin d) (Fin d) K} (hR : Spec.Orthogonal R) (u : Fin d → K)
    (hu : ∀ i, u i = 1) : R * Matrix.diagonal u * Rᵀ = 1 := by
  have : u = fun _ => 1 := funext hu
  rw [this, Matrix.diagonal_one, Matrix.mul_one, hR.mul_transpose]

/-- The set described by a positive definite shape matrix given in eigen-form. -/
theorem ellipsoid_of_shape {d : ℕ} {R : Matrix (Fin d) (Fin d) K} (hR : Spec.Orthogonal R)
    (h c p : Fin d → K) (hh : ∀ i, 0 < h i) :
    p ∈ Spec.ellipsoid h R c ↔
      (p - c) ⬝ᵥ ((R * Matrix.diagonal (fun i => (1 / h i) ^ 2) * Rᵀ) *ᵥ (p - c)) ≤ 1 := by
  rw [Spec_ellipsoid_iff hR, quad_diag]
  constructor
  · rintro ⟨-, h1⟩
    convert h1 using 3 with i
    ring
  · intro h1
    refine ⟨fun i hi => absurd hi (hh i).ne', ?_⟩
    convert h1 using 3 with i
    ring

omit [LinearOrder K] [IsStrictOrderedRing K] in
/-- The quadratic form of a `Q` matrix at a homogeneous point. -/
theorem qMatrix_quad {d : ℕ} (S : Matrix (Fin d) (Fin d) K) (hS : Sᵀ = S) (c x : Fin d → K) (t bound : K) :
    (Fin.snoc (α := fun _ => K) x t) ⬝ᵥ (qMatrix S c bound *ᵥ (Fin.snoc (α := fun _ => K) x t)) =
      bound * t ^ 2 - (x - t • c) ⬝ᵥ (S *ᵥ (x - t • c)) := by
  unfold qMatrix
  rw [bordered_quad]
  have e1 : (c ᵥ* S) = S *ᵥ c := by rw [← mulVec_transpose, hS]
  have e2 : x ⬝ᵥ (S *ᵥ c) = (S *ᵥ c) ⬝ᵥ x := dotProduct_comm _ _
  have e3 : c ⬝ᵥ (S *ᵥ x) = (S *ᵥ c) ⬝ᵥ x := by rw [dotProduct_mulVec, e1]
  have e4 : c ⬝ᵥ (S *ᵥ c) = (S *ᵥ c) ⬝ᵥ c := dotProduct_comm _ _
  rw [e1]
  simp only [neg_mulVec, dotProduct_neg, mulVec_sub, mulVec_smul, sub_dotProduct, dotProduct_sub,
    smul_dotProduct, dotProduct_smul, smul_eq_mul, e2, e3, e4]
  ring

/-- C28: for a non-degenerate ellipsoid all representations exist (are finite), satisfy `S E = E S = 1`,
`A A = S`, and describe the same point set as the half extents and pose do:
`(p-c)ᵀ S (p-c) ≤ 1`, `|A p + b|² ≤ 1` and `p̃ᵀ Q p̃ ≥ 0`. -/
theorem C28_representations {d : ℕ} (e : Ellipsoid K d) (hR : Spec.Orthogonal e.rotation)
    (he : ∀ i, 1 / 100000000 < e.halfExtents i) :
    ∃ (S A : Matrix (Fin d) (Fin d) K) (b : Fin d → K) (Q : Matrix (Fin (d + 1)) (Fin (d + 1)) K),
      e.S = .ok S ∧ e.A = .ok A ∧ e.b = .ok b ∧ e.Q = .ok Q ∧
      S * e.E = 1 ∧ e.E * S = 1 ∧ A * A = S ∧
      ∀ p : Fin d → K,
        (p ∈ Spec.ellipsoid e.halfExtents e.rotation e.center ↔
          (p - e.center) ⬝ᵥ (S *ᵥ (p - e.center)) ≤ 1) ∧
        (p ∈ Spec.ellipsoid e.halfExtents e.rotation e.center ↔ (A *ᵥ p + b) ⬝ᵥ (A *ᵥ p + b) ≤ 1) ∧
        (p ∈ Spec.ellipsoid e.halfExtents e.rotation e.center ↔ 0 ≤ IP.hom p ⬝ᵥ (Q *ᵥ IP.hom p)) := by
  have hpos : ∀ i, 0 < e.halfExtents i := fun i => (tol8_pos (K := K)).trans (he i)
  have hF := e.hInvFin_ok he
  set S := e.rotation * Matrix.diagonal (fun i => (1 / e.halfExtents i) ^ 2) * e.rotationᵀ with hS
  set A := e.rotation * Matrix.diagonal (fun i => 1 / e.halfExtents i) * e.rotationᵀ with hA
  have eS : e.S = .ok S := by simp [Ellipsoid.S, hF, bind, Except.bind, pure, Except.pure, hS]
  have eA : e.A = .ok A := by simp [Ellipsoid.A, hF, bind, Except.bind, pure, Except.pure, hA]
  have eb : e.b = .ok ((-A) *ᵥ e.center) := by simp [Ellipsoid.b, eA, bind, Except.bind, pure, Except.pure]
  have eQ : e.Q = .ok (qMatrix S e.center) := by simp [Ellipsoid.Q, eS, bind, Except.bind, pure, Except.pure]
  have hSE : S * e.E = 1 := by
    rw [hS, Ellipsoid.E, conj_diag_mul hR]
    refine conj_diag_one hR _ fun i => ?_
    have := (hpos i).ne'
    field_simp
  have hAA : A * A = S := by
    rw [hA, hS, conj_diag_mul hR]
    simp only [sq]
  have hAt : Aᵀ = A := conj_diag_transpose _ _
  have hSt : Sᵀ = S := conj_diag_transpose _ _
  refine ⟨S, A, _, _, eS, eA, eb, eQ, hSE, mul_eq_one_comm.mp hSE, hAA, fun p => ?_⟩
  have h1 := ellipsoid_of_shape hR e.halfExtents e.center p hpos
  refine ⟨h1, ?_, ?_⟩
  · rw [h1, ← hS]
    have : A *ᵥ p + (-A) *ᵥ e.center = A *ᵥ (p - e.center) := by
      rw [mulVec_sub, neg_mulVec, sub_eq_add_neg]
    rw [this, dotProduct_mulVec (A *ᵥ (p - e.center)), ← mulVec_transpose, hAt, mulVec_mulVec, hAA,
      dotProduct_comm]
  · rw [h1, ← hS]
    unfold IP.hom
    rw [qMatrix_quad S hSt]
    simp

/-- C28: for a degenerate ellipsoid `S`, `A`, `b` and `Q` are not finite. -/
theorem C28_degenerate {d : ℕ} (e : Ellipsoid K d) (i : Fin d) (hi : e.halfExtents i = 0) :
    e.S = .error .nonfinite ∧ e.A = .error .nonfinite ∧ e.b = .error .nonfinite ∧
      e.Q = .error .nonfinite := by
  have hF : e.hInvFin = .error .nonfinite := by
    unfold Ellipsoid.hInvFin
    rw [if_neg]
    intro h
    have := h i
    rw [Option.isSome_iff_ne_none] at this
    exact this ((e.hInv_eq_none i).mpr ((e.z_iff i).mpr (by simp [hi, (tol8_pos (K := K)).le])))
  have hS : e.S = .error .nonfinite := by simp [Ellipsoid.S, hF, bind, Except.bind]
  have hA : e.A = .error .nonfinite := by simp [Ellipsoid.A, hF, bind, Except.bind]
  exact ⟨hS, hA, by simp [Ellipsoid.b, hA, bind, Except.bind], by simp [Ellipsoid.Q, hS, bind, Except.bind]⟩

example : ∃ e : Ellipsoid ℚ 3, Spec.Orthogonal e.rotation ∧ (∀ i, 1 / 100000000 < e.halfExtents i) :=
  ⟨⟨![1, 2, 3], !![0, -1, 0; 1, 0, 0; 0, 0, 1], ![1, 1, 1]⟩, by decide +kernel, by decide +kernel⟩

/-! ## C31: cylinders -/

/-- A sphere as an ellipsoid with equal half extents. -/
theorem ellipsoid_ball {d : ℕ} (r : K) (hr : 0 ≤ r) {R : Matrix (Fin d) (Fin d) K}
    (hR : Spec.Orthogonal R) (c p : Fin d → K) :
    p ∈ Spec.ellipsoid (fun _ => r) R c ↔ p ∈ Spec.ball r c := by
  rw [Spec_ellipsoid_iff hR]
  unfold Spec.ball
  rw [Set.mem_ofPred_eq]
  have hn : (p - c) ⬝ᵥ (p - c) = ∑ i, (Rᵀ *ᵥ (p - c)) i ^ 2 := by
    rw [← dot_mulVec_orthogonal hR.transpose]
    simp [dotProduct, sq]
  rw [hn]
  rcases hr.eq_or_lt with rfl | hr
  · simp only [forall_const, div_zero]
    constructor
    · rintro ⟨h, -⟩; simp [h]
    · intro h
      have h0 : ∑ i, (Rᵀ *ᵥ (p - c)) i ^ 2 = 0 :=
        le_antisymm (by simpa using h) (Finset.sum_nonneg fun i _ => sq_nonneg _)
      rw [Finset.sum_eq_zero_iff_of_nonneg fun i _ => sq_nonneg _] at h0
      exact ⟨fun i => by simpa using h0 i (Finset.mem_univ i), by simp⟩
  · constructor
    · rintro ⟨-, h⟩
      simp only [div_pow, ← Finset.sum_div] at h
      rwa [div_le_one (by positivity)] at h
    · intro h
      refine ⟨fun i hi => absurd hi hr.ne', ?_⟩
      simp only [div_pow, ← Finset.sum_div]
      rwa [div_le_one (by positivity)]

theorem Spec_cylinder_iff {R : Matrix (Fin 3) (Fin 3) K} (hR : Spec.Orthogonal R) (L r : K)
    (c p : Fin 3 → K) : p ∈ Spec.cylinder L r R c ↔
      |(Rᵀ *ᵥ (p - c)) 2| ≤ L / 2 ∧
        (Rᵀ *ᵥ (p - c)) 0 ^ 2 + (Rᵀ *ᵥ (p - c)) 1 ^ 2 ≤ r ^ 2 := by
  constructor
  · rintro ⟨y, h1, h2, hp⟩
    rw [rigid_iff hR] at hp
    rw [← hp]; exact ⟨h1, h2⟩
  · rintro ⟨h1, h2⟩
    exact ⟨_, h1, h2, (rigid_iff hR _ _ _).mpr rfl⟩

/-- Coordinates used by the two auxiliary ellipsoids of a cylinder. -/
theorem Cylinder.coord1 (c : Cylinder K) (p : Fin 3 → K) :
    p ⬝ᵥ c.longitudinalAxis - c.longitudinalAxis ⬝ᵥ c.center =
      (c.rotationᵀ *ᵥ (p - c.center)) 2 := by
  simp [Cylinder.longitudinalAxis, mulVec, dotProduct, Fin.sum_univ_three]
  ring

theorem Cylinder.coord2 (c : Cylinder K) (p : Fin 3 → K) (j : Fin 2) :
    (p ᵥ* c.transverseAxes - c.transverseAxesᵀ *ᵥ c.center) j =
      (c.rotationᵀ *ᵥ (p - c.center)) (Fin.castLE (by decide) j) := by
  simp [Cylinder.transverseAxes, mulVec, vecMul, dotProduct, Fin.sum_univ_three]
  ring

/-- C31: the `tol` argument of `Cylinder.contains` has no effect. -/
theorem C31_tol_ignored (c : Cylinder K) (p : Fin 3 → K) (tol tol' : K) :
    c.contains p tol = c.contains p tol' := rfl

theorem contains_const {d : ℕ} (r : K) (hr : Spec.Resolved r) (c p : Fin d → K) (tol : K) :
    (⟨fun _ => r, 1, c⟩ : Ellipsoid K d).contains p tol = true ↔
      if r = 0 then (∀ i, |p i - c i| ≤ tol) ∧ 0 ≤ 1 + tol
      else (∑ i, (p i - c i) ^ 2) / r ^ 2 ≤ 1 + tol := by
  set e : Ellipsoid K d := ⟨fun _ => r, 1, c⟩ with he
  simp only [Ellipsoid.contains, Bool.and_eq_true, decide_eq_true_eq, isclose_zero_right,
    vecMul_eq_transpose]
  have hres : ∀ i, Spec.Resolved (e.halfExtents i) := fun i => hr
  have hps : ∀ i, (e.rotationᵀ *ᵥ (p - e.center)) i = p i - c i := fun i => by simp [he]
  simp only [hps]
  split_ifs with h0
  · have hz : ∀ i, e.z i = true := fun i => (e.z_iff_zero hres i).mpr h0
    simp [hz]
  · have hz : ∀ i, e.z i = false := fun i =>
      (e.z_false_iff hres i).mpr (lt_of_le_of_ne hr.nonneg (Ne.symm h0))
    have hinv : ∀ i, e.hInvNz i = 1 / r := fun i => e.hInvNz_eq i (hz i)
    simp only [hz, hinv, Bool.false_eq_true, false_implies, implies_true, true_and,
      Finset.filter_true, Finset.sum_div]
    have : ∀ i, (1 / r) ^ 2 * (p i - c i) * (p i - c i) = (p i - c i) ^ 2 / r ^ 2 := fun i => by ring
    simp only [this]

/-- C31: exact description of `Cylinder.contains` in body coordinates `y`, including the built-in
tolerance `1e-8`. -/
theorem C31_contains (c : Cylinder K) (hL : Spec.Resolved (c.length / 2)) (hr : Spec.Resolved c.radius)
    (p y : Fin 3 → K) (hy : y = c.rotationᵀ *ᵥ (p - c.center)) (tol : K) :
    c.contains p tol = true ↔
      (if c.length = 0 then |y 2| ≤ 1 / 100000000 else y 2 ^ 2 / (c.length / 2) ^ 2 ≤ 1 + 1 / 100000000) ∧
      (if c.radius = 0 then |y 0| ≤ 1 / 100000000 ∧ |y 1| ≤ 1 / 100000000
        else (y 0 ^ 2 + y 1 ^ 2) / c.radius ^ 2 ≤ 1 + 1 / 100000000) := by
  have ht : (0 : K) ≤ 1 + tol8 := by have := tol8_pos (K := K); linarith
  unfold Cylinder.contains Cylinder.ell1 Cylinder.ell2
  rw [Bool.and_eq_true, contains_const _ hL, contains_const _ hr]
  have e1 := c.coord1 p
  have e20 := c.coord2 p 0
  have e21 := c.coord2 p 1
  rw [Pi.sub_apply] at e20 e21
  rw [← hy] at e1 e20 e21
  have c0 : (Fin.castLE (by decide) (0 : Fin 2) : Fin 3) = 0 := rfl
  have c1 : (Fin.castLE (by decide) (1 : Fin 2) : Fin 3) = 1 := rfl
  rw [c0] at e20
  rw [c1] at e21
  simp only [Fin.forall_fin_two, Fin.sum_univ_two, e20, e21, Finset.univ_unique, Finset.sum_singleton, e1,
    forall_const, div_eq_zero_iff, OfNat.ofNat_ne_zero, or_false, ht, and_true]
  rfl

/-- C31: every point of the cylinder is reported as contained ... -/
theorem C31_complete (c : Cylinder K) (hR : Spec.Orthogonal c.rotation)
    (hL : Spec.Resolved (c.length / 2)) (hr : Spec.Resolved c.radius) (p : Fin 3 → K) (tol : K)
    (hp : p ∈ Spec.cylinder c.length c.radius c.rotation c.center) : c.contains p tol = true := by
  rw [Spec_cylinder_iff hR] at hp
  rw [C31_contains c hL hr p _ rfl]
  obtain ⟨h1, h2⟩ := hp
  set y := c.rotationᵀ *ᵥ (p - c.center)
  have ht : (0 : K) ≤ 1 / 100000000 := by norm_num
  constructor
  · split_ifs with h
    · rw [h, zero_div] at h1; exact h1.trans ht
    · have hpos : 0 < c.length / 2 := lt_of_le_of_ne hL.nonneg (fun h0 => h (by linarith))
      rw [div_le_iff₀ (by positivity)]
      have := sq_le_sq' (neg_le_of_abs_le h1) (le_of_abs_le h1)
      nlinarith [sq_nonneg (c.length / 2)]
  · split_ifs with h
    · rw [h] at h2
      have h0 : y 0 ^ 2 = 0 := le_antisymm (by nlinarith [sq_nonneg (y 1)]) (sq_nonneg _)
      have h1' : y 1 ^ 2 = 0 := le_antisymm (by nlinarith [sq_nonneg (y 0)]) (sq_nonneg _)
      rw [pow_eq_zero_iff two_ne_zero] at h0 h1'
      rw [h0, h1', abs_zero]
      exact ⟨ht, ht⟩
    · have hpos : 0 < c.radius := lt_of_le_of_ne hr.nonneg (Ne.symm h)
      rw [div_le_iff₀ (by positivity)]
      nlinarith [sq_nonneg c.radius]

/-- C31: ... and every point reported as contained is in the cylinder grown by a relative and absolute
margin of about `1e-8`. -/
theorem C31_sound (c : Cylinder K) (hR : Spec.Orthogonal c.rotation)
    (hL : Spec.Resolved (c.length / 2)) (hr : Spec.Resolved c.radius) (p : Fin 3 → K) (tol : K)
    (hp : c.contains p tol = true) :
    p ∈ Spec.cylinder (c.length * (1 + 1 / 100000000) + 2 / 100000000)
      (c.radius * (1 + 1 / 100000000) + 2 / 100000000) c.rotation c.center := by
  rw [Spec_cylinder_iff hR]
  rw [C31_contains c hL hr p _ rfl] at hp
  obtain ⟨h1, h2⟩ := hp
  set y := c.rotationᵀ *ᵥ (p - c.center)
  have hLn : 0 ≤ c.length := by have := hL.nonneg; linarith
  have hrn := hr.nonneg
  constructor
  · split_ifs at h1 with h
    · rw [h]; refine h1.trans (le_of_eq ?_); norm_num
    · have hpos : 0 < c.length / 2 := lt_of_le_of_ne hL.nonneg (fun h0 => h (by linarith))
      rw [div_le_iff₀ (by positivity)] at h1
      refine abs_le_of_sq_le_sq (h1.trans ?_) (by positivity)
      nlinarith [hpos]
  · split_ifs at h2 with h
    · rw [h, zero_mul, zero_add]
      have a0 := sq_le_sq' (neg_le_of_abs_le h2.1) (le_of_abs_le h2.1)
      have a1 := sq_le_sq' (neg_le_of_abs_le h2.2) (le_of_abs_le h2.2)
      norm_num at a0 a1 ⊢
      linarith
    · have hpos : 0 < c.radius := lt_of_le_of_ne hr.nonneg (Ne.symm h)
      rw [div_le_iff₀ (by positivity)] at h2
      nlinarith

example : ∃ c : Cylinder ℚ, Spec.Orthogonal c.rotation ∧ Spec.Resolved (c.length / 2) ∧
    Spec.Resolved c.radius ∧ c.contains ![2, 1, 1] 0 = true :=
  ⟨⟨2, 1, !![0, -1, 0; 1, 0, 0; 0, 0, 1], ![1, 1, 1]⟩, by decide +kernel, Or.inr (by norm_num),
    Or.inr (by norm_num), by decide +kernel⟩

/-! ## C30: containment constraints of polyhedra and cylinders -/

/-- C30: for a polyhedron and `s > 0`, `must_contain(q, scale=s)` holds exactly when
`contains(q / s, tol=0)`. -/
theorem C30_poly {d : ℕ} (P : Poly K d) (q : Fin d → K) (s : K) (hs : 0 < s) :
    P.mustContain q s ↔ P.contains (s⁻¹ • q) 0 = true := by
  simp only [Poly.mustContain, Poly.contains, List.all_eq_true, decide_eq_true_eq, dotProduct_smul,
    smul_eq_mul, add_zero]
  refine forall₂_congr fun ab _ => ?_
  rw [inv_mul_le_iff₀ hs]

/-- C30: likewise for a box (as a point set). -/
theorem C30_box (b : Box K) (hR : Spec.Orthogonal b.rotation) (q : Fin 3 → K) (s : K) (hs : 0 < s) :
    b.mustContain q s ↔ s⁻¹ • q ∈ Spec.box b.halfExtents b.rotation b.center := by
  rw [← C25_contains b hR]
  exact C30_poly _ _ _ hs

theorem ball_one_dim (a : K) (ha : 0 ≤ a) (c p : Fin 1 → K) : p ∈ Spec.ball a c ↔ |p 0 - c 0| ≤ a := by
  simp only [Spec.ball, Set.mem_ofPred_eq, dotProduct, Finset.univ_unique, Finset.sum_singleton,
    Fin.default_eq_zero, Fin.isValue, Pi.sub_apply, ← sq]
  rw [sq_le_sq, abs_of_nonneg ha]

/-- C30: for a cylinder and `s > 0`, `must_contain(q, scale=s)` holds exactly when `q / s` is in the
cylinder; no tolerance is involved. -/
theorem C30_cylinder (c : Cylinder K) (hR : Spec.Orthogonal c.rotation) (hL : 0 ≤ c.length)
    (hr : 0 ≤ c.radius) (q : Fin 3 → K) (s : K) (hs : 0 < s) :
    c.mustContain q s ↔ s⁻¹ • q ∈ Spec.cylinder c.length c.radius c.rotation c.center := by
  unfold Cylinder.mustContain
  rw [C29_mustContain c.ell1 Spec.Orthogonal.one _ _ hs, C29_mustContain c.ell2 Spec.Orthogonal.one _ _ hs]
  unfold Cylinder.ell1 Cylinder.ell2
  dsimp only
  rw [ellipsoid_ball _ (by positivity) Spec.Orthogonal.one, ellipsoid_ball _ hr Spec.Orthogonal.one,
    ball_one_dim _ (by positivity), Spec_cylinder_iff hR]
  have e1 := c.coord1 (s⁻¹ • q)
  have e20 := c.coord2 (s⁻¹ • q) 0
  have e21 := c.coord2 (s⁻¹ • q) 1
  have c0 : (Fin.castLE (by decide) (0 : Fin 2) : Fin 3) = 0 := rfl
  have c1 : (Fin.castLE (by decide) (1 : Fin 2) : Fin 3) = 1 := rfl
  rw [c0] at e20
  rw [c1] at e21
  rw [← e1, ← e20, ← e21]
  simp only [Spec.ball, Set.mem_ofPred_eq, dotProduct, Fin.sum_univ_two, Pi.smul_apply, smul_eq_mul,
    smul_vecMul, Pi.sub_apply, Finset.mul_sum, ← sq, mul_assoc]

/-! ## C32: capsules -/

theorem Cylinder.endpoints_eq (c : Cylinder K) : c.endpoints =
    [Spec.rigid c.rotation c.center ![0, 0, c.length / 2],
     Spec.rigid c.rotation c.center ![0, 0, -(c.length / 2)]] := by
  have : ∀ s : K, c.rotation *ᵥ ![0, 0, s] = s • c.longitudinalAxis := by
    intro s; ext i
    simp [mulVec, dotProduct, Fin.sum_univ_three, Cylinder.longitudinalAxis, mul_comm]
  simp only [Cylinder.endpoints, Spec.rigid, this]
  rw [neg_smul, one_div_mul_eq_div]

theorem Ellipsoid.sphere_ok {d : ℕ} (r : K) (hr : 0 ≤ r) (c : Fin d → K) :
    Ellipsoid.sphere r c = .ok ⟨fun _ => r, 1, c⟩ := by
  simp [Ellipsoid.sphere, Ellipsoid.init, pyAssert, hr, bind, Except.bind, pure, Except.pure]

theorem Capsule.caps_ok (c : Capsule K) (hr : 0 ≤ c.cylinder.radius) : c.caps = .ok
    [⟨fun _ => c.cylinder.radius, 1,
        Spec.rigid c.cylinder.rotation c.cylinder.center ![0, 0, c.cylinder.length / 2]⟩,
     ⟨fun _ => c.cylinder.radius, 1,
        Spec.rigid c.cylinder.rotation c.cylinder.center ![0, 0, -(c.cylinder.length / 2)]⟩] := by
  unfold Capsule.caps
  rw [Cylinder.endpoints_eq]
  simp [Ellipsoid.sphere_ok _ hr, bind, Except.bind, pure, Except.pure]

/-- Ball membership in the body frame. -/
theorem ball_rigid {R : Matrix (Fin 3) (Fin 3) K} (hR : Spec.Orthogonal R) (r z : K) (c p : Fin 3 → K) :
    p ∈ Spec.ball r (Spec.rigid R c ![0, 0, z]) ↔
      (Rᵀ *ᵥ (p - c)) 0 ^ 2 + (Rᵀ *ᵥ (p - c)) 1 ^ 2 + ((Rᵀ *ᵥ (p - c)) 2 - z) ^ 2 ≤ r ^ 2 := by
  unfold Spec.ball
  rw [Set.mem_ofPred_eq, ← dot_mulVec_orthogonal hR.transpose]
  have : Rᵀ *ᵥ (p - Spec.rigid R c ![0, 0, z]) = Rᵀ *ᵥ (p - c) - ![0, 0, z] := by
    unfold Spec.rigid
    rw [add_comm, ← sub_sub, mulVec_sub, mulVec_mulVec, hR, one_mulVec]
  rw [this]
  simp [dotProduct, Fin.sum_univ_three, sq]

theorem Spec_capsule_iff {R : Matrix (Fin 3) (Fin 3) K} (hR : Spec.Orthogonal R) (L r : K)
    (c p : Fin 3 → K) : p ∈ Spec.capsule L r R c ↔ ∃ z : K, |z| ≤ L / 2 ∧
      (Rᵀ *ᵥ (p - c)) 0 ^ 2 + (Rᵀ *ᵥ (p - c)) 1 ^ 2 + ((Rᵀ *ᵥ (p - c)) 2 - z) ^ 2 ≤ r ^ 2 := by
  refine exists_congr fun z => and_congr_right fun _ => ?_
  rw [ball_rigid hR]

/-- C32: the three parts the code tests (two spherical caps and the cylinder) make up exactly the set
of points within distance `r` of the axis segment. -/
theorem C32_union {R : Matrix (Fin 3) (Fin 3) K} (hR : Spec.Orthogonal R) (L r : K) (hL : 0 ≤ L)
    (c : Fin 3 → K) : Spec.capsule L r R c =
      Spec.ball r (Spec.rigid R c ![0, 0, L / 2]) ∪ Spec.ball r (Spec.rigid R c ![0, 0, -(L / 2)]) ∪
        Spec.cylinder L r R c := by
  ext p
  rw [Set.mem_union, Set.mem_union, Spec_capsule_iff hR, ball_rigid hR, ball_rigid hR,
    Spec_cylinder_iff hR]
  set y := Rᵀ *ᵥ (p - c)
  constructor
  · rintro ⟨z, hz, h⟩
    rw [abs_le] at hz
    by_cases h1 : L / 2 < y 2
    · left; left; nlinarith
    · by_cases h2 : y 2 < -(L / 2)
      · left; right; nlinarith
      · right
        exact ⟨abs_le.mpr ⟨not_lt.mp h2, not_lt.mp h1⟩, by nlinarith [sq_nonneg (y 2 - z)]⟩
  · rintro ((h | h) | ⟨h1, h2⟩)
    · exact ⟨L / 2, by rw [abs_of_nonneg (by positivity)], h⟩
    · exact ⟨-(L / 2), by rw [abs_neg, abs_of_nonneg (by positivity)], h⟩
    · exact ⟨y 2, h1, by simpa using h2⟩

theorem ball_convex {n : ℕ} (r : K) (c : Fin n → K) : Convex K (Spec.ball r c) := by
  intro x hx y hy a b ha hb hab
  simp only [Spec.ball, Set.mem_ofPred_eq] at *
  have e : a • x + b • y - c = a • (x - c) + b • (y - c) := by
    rw [smul_sub, smul_sub, sub_add_sub_comm, ← add_smul, hab, one_smul]
  rw [e]
  have key : 0 ≤ ((x - c) - (y - c)) ⬝ᵥ ((x - c) - (y - c)) := dot_self_nonneg _
  simp only [add_dotProduct, dotProduct_add, smul_dotProduct, dotProduct_smul, smul_eq_mul,
    sub_dotProduct (x - c), dotProduct_sub _ (x - c)] at key ⊢
  rw [dotProduct_comm (y - c) (x - c)] at *
  have hb' : b = 1 - a := by linarith
  subst hb'
  nlinarith [mul_nonneg ha hb]

/-- C32: the capsule is the convex hull of its two end spheres. -/
theorem C32_hull {R : Matrix (Fin 3) (Fin 3) K} (hR : Spec.Orthogonal R) (L r : K) (hL : 0 ≤ L)
    (c : Fin 3 → K) : Spec.capsule L r R c =
      convexHull K (Spec.ball r (Spec.rigid R c ![0, 0, L / 2]) ∪
        Spec.ball r (Spec.rigid R c ![0, 0, -(L / 2)])) := by
  apply Set.Subset.antisymm
  · intro p hp
    obtain ⟨z, hz, hp⟩ := hp
    rcases hL.eq_or_lt with rfl | hLpos
    · have hz0 : z = 0 := abs_eq_zero.mp (le_antisymm (by simpa using hz) (abs_nonneg _))
      subst hz0
      apply subset_convexHull
      left; simpa using hp
    · rw [abs_le] at hz
      set w := p - Spec.rigid R c ![0, 0, z] with hw
      set a := z / L + 1 / 2 with ha
      set q1 := Spec.rigid R c ![0, 0, L / 2] + w
      set q2 := Spec.rigid R c ![0, 0, -(L / 2)] + w
      have h1 : q1 ∈ Spec.ball r (Spec.rigid R c ![0, 0, L / 2]) := by
        simp only [q1, Spec.ball, Set.mem_ofPred_eq, add_sub_cancel_left]; exact hp
      have h2 : q2 ∈ Spec.ball r (Spec.rigid R c ![0, 0, -(L / 2)]) := by
        simp only [q2, Spec.ball, Set.mem_ofPred_eq, add_sub_cancel_left]; exact hp
      have hzL : -(1 / 2) ≤ z / L ∧ z / L ≤ 1 / 2 := by
        rw [le_div_iff₀ hLpos, div_le_iff₀ hLpos]; constructor <;> linarith
      have hcomb : p = a • q1 + (1 - a) • q2 := by
        have ez : z = a * (L / 2) + (1 - a) * (-(L / 2)) := by
          rw [ha]; field_simp; ring
        have hv : ![0, 0, z] = a • ![0, 0, L / 2] + (1 - a) • ![0, 0, -(L / 2)] := by
          ext i; fin_cases i
          · simp
          · simp
          · simpa using ez
        have : p = Spec.rigid R c ![0, 0, z] + w := by rw [hw]; abel
        rw [this, hv]
        simp only [q1, q2, Spec.rigid, mulVec_add, mulVec_smul]
        module
      rw [hcomb]
      have hcv := convex_convexHull K (Spec.ball r (Spec.rigid R c ![0, 0, L / 2]) ∪
        Spec.ball r (Spec.rigid R c ![0, 0, -(L / 2)]))
      refine hcv (subset_convexHull K _ (Or.inl h1)) (subset_convexHull K _ (Or.inr h2)) ?_ ?_ ?_
      · rw [ha]; linarith
      · rw [ha]; linarith
      · ring
  · apply convexHull_min
    · rw [C32_union hR L r hL c]; exact Set.subset_union_left
    · -- convexity of the capsule
      intro x hx y hy a b ha hb hab
      obtain ⟨z1, hz1, hx⟩ := hx
      obtain ⟨z2, hz2, hy⟩ := hy
      refine ⟨a * z1 + b * z2, ?_, ?_⟩
      · rw [abs_le] at *
        have hb' : b = 1 - a := by linarith
        subst hb'
        constructor <;> nlinarith
      · set w1 := x - Spec.rigid R c ![0, 0, z1] with hw1
        set w2 := y - Spec.rigid R c ![0, 0, z2] with hw2
        have h1 : w1 ∈ Spec.ball r (0 : Fin 3 → K) := by
          show (w1 - 0) ⬝ᵥ (w1 - 0) ≤ r ^ 2
          rw [sub_zero]; exact hx
        have h2 : w2 ∈ Spec.ball r (0 : Fin 3 → K) := by
          show (w2 - 0) ⬝ᵥ (w2 - 0) ≤ r ^ 2
          rw [sub_zero]; exact hy
        have h3 := ball_convex r (0 : Fin 3 → K) h1 h2 ha hb hab
        have e : a • x + b • y - Spec.rigid R c ![0, 0, a * z1 + b * z2] = a • w1 + b • w2 := by
          have hv : (![0, 0, a * z1 + b * z2] : Fin 3 → K) = a • ![0, 0, z1] + b • ![0, 0, z2] := by
            ext i; fin_cases i <;> simp
          have hc : c = a • c + b • c := by rw [← add_smul, hab, one_smul]
          rw [hw1, hw2, hv]
          simp only [Spec.rigid, mulVec_add, mulVec_smul, smul_sub, smul_add]
          nth_rewrite 1 [hc]
          abel
        simp only [Spec.ball, Set.mem_ofPred_eq, sub_zero] at h3 ⊢
        rw [e]; exact h3

/-- C32: every point of the capsule is reported as contained (for every tolerance `≥ 0`). -/
theorem C32_complete (c : Capsule K) (hR : Spec.Orthogonal c.cylinder.rotation)
    (hL : Spec.Resolved (c.cylinder.length / 2)) (hr : Spec.Resolved c.cylinder.radius) (p : Fin 3 → K)
    (tol : K) (ht : 0 ≤ tol)
    (hp : p ∈ Spec.capsule c.cylinder.length c.cylinder.radius c.cylinder.rotation c.cylinder.center) :
    c.contains p tol = .ok true := by
  have hLn : 0 ≤ c.cylinder.length := by have := hL.nonneg; linarith
  rw [C32_union hR _ _ hLn] at hp
  unfold Capsule.contains
  rw [c.caps_ok hr.nonneg]
  simp only [bind, Except.bind, pure, Except.pure, List.any_cons, List.any_nil, Bool.or_false]
  congr 1
  simp only [Bool.or_eq_true]
  rcases hp with (hp | hp) | hp
  · left; left
    refine C27_mono _ _ 0 tol ht ((C27_contains _ Spec.Orthogonal.one (fun _ => hr) _).mpr ?_)
    exact (ellipsoid_ball _ hr.nonneg Spec.Orthogonal.one _ _).mpr hp
  · left; right
    refine C27_mono _ _ 0 tol ht ((C27_contains _ Spec.Orthogonal.one (fun _ => hr) _).mpr ?_)
    exact (ellipsoid_ball _ hr.nonneg Spec.Orthogonal.one _ _).mpr hp
  · right; exact C31_complete _ hR hL hr _ _ hp

theorem capsule_mono {R : Matrix (Fin 3) (Fin 3) K} (c : Fin 3 → K) {L L' r r' : K}
    (hL : L ≤ L') (hr : 0 ≤ r) (hr' : r ≤ r') : Spec.capsule L r R c ⊆ Spec.capsule L' r' R c := by
  rintro p ⟨z, hz, hp⟩
  refine ⟨z, hz.trans (by linarith), ?_⟩
  simp only [Spec.ball, Set.mem_ofPred_eq] at *
  exact hp.trans (pow_le_pow_left₀ hr hr' 2)

/-- C32: at `tol = 0` every point reported as contained is in the capsule grown by a margin of about
`1e-8` (the margin comes from the cylinder part, which ignores `tol`). -/
theorem C32_sound (c : Capsule K) (hR : Spec.Orthogonal c.cylinder.rotation)
    (hL : Spec.Resolved (c.cylinder.length / 2)) (hr : Spec.Resolved c.cylinder.radius) (p : Fin 3 → K)
    (hp : c.contains p 0 = .ok true) :
    p ∈ Spec.capsule (c.cylinder.length * (1 + 1 / 100000000) + 2 / 100000000)
      (c.cylinder.radius * (1 + 1 / 100000000) + 2 / 100000000) c.cylinder.rotation c.cylinder.center := by
  have hLn : 0 ≤ c.cylinder.length := by have := hL.nonneg; linarith
  have hrn := hr.nonneg
  unfold Capsule.contains at hp
  rw [c.caps_ok hr.nonneg] at hp
  simp only [bind, Except.bind, pure, Except.pure, List.any_cons, List.any_nil, Bool.or_false] at hp
  have hp := Except.ok.inj hp
  simp only [Bool.or_eq_true] at hp
  have hmono := capsule_mono (R := c.cylinder.rotation) c.cylinder.center
    (L := c.cylinder.length) (L' := c.cylinder.length * (1 + 1 / 100000000) + 2 / 100000000)
    (r := c.cylinder.radius) (r' := c.cylinder.radius * (1 + 1 / 100000000) + 2 / 100000000)
    (by nlinarith) hrn (by nlinarith)
  rcases hp with (hp | hp) | hp
  · apply hmono
    rw [C32_union hR _ _ hLn]
    rw [C27_contains _ Spec.Orthogonal.one (fun _ => hr)] at hp
    exact Or.inl (Or.inl ((ellipsoid_ball _ hrn Spec.Orthogonal.one _ _).mp hp))
  · apply hmono
    rw [C32_union hR _ _ hLn]
    rw [C27_contains _ Spec.Orthogonal.one (fun _ => hr)] at hp
    exact Or.inl (Or.inr ((ellipsoid_ball _ hrn Spec.Orthogonal.one _ _).mp hp))
  · rw [C32_union hR _ _ (by positivity)]
    exact Or.inr (C31_sound _ hR hL hr _ _ hp)

/-- C30: for a capsule and `s > 0`, the constraints of `must_contain(q, scale=s)` are satisfiable
exactly when `q / s` is in the capsule. -/
theorem C30_capsule (c : Capsule K) (hR : Spec.Orthogonal c.cylinder.rotation)
    (hL : 0 ≤ c.cylinder.length) (hr : 0 ≤ c.cylinder.radius) (q : Fin 3 → K) (s : K) (hs : 0 < s) :
    Py.Holds (c.mustContain q s) ↔
      s⁻¹ • q ∈ Spec.capsule c.cylinder.length c.cylinder.radius c.cylinder.rotation c.cylinder.center := by
  set e1 := Spec.rigid c.cylinder.rotation c.cylinder.center ![0, 0, c.cylinder.length / 2]
  set e2 := Spec.rigid c.cylinder.rotation c.cylinder.center ![0, 0, -(c.cylinder.length / 2)]
  have hiff : Py.Holds (c.mustContain q s) ↔ ∃ (p1 p2 : Fin 3 → K) (t : K),
      (⟨fun _ => c.cylinder.radius, 1, e1⟩ : Ellipsoid K 3).mustContain p1 t ∧
      (⟨fun _ => c.cylinder.radius, 1, e2⟩ : Ellipsoid K 3).mustContain p2 (s - t) ∧
      0 ≤ t ∧ t ≤ s ∧ q = p1 + p2 := by
    unfold Capsule.mustContain
    rw [c.caps_ok hr]
    simp only [bind, Except.bind, pure, Except.pure, Py.Holds]
    constructor
    · rintro ⟨p, hp, h⟩
      rw [← Except.ok.inj hp] at h; exact h
    · intro h; exact ⟨_, rfl, h⟩
  rw [hiff, C32_hull hR _ _ hL]
  have mem1 : ∀ p t, 0 < t → ((⟨fun _ => c.cylinder.radius, 1, e1⟩ : Ellipsoid K 3).mustContain p t ↔
      t⁻¹ • p ∈ Spec.ball c.cylinder.radius e1) := fun p t ht => by
    rw [C29_mustContain _ Spec.Orthogonal.one _ _ ht]
    exact ellipsoid_ball _ hr Spec.Orthogonal.one _ _
  have mem2 : ∀ p t, 0 < t → ((⟨fun _ => c.cylinder.radius, 1, e2⟩ : Ellipsoid K 3).mustContain p t ↔
      t⁻¹ • p ∈ Spec.ball c.cylinder.radius e2) := fun p t ht => by
    rw [C29_mustContain _ Spec.Orthogonal.one _ _ ht]
    exact ellipsoid_ball _ hr Spec.Orthogonal.one _ _
  have hne1 : e1 ∈ Spec.ball c.cylinder.radius e1 := by simp [Spec.ball, sq_nonneg]
  have hne2 : e2 ∈ Spec.ball c.cylinder.radius e2 := by simp [Spec.ball, sq_nonneg]
  have hb1 := ball_convex c.cylinder.radius e1
  have hb2 := ball_convex c.cylinder.radius e2
  rw [hb1.convexHull_union hb2 ⟨_, hne1⟩ ⟨_, hne2⟩]
  simp only [mem_convexJoin, segment, Set.mem_ofPred_eq]
  constructor
  · rintro ⟨p1, p2, t, h1, h2, ht0, hts, rfl⟩
    rcases ht0.eq_or_lt with rfl | ht0
    · rw [C29_zero_scale _ Spec.Orthogonal.one] at h1
      subst h1
      rw [sub_zero, mem2 _ _ hs] at h2
      exact ⟨e1, hne1, _, h2, 0, 1, le_rfl, zero_le_one, by simp, by simp⟩
    rcases hts.eq_or_lt with rfl | hts
    · rw [sub_self, C29_zero_scale _ Spec.Orthogonal.one] at h2
      subst h2
      rw [mem1 _ _ hs] at h1
      exact ⟨_, h1, e2, hne2, 1, 0, zero_le_one, le_rfl, by simp, by simp⟩
    · rw [mem1 _ _ ht0] at h1
      have hst : 0 < s - t := by linarith
      rw [mem2 _ _ hst] at h2
      refine ⟨_, h1, _, h2, t / s, (s - t) / s, by positivity, by positivity, ?_, ?_⟩
      · field_simp; ring
      · rw [smul_smul, smul_smul, smul_add]
        congr 2 <;> field_simp
  · rintro ⟨x, hx, y, hy, a, b, ha, hb, hab, hq⟩
    have hq' : q = (s * a) • x + (s * b) • y := by
      rw [← smul_smul, ← smul_smul, ← smul_add, hq, smul_smul, mul_inv_cancel₀ hs.ne', one_smul]
    refine ⟨(s * a) • x, (s * b) • y, s * a, ?_, ?_, by positivity, ?_, hq'⟩
    · rcases ha.eq_or_lt with rfl | ha
      · rw [mul_zero, zero_smul, C29_zero_scale _ Spec.Orthogonal.one]
      · rw [mem1 _ _ (by positivity), smul_smul, inv_mul_cancel₀ (by positivity), one_smul]; exact hx
    · have : s - s * a = s * b := by linear_combination (-s) * hab
      rw [this]
      rcases hb.eq_or_lt with rfl | hb
      · rw [mul_zero, zero_smul, C29_zero_scale _ Spec.Orthogonal.one]
      · rw [mem2 _ _ (by positivity), smul_smul, inv_mul_cancel₀ (by positivity), one_smul]; exact hy
    · have : a ≤ 1 := by linarith
      nlinarith

/-- C30: the case the docstring advertises: `must_contain(h, scale=m)` holds exactly when the centre of
mass `h / m` is in the shape, here for all four kinds of shape. -/
theorem C30_com (b : Box K) (hb : Spec.Orthogonal b.rotation) (c : Capsule K)
    (hc : Spec.Orthogonal c.cylinder.rotation) (hL : 0 ≤ c.cylinder.length) (hr : 0 ≤ c.cylinder.radius)
    (com : Fin 3 → K) (m : K) (hm : 0 < m) :
    (b.mustContain (m • com) m ↔ com ∈ Spec.box b.halfExtents b.rotation b.center) ∧
    (c.cylinder.mustContain (m • com) m ↔
      com ∈ Spec.cylinder c.cylinder.length c.cylinder.radius c.cylinder.rotation c.cylinder.center) ∧
    (Py.Holds (c.mustContain (m • com) m) ↔
      com ∈ Spec.capsule c.cylinder.length c.cylinder.radius c.cylinder.rotation c.cylinder.center) := by
  rw [C30_box b hb _ _ hm, C30_cylinder _ hc hL hr _ _ hm, C30_capsule c hc hL hr _ _ hm, smul_smul,
    inv_mul_cancel₀ hm.ne', one_smul]
  exact ⟨Iff.rfl, Iff.rfl, Iff.rfl⟩

example : ∃ c : Capsule ℚ, Spec.Orthogonal c.cylinder.rotation ∧ Spec.Resolved (c.cylinder.length / 2) ∧
    Spec.Resolved c.cylinder.radius ∧ c.contains ![1, 1, 3] 0 = .ok true ∧
    c.contains ![1, 1, 4] 0 = .ok false :=
  ⟨⟨⟨2, 1, !![0, -1, 0; 1, 0, 0; 0, 0, 1], ![1, 1, 1]⟩⟩, by decide +kernel, Or.inr (by norm_num),
    Or.inr (by norm_num), by decide +kernel, by decide +kernel⟩

end Field
end Rigeo
