import Verif.Lemmas.Shapes
import Verif.Props.Util
import Mathlib.Tactic

/-! # Boxes and ellipsoids as point sets: properties C25, C26, C27, C29 -/

namespace Rigeo

open Matrix

section Field
variable {K : Type} [Field K] [LinearOrder K] [IsStrictOrderedRing K]

/-! ## C25: boxes -/

theorem Box.init_ok (h : Fin 3 → K) (hh : ∀ i, 0 ≤ h i) (c : Option (Fin 3 → K))
    (R : Option (Matrix (Fin 3) (Fin 3) K)) : Box.init h c R = .ok ⟨h, R.getD 1, c.getD 0⟩ := by
  simp [Box.init, pyAssert, hh, bind, Except.bind, pure, Except.pure]

theorem boxIneqs_iff (h : Fin 3 → K) (R : Matrix (Fin 3) (Fin 3) K) (c p : Fin 3 → K) (tol : K) :
    (∀ ab ∈ Box.boxIneqs h R c, ab.1 ⬝ᵥ p ≤ ab.2 + tol) ↔
      ∀ i, |(Rᵀ *ᵥ (p - c)) i| ≤ h i + tol := by
  have key : ∀ (a : Fin 3 → K) (s : K), ((a ᵥ* Rᵀ) ⬝ᵥ p ≤ s + (a ᵥ* Rᵀ) ⬝ᵥ c + tol) ↔
      a ⬝ᵥ (Rᵀ *ᵥ (p - c)) ≤ s + tol := by
    intro a s
    rw [dotProduct_mulVec, dotProduct_sub]
    constructor <;> intro h <;> linarith
  simp only [Box.boxIneqs, List.map_cons, List.map_nil, List.forall_mem_cons, key,
    List.not_mem_nil, IsEmpty.forall_iff, implies_true, and_true]
  simp only [Fin.forall_fin_succ, abs_le]
  simp [dotProduct, Fin.sum_univ_three]
  constructor
  · rintro ⟨h1, h2, h3, h4, h5, h6⟩
    refine ⟨⟨?_, ?_⟩, ⟨?_, ?_⟩, ?_, ?_⟩ <;> first | assumption | linarith
  · rintro ⟨⟨h1, h2⟩, ⟨h3, h4⟩, h5, h6⟩
    refine ⟨?_, ?_, ?_, ?_, ?_, ?_⟩ <;> first | assumption | linarith

/-- Box membership with a tolerance, in body coordinates (no hypothesis on the rotation). -/
theorem Box.contains_iff (b : Box K) (p : Fin 3 → K) (tol : K) :
    b.contains p tol = true ↔
      ∀ i, |(b.rotationᵀ *ᵥ (p - b.center)) i| ≤ b.halfExtents i + tol := by
  rw [← boxIneqs_iff]
  simp [Box.contains, Poly.contains, Box.toPoly, FaceForm.init]

/-- C25: `Box.contains(p, tol=0)` is membership in the box as a point set. -/
theorem C25_contains (b : Box K) (hR : Spec.Orthogonal b.rotation) (p : Fin 3 → K) :
    b.contains p 0 = true ↔ p ∈ Spec.box b.halfExtents b.rotation b.center := by
  rw [Box.contains_iff, Spec_box_iff hR]
  simp

/-- C25: with a tolerance, `contains` is membership in the box grown by `tol` on every side. -/
theorem C25_contains_tol (b : Box K) (hR : Spec.Orthogonal b.rotation) (p : Fin 3 → K) (tol : K) :
    b.contains p tol = true ↔ p ∈ Spec.box (fun i => b.halfExtents i + tol) b.rotation b.center := by
  rw [Box.contains_iff, Spec_box_iff hR]

theorem hull_image (R : Matrix (Fin 3) (Fin 3) K) (c : Fin 3 → K) (vs : List (Fin 3 → K)) :
    Spec.hull (vs.map fun v => R *ᵥ v + c) = Spec.rigid R c '' Spec.hull vs := by
  unfold Spec.hull
  have : Spec.rigid R c = rigidAffine R c := by ext p : 1; rw [rigidAffine_apply]
  rw [this, AffineMap.image_convexHull]
  congr 1
  ext p
  simp only [List.mem_map, Set.mem_ofPred_eq, Set.mem_image, rigidAffine_apply, Spec.rigid]

theorem hull_boxVertices {n : ℕ} (h : Fin n → K) (hh : ∀ i, 0 ≤ h i) :
    Spec.hull (boxVertices h) = {y | ∀ i, |y i| ≤ h i} := by
  have hset : {v | v ∈ boxVertices h} = Set.pi Set.univ fun i => ({h i, -h i} : Set K) := by
    ext v; simp [C08_mem]
  unfold Spec.hull
  rw [hset, convexHull_pi]
  ext y
  simp only [Set.mem_pi, Set.mem_univ, true_implies, Set.mem_ofPred_eq]
  refine forall_congr' fun i => ?_
  rw [convexHull_pair, segment_symm, segment_eq_Icc (by linarith [hh i]), Set.mem_Icc, abs_le]

/-- C25: the stored vertices span the box: vertex form, face form and pose describe the same set. -/
theorem C25_vertices (b : Box K) (hh : ∀ i, 0 ≤ b.halfExtents i) :
    Spec.hull b.vertices = Spec.box b.halfExtents b.rotation b.center := by
  change Spec.hull ((boxVertices b.halfExtents).map fun v => b.rotation *ᵥ v + b.center) = _
  rw [hull_image, hull_boxVertices _ hh]
  ext p
  simp only [Set.mem_image, Set.mem_ofPred_eq, Spec.box]
  constructor
  · rintro ⟨y, hy, rfl⟩; exact ⟨y, hy, rfl⟩
  · rintro ⟨y, hy, rfl⟩; exact ⟨y, hy, rfl⟩

example : ∃ b : Box ℚ, (∀ i, 0 ≤ b.halfExtents i) ∧ Spec.Orthogonal b.rotation ∧ b.rotation ≠ 1 ∧
    b.contains ![3, 1, 1] 0 = true := by
  refine ⟨⟨![1, 2, 3], !![0, -1, 0; 1, 0, 0; 0, 0, 1], ![1, 1, 1]⟩, ?_, ?_, ?_, ?_⟩ <;> decide +kernel

/-! ## C26: axis-aligned bounding boxes of points -/

theorem Spec_box_one (h c p : Fin 3 → K) :
    p ∈ Spec.box h 1 c ↔ ∀ i, c i - h i ≤ p i ∧ p i ≤ c i + h i := by
  rw [Spec_box_iff Spec.Orthogonal.one]
  refine forall_congr' fun i => ?_
  rw [transpose_one, one_mulVec, abs_le, Pi.sub_apply]
  constructor <;> rintro ⟨h1, h2⟩ <;> constructor <;> linarith

theorem Box.fromTwoVertices_eq (v1 v2 : Fin 3 → K) : ∃ b : Box K,
    Box.fromTwoVertices v1 v2 = .ok b ∧ b.rotation = 1 ∧ (∀ i, 0 ≤ b.halfExtents i) ∧
      (∀ i, b.center i - b.halfExtents i = min (v1 i) (v2 i)) ∧
      (∀ i, b.center i + b.halfExtents i = max (v1 i) (v2 i)) := by
  unfold Box.fromTwoVertices
  have hnn : ∀ i, 0 ≤ (1 / 2 : K) * (max (v1 i) (v2 i) - min (v1 i) (v2 i)) := fun i => by
    have : min (v1 i) (v2 i) ≤ max (v1 i) (v2 i) := min_le_max
    linarith
  rw [Box.init_ok _ hnn]
  refine ⟨_, rfl, rfl, hnn, fun i => ?_, fun i => ?_⟩ <;>
  · have := min_add_max (v1 i) (v2 i)
    simp only [Option.getD_some]
    linarith

/-- C26: `from_two_vertices(v1, v2)` never fails and is the box spanned by the two corners, whichever
coordinates of either corner are larger. -/
theorem C26_fromTwoVertices (v1 v2 : Fin 3 → K) : ∃ b : Box K,
    Box.fromTwoVertices v1 v2 = .ok b ∧ b.rotation = 1 ∧
      Spec.box b.halfExtents b.rotation b.center =
        Spec.aabox (fun i => min (v1 i) (v2 i)) (fun i => max (v1 i) (v2 i)) := by
  obtain ⟨b, hb, hR, -, hlo, hhi⟩ := Box.fromTwoVertices_eq v1 v2
  refine ⟨b, hb, hR, ?_⟩
  ext p
  rw [hR, Spec_box_one]
  simp only [hlo, hhi, Spec.aabox, Set.mem_ofPred_eq]

theorem foldl_min_le {α : Type} (f : α → K) (l : List α) (a : K) :
    l.foldl (fun acc q => min acc (f q)) a ≤ a ∧ ∀ q ∈ l, l.foldl (fun acc q => min acc (f q)) a ≤ f q := by
  induction l generalizing a with
  | nil => simp
  | cons x l ih =>
    obtain ⟨h1, h2⟩ := ih (min a (f x))
    refine ⟨h1.trans (min_le_left _ _), ?_⟩
    intro q hq
    rcases List.mem_cons.mp hq with rfl | hq
    · exact h1.trans (min_le_right _ _)
    · exact h2 q hq

theorem le_foldl_min {α : Type} (f : α → K) (l : List α) (a m : K) (ha : m ≤ a) (hl : ∀ q ∈ l, m ≤ f q) :
    m ≤ l.foldl (fun acc q => min acc (f q)) a := by
  induction l generalizing a with
  | nil => simpa
  | cons x l ih =>
    exact ih _ (le_min ha (hl x (by simp))) fun q hq => hl q (by simp [hq])

theorem le_foldl_max {α : Type} (f : α → K) (l : List α) (a : K) :
    a ≤ l.foldl (fun acc q => max acc (f q)) a ∧ ∀ q ∈ l, f q ≤ l.foldl (fun acc q => max acc (f q)) a := by
  induction l generalizing a with
  | nil => simp
  | cons x l ih =>
    obtain ⟨h1, h2⟩ := ih (max a (f x))
    refine ⟨(le_max_left _ _).trans h1, ?_⟩
    intro q hq
    rcases List.mem_cons.mp hq with rfl | hq
    · exact (le_max_right _ _).trans h1
    · exact h2 q hq

theorem foldl_max_le {α : Type} (f : α → K) (l : List α) (a m : K) (ha : a ≤ m) (hl : ∀ q ∈ l, f q ≤ m) :
    l.foldl (fun acc q => max acc (f q)) a ≤ m := by
  induction l generalizing a with
  | nil => simpa
  | cons x l ih =>
    exact ih _ (max_le ha (hl x (by simp))) fun q hq => hl q (by simp [hq])

/-- C26: `from_points_to_bound(points)` contains all points, is axis-aligned, and is contained in every
axis-aligned box containing the points. On an empty array it raises `ValueError`. -/
theorem C26_fromPointsToBound (points : List (Fin 3 → K)) (hne : points ≠ []) : ∃ b : Box K,
    Box.fromPointsToBound points = .ok b ∧ b.rotation = 1 ∧ (∀ i, 0 ≤ b.halfExtents i) ∧
      (∀ p ∈ points, p ∈ Spec.box b.halfExtents b.rotation b.center) ∧
      ∀ lo hi : Fin 3 → K, (∀ p ∈ points, p ∈ Spec.aabox lo hi) →
        Spec.box b.halfExtents b.rotation b.center ⊆ Spec.aabox lo hi := by
  match points, hne with
  | p :: ps, _ =>
    set lo : Fin 3 → K := fun i => ps.foldl (fun acc q => min acc (q i)) (p i) with hlo
    set hi : Fin 3 → K := fun i => ps.foldl (fun acc q => max acc (q i)) (p i) with hhi
    obtain ⟨b, hb, hR, hnn, h1, h2⟩ := Box.fromTwoVertices_eq lo hi
    have hle : ∀ i, lo i ≤ hi i := fun i =>
      (foldl_min_le (fun q : Fin 3 → K => q i) ps (p i)).1.trans
        (le_foldl_max (fun q : Fin 3 → K => q i) ps (p i)).1
    refine ⟨b, hb, hR, hnn, ?_, ?_⟩
    · intro q hq
      rw [hR, Spec_box_one]
      intro i
      rw [h1, h2, min_eq_left (hle i), max_eq_right (hle i)]
      rcases List.mem_cons.mp hq with rfl | hq
      · exact ⟨(foldl_min_le (fun q : Fin 3 → K => q i) ps _).1,
          (le_foldl_max (fun q : Fin 3 → K => q i) ps _).1⟩
      · exact ⟨(foldl_min_le (fun q : Fin 3 → K => q i) ps (p i)).2 q hq,
          (le_foldl_max (fun q : Fin 3 → K => q i) ps (p i)).2 q hq⟩
    · intro lo' hi' hall q hq i
      rw [hR, Spec_box_one] at hq
      have := hq i
      rw [h1, h2, min_eq_left (hle i), max_eq_right (hle i)] at this
      exact ⟨(le_foldl_min (fun q : Fin 3 → K => q i) ps (p i) (lo' i) (hall p (by simp) i).1
          fun q hq => (hall q (by simp [hq]) i).1).trans this.1,
        this.2.trans (foldl_max_le (fun q : Fin 3 → K => q i) ps (p i) (hi' i) (hall p (by simp) i).2
          fun q hq => (hall q (by simp [hq]) i).2)⟩

/-- C26: `from_points_to_bound` of no points raises `ValueError`. -/
theorem C26_empty : Box.fromPointsToBound ([] : List (Fin 3 → K)) = .error .value := rfl

/-! ## C27: ellipsoid membership -/

/-- C27: `Ellipsoid.contains(p, tol=0)` is membership in the affine image of the unit ball, in every
dimension, degenerate or not. Half extents must not lie in `(0, 1e-8]`, see `C27_unresolved`. -/
theorem C27_contains {d : ℕ} (e : Ellipsoid K d) (hR : Spec.Orthogonal e.rotation)
    (he : ∀ i, Spec.Resolved (e.halfExtents i)) (p : Fin d → K) :
    e.contains p 0 = true ↔ p ∈ Spec.ellipsoid e.halfExtents e.rotation e.center := by
  rw [Spec_ellipsoid_iff hR]
  simp only [Ellipsoid.contains, Bool.and_eq_true, decide_eq_true_eq, isclose_zero,
    e.z_iff_zero he, vecMul_eq_transpose, add_zero]
  refine and_congr_right fun h0 => ?_
  rw [← Finset.sum_filter_add_sum_filter_not Finset.univ (fun i => e.z i = false)
    (fun i => ((e.rotationᵀ *ᵥ (p - e.center)) i / e.halfExtents i) ^ 2)]
  have h2 : ∑ i ∈ Finset.univ.filter (fun i => ¬ e.z i = false),
      ((e.rotationᵀ *ᵥ (p - e.center)) i / e.halfExtents i) ^ 2 = 0 := by
    refine Finset.sum_eq_zero fun i hi => ?_
    simp only [Finset.mem_filter, Finset.mem_univ, true_and, Bool.not_eq_false, e.z_iff_zero he] at hi
    simp [hi]
  rw [h2, add_zero]
  have h3 : ∀ i ∈ Finset.univ.filter (fun i => e.z i = false),
      e.hInvNz i ^ 2 * (e.rotationᵀ *ᵥ (p - e.center)) i * (e.rotationᵀ *ᵥ (p - e.center)) i =
        ((e.rotationᵀ *ᵥ (p - e.center)) i / e.halfExtents i) ^ 2 := by
    intro i hi
    simp only [Finset.mem_filter, Finset.mem_univ, true_and] at hi
    rw [e.hInvNz_eq i hi]; ring
  rw [Finset.sum_congr rfl h3]

/-- C27: `contains` is monotone in the tolerance. -/
theorem C27_mono {d : ℕ} (e : Ellipsoid K d) (p : Fin d → K) (tol tol' : K) (h : tol ≤ tol') :
    e.contains p tol = true → e.contains p tol' = true := by
  simp only [Ellipsoid.contains, Bool.and_eq_true, decide_eq_true_eq, isclose_zero_right]
  exact fun ⟨h1, h2⟩ => ⟨fun i hi => (h1 i hi).trans h, h2.trans (by linarith)⟩

/-- C27: the hypothesis on tiny half extents cannot be dropped: the segment with half extent `1e-8`
does not "contain" its own end point. -/
theorem C27_unresolved : ∃ (e : Ellipsoid ℚ 1) (p : Fin 1 → ℚ), Spec.Orthogonal e.rotation ∧
    (∀ i, 0 ≤ e.halfExtents i) ∧ p ∈ Spec.ellipsoid e.halfExtents e.rotation e.center ∧
      e.contains p 0 = false := by
  refine ⟨⟨fun _ => 1 / 100000000, 1, 0⟩, fun _ => 1 / 100000000, Spec.Orthogonal.one, ?_, ?_, ?_⟩
  · intro i; norm_num
  · exact ⟨fun _ => 1, by simp [dotProduct], by ext i; simp [Spec.rigid]⟩
  · decide +kernel

example : ∃ e : Ellipsoid ℚ 3, Spec.Orthogonal e.rotation ∧ e.rotation ≠ 1 ∧
    (∀ i, Spec.Resolved (e.halfExtents i)) ∧ e.halfExtents 2 = 0 ∧
    e.contains ![1, 1, 0] 0 = true ∧ e.contains ![1, 1, 1] 0 = false := by
  refine ⟨⟨![2, 3, 0], !![0, -1, 0; 1, 0, 0; 0, 0, 1], 0⟩, by decide +kernel, by decide +kernel, ?_,
    rfl, by decide +kernel, by decide +kernel⟩
  intro i
  fin_cases i
  · right; norm_num
  · right; norm_num
  · left; rfl

/-! ## C29: ellipsoid containment constraints -/

theorem schur_diag_iff {d : ℕ} (h p : Fin d → K) (s : K) (hs : 0 < s) :
    cvxPsd (schur (s • Matrix.diagonal fun i => h i ^ 2) p s) ↔
      ∃ u : Fin d → K, u ⬝ᵥ u ≤ 1 ∧ ∀ i, p i = s * (h i * u i) := by
  unfold cvxPsd schur
  rw [forall_snoc]
  have hq : ∀ (x : Fin d → K) (t : K),
      (Fin.snoc (α := fun _ => K) x t) ⬝ᵥ
        (bordered (s • Matrix.diagonal fun i => h i ^ 2) p p s *ᵥ (Fin.snoc (α := fun _ => K) x t)) =
      s * ∑ i, (h i * x i) ^ 2 + 2 * t * ∑ i, p i * x i + s * t ^ 2 := by
    intro x t
    rw [bordered_quad]
    congr 2
    · rw [smul_mulVec, dotProduct_smul, smul_eq_mul]
      congr 1
      simp only [dotProduct, mulVec_diagonal]
      exact Finset.sum_congr rfl fun i _ => by ring
  simp only [hq]
  constructor
  · intro hp
    have hz : ∀ i, h i = 0 → p i = 0 := by
      intro i hi
      by_contra hpi
      have := hp (Pi.single i (-(s / p i))) 1
      rw [Finset.sum_eq_single i, Finset.sum_eq_single i] at this
      · simp only [Pi.single_eq_same, hi, zero_mul] at this
        rw [mul_neg, mul_div_cancel₀ _ hpi] at this
        linarith
      · intro j _ hj; simp [hj]
      · simp
      · intro j _ hj; simp [hj]
      · simp
    refine ⟨fun i => p i / (s * h i), ?_, ?_⟩
    · have := hp (fun i => -(p i / (s * h i ^ 2))) 1
      have e1 : ∀ i, (h i * -(p i / (s * h i ^ 2))) ^ 2 = (p i / (s * h i)) ^ 2 := by
        intro i
        by_cases hi : h i = 0
        · simp [hi]
        · field_simp
      have e2 : ∀ i, p i * -(p i / (s * h i ^ 2)) = -(s * (p i / (s * h i)) ^ 2) := by
        intro i
        by_cases hi : h i = 0
        · simp [hi]
        · field_simp
      simp only [e1, e2, Finset.sum_neg_distrib, ← Finset.mul_sum] at this
      have e3 : s * (1 - ∑ i, (p i / (s * h i)) ^ 2) ≥ 0 := by linarith
      have := nonneg_of_mul_nonneg_right e3 hs
      simp only [dotProduct, ← sq]
      linarith
    · intro i
      by_cases hi : h i = 0
      · simp [hi, hz i hi]
      · field_simp
  · rintro ⟨u, hu, hpu⟩ x t
    simp only [hpu]
    have e : s * ∑ i, (h i * x i) ^ 2 + 2 * t * ∑ i, s * (h i * u i) * x i + s * t ^ 2 =
        s * (∑ i, (h i * x i + t * u i) ^ 2 + t ^ 2 * (1 - u ⬝ᵥ u)) := by
      have : ∀ i, (h i * x i + t * u i) ^ 2 = (h i * x i) ^ 2 + 2 * t * ((h i * u i) * x i) + t ^ 2 * (u i * u i) := by
        intro i; ring
      simp only [this, Finset.sum_add_distrib, ← Finset.mul_sum, mul_assoc s, dotProduct]
      ring
    rw [e]
    have : 0 ≤ ∑ i, (h i * x i + t * u i) ^ 2 := Finset.sum_nonneg fun i _ => sq_nonneg _
    have : 0 ≤ t ^ 2 * (1 - u ⬝ᵥ u) := mul_nonneg (sq_nonneg _) (by linarith)
    positivity

/-- C29: for `s > 0`, `must_contain(q, scale=s)` is satisfied exactly when `q / s` is in the ellipsoid.
This covers degenerate ellipsoids, and needs no lower bound on nonzero half extents. -/
theorem C29_mustContain {d : ℕ} (e : Ellipsoid K d) (hR : Spec.Orthogonal e.rotation) (q : Fin d → K)
    (s : K) (hs : 0 < s) :
    e.mustContain q s ↔ (s⁻¹ • q) ∈ Spec.ellipsoid e.halfExtents e.rotation e.center := by
  unfold Ellipsoid.mustContain
  rw [schur_diag_iff _ _ _ hs]
  refine exists_congr fun u => and_congr_right fun _ => ?_
  rw [rigid_iff hR]
  have : e.rotationᵀ *ᵥ (q - s • e.center) = s • (e.rotationᵀ *ᵥ (s⁻¹ • q - e.center)) := by
    rw [← mulVec_smul, smul_sub, smul_smul, mul_inv_cancel₀ hs.ne', one_smul]
  rw [this]
  constructor
  · intro h
    ext i
    have := h i
    rw [Pi.smul_apply, smul_eq_mul] at this
    exact (mul_left_cancel₀ hs.ne' this).symm
  · intro h i
    rw [← h]; rfl

/-- C29: with the default scale the constraint is containment of the point itself. -/
theorem C29_unit_scale {d : ℕ} (e : Ellipsoid K d) (hR : Spec.Orthogonal e.rotation) (q : Fin d → K) :
    e.mustContain q ↔ q ∈ Spec.ellipsoid e.halfExtents e.rotation e.center := by
  rw [C29_mustContain e hR q 1 one_pos]; simp

/-- C29: for scale zero only `q = 0` is allowed. -/
theorem C29_zero_scale {d : ℕ} (e : Ellipsoid K d) (hR : Spec.Orthogonal e.rotation) (q : Fin d → K) :
    e.mustContain q 0 ↔ q = 0 := by
  unfold Ellipsoid.mustContain schur cvxPsd
  simp only [zero_smul, sub_zero]
  constructor
  · intro h
    have h0 := bordered_zero_corner h
    have : e.rotation *ᵥ (e.rotationᵀ *ᵥ q) = 0 := by rw [h0, mulVec_zero]
    rwa [mulVec_mulVec, hR.mul_transpose, one_mulVec] at this
  · rintro rfl v
    rw [mulVec_zero, bordered_zero]
    simp

/-- C29: a negative scale is infeasible. -/
theorem C29_negative_scale {d : ℕ} (e : Ellipsoid K d) (q : Fin d → K) (s : K) (hs : s < 0) :
    ¬ e.mustContain q s := by
  intro h
  have := h (Fin.snoc (α := fun _ => K) 0 1)
  rw [schur, bordered_quad] at this
  simp at this
  linarith

example : ∃ (e : Ellipsoid ℚ 3) (q : Fin 3 → ℚ), Spec.Orthogonal e.rotation ∧ e.mustContain q 2 := by
  refine ⟨⟨![1, 2, 0], 1, ![1, 0, 0]⟩, ![3, 0, 0], Spec.Orthogonal.one, ?_⟩
  rw [C29_mustContain _ Spec.Orthogonal.one _ _ (by norm_num)]
  refine ⟨![1 / 2, 0, 0], by decide +kernel, ?_⟩
  ext i; fin_cases i <;> norm_num [Spec.rigid]

end Field
end Rigeo
