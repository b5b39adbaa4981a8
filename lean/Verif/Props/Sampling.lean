import Verif.Model.Random
import Verif.Props.Shapes4
import Verif.Props.Polydd

/-! # Grids, interior samples and the polyhedron-in-shape test: C40, C41, C44, C65, C68 -/

namespace Rigeo

open Matrix

section Field
variable {K : Type} [Field K] [LinearOrder K] [IsStrictOrderedRing K]

/-! ## C40: grids -/

omit [LinearOrder K] [IsStrictOrderedRing K] in
theorem Box.mem_grid (b : Box K) (n : Fin 3 → ℕ) (p : Fin 3 → K) : p ∈ b.grid n ↔
    ∃ q : Fin 3 → K, (∀ i, q i ∈ Box.linspace (-b.halfExtents i) (b.halfExtents i) (n i)) ∧
      p = Spec.rigid b.rotation b.center q := by
  unfold Box.grid
  simp only [List.mem_map, List.mem_flatMap]
  constructor
  · rintro ⟨_, ⟨y, hy, x, hx, z, hz, rfl⟩, rfl⟩
    refine ⟨![x, y, z], fun i => ?_, rfl⟩
    fin_cases i
    · exact hx
    · exact hy
    · exact hz
  · rintro ⟨q, hq, rfl⟩
    refine ⟨q, ⟨q 1, hq 1, q 0, hq 0, q 2, hq 2, ?_⟩, rfl⟩
    ext i; fin_cases i <;> rfl

/-- C40: the grid of a box has `n0 * n1 * n2` points. -/
theorem C40_length (b : Box K) (n : Fin 3 → ℕ) : (b.grid n).length = n 0 * n 1 * n 2 := by
  unfold Box.grid
  have hl : ∀ (L U : K) (m : ℕ), (Box.linspace L U m).length = m := fun L U m => by simp [Box.linspace]
  simp [List.length_flatMap, hl]
  ring

/-- C40: the grid points are the images of the evenly spaced points of `[-h, h]³`: coordinate `i` runs
through the `n i` points that split the interval into `n i - 1` equal parts. -/
theorem C40_points (b : Box K) (n : Fin 3 → ℕ) (p : Fin 3 → K) : p ∈ b.grid n ↔
    ∃ k : Fin 3 → ℕ, (∀ i, k i < n i) ∧ p = Spec.rigid b.rotation b.center
      (fun i => -b.halfExtents i + (k i : K) * (2 * b.halfExtents i / ((n i : K) - 1))) := by
  rw [Box.mem_grid]
  constructor
  · rintro ⟨q, hq, rfl⟩
    simp only [Box.linspace, List.mem_map, List.mem_range] at hq
    choose k hk hq using hq
    refine ⟨k, hk, ?_⟩
    congr 1
    ext i
    rw [← hq i]; ring
  · rintro ⟨k, hk, rfl⟩
    refine ⟨_, fun i => ?_, rfl⟩
    simp only [Box.linspace, List.mem_map, List.mem_range]
    exact ⟨k i, hk i, by ring⟩

theorem linspace_abs (h : K) (hh : 0 ≤ h) (n : ℕ) : ∀ q ∈ Box.linspace (-h) h n, |q| ≤ h := by
  intro q hq
  simp only [Box.linspace, List.mem_map, List.mem_range] at hq
  obtain ⟨k, hk, rfl⟩ := hq
  rcases Nat.lt_or_ge n 2 with hn | hn
  · have : k = 0 := by omega
    subst this
    simp [abs_of_nonneg hh]
  · have h1 : (0 : K) < (n : K) - 1 := by
      have : (2 : K) ≤ (n : K) := by exact_mod_cast hn
      linarith
    have h2 : (k : K) ≤ (n : K) - 1 := by
      have : ((k + 1 : ℕ) : K) ≤ (n : K) := by exact_mod_cast hk
      push_cast at this; linarith
    have h3 : (k : K) * ((h - -h) / ((n : K) - 1)) = (k / ((n : K) - 1)) * (2 * h) := by
      field_simp; ring
    have h4 : (k : K) / ((n : K) - 1) ≤ 1 := (div_le_one h1).mpr h2
    have h5 : (0 : K) ≤ (k : K) / ((n : K) - 1) := div_nonneg (Nat.cast_nonneg _) h1.le
    rw [h3, abs_le]
    constructor <;> nlinarith

/-- C40: every grid point lies in the box. -/
theorem C40_inside (b : Box K) (hb : ∀ i, 0 ≤ b.halfExtents i) (n : Fin 3 → ℕ) :
    ∀ p ∈ b.grid n, p ∈ Spec.box b.halfExtents b.rotation b.center := by
  intro p hp
  obtain ⟨q, hq, rfl⟩ := (b.mem_grid n p).mp hp
  exact ⟨q, fun i => linspace_abs _ (hb i) _ _ (hq i), rfl⟩

/-- C40: with at least two points per direction, all eight corners (in particular opposite ones) are grid
points. -/
theorem C40_corners (b : Box K) (n : Fin 3 → ℕ) (hn : ∀ i, 2 ≤ n i) (s : Fin 3 → K)
    (hs : ∀ i, s i = 1 ∨ s i = -1) :
    Spec.rigid b.rotation b.center (fun i => s i * b.halfExtents i) ∈ b.grid n := by
  rw [Box.mem_grid]
  refine ⟨_, fun i => ?_, rfl⟩
  simp only [Box.linspace, List.mem_map, List.mem_range]
  have h1 : ((n i : K) - 1) ≠ 0 := by
    have : (2 : K) ≤ (n i : K) := by exact_mod_cast hn i
    intro h; linarith
  rcases hs i with h | h
  · refine ⟨n i - 1, by have := hn i; omega, ?_⟩
    rw [Nat.cast_sub (by have := hn i; omega), h]
    field_simp
    push_cast; ring
  · exact ⟨0, by have := hn i; omega, by rw [h]; simp⟩

example : (⟨![1, 2, 3], 1, 0⟩ : Box ℚ).grid (fun _ => 2) =
    [![-1, -2, -3], ![-1, -2, 3], ![1, -2, -3], ![1, -2, 3],
      ![-1, 2, -3], ![-1, 2, 3], ![1, 2, -3], ![1, 2, 3]] := by decide +kernel

/-- C40: the grid of any other shape (`Shape.grid`) needs `n > 0` and then consists of exactly the grid
points of the bounding box that the shape contains, in the same order and multiplicity. -/
theorem C40_shape (aabb : Py (Box K)) (contains : (Fin 3 → K) → Bool) (n : ℕ) (g : List (Fin 3 → K)) :
    Box.shapeGrid aabb contains n = .ok g ↔
      0 < n ∧ ∃ box, aabb = .ok box ∧ g = (box.grid fun _ => n).filter contains := by
  rcases Nat.eq_zero_or_pos n with rfl | hn
  · simp [Box.shapeGrid, pyAssert, bind, Except.bind]
  · rcases aabb with e | box
    · simp [Box.shapeGrid, pyAssert, bind, Except.bind, hn]
    · simp [Box.shapeGrid, pyAssert, bind, Except.bind, pure, Except.pure, hn, Poly.filterGrid, eq_comm]

/-- C40: the grid of a polyhedron. All points lie within `1e-8` of every face half-space, and no grid point of
the bounding box lying in all half-spaces is missing. -/
theorem C40_poly (P : Poly K 3) (n : ℕ) (g : List (Fin 3 → K)) (hg : Box.polyGrid P n = .ok g) :
    ∃ box, Box.fromPointsToBound P.vertices = .ok box ∧
      (∀ p ∈ g, p ∈ box.grid (fun _ => n) ∧ ∀ f ∈ P.faceForm.faces, f.1 ⬝ᵥ p ≤ f.2 + 1 / 100000000) ∧
      ∀ p ∈ box.grid (fun _ => n), p ∈ Spec.halfspaces P.faceForm.faces → p ∈ g := by
  unfold Box.polyGrid at hg
  rcases h : Box.fromPointsToBound P.vertices with e | box
  · rw [h] at hg; simp [bind, Except.bind] at hg
  · rw [h] at hg
    simp only [bind, Except.bind, pure, Except.pure, Except.ok.injEq, Poly.filterGrid] at hg
    subst hg
    refine ⟨box, rfl, fun p hp => ?_, fun p hp hp2 => ?_⟩
    · simpa [Poly.contains, tol8] using hp
    · simp only [List.mem_filter, Poly.contains, List.all_eq_true, decide_eq_true_eq]
      exact ⟨hp, fun f hf => (hp2 f hf).trans (by have := tol8_pos (K := K); linarith)⟩

/-- C40: for the model's shapes, a point of `Shape.grid` of an ellipsoid passes its membership test, and grid points
of the bounding box that belong to the ellipsoid are kept. -/
theorem C40_ellipsoid {e : Ellipsoid K 3} (hR : Spec.Orthogonal e.rotation)
    (he : ∀ i, Spec.Resolved (e.halfExtents i)) (aabb : Py (Box K)) (n : ℕ) (g : List (Fin 3 → K))
    (hg : Box.shapeGrid aabb (fun p => e.contains p) n = .ok g) : ∃ box, aabb = .ok box ∧
      (∀ p ∈ g, p ∈ box.grid fun _ => n) ∧
      ∀ p ∈ box.grid (fun _ => n), p ∈ Spec.ellipsoid e.halfExtents e.rotation e.center → p ∈ g := by
  obtain ⟨_, box, hb, rfl⟩ := (C40_shape _ _ _ _).mp hg
  refine ⟨box, hb, fun p hp => (List.mem_filter.mp hp).1, fun p hp hp2 => List.mem_filter.mpr ⟨hp, ?_⟩⟩
  exact C27_mono e p 0 _ tol8_pos.le ((C27_contains e hR he p).mpr hp2)

/-! ## C41: interior samples -/

/-- C41: a random point of a box lies in the box, for every draw in `[-1, 1]³`. -/
theorem C41_box (b : Box K) (hb : ∀ i, 0 ≤ b.halfExtents i) (u : Fin 3 → K) (hu : ∀ i, |u i| ≤ 1) :
    b.randomPoint u ∈ Spec.box b.halfExtents b.rotation b.center := by
  refine ⟨u * b.halfExtents, fun i => ?_, rfl⟩
  rw [Pi.mul_apply, abs_mul, abs_of_nonneg (hb i)]
  exact mul_le_of_le_one_left (hb i) (hu i)

/-- C41: conversely every point of the box is produced by some draw. -/
theorem C41_box_onto (b : Box K) (hb : ∀ i, 0 ≤ b.halfExtents i) (p : Fin 3 → K)
    (hp : p ∈ Spec.box b.halfExtents b.rotation b.center) :
    ∃ u : Fin 3 → K, (∀ i, |u i| ≤ 1) ∧ b.randomPoint u = p := by
  obtain ⟨y, hy, rfl⟩ := hp
  refine ⟨fun i => y i / b.halfExtents i, fun i => ?_, ?_⟩
  · rw [abs_div, abs_of_nonneg (hb i)]
    exact div_le_one_of_le₀ (hy i) (hb i)
  · unfold Box.randomPoint Spec.rigid
    congr 2
    ext i
    by_cases h : b.halfExtents i = 0
    · have := hy i; rw [h] at this
      simp [h, abs_nonpos_iff.mp this]
    · simp [h]

/-- C41: a random point of an ellipsoid lies in the ellipsoid, for every point of the unit ball drawn. -/
theorem C41_ellipsoid_ball {d : ℕ} (e : Ellipsoid K d) (hR : Spec.Orthogonal e.rotation) (X : Fin d → K)
    (hX : X ⬝ᵥ X ≤ 1) : e.randomPoint X ∈ Spec.ellipsoid e.halfExtents e.rotation e.center := by
  refine ⟨e.rotationᵀ *ᵥ X, ?_, ?_⟩
  · rw [dot_mulVec_orthogonal hR.transpose]; exact hX
  · unfold Ellipsoid.randomPoint Spec.rigid
    rw [vecMul_eq_transpose, transpose_mul, transpose_mul, transpose_transpose, diagonal_transpose,
      ← Matrix.mul_assoc, ← mulVec_mulVec, ← mulVec_mulVec]
    congr 2
    ext i
    simp [mulVec_diagonal]

/-- C41: a random point of a cylinder lies in the cylinder, for every draw. -/
theorem C41_cylinder_disk (c : Cylinder K) (hL : 0 ≤ c.length) (u : K)
    (hu : |u| ≤ 1 / 2) (x : Fin 2 → K) (hx : x ⬝ᵥ x ≤ 1) :
    c.randomPoint u x ∈ Spec.cylinder c.length c.radius c.rotation c.center := by
  refine ⟨![c.radius * x 0, c.radius * x 1, c.length * u], ?_, ?_, ?_⟩
  · simp only [cons_val]
    rw [abs_mul, abs_of_nonneg hL]
    nlinarith
  · simp only [cons_val]
    have : x 0 * x 0 + x 1 * x 1 ≤ 1 := by simpa [dotProduct, Fin.sum_univ_two] using hx
    nlinarith [mul_nonneg (sq_nonneg c.radius) (sub_nonneg.mpr this)]
  · unfold Cylinder.randomPoint Spec.rigid
    rw [vecMul_eq_transpose, transpose_transpose]

/-- C41, C68: whenever the normalised weights are finite they are non-negative and add up to one. -/
theorem C68_weights {n : ℕ} (w v : Fin n → K) (hw : ∀ i, 0 ≤ w i) (h : randomWeightVector w = .ok v) :
    (∀ i, 0 ≤ v i) ∧ ∑ i, v i = 1 := by
  unfold randomWeightVector vdiv at h
  split_ifs at h with h0
  cases h
  refine ⟨fun i => div_nonneg (hw i) (Finset.sum_nonneg fun j _ => hw j), ?_⟩
  rw [← Finset.sum_div, div_self h0]

/-- C68: the only failure is a division by a zero sum (all draws zero, or `n = 0`). -/
theorem C68_weights_fail {n : ℕ} (w : Fin n → K) (hw : ∀ i, 0 ≤ w i) :
    randomWeightVector w = .error .nonfinite ↔ ∀ i, w i = 0 := by
  unfold randomWeightVector vdiv
  split_ifs with h0
  · simpa [Finset.sum_eq_zero_iff_of_nonneg fun i _ => hw i] using h0
  · simp only [reduceCtorEq, false_iff]
    intro h
    exact h0 (Finset.sum_eq_zero fun i _ => h i)

example : randomWeightVector (![1, 0, 3] : Fin 3 → ℚ) = .ok ![1 / 4, 0, 3 / 4] := by
  unfold randomWeightVector vdiv
  rw [if_neg (by simp [Fin.sum_univ_three]; norm_num)]
  congr 1; ext i; fin_cases i <;> simp [Fin.sum_univ_three] <;> norm_num

/-- C41: a random point of a polyhedron is a point of the convex hull of its vertices, whatever non-negative
weights are drawn. -/
theorem C41_poly {d : ℕ} (P : Poly K d) (w : Fin P.vertices.length → K) (hw : ∀ i, 0 ≤ w i)
    (p : Fin d → K) (hp : P.randomPoints w = .ok p) : p ∈ Spec.hull P.vertices := by
  unfold Poly.randomPoints at hp
  rcases h : randomWeightVector w with e | v
  · rw [h] at hp; simp [bind, Except.bind] at hp
  · rw [h] at hp
    simp only [bind, Except.bind, pure, Except.pure, Except.ok.injEq] at hp
    subst hp
    obtain ⟨h1, h2⟩ := C68_weights w v hw h
    unfold Poly.randomPoint
    refine (convex_convexHull K _).sum_mem (fun i _ => h1 i) h2 fun i _ => subset_convexHull K _ ?_
    exact List.get_mem _ _

/-- C41: such a point passes the polyhedron's own membership test at any non-negative tolerance. -/
theorem C41_poly_contains {d : ℕ} (P : Poly K d) (hP : P.Consistent) (w : Fin P.vertices.length → K)
    (hw : ∀ i, 0 ≤ w i) (p : Fin d → K) (hp : P.randomPoints w = .ok p) (tol : K) (ht : 0 ≤ tol) :
    P.contains p tol = true := by
  have h := C41_poly P w hw p hp
  rw [← hP.contains_iff] at h
  simp only [Poly.contains, List.all_eq_true, decide_eq_true_eq] at h ⊢
  exact fun f hf => (h f hf).trans (by linarith)

/-! ## C44: polyhedron-in-shape test -/

theorem sq_combo_le {a b x y : K} (ha : 0 ≤ a) (hb : 0 ≤ b) (hab : a + b = 1) :
    (a * x + b * y) ^ 2 ≤ a * x ^ 2 + b * y ^ 2 := by
  have : a * x ^ 2 + b * y ^ 2 - (a * x + b * y) ^ 2 = a * b * (x - y) ^ 2 := by
    have hb' : b = 1 - a := by linarith
    subst hb'; ring
  nlinarith [mul_nonneg (mul_nonneg ha hb) (sq_nonneg (x - y))]

theorem body_combo {d e : ℕ} (R : Matrix (Fin d) (Fin e) K) (c p q : Fin d → K) {a b : K} (hab : a + b = 1)
    (i : Fin e) :
    ((a • p + b • q - c) ᵥ* R) i = a * ((p - c) ᵥ* R) i + b * ((q - c) ᵥ* R) i := by
  have : a • p + b • q - c = a • (p - c) + b • (q - c) := by
    have hb' : b = 1 - a := by linarith
    subst hb'; module
  rw [this, add_vecMul, smul_vecMul, smul_vecMul]; rfl

theorem Ellipsoid.convex_contains {d : ℕ} (e : Ellipsoid K d) (tol : K) :
    Convex K {p | e.contains p tol = true} := by
  intro p hp q hq a b ha hb hab
  simp only [Set.mem_ofPred_eq, Ellipsoid.contains, Bool.and_eq_true, decide_eq_true_eq,
    isclose_zero_right] at hp hq ⊢
  refine ⟨fun i hi => ?_, ?_⟩
  · rw [body_combo _ _ _ _ hab]
    have h1 := abs_le.mp (hp.1 i hi)
    have h2 := abs_le.mp (hq.1 i hi)
    have hb' : b = 1 - a := by linarith
    rw [abs_le]; subst hb'
    constructor <;> nlinarith
  · calc _ ≤ ∑ i ∈ Finset.univ.filter (fun i => e.z i = false),
          (a * ((e.hInvNz i ^ 2 * ((p - e.center) ᵥ* e.rotation) i) * ((p - e.center) ᵥ* e.rotation) i) +
            b * ((e.hInvNz i ^ 2 * ((q - e.center) ᵥ* e.rotation) i) * ((q - e.center) ᵥ* e.rotation) i)) := by
          refine Finset.sum_le_sum fun i _ => ?_
          rw [body_combo _ _ _ _ hab]
          have := mul_le_mul_of_nonneg_left (sq_combo_le (x := ((p - e.center) ᵥ* e.rotation) i)
            (y := ((q - e.center) ᵥ* e.rotation) i) ha hb hab) (sq_nonneg (e.hInvNz i))
          nlinarith
      _ ≤ a * (1 + tol) + b * (1 + tol) := by
          rw [Finset.sum_add_distrib, ← Finset.mul_sum, ← Finset.mul_sum]
          exact add_le_add (mul_le_mul_of_nonneg_left hp.2 ha) (mul_le_mul_of_nonneg_left hq.2 hb)
      _ = 1 + tol := by rw [← add_mul, hab, one_mul]

theorem Poly.convex_contains {d : ℕ} (P : Poly K d) (tol : K) : Convex K {p | P.contains p tol = true} := by
  intro p hp q hq a b ha hb hab
  simp only [Set.mem_ofPred_eq, Poly.contains, List.all_eq_true, decide_eq_true_eq] at hp hq ⊢
  intro f hf
  rw [dotProduct_add, dotProduct_smul, dotProduct_smul, smul_eq_mul, smul_eq_mul]
  calc _ ≤ a * (f.2 + tol) + b * (f.2 + tol) :=
        add_le_add (mul_le_mul_of_nonneg_left (hp f hf) ha) (mul_le_mul_of_nonneg_left (hq f hf) hb)
    _ = _ := by rw [← add_mul, hab, one_mul]

theorem Cylinder.convex_contains (c : Cylinder K) (tol : K) : Convex K {p | c.contains p tol = true} := by
  intro p hp q hq a b ha hb hab
  simp only [Set.mem_ofPred_eq, Cylinder.contains, Bool.and_eq_true] at hp hq ⊢
  constructor
  · have := c.ell1.convex_contains tol8 hp.1 hq.1 ha hb hab
    have e : (fun _ : Fin 1 => (a • p + b • q) ⬝ᵥ c.longitudinalAxis) =
        (a • fun _ => p ⬝ᵥ c.longitudinalAxis) + b • fun _ => q ⬝ᵥ c.longitudinalAxis := by
      ext i; simp
    rw [e]; exact this
  · have := c.ell2.convex_contains tol8 hp.2 hq.2 ha hb hab
    rw [add_vecMul, smul_vecMul, smul_vecMul]; exact this

/-- The vertex test decides containment of the whole polyhedron for every convex membership test. -/
theorem containsPolyhedron_iff {d : ℕ} (contains : (Fin d → K) → Bool)
    (hc : Convex K {p | contains p = true}) (vs : List (Fin d → K)) :
    Poly.containsPolyhedron contains vs = true ↔ ∀ p ∈ Spec.hull vs, contains p = true := by
  unfold Poly.containsPolyhedron
  rw [List.all_eq_true]
  constructor
  · intro h p hp
    exact convexHull_min (fun v hv => h v hv) hc hp
  · intro h v hv
    exact h v (subset_convexHull K _ hv)

/-- C44: `ConvexPolyhedron.contains_polyhedron` at every tolerance. -/
theorem C44_poly_tol {d : ℕ} (P : Poly K d) (vs : List (Fin d → K)) (tol : K) :
    Poly.containsPolyhedron (fun p => P.contains p tol) vs = true ↔
      ∀ p ∈ Spec.hull vs, P.contains p tol = true :=
  containsPolyhedron_iff _ (P.convex_contains tol) vs

/-- C44: at zero tolerance, `ConvexPolyhedron.contains_polyhedron` is inclusion of point sets. -/
theorem C44_poly {d : ℕ} (P : Poly K d) (hP : P.Consistent) (vs : List (Fin d → K)) :
    Poly.containsPolyhedron (fun p => P.contains p 0) vs = true ↔ Spec.hull vs ⊆ Spec.hull P.vertices := by
  rw [C44_poly_tol]
  exact forall₂_congr fun p _ => hP.contains_iff p

/-- C44: `Box.contains_polyhedron` is inclusion in the box grown by the tolerance. -/
theorem C44_box (b : Box K) (hR : Spec.Orthogonal b.rotation) (vs : List (Fin 3 → K)) (tol : K) :
    Poly.containsPolyhedron (fun p => b.contains p tol) vs = true ↔
      Spec.hull vs ⊆ Spec.box (fun i => b.halfExtents i + tol) b.rotation b.center := by
  rw [containsPolyhedron_iff (fun p => b.contains p tol) (b.toPoly.convex_contains tol) vs]
  exact forall₂_congr fun p _ => C25_contains_tol b hR p tol

/-- C44: `Ellipsoid.contains_polyhedron` at every tolerance. -/
theorem C44_ellipsoid_tol {d : ℕ} (e : Ellipsoid K d) (vs : List (Fin d → K)) (tol : K) :
    Poly.containsPolyhedron (fun p => e.contains p tol) vs = true ↔
      ∀ p ∈ Spec.hull vs, e.contains p tol = true :=
  containsPolyhedron_iff _ (e.convex_contains tol) vs

/-- C44: at zero tolerance, `Ellipsoid.contains_polyhedron` is inclusion of point sets. -/
theorem C44_ellipsoid {d : ℕ} (e : Ellipsoid K d) (hR : Spec.Orthogonal e.rotation)
    (he : ∀ i, Spec.Resolved (e.halfExtents i)) (vs : List (Fin d → K)) :
    Poly.containsPolyhedron (fun p => e.contains p 0) vs = true ↔
      Spec.hull vs ⊆ Spec.ellipsoid e.halfExtents e.rotation e.center := by
  rw [C44_ellipsoid_tol]
  exact forall₂_congr fun p _ => C27_contains e hR he p

/-- C44: `Cylinder.contains_polyhedron`: the vertex test decides the test on the whole polyhedron; polyhedra inside
the cylinder are accepted, and accepted polyhedra lie in the cylinder grown by the fixed tolerance. -/
theorem C44_cylinder (c : Cylinder K) (hR : Spec.Orthogonal c.rotation)
    (hL : Spec.Resolved (c.length / 2)) (hr : Spec.Resolved c.radius) (vs : List (Fin 3 → K)) (tol : K) :
    (Poly.containsPolyhedron (fun p => c.contains p tol) vs = true ↔
      ∀ p ∈ Spec.hull vs, c.contains p tol = true) ∧
    (Spec.hull vs ⊆ Spec.cylinder c.length c.radius c.rotation c.center →
      Poly.containsPolyhedron (fun p => c.contains p tol) vs = true) ∧
    (Poly.containsPolyhedron (fun p => c.contains p tol) vs = true →
      Spec.hull vs ⊆ Spec.cylinder (c.length * (1 + 1 / 100000000) + 2 / 100000000)
        (c.radius * (1 + 1 / 100000000) + 2 / 100000000) c.rotation c.center) := by
  have h := containsPolyhedron_iff _ (c.convex_contains tol) vs
  refine ⟨h, fun hs => h.mpr fun p hp => C31_complete c hR hL hr p tol (hs hp), fun ht p hp => ?_⟩
  exact C31_sound c hR hL hr p tol (h.mp ht p hp)

theorem mapM_all_ok {α : Type} {f : α → Py Bool} {l : List α} :
    (l.mapM f >>= fun bs => pure (bs.all id)) = (Except.ok true : Py Bool) ↔ ∀ x ∈ l, f x = .ok true := by
  induction l with
  | nil => simp [pure, Except.pure, bind, Except.bind]
  | cons x l ih =>
    rw [List.mapM_cons]
    simp only [bind, Except.bind, pure, Except.pure] at ih ⊢
    rcases hx : f x with e | b
    · simp [hx]
    · rcases hl : l.mapM f with e | bs
      · rw [hl] at ih
        simp only [reduceCtorEq, false_iff] at ih ⊢
        intro h; exact ih fun y hy => h y (List.mem_cons_of_mem _ hy)
      · rw [hl] at ih
        simp only [Except.ok.injEq] at ih ⊢
        simp [hx, ← ih]

theorem capsule_convex {R : Matrix (Fin 3) (Fin 3) K} (hR : Spec.Orthogonal R) (L r : K) (hL : 0 ≤ L)
    (c : Fin 3 → K) : Convex K (Spec.capsule L r R c) := by
  rw [C32_hull hR L r hL c]; exact convex_convexHull K _

/-- C44: `Capsule.contains_polyhedron` (at zero tolerance for the caps; the cylinder always uses `1e-8`): polyhedra
inside the capsule are accepted, accepted polyhedra lie in the slightly grown capsule. -/
theorem C44_capsule (c : Capsule K) (hR : Spec.Orthogonal c.cylinder.rotation)
    (hL : Spec.Resolved (c.cylinder.length / 2)) (hr : Spec.Resolved c.cylinder.radius)
    (vs : List (Fin 3 → K)) :
    (Spec.hull vs ⊆ Spec.capsule c.cylinder.length c.cylinder.radius c.cylinder.rotation c.cylinder.center →
      c.containsPolyhedron vs 0 = .ok true) ∧
    (c.containsPolyhedron vs 0 = .ok true →
      Spec.hull vs ⊆ Spec.capsule (c.cylinder.length * (1 + 1 / 100000000) + 2 / 100000000)
        (c.cylinder.radius * (1 + 1 / 100000000) + 2 / 100000000) c.cylinder.rotation c.cylinder.center) := by
  have hLn : 0 ≤ c.cylinder.length := by have := hL.nonneg; linarith
  refine ⟨fun h => mapM_all_ok.mpr fun v hv => ?_, fun h => ?_⟩
  · exact C32_complete c hR hL hr v 0 le_rfl (h (subset_convexHull K _ hv))
  · have h := mapM_all_ok.mp h
    refine convexHull_min (fun v hv => C32_sound c hR hL hr v (h v hv)) ?_
    exact capsule_convex hR _ _ (by positivity) _

example : Poly.containsPolyhedron (fun p => (⟨![2, 1, 1], 1, 0⟩ : Ellipsoid ℚ 3).contains p 0)
    [![2, 0, 0], ![0, 1, 0], ![0, 0, -1]] = true := by decide +kernel

example : Poly.containsPolyhedron (fun p => (⟨![2, 1, 1], 1, 0⟩ : Ellipsoid ℚ 3).contains p 0)
    [![2, 0, 0], ![1, 1, 0]] = false := by decide +kernel

/-! ## C65: rejection sampling -/

/-- The loop keeps what it has, returns exactly `n` accepted points, and each batch is bounded by the number of
points still missing. -/
theorem rejectionLoop_ok (accept : (Fin 3 → K) → Bool) (draw : ℕ → ℕ → List (Fin 3 → K)) (n : ℕ)
    (hd : ∀ k m, (draw k m).length = m) (fuel : ℕ) : ∀ (round : ℕ) (acc ps : List (Fin 3 → K)),
    acc.length ≤ n → (∀ p ∈ acc, accept p = true) →
    rejectionLoop accept draw n fuel round acc = .ok ps →
      ps.length = n ∧ ∀ p ∈ ps, accept p = true := by
  induction fuel with
  | zero =>
    intro round acc ps hl ha h
    unfold rejectionLoop at h
    split_ifs at h with hlt
    cases h
    exact ⟨by omega, ha⟩
  | succ fuel ih =>
    intro round acc ps hl ha h
    unfold rejectionLoop at h
    split_ifs at h with hlt
    · refine ih _ _ _ ?_ ?_ h
      · rw [List.length_append]
        have := List.length_filter_le accept (draw round (n - acc.length))
        rw [hd] at this; omega
      · intro p hp
        rcases List.mem_append.mp hp with hp | hp
        · exact ha p hp
        · exact (List.mem_filter.mp hp).2
    · cases h
      exact ⟨by omega, ha⟩

/-- C65: if `rejection_sample` returns, it returns exactly `n` points (no padding, no overrun), each contained in at
least one of the shapes. -/
theorem C65_returns (actual : List ((Fin 3 → K) → Bool)) (draw : ℕ → ℕ → List (Fin 3 → K)) (n maxTries : ℕ)
    (hd : ∀ k m, (draw k m).length = m) (ps : List (Fin 3 → K))
    (h : rejectionSample actual draw n maxTries = .ok ps) :
    ps.length = n ∧ ∀ p ∈ ps, ∃ c ∈ actual, c p = true := by
  have := rejectionLoop_ok _ draw n hd maxTries 0 [] ps (by simp) (by simp) h
  simpa [List.any_eq_true] using this

/-- What the loop does, unrolled: it accumulates the accepted candidates of rounds `round, …, round + k - 1`. -/
def accepted (accept : (Fin 3 → K) → Bool) (draw : ℕ → ℕ → List (Fin 3 → K)) (n : ℕ) : ℕ → List (Fin 3 → K)
  | 0 => []
  | k + 1 => accepted accept draw n k ++
      (draw k (n - (accepted accept draw n k).length)).filter accept

theorem rejectionLoop_fail (accept : (Fin 3 → K) → Bool) (draw : ℕ → ℕ → List (Fin 3 → K)) (n : ℕ)
    (fuel : ℕ) : ∀ (round : ℕ),
    (rejectionLoop accept draw n fuel round (accepted accept draw n round) = .error .value ∧
      ∀ j ≤ fuel, (accepted accept draw n (round + j)).length < n) ∨
    ∃ j ≤ fuel, n ≤ (accepted accept draw n (round + j)).length ∧
      (∀ i < j, (accepted accept draw n (round + i)).length < n) ∧
      rejectionLoop accept draw n fuel round (accepted accept draw n round) =
        .ok (accepted accept draw n (round + j)) := by
  induction fuel with
  | zero =>
    intro round
    unfold rejectionLoop
    split_ifs with h
    · exact Or.inl ⟨rfl, fun j hj => by obtain rfl := Nat.le_zero.mp hj; exact h⟩
    · exact Or.inr ⟨0, le_rfl, not_lt.mp h, fun i hi => absurd hi (Nat.not_lt_zero _), rfl⟩
  | succ fuel ih =>
    intro round
    by_cases h : (accepted accept draw n round).length < n
    · have e : rejectionLoop accept draw n (fuel + 1) round (accepted accept draw n round) =
          rejectionLoop accept draw n fuel (round + 1) (accepted accept draw n (round + 1)) := by
        rw [rejectionLoop, if_pos h]; rfl
      rw [e]
      rcases ih (round + 1) with ⟨h1, h2⟩ | ⟨j, hj, h1, h2, h3⟩
      · refine Or.inl ⟨h1, fun j hj => ?_⟩
        rcases j with _ | j
        · exact h
        · have := h2 j (by omega); rwa [show round + 1 + j = round + (j + 1) by ring] at this
      · rw [show round + 1 + j = round + (j + 1) by ring] at h1 h3
        refine Or.inr ⟨j + 1, by omega, h1, fun i hi => ?_, h3⟩
        rcases i with _ | i
        · exact h
        · have := h2 i (by omega); rwa [show round + 1 + i = round + (i + 1) by ring] at this
    · rw [rejectionLoop, if_neg h]
      exact Or.inr ⟨0, by omega, not_lt.mp h, fun i hi => absurd hi (Nat.not_lt_zero _), rfl⟩

/-- C65: `rejection_sample` raises `ValueError` exactly when `max_tries` rounds did not produce enough accepted
candidates, and no other error is possible. `accepted … k` lists the accepted candidates of the first `k`
rounds. -/
theorem C65_fails (actual : List ((Fin 3 → K) → Bool)) (draw : ℕ → ℕ → List (Fin 3 → K)) (n maxTries : ℕ) :
    (∀ e, rejectionSample actual draw n maxTries = .error e → e = .value) ∧
    (rejectionSample actual draw n maxTries = .error .value ↔
      (∀ j ≤ maxTries, (accepted (fun p => actual.any fun c => c p) draw n j).length < n)) := by
  have h := rejectionLoop_fail (fun p => actual.any fun c => c p) draw n maxTries 0
  simp only [Nat.zero_add] at h
  change (rejectionSample actual draw n maxTries = _ ∧ _) ∨
    ∃ j ≤ maxTries, _ ∧ _ ∧ rejectionSample actual draw n maxTries = _ at h
  rcases h with ⟨h1, h2⟩ | ⟨j, hj, h1, h2, h3⟩
  · exact ⟨fun e he => by rw [h1] at he; exact (Except.error.inj he).symm, fun _ => h2, fun _ => h1⟩
  · refine ⟨fun e he => (by rw [h3] at he; cases he), fun he => (by rw [h3] at he; cases he), fun he => ?_⟩
    exact absurd (he j hj) (not_lt.mpr h1)

/-- C65: if every candidate is accepted, one round suffices and the result is the first batch. -/
theorem C65_all_accepted (actual : List ((Fin 3 → K) → Bool)) (draw : ℕ → ℕ → List (Fin 3 → K)) (n maxTries : ℕ)
    (hd : ∀ k m, (draw k m).length = m) (hn : 0 < n) (ht : 0 < maxTries)
    (ha : ∀ p ∈ draw 0 n, ∃ c ∈ actual, c p = true) :
    rejectionSample actual draw n maxTries = .ok (draw 0 n) := by
  obtain ⟨m, rfl⟩ := Nat.exists_eq_succ_of_ne_zero ht.ne'
  unfold rejectionSample
  rw [rejectionLoop.eq_def]
  dsimp only
  rw [if_pos (by simpa using hn)]
  simp only [List.nil_append, List.length_nil, Nat.sub_zero]
  rw [List.filter_eq_self.mpr (fun p hp => by simpa [List.any_eq_true] using ha p hp)]
  rw [rejectionLoop.eq_def]
  dsimp only
  rw [if_neg (by rw [hd]; omega)]

/-- C65: without shapes, every positive request fails. -/
theorem C65_no_shapes (draw : ℕ → ℕ → List (Fin 3 → K)) (n maxTries : ℕ) (hn : 0 < n) :
    rejectionSample [] draw n maxTries = .error .value := by
  rw [(C65_fails _ _ _ _).2]
  intro j _
  have : accepted (fun p : Fin 3 → K => ([] : List ((Fin 3 → K) → Bool)).any fun c => c p) draw n j = [] := by
    clear * -
    induction j with
    | zero => rfl
    | succ j ih => rw [accepted, ih]; simp
  rw [this]; simpa using hn

example : rejectionSample [fun p : Fin 3 → ℚ => decide (0 ≤ p 0)]
    (fun k m => (List.range m).map fun i => ![(k : ℚ) - i, 0, 0]) 2 = .ok [![0, 0, 0], ![1, 0, 0]] := by
  decide +kernel

end Field
end Rigeo
