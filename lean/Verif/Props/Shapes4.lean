import Verif.Props.Shapes3

/-! # Bounding and inscribed shapes: C34, C35 -/

namespace Rigeo

open Matrix

/-! ## C34: axis-aligned bounding boxes of shapes -/

theorem aabox_convex {K : Type} [Field K] [LinearOrder K] [IsStrictOrderedRing K] {n : ℕ}
    (lo hi : Fin n → K) : Convex K (Spec.aabox lo hi) := by
  intro x hx y hy a b ha hb hab i
  have := hx i; have := hy i
  have hb' : b = 1 - a := by linarith
  subst hb'
  simp only [Pi.add_apply, Pi.smul_apply, smul_eq_mul]
  constructor <;> nlinarith

/-- `b` is the smallest axis-aligned box around `S`. -/
def IsBounding {K : Type} [Field K] [LinearOrder K] (b : Box K) (S : Set (Fin 3 → K)) : Prop :=
  b.rotation = 1 ∧ (∀ i, 0 ≤ b.halfExtents i) ∧ S ⊆ Spec.box b.halfExtents b.rotation b.center ∧
    ∀ lo hi : Fin 3 → K, S ⊆ Spec.aabox lo hi →
      Spec.box b.halfExtents b.rotation b.center ⊆ Spec.aabox lo hi

section Field
variable {K : Type} [Field K] [LinearOrder K] [IsStrictOrderedRing K]

theorem Spec_box_one_aabox (h c : Fin 3 → K) :
    Spec.box h 1 c = Spec.aabox (fun i => c i - h i) (fun i => c i + h i) := by
  ext p; rw [Spec_box_one]; rfl

/-- A bounding box only depends on which axis-aligned boxes contain the set. -/
theorem IsBounding.congr {b : Box K} {S T : Set (Fin 3 → K)} (h : IsBounding b T)
    (hST : ∀ lo hi : Fin 3 → K, S ⊆ Spec.aabox lo hi ↔ T ⊆ Spec.aabox lo hi) : IsBounding b S := by
  obtain ⟨h1, h2, h3, h4⟩ := h
  refine ⟨h1, h2, ?_, fun lo hi hs => h4 lo hi ((hST lo hi).mp hs)⟩
  rw [h1, Spec_box_one_aabox] at h3 ⊢
  exact (hST _ _).mpr h3

theorem fromPointsToBound_bounding (points : List (Fin 3 → K)) (hne : points ≠ []) :
    ∃ b, Box.fromPointsToBound points = .ok b ∧ IsBounding b {p | p ∈ points} := by
  obtain ⟨b, h1, h2, h3, h4, h5⟩ := C26_fromPointsToBound points hne
  exact ⟨b, h1, h2, h3, h4, fun lo hi hs => h5 lo hi hs⟩

theorem hull_subset_aabox (vs : List (Fin 3 → K)) (lo hi : Fin 3 → K) :
    Spec.hull vs ⊆ Spec.aabox lo hi ↔ {p | p ∈ vs} ⊆ Spec.aabox lo hi :=
  ⟨fun h => (subset_convexHull K _).trans h, fun h => convexHull_min h (aabox_convex lo hi)⟩

/-- C34: the bounding box of a polyhedron (`Box.from_points_to_bound(self.vertices)`) is the smallest
axis-aligned box around the hull of its vertices. -/
theorem C34_poly (P : Poly K 3) (hne : P.vertices ≠ []) :
    ∃ b, Box.fromPointsToBound P.vertices = .ok b ∧ b.rotation = 1 ∧
      Spec.hull P.vertices ⊆ Spec.box b.halfExtents b.rotation b.center ∧
      ∀ lo hi : Fin 3 → K, Spec.hull P.vertices ⊆ Spec.aabox lo hi →
        Spec.box b.halfExtents b.rotation b.center ⊆ Spec.aabox lo hi := by
  obtain ⟨b, h1, h2⟩ := fromPointsToBound_bounding P.vertices hne
  obtain ⟨h3, -, h4, h5⟩ := h2.congr (hull_subset_aabox P.vertices)
  exact ⟨b, h1, h3, h4, h5⟩

theorem Box.vertices_ne_nil (b : Box K) : b.vertices ≠ [] := by
  change (boxVertices b.halfExtents).map (fun v => b.rotation *ᵥ v + b.center) ≠ []
  rw [Ne, List.map_eq_nil_iff]
  intro h
  have : b.halfExtents ∈ boxVertices b.halfExtents := by rw [C08_mem]; intro i; left; rfl
  rw [h] at this
  exact List.not_mem_nil this

/-- C34: the bounding box of a (rotated) box. -/
theorem C34_box (b : Box K) (hb : ∀ i, 0 ≤ b.halfExtents i) :
    ∃ b', b.aabb = .ok b' ∧ b'.rotation = 1 ∧
      Spec.box b.halfExtents b.rotation b.center ⊆ Spec.box b'.halfExtents b'.rotation b'.center ∧
      ∀ lo hi : Fin 3 → K, Spec.box b.halfExtents b.rotation b.center ⊆ Spec.aabox lo hi →
        Spec.box b'.halfExtents b'.rotation b'.center ⊆ Spec.aabox lo hi := by
  rw [← C25_vertices b hb]
  exact C34_poly b.toPoly b.vertices_ne_nil

end Field

section Real

/-- Diagonal of `E = R diag(h²) Rᵀ`. -/
theorem Ellipsoid.E_diag {d : ℕ} (e : Ellipsoid ℝ d) (i : Fin d) :
    e.E i i = ∑ k, (e.rotation i k * e.halfExtents k) ^ 2 := by
  unfold Ellipsoid.E
  rw [Matrix.mul_apply]
  refine Finset.sum_congr rfl fun k _ => ?_
  rw [Matrix.mul_diagonal, transpose_apply]; ring

/-- The extent of an ellipsoid along a coordinate axis. -/
theorem ellipsoid_coord_le {d : ℕ} (e : Ellipsoid ℝ d) (i : Fin d) (p : Fin d → ℝ)
    (hp : p ∈ Spec.ellipsoid e.halfExtents e.rotation e.center) :
    |p i - e.center i| ≤ Real.sqrt (e.E i i) := by
  obtain ⟨u, hu, rfl⟩ := hp
  apply Real.abs_le_sqrt
  have h1 : Spec.rigid e.rotation e.center (fun k => e.halfExtents k * u k) i - e.center i =
      ∑ k, (e.rotation i k * e.halfExtents k) * u k := by
    simp only [Spec.rigid, Pi.add_apply, add_sub_cancel_right, mulVec, dotProduct]
    exact Finset.sum_congr rfl fun k _ => by ring
  rw [h1, e.E_diag]
  refine (Finset.sum_mul_sq_le_sq_mul_sq _ _ _).trans ?_
  have hu' : ∑ k, u k ^ 2 ≤ 1 := by simpa [dotProduct, sq] using hu
  exact mul_le_of_le_one_right (Finset.sum_nonneg fun k _ => sq_nonneg _) hu'

/-- Both extreme values are attained. -/
theorem ellipsoid_coord_attained {d : ℕ} (e : Ellipsoid ℝ d) (i : Fin d) (s : ℝ) (hs : s = 1 ∨ s = -1) :
    ∃ p ∈ Spec.ellipsoid e.halfExtents e.rotation e.center,
      p i = e.center i + s * Real.sqrt (e.E i i) := by
  have hs2 : s ^ 2 = 1 := by rcases hs with rfl | rfl <;> norm_num
  rcases (Real.sqrt_nonneg (e.E i i)).eq_or_lt with h0 | h0
  · refine ⟨e.center, ⟨0, by simp, ?_⟩, ?_⟩
    · ext j; simp [Spec.rigid, mulVec, dotProduct]
    · rw [← h0, mul_zero, add_zero]
  · set r := Real.sqrt (e.E i i) with hr
    have hE : r ^ 2 = ∑ k, (e.rotation i k * e.halfExtents k) ^ 2 := by
      rw [hr, Real.sq_sqrt (Real.sqrt_pos.mp h0).le, e.E_diag]
    refine ⟨_, ⟨fun k => s * (e.rotation i k * e.halfExtents k) / r, ?_, rfl⟩, ?_⟩
    · simp only [dotProduct]
      have : ∀ k, s * (e.rotation i k * e.halfExtents k) / r * (s * (e.rotation i k * e.halfExtents k) / r) =
          (e.rotation i k * e.halfExtents k) ^ 2 / r ^ 2 := fun k => by
        rw [div_mul_div_comm, ← sq r]; congr 1; linear_combination (e.rotation i k * e.halfExtents k) ^ 2 * hs2
      simp only [this]
      rw [← Finset.sum_div, ← hE, div_self (by positivity)]
    · simp only [Spec.rigid, Pi.add_apply, mulVec, dotProduct]
      have : ∀ k, e.rotation i k * (e.halfExtents k * (s * (e.rotation i k * e.halfExtents k) / r)) =
          s * ((e.rotation i k * e.halfExtents k) ^ 2 / r) := fun k => by ring
      simp only [this]
      rw [← Finset.mul_sum, ← Finset.sum_div, ← hE, add_comm]
      congr 2
      field_simp

theorem ellipsoid_aabb_bounding (e : Ellipsoid ℝ 3) : ∃ b, e.aabb = .ok b ∧
    IsBounding b (Spec.ellipsoid e.halfExtents e.rotation e.center) := by
  obtain ⟨b, hb, hR, hnn, h1, h2⟩ := Box.fromTwoVertices_eq
    (fun i => e.center i - Real.sqrt (e.E i i)) (fun i => e.center i + Real.sqrt (e.E i i))
  have hle : ∀ i, e.center i - Real.sqrt (e.E i i) ≤ e.center i + Real.sqrt (e.E i i) := fun i => by
    have := Real.sqrt_nonneg (e.E i i); linarith
  simp only [min_eq_left (hle _), max_eq_right (hle _)] at h1 h2
  have hset : Spec.box b.halfExtents b.rotation b.center =
      Spec.aabox (fun i => e.center i - Real.sqrt (e.E i i)) (fun i => e.center i + Real.sqrt (e.E i i)) := by
    rw [hR, Spec_box_one_aabox]; simp only [h1, h2]
  refine ⟨b, hb, hR, hnn, ?_, ?_⟩
  · rw [hset]
    intro p hp i
    have := abs_le.mp (ellipsoid_coord_le e i p hp)
    constructor <;> dsimp only <;> linarith
  · intro lo hi hs p hp i
    rw [hset] at hp
    obtain ⟨q1, hq1, e1⟩ := ellipsoid_coord_attained e i 1 (Or.inl rfl)
    obtain ⟨q2, hq2, e2⟩ := ellipsoid_coord_attained e i (-1) (Or.inr rfl)
    have a1 := hs hq1 i
    have a2 := hs hq2 i
    have a3 := hp i
    dsimp only at a3
    rw [e1] at a1
    rw [e2] at a2
    constructor <;> linarith

/-- C34: `Ellipsoid.aabb()` is the smallest axis-aligned box around the ellipsoid, degenerate or not;
no hypothesis on the rotation is needed. -/
theorem C34_ellipsoid (e : Ellipsoid ℝ 3) : ∃ b, e.aabb = .ok b ∧ b.rotation = 1 ∧
    Spec.ellipsoid e.halfExtents e.rotation e.center ⊆ Spec.box b.halfExtents b.rotation b.center ∧
    ∀ lo hi : Fin 3 → ℝ, Spec.ellipsoid e.halfExtents e.rotation e.center ⊆ Spec.aabox lo hi →
      Spec.box b.halfExtents b.rotation b.center ⊆ Spec.aabox lo hi := by
  obtain ⟨b, h1, h2, -, h3, h4⟩ := ellipsoid_aabb_bounding e
  exact ⟨b, h1, h2, h3, h4⟩

/-- The bounding box of the corners of the bounding boxes of two sets bounds their union. -/
theorem bounding_union {b1 b2 : Box ℝ} {S1 S2 : Set (Fin 3 → ℝ)} (h1 : IsBounding b1 S1)
    (h2 : IsBounding b2 S2) : ∃ b, Box.fromPointsToBound (b1.vertices ++ b2.vertices) = .ok b ∧
      IsBounding b (S1 ∪ S2) := by
  obtain ⟨b, hb, hbd⟩ := fromPointsToBound_bounding (b1.vertices ++ b2.vertices)
    (by simp [b1.vertices_ne_nil])
  refine ⟨b, hb, hbd.congr fun lo hi => ?_⟩
  have key : ∀ {b : Box ℝ} {S : Set (Fin 3 → ℝ)}, IsBounding b S →
      (S ⊆ Spec.aabox lo hi ↔ {p | p ∈ b.vertices} ⊆ Spec.aabox lo hi) := by
    intro b S hS
    rw [← hull_subset_aabox, C25_vertices b hS.2.1]
    exact ⟨fun h => hS.2.2.2 lo hi h, fun h => hS.2.2.1.trans h⟩
  rw [Set.union_subset_iff, key h1, key h2, ← Set.union_subset_iff]
  have : {p | p ∈ b1.vertices ++ b2.vertices} = {p | p ∈ b1.vertices} ∪ {p | p ∈ b2.vertices} := by
    ext p; simp
  rw [this]

/-- The upper or lower end disk of a cylinder. -/
theorem disk_iff (c : Cylinder ℝ) (hR : Spec.Orthogonal c.rotation) (hr : 0 ≤ c.radius) (z : ℝ)
    (p : Fin 3 → ℝ) :
    p ∈ Spec.ellipsoid ![c.radius, c.radius, 0] c.rotation (Spec.rigid c.rotation c.center ![0, 0, z]) ↔
      (c.rotationᵀ *ᵥ (p - c.center)) 2 = z ∧
        (c.rotationᵀ *ᵥ (p - c.center)) 0 ^ 2 + (c.rotationᵀ *ᵥ (p - c.center)) 1 ^ 2 ≤ c.radius ^ 2 := by
  rw [Spec_ellipsoid_iff hR]
  have : c.rotationᵀ *ᵥ (p - Spec.rigid c.rotation c.center ![0, 0, z]) =
      c.rotationᵀ *ᵥ (p - c.center) - ![0, 0, z] := by
    unfold Spec.rigid
    rw [add_comm, ← sub_sub, mulVec_sub, mulVec_mulVec, hR, one_mulVec]
  rw [this]
  set y := c.rotationᵀ *ᵥ (p - c.center)
  simp only [Fin.forall_fin_succ, Fin.sum_univ_three, Fin.isValue, Pi.sub_apply]
  simp
  rcases hr.eq_or_lt with hr | hr
  · rw [← hr]
    simp
    constructor
    · rintro ⟨h0, h1, h2⟩; exact ⟨by linarith, by rw [h0, h1]; norm_num⟩
    · rintro ⟨h2, h01⟩
      have h0 : y 0 ^ 2 = 0 := le_antisymm (by nlinarith [sq_nonneg (y 1)]) (sq_nonneg _)
      have h1 : y 1 ^ 2 = 0 := le_antisymm (by nlinarith [sq_nonneg (y 0)]) (sq_nonneg _)
      exact ⟨by simpa using h0, by simpa using h1, by linarith⟩
  · simp only [hr.ne', false_implies, true_and, sub_eq_zero, div_pow, ← add_div]
    rw [div_le_one (by positivity)]

/-- C34: `Cylinder.aabb()` is the smallest axis-aligned box around the cylinder. -/
theorem C34_cylinder (c : Cylinder ℝ) (hR : Spec.Orthogonal c.rotation) (hL : 0 ≤ c.length)
    (hr : 0 ≤ c.radius) : ∃ b, c.aabb = .ok b ∧ b.rotation = 1 ∧
      Spec.cylinder c.length c.radius c.rotation c.center ⊆ Spec.box b.halfExtents b.rotation b.center ∧
      ∀ lo hi : Fin 3 → ℝ, Spec.cylinder c.length c.radius c.rotation c.center ⊆ Spec.aabox lo hi →
        Spec.box b.halfExtents b.rotation b.center ⊆ Spec.aabox lo hi := by
  set e1 := Spec.rigid c.rotation c.center ![0, 0, c.length / 2] with he1
  set e2 := Spec.rigid c.rotation c.center ![0, 0, -(c.length / 2)] with he2
  obtain ⟨b1, hb1, hB1⟩ := ellipsoid_aabb_bounding ⟨![c.radius, c.radius, 0], c.rotation, e1⟩
  obtain ⟨b2, hb2, hB2⟩ := ellipsoid_aabb_bounding ⟨![c.radius, c.radius, 0], c.rotation, e2⟩
  obtain ⟨b, hb, hB⟩ := bounding_union hB1 hB2
  have hnn : ∀ i, 0 ≤ (![c.radius, c.radius, 0] : Fin 3 → ℝ) i := by
    intro i; fin_cases i <;> simp [hr]
  have hok : c.aabb = .ok b := by
    unfold Cylinder.aabb
    rw [Cylinder.endpoints_eq, ← he1, ← he2]
    simp [Ellipsoid.init_ok _ hnn, hb1, hb2, bind, Except.bind, pure, Except.pure, hb]
  have hfin : IsBounding b (Spec.cylinder c.length c.radius c.rotation c.center) := by
    refine hB.congr fun lo hi => ⟨fun h => ?_, fun h => ?_⟩
    · refine Set.Subset.trans ?_ h
      rintro p (hp | hp)
      · rw [disk_iff c hR hr] at hp
        rw [Spec_cylinder_iff hR, hp.1, abs_of_nonneg (by positivity)]
        exact ⟨le_rfl, hp.2⟩
      · rw [disk_iff c hR hr] at hp
        rw [Spec_cylinder_iff hR, hp.1, abs_neg, abs_of_nonneg (by positivity)]
        exact ⟨le_rfl, hp.2⟩
    · rintro p ⟨y, hy1, hy2, rfl⟩
      rw [Set.union_subset_iff] at h
      have m1 : Spec.rigid c.rotation c.center ![y 0, y 1, c.length / 2] ∈ Spec.aabox lo hi := by
        apply h.1
        rw [disk_iff c hR hr, ← (rigid_iff hR _ _ _).mp rfl]
        exact ⟨rfl, hy2⟩
      have m2 : Spec.rigid c.rotation c.center ![y 0, y 1, -(c.length / 2)] ∈ Spec.aabox lo hi := by
        apply h.2
        rw [disk_iff c hR hr, ← (rigid_iff hR _ _ _).mp rfl]
        exact ⟨rfl, hy2⟩
      rcases hL.eq_or_lt with hL0 | hLpos
      · have : y 2 = 0 := by
          rw [← hL0, zero_div] at hy1
          exact abs_eq_zero.mp (le_antisymm hy1 (abs_nonneg _))
        have e : y = ![y 0, y 1, c.length / 2] := by
          ext i; fin_cases i <;> simp [this, ← hL0]
        rw [e]; exact m1
      · rw [abs_le] at hy1
        set a := y 2 / c.length + 1 / 2 with ha
        have hz : -(1 / 2) ≤ y 2 / c.length ∧ y 2 / c.length ≤ 1 / 2 := by
          rw [le_div_iff₀ hLpos, div_le_iff₀ hLpos]; constructor <;> linarith
        have e : Spec.rigid c.rotation c.center y =
            a • Spec.rigid c.rotation c.center ![y 0, y 1, c.length / 2] +
              (1 - a) • Spec.rigid c.rotation c.center ![y 0, y 1, -(c.length / 2)] := by
          have ez : y 2 = a * (c.length / 2) + (1 - a) * (-(c.length / 2)) := by
            rw [ha]; field_simp; ring
          have hv : y = a • ![y 0, y 1, c.length / 2] + (1 - a) • ![y 0, y 1, -(c.length / 2)] := by
            ext i; fin_cases i
            · simp; ring
            · simp; ring
            · simpa using ez
          conv_lhs => rw [hv]
          simp only [Spec.rigid, mulVec_add, mulVec_smul]
          module
        rw [e]
        refine aabox_convex lo hi m1 m2 ?_ ?_ ?_
        · rw [ha]; linarith
        · rw [ha]; linarith
        · ring
  obtain ⟨h3, -, h4, h5⟩ := hfin
  exact ⟨b, hok, h3, h4, h5⟩

/-- C34: `Capsule.aabb()` is the smallest axis-aligned box around the capsule. -/
theorem C34_capsule (c : Capsule ℝ) (hR : Spec.Orthogonal c.cylinder.rotation)
    (hL : 0 ≤ c.cylinder.length) (hr : 0 ≤ c.cylinder.radius) : ∃ b, c.aabb = .ok b ∧ b.rotation = 1 ∧
      Spec.capsule c.cylinder.length c.cylinder.radius c.cylinder.rotation c.cylinder.center ⊆
        Spec.box b.halfExtents b.rotation b.center ∧
      ∀ lo hi : Fin 3 → ℝ,
        Spec.capsule c.cylinder.length c.cylinder.radius c.cylinder.rotation c.cylinder.center ⊆
          Spec.aabox lo hi → Spec.box b.halfExtents b.rotation b.center ⊆ Spec.aabox lo hi := by
  set e1 := Spec.rigid c.cylinder.rotation c.cylinder.center ![0, 0, c.cylinder.length / 2] with he1
  set e2 := Spec.rigid c.cylinder.rotation c.cylinder.center ![0, 0, -(c.cylinder.length / 2)] with he2
  obtain ⟨b1, hb1, hB1⟩ := ellipsoid_aabb_bounding ⟨fun _ => c.cylinder.radius, 1, e1⟩
  obtain ⟨b2, hb2, hB2⟩ := ellipsoid_aabb_bounding ⟨fun _ => c.cylinder.radius, 1, e2⟩
  obtain ⟨b, hb, hB⟩ := bounding_union hB1 hB2
  have hok : c.aabb = .ok b := by
    unfold Capsule.aabb
    rw [c.caps_ok hr, ← he1, ← he2]
    simp [hb1, hb2, bind, Except.bind, pure, Except.pure, hb]
  have hs : ∀ e : Fin 3 → ℝ, Spec.ellipsoid (fun _ => c.cylinder.radius) 1 e = Spec.ball c.cylinder.radius e := fun e => by
    ext p; exact ellipsoid_ball _ hr Spec.Orthogonal.one _ _
  have hfin : IsBounding b
      (Spec.capsule c.cylinder.length c.cylinder.radius c.cylinder.rotation c.cylinder.center) := by
    refine hB.congr fun lo hi => ?_
    dsimp only
    rw [hs, hs, C32_hull hR _ _ hL]
    exact ⟨fun h => (subset_convexHull ℝ _).trans h, fun h => convexHull_min h (aabox_convex lo hi)⟩
  obtain ⟨h3, -, h4, h5⟩ := hfin
  exact ⟨b, hok, h3, h4, h5⟩

example : ∃ c : Capsule ℝ, Spec.Orthogonal c.cylinder.rotation ∧ 0 ≤ c.cylinder.length ∧
    0 ≤ c.cylinder.radius ∧ c.cylinder.rotation ≠ 1 := by
  refine ⟨⟨⟨2, 1, !![0, -1, 0; 1, 0, 0; 0, 0, 1], ![1, 1, 1]⟩⟩, ?_, by norm_num, by norm_num, ?_⟩
  · unfold Spec.Orthogonal
    ext i j; fin_cases i <;> fin_cases j <;> simp [Matrix.mul_apply, Fin.sum_univ_three]
  · intro h
    have := congrFun (congrFun h 0) 0
    simp at this

/-! ## C35: inscribed and bounding shapes -/

theorem sq_abs_le {a b : ℝ} (h : |a| ≤ b) : a ^ 2 ≤ b ^ 2 := by
  have := sq_le_sq' (neg_le_of_abs_le h) (le_of_abs_le h); exact this

theorem div_sq_le {a b k : ℝ} (hk : 0 ≤ k) (hb : 0 ≤ b) (h : a ^ 2 ≤ k * b ^ 2) : (a / b) ^ 2 ≤ k := by
  rcases hb.eq_or_lt with rfl | hb
  · simpa using hk
  · rw [div_pow, div_le_iff₀ (by positivity)]; exact h

theorem sum_sq_coord_le {R : Matrix (Fin 3) (Fin 3) ℝ} (hR : Spec.Orthogonal R) (v : Fin 3 → ℝ) :
    (Rᵀ *ᵥ v) 0 ^ 2 + (Rᵀ *ᵥ v) 1 ^ 2 + (Rᵀ *ᵥ v) 2 ^ 2 = v ⬝ᵥ v := by
  rw [← dot_mulVec_orthogonal hR.transpose]
  simp [dotProduct, Fin.sum_univ_three, sq]

/-- C35: the inscribed ellipsoid (or sphere) of a box is inside the box. -/
theorem C35_box_mie (b : Box ℝ) (hb : ∀ i, 0 ≤ b.halfExtents i) (hR : Spec.Orthogonal b.rotation)
    (sphere : Bool) : ∃ e, b.mie sphere = .ok e ∧
      Spec.ellipsoid e.halfExtents e.rotation e.center ⊆
        Spec.box b.halfExtents b.rotation b.center := by
  cases sphere
  · refine ⟨⟨b.halfExtents, b.rotation, b.center⟩, ?_, ?_⟩
    · simp [Box.mie, Ellipsoid.init_ok _ hb]
    · rintro p ⟨u, hu, rfl⟩
      refine ⟨_, fun i => ?_, rfl⟩
      rw [abs_mul, abs_of_nonneg (hb i)]
      refine mul_le_of_le_one_right (hb i) (abs_le_of_sq_le_sq ?_ zero_le_one)
      have : u i * u i ≤ u ⬝ᵥ u :=
        Finset.single_le_sum (f := fun i => u i * u i) (fun j _ => mul_self_nonneg _) (Finset.mem_univ i)
      nlinarith
  · set r := Finset.univ.inf' Finset.univ_nonempty b.halfExtents with hr
    have hr0 : 0 ≤ r := by rw [hr, Finset.le_inf'_iff]; exact fun i _ => hb i
    refine ⟨⟨fun _ => r, 1, b.center⟩, ?_, ?_⟩
    · simp [Box.mie, Ellipsoid.minExtent, bind, Except.bind, ← hr, Ellipsoid.sphere_ok r hr0]
    · intro p hp
      rw [ellipsoid_ball _ hr0 Spec.Orthogonal.one] at hp
      rw [Spec_box_iff hR]
      intro i
      have h1 := sum_sq_coord_le hR (p - b.center)
      have h2 : (p - b.center) ⬝ᵥ (p - b.center) ≤ r ^ 2 := hp
      have hri : r ≤ b.halfExtents i := Finset.inf'_le _ (Finset.mem_univ i)
      refine (abs_le_of_sq_le_sq ?_ hr0).trans hri
      have : ∀ i, (b.rotationᵀ *ᵥ (p - b.center)) i ^ 2 ≤
          (b.rotationᵀ *ᵥ (p - b.center)) 0 ^ 2 + (b.rotationᵀ *ᵥ (p - b.center)) 1 ^ 2 +
            (b.rotationᵀ *ᵥ (p - b.center)) 2 ^ 2 := by
        intro i
        fin_cases i <;> simp <;> nlinarith [sq_nonneg ((b.rotationᵀ *ᵥ (p - b.center)) 0),
          sq_nonneg ((b.rotationᵀ *ᵥ (p - b.center)) 1), sq_nonneg ((b.rotationᵀ *ᵥ (p - b.center)) 2)]
      linarith [this i]

theorem Box.mbe_false (b : Box ℝ) (hb : ∀ i, 0 ≤ b.halfExtents i) :
    b.mbe false = .ok ⟨fun i => b.halfExtents i * Real.sqrt 3, b.rotation, b.center⟩ := by
  have : ∀ i, 0 ≤ b.halfExtents i * Real.sqrt 3 := fun i => mul_nonneg (hb i) (Real.sqrt_nonneg 3)
  simp [Box.mbe, Ellipsoid.init_ok _ this]

theorem Box.mbe_true (b : Box ℝ) (hb : ∀ i, 0 ≤ b.halfExtents i) :
    b.mbe true = .ok ⟨fun _ => Finset.univ.sup' Finset.univ_nonempty
      (fun i => b.halfExtents i * Real.sqrt 3), 1, b.center⟩ := by
  have h0 : 0 ≤ Finset.univ.sup' Finset.univ_nonempty (fun i => b.halfExtents i * Real.sqrt 3) :=
    le_trans (mul_nonneg (hb 0) (Real.sqrt_nonneg 3))
      (Finset.le_sup' (fun i => b.halfExtents i * Real.sqrt 3) (Finset.mem_univ 0))
  simp [Box.mbe, Ellipsoid.maxExtent, bind, Except.bind, Ellipsoid.sphere_ok _ h0]

/-- Membership in the bounding ellipsoid of a box, in body coordinates. -/
theorem mem_mbe {R : Matrix (Fin 3) (Fin 3) ℝ} (hR : Spec.Orthogonal R) (h c p : Fin 3 → ℝ)
    (hh : ∀ i, 0 ≤ h i) (h0 : ∀ i, h i = 0 → (Rᵀ *ᵥ (p - c)) i = 0)
    (h1 : ∑ i, ((Rᵀ *ᵥ (p - c)) i / h i) ^ 2 ≤ 3) :
    p ∈ Spec.ellipsoid (fun i => h i * Real.sqrt 3) R c := by
  rw [Spec_ellipsoid_iff hR]
  have h3 : Real.sqrt 3 ^ 2 = 3 := Real.sq_sqrt (by norm_num)
  constructor
  · intro i hi
    rcases mul_eq_zero.mp hi with hi | hi
    · exact h0 i hi
    · rw [hi] at h3; norm_num at h3
  · have : ∀ i, ((Rᵀ *ᵥ (p - c)) i / (h i * Real.sqrt 3)) ^ 2 = ((Rᵀ *ᵥ (p - c)) i / h i) ^ 2 / 3 := fun i => by
      rw [← div_div, div_pow _ (Real.sqrt 3), h3]
    simp only [this]
    rw [← Finset.sum_div]
    linarith

/-- C35: the bounding ellipsoid (or sphere) of a box contains the box. -/
theorem C35_box_mbe (b : Box ℝ) (hb : ∀ i, 0 ≤ b.halfExtents i) (hR : Spec.Orthogonal b.rotation)
    (sphere : Bool) : ∃ e, b.mbe sphere = .ok e ∧
      Spec.box b.halfExtents b.rotation b.center ⊆
        Spec.ellipsoid e.halfExtents e.rotation e.center := by
  have h3 : Real.sqrt 3 ^ 2 = 3 := Real.sq_sqrt (by norm_num)
  cases sphere
  · refine ⟨_, b.mbe_false hb, fun p hp => ?_⟩
    rw [Spec_box_iff hR] at hp
    refine mem_mbe hR _ _ _ hb (fun i hi => ?_) ?_
    · have := hp i; rw [hi] at this
      exact abs_eq_zero.mp (le_antisymm this (abs_nonneg _))
    · have : ∀ i, ((b.rotationᵀ *ᵥ (p - b.center)) i / b.halfExtents i) ^ 2 ≤ 1 := fun i =>
        div_sq_le zero_le_one (hb i) (by rw [one_mul]; exact sq_abs_le (hp i))
      rw [Fin.sum_univ_three]
      linarith [this 0, this 1, this 2]
  · refine ⟨_, b.mbe_true hb, fun p hp => ?_⟩
    set r := Finset.univ.sup' Finset.univ_nonempty (fun i => b.halfExtents i * Real.sqrt 3) with hr
    have hri : ∀ i, b.halfExtents i * Real.sqrt 3 ≤ r := fun i =>
      Finset.le_sup' (fun i => b.halfExtents i * Real.sqrt 3) (Finset.mem_univ i)
    have hr0 : 0 ≤ r := (mul_nonneg (hb 0) (Real.sqrt_nonneg 3)).trans (hri 0)
    rw [ellipsoid_ball _ hr0 Spec.Orthogonal.one]
    rw [Spec_box_iff hR] at hp
    change (p - b.center) ⬝ᵥ (p - b.center) ≤ r ^ 2
    rw [← sum_sq_coord_le hR]
    have : ∀ i, (b.rotationᵀ *ᵥ (p - b.center)) i ^ 2 ≤ r ^ 2 / 3 := fun i => by
      have h1 := sq_abs_le (hp i)
      have h2 := pow_le_pow_left₀ (mul_nonneg (hb i) (Real.sqrt_nonneg 3)) (hri i) 2
      rw [mul_pow, h3] at h2
      linarith
    linarith [this 0, this 1, this 2]

/-- C35: an ellipsoid is inside its bounding box and contains its inscribed box. -/
theorem C35_ellipsoid (e : Ellipsoid ℝ 3) (he : ∀ i, 0 ≤ e.halfExtents i)
    (hR : Spec.Orthogonal e.rotation) : ∃ bi bb, e.mib = .ok bi ∧ e.mbb = .ok bb ∧
      Spec.box bi.halfExtents bi.rotation bi.center ⊆
        Spec.ellipsoid e.halfExtents e.rotation e.center ∧
      Spec.ellipsoid e.halfExtents e.rotation e.center ⊆
        Spec.box bb.halfExtents bb.rotation bb.center := by
  have h3 : 0 < Real.sqrt 3 := Real.sqrt_pos.mpr (by norm_num)
  have hnn : ∀ i, 0 ≤ e.halfExtents i / Real.sqrt 3 := fun i => div_nonneg (he i) h3.le
  refine ⟨⟨fun i => e.halfExtents i / Real.sqrt 3, e.rotation, e.center⟩,
    ⟨e.halfExtents, e.rotation, e.center⟩, ?_, ?_, ?_, ?_⟩
  · unfold Ellipsoid.mib; rw [Box.init_ok _ hnn]; rfl
  · unfold Ellipsoid.mbb; rw [Box.init_ok _ he]; rfl
  · obtain ⟨e', h1, h2⟩ := C35_box_mbe ⟨fun i => e.halfExtents i / Real.sqrt 3, e.rotation, e.center⟩
      hnn hR false
    rw [Box.mbe_false _ hnn] at h1
    obtain rfl := (Except.ok.inj h1).symm
    simpa [div_mul_cancel₀ _ h3.ne'] using h2
  · obtain ⟨e', h1, h2⟩ := C35_box_mie ⟨e.halfExtents, e.rotation, e.center⟩ he hR false
    have : (⟨e.halfExtents, e.rotation, e.center⟩ : Box ℝ).mie false = .ok e := by
      simp [Box.mie, Ellipsoid.init_ok _ he]
    rw [this] at h1
    obtain rfl := (Except.ok.inj h1).symm
    exact h2

/-- C35: a cylinder contains its inscribed box and is inside its bounding box, its bounding ellipsoid
and its bounding sphere. -/
theorem C35_cylinder (c : Cylinder ℝ) (hR : Spec.Orthogonal c.rotation) (hL : 0 ≤ c.length)
    (hr : 0 ≤ c.radius) : ∃ bi bb e s, c.mib = .ok bi ∧ c.mbb = .ok bb ∧ c.mbe false = .ok e ∧
      c.mbe true = .ok s ∧
      Spec.box bi.halfExtents bi.rotation bi.center ⊆
        Spec.cylinder c.length c.radius c.rotation c.center ∧
      Spec.cylinder c.length c.radius c.rotation c.center ⊆
        Spec.box bb.halfExtents bb.rotation bb.center ∧
      Spec.cylinder c.length c.radius c.rotation c.center ⊆
        Spec.ellipsoid e.halfExtents e.rotation e.center ∧
      Spec.cylinder c.length c.radius c.rotation c.center ⊆
        Spec.ellipsoid s.halfExtents s.rotation s.center := by
  have h2 : Real.sqrt 2 ^ 2 = 2 := Real.sq_sqrt (by norm_num)
  have h3 : Real.sqrt 3 ^ 2 = 3 := Real.sq_sqrt (by norm_num)
  have hs2 : 0 < Real.sqrt 2 := Real.sqrt_pos.mpr (by norm_num)
  set ρ := c.radius / Real.sqrt 2 with hρ
  have hρ0 : 0 ≤ ρ := div_nonneg hr hs2.le
  have hρ2 : ρ ^ 2 = c.radius ^ 2 / 2 := by rw [hρ, div_pow, h2]
  have hn1 : ∀ i, 0 ≤ (![ρ, ρ, c.length / 2] : Fin 3 → ℝ) i := by
    intro i; fin_cases i
    · exact hρ0
    · exact hρ0
    · simp; positivity
  have hn2 : ∀ i, 0 ≤ (![c.radius, c.radius, c.length / 2] : Fin 3 → ℝ) i := by
    intro i; fin_cases i
    · exact hr
    · exact hr
    · simp; positivity
  have hmib : c.mib = .ok ⟨![ρ, ρ, c.length / 2], c.rotation, c.center⟩ := by
    unfold Cylinder.mib; rw [Box.init_ok _ hn1]; rfl
  have he : c.mbe false = (⟨![ρ, ρ, c.length / 2], c.rotation, c.center⟩ : Box ℝ).mbe false := by
    simp [Cylinder.mbe, hmib, bind, Except.bind]
  have hs : c.mbe true = (⟨![ρ, ρ, c.length / 2], c.rotation, c.center⟩ : Box ℝ).mbe true := by
    simp [Cylinder.mbe, hmib, bind, Except.bind]
  rw [Box.mbe_false _ hn1] at he
  rw [Box.mbe_true _ hn1] at hs
  refine ⟨_, ⟨![c.radius, c.radius, c.length / 2], c.rotation, c.center⟩, _, _, hmib, ?_, he, hs,
    ?_, ?_, ?_, ?_⟩
  · unfold Cylinder.mbb; rw [Box.init_ok _ hn2]; rfl
  · intro p hp
    rw [Spec_box_iff hR] at hp
    rw [Spec_cylinder_iff hR]
    have a0 := sq_abs_le (hp 0)
    have a1 := sq_abs_le (hp 1)
    simp only [Matrix.cons_val_zero, Matrix.cons_val_one, hρ2] at a0 a1
    exact ⟨hp 2, by linarith⟩
  · intro p hp
    rw [Spec_cylinder_iff hR] at hp
    rw [Spec_box_iff hR]
    intro i
    fin_cases i
    · exact abs_le_of_sq_le_sq
        (by simp; nlinarith [hp.2, sq_nonneg ((c.rotationᵀ *ᵥ (p - c.center)) 1)]) hr
    · exact abs_le_of_sq_le_sq
        (by simp; nlinarith [hp.2, sq_nonneg ((c.rotationᵀ *ᵥ (p - c.center)) 0)]) hr
    · exact hp.1
  · intro p hp
    rw [Spec_cylinder_iff hR] at hp
    obtain ⟨p1, p2⟩ := hp
    refine mem_mbe hR _ _ _ hn1 ?_ ?_
    · set y := c.rotationᵀ *ᵥ (p - c.center)
      intro i hi
      have hr0 : ρ = 0 → c.radius = 0 := fun h => by
        rw [h] at hρ2
        have : c.radius ^ 2 = 0 := by linarith
        simpa using this
      fin_cases i
      · simp at hi; rw [hr0 hi] at p2
        have : y 0 ^ 2 = 0 := le_antisymm (by nlinarith [sq_nonneg (y 1)]) (sq_nonneg _)
        simpa using this
      · simp at hi; rw [hr0 hi] at p2
        have : y 1 ^ 2 = 0 := le_antisymm (by nlinarith [sq_nonneg (y 0)]) (sq_nonneg _)
        simpa using this
      · simp at hi
        rw [hi, zero_div] at p1
        exact abs_eq_zero.mp (le_antisymm p1 (abs_nonneg _))
    · set y := c.rotationᵀ *ᵥ (p - c.center)
      rw [Fin.sum_univ_three]
      simp only [Matrix.cons_val_zero, Matrix.cons_val_one, Matrix.cons_val_two, Matrix.tail_cons,
        Matrix.head_cons]
      have a2 : (y 2 / (c.length / 2)) ^ 2 ≤ 1 :=
        div_sq_le zero_le_one (by positivity) (by rw [one_mul]; exact sq_abs_le p1)
      have a01 : (y 0 / ρ) ^ 2 + (y 1 / ρ) ^ 2 ≤ 2 := by
        rw [div_pow (y 0), div_pow (y 1), ← add_div, hρ2]
        rcases hr.eq_or_lt with h | h
        · rw [← h]; norm_num
        · rw [div_le_iff₀ (by positivity)]; linarith
      exact le_trans (add_le_add a01 a2) (by norm_num)
  · intro p hp
    rw [Spec_cylinder_iff hR] at hp
    set r := Finset.univ.sup' Finset.univ_nonempty
      (fun i => (![ρ, ρ, c.length / 2] : Fin 3 → ℝ) i * Real.sqrt 3) with hrdef
    have hri : ∀ i, (![ρ, ρ, c.length / 2] : Fin 3 → ℝ) i * Real.sqrt 3 ≤ r := fun i =>
      Finset.le_sup' (fun i => (![ρ, ρ, c.length / 2] : Fin 3 → ℝ) i * Real.sqrt 3) (Finset.mem_univ i)
    have hr0 : 0 ≤ r := (mul_nonneg (hn1 0) (Real.sqrt_nonneg 3)).trans (hri 0)
    change p ∈ Spec.ellipsoid (fun _ => r) 1 c.center
    rw [ellipsoid_ball _ hr0 Spec.Orthogonal.one]
    change (p - c.center) ⬝ᵥ (p - c.center) ≤ r ^ 2
    rw [← sum_sq_coord_le hR]
    have b0 := pow_le_pow_left₀ (mul_nonneg (hn1 0) (Real.sqrt_nonneg 3)) (hri 0) 2
    have b2 := pow_le_pow_left₀ (mul_nonneg (hn1 2) (Real.sqrt_nonneg 3)) (hri 2) 2
    rw [mul_pow, h3] at b0 b2
    have b0' : ρ ^ 2 * 3 ≤ r ^ 2 := b0
    have b2' : (c.length / 2) ^ 2 * 3 ≤ r ^ 2 := b2
    rw [hρ2] at b0'
    have := sq_abs_le hp.1
    linarith [hp.2]

/-- C35: a capsule is inside its bounding box. -/
theorem C35_capsule (c : Capsule ℝ) (hR : Spec.Orthogonal c.cylinder.rotation)
    (hL : 0 ≤ c.cylinder.length) (hr : 0 ≤ c.cylinder.radius) : ∃ bb, c.mbb = .ok bb ∧
      Spec.capsule c.cylinder.length c.cylinder.radius c.cylinder.rotation c.cylinder.center ⊆
        Spec.box bb.halfExtents bb.rotation bb.center := by
  have hn : ∀ i, 0 ≤ (![c.cylinder.radius, c.cylinder.radius, c.fullLength / 2] : Fin 3 → ℝ) i := by
    intro i; fin_cases i
    · exact hr
    · exact hr
    · simp [Capsule.fullLength]; positivity
  refine ⟨⟨![c.cylinder.radius, c.cylinder.radius, c.fullLength / 2], c.cylinder.rotation,
    c.cylinder.center⟩, ?_, fun p hp => ?_⟩
  · unfold Capsule.mbb; rw [Box.init_ok _ hn]; rfl
  · rw [Spec_capsule_iff hR] at hp
    rw [Spec_box_iff hR]
    obtain ⟨z, hz, h⟩ := hp
    dsimp only
    set y := c.cylinder.rotationᵀ *ᵥ (p - c.cylinder.center)
    intro i
    fin_cases i
    · exact abs_le_of_sq_le_sq (by simp; nlinarith [sq_nonneg (y 1), sq_nonneg (y 2 - z)]) hr
    · exact abs_le_of_sq_le_sq (by simp; nlinarith [sq_nonneg (y 0), sq_nonneg (y 2 - z)]) hr
    · have h1 : |y 2 - z| ≤ c.cylinder.radius :=
        abs_le_of_sq_le_sq (by nlinarith [sq_nonneg (y 0), sq_nonneg (y 1)]) hr
      rw [abs_le] at *
      simp [Capsule.fullLength]
      constructor <;> linarith

end Real
end Rigeo
