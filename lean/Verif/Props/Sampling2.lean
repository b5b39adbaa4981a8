import Verif.Props.Sampling
import Verif.Props.Surface

/-! # Samplers built on the random module: C41, C42, C65, C68 -/

namespace Rigeo

open Matrix

/-! ## C68: elementary samplers -/

/-- C68: `random_psd_matrix` returns a positive semidefinite matrix. -/
theorem C68_psd {K : Type} [Field K] [LinearOrder K] [IsStrictOrderedRing K] {n : ℕ}
    (A : Matrix (Fin n) (Fin n) K) : Spec.PSD (randomPsdMatrix A) :=
  Spec.PSD.transpose_mul_self A

/-- C68: `random_points_on_hypersphere` returns unit vectors, for every draw. -/
theorem C68_hypersphere (dim : ℕ) (X s : Fin (dim + 1) → ℝ) (h : hyperspherePoint dim X = .ok s) :
    s ⬝ᵥ s = 1 := by
  unfold hyperspherePoint vdiv at h
  by_cases hd : 1 ≤ dim
  · simp only [pyAssert, hd, decide_true, if_true, bind, Except.bind] at h
    split_ifs at h with h0
    cases h
    have hXX : 0 ≤ X ⬝ᵥ X := dot_self_nonneg X
    have : ((fun i => X i / Real.sqrt (X ⬝ᵥ X)) ⬝ᵥ fun i => X i / Real.sqrt (X ⬝ᵥ X)) =
        (X ⬝ᵥ X) / (Real.sqrt (X ⬝ᵥ X)) ^ 2 := by
      simp only [dotProduct, Finset.sum_div]
      exact Finset.sum_congr rfl fun i _ => by ring
    rw [this, Real.sq_sqrt hXX, div_self]
    intro h; exact h0 (by rw [h, Real.sqrt_zero])
  · simp [pyAssert, hd, bind, Except.bind] at h

/-- C68: it succeeds for every nonzero draw in dimension at least one, and raises `AssertionError` for `dim = 0`. -/
theorem C68_hypersphere_ok (dim : ℕ) (hd : 1 ≤ dim) (X : Fin (dim + 1) → ℝ) (hX : X ≠ 0) :
    ∃ s, hyperspherePoint dim X = .ok s := by
  unfold hyperspherePoint vdiv
  simp only [pyAssert, hd, decide_true, if_true, bind, Except.bind]
  rw [if_neg]
  · exact ⟨_, rfl⟩
  · rw [Real.sqrt_eq_zero (dot_self_nonneg X)]
    exact fun h => hX (dotProduct_self_eq_zero.mp h)

@[inherit_doc C68_hypersphere_ok]
theorem C68_hypersphere_dim0 (X : Fin 1 → ℝ) : hyperspherePoint 0 X = .error .assertion := by
  simp [hyperspherePoint, pyAssert, bind, Except.bind]

/-- C68: `random_points_in_ball` returns vectors of norm at most one, for every draw. -/
theorem C68_ball (dim : ℕ) (X x : Fin dim → ℝ) (c : ℝ) (hc : 0 ≤ c) (hc1 : c ≤ 1)
    (h : ballPoint dim X c = .ok x) : x ⬝ᵥ x ≤ 1 := by
  cases dim with
  | zero => cases h
  | succ k =>
    rw [ballPoint] at h
    rcases hs : hyperspherePoint k X with e | s
    · rw [hs] at h; simp [bind, Except.bind] at h
    · rw [hs] at h
      simp only [bind, Except.bind, pure, Except.pure, Except.ok.injEq] at h
      subst h
      have hu := C68_hypersphere k X s hs
      set r := c ^ (1 / ((k + 1 : ℕ) : ℝ))
      have h0 : 0 ≤ r := Real.rpow_nonneg hc _
      have h1 : r ≤ 1 := Real.rpow_le_one hc hc1 (by positivity)
      rw [smul_dotProduct, dotProduct_smul, hu, smul_eq_mul, smul_eq_mul]
      nlinarith

/-- C68: the radius of the returned vector is the `dim`-th root of the uniform draw. -/
theorem C68_ball_radius (k : ℕ) (X x : Fin (k + 1) → ℝ) (c : ℝ) (hc : 0 ≤ c)
    (h : ballPoint (k + 1) X c = .ok x) : Real.sqrt (x ⬝ᵥ x) ^ (k + 1) = c := by
  rw [ballPoint] at h
  rcases hs : hyperspherePoint k X with e | s
  · rw [hs] at h; simp [bind, Except.bind] at h
  · rw [hs] at h
    simp only [bind, Except.bind, pure, Except.pure, Except.ok.injEq] at h
    subst h
    have hu := C68_hypersphere k X s hs
    have h0 : 0 ≤ c ^ (1 / ((k + 1 : ℕ) : ℝ)) := Real.rpow_nonneg hc _
    rw [smul_dotProduct, dotProduct_smul, hu, smul_eq_mul, smul_eq_mul, mul_one, Real.sqrt_mul_self h0,
      one_div, Real.rpow_inv_natCast_pow hc (Nat.succ_ne_zero k)]

/-- C68: `random_points_in_ball(dim=1)` (and `dim=0`) raises `AssertionError`, whatever is drawn. -/
theorem C68_ball_dim1 (X : Fin 1 → ℝ) (c : ℝ) : ballPoint 1 X c = .error .assertion := by
  rw [ballPoint, C68_hypersphere_dim0]; rfl

/-- C68: for `dim ≥ 2` every nonzero draw gives a point. -/
theorem C68_ball_ok (k : ℕ) (hk : 1 ≤ k) (X : Fin (k + 1) → ℝ) (hX : X ≠ 0) (c : ℝ) :
    ∃ x, ballPoint (k + 1) X c = .ok x := by
  obtain ⟨s, hs⟩ := C68_hypersphere_ok k hk X hX
  rw [ballPoint, hs]; exact ⟨_, rfl⟩

example : ∃ x, ballPoint 3 ![1, 2, 2] (1 / 8) = .ok x :=
  C68_ball_ok 2 (by norm_num) _ (fun h => by have := congrFun h 0; norm_num at this) _

/-! ## C41: interior samples of curved shapes -/

/-- C41: `Ellipsoid.random_points` returns points of the ellipsoid for every draw. -/
theorem C41_ellipsoid {d : ℕ} (e : Ellipsoid ℝ d) (hR : Spec.Orthogonal e.rotation) (X : Fin d → ℝ) (c : ℝ)
    (hc : 0 ≤ c) (hc1 : c ≤ 1) (p : Fin d → ℝ) (h : e.randomPoints X c = .ok p) :
    p ∈ Spec.ellipsoid e.halfExtents e.rotation e.center := by
  unfold Ellipsoid.randomPoints at h
  rcases hs : ballPoint d X c with er | x
  · rw [hs] at h; simp [bind, Except.bind] at h
  · rw [hs] at h
    simp only [bind, Except.bind, pure, Except.pure, Except.ok.injEq] at h
    subst h
    exact C41_ellipsoid_ball e hR x (C68_ball d X x c hc hc1 hs)

/-- C41: `Cylinder.random_points` returns points of the cylinder for every draw. -/
theorem C41_cylinder (cyl : Cylinder ℝ) (hL : 0 ≤ cyl.length) (u : ℝ) (hu : |u| ≤ 1 / 2) (X : Fin 2 → ℝ) (c : ℝ)
    (hc : 0 ≤ c) (hc1 : c ≤ 1) (p : Fin 3 → ℝ) (h : cyl.randomPoints u X c = .ok p) :
    p ∈ Spec.cylinder cyl.length cyl.radius cyl.rotation cyl.center := by
  unfold Cylinder.randomPoints at h
  rcases hs : ballPoint 2 X c with er | x
  · rw [hs] at h; simp [bind, Except.bind] at h
  · rw [hs] at h
    simp only [bind, Except.bind, pure, Except.pure, Except.ok.injEq] at h
    subst h
    exact C41_cylinder_disk cyl hL u hu x (C68_ball 2 X x c hc hc1 hs)

example (e : Ellipsoid ℝ 3) : ∃ p, e.randomPoints ![1, 2, 2] (1 / 8) = .ok p := by
  obtain ⟨x, hx⟩ := C68_ball_ok 2 (by norm_num) ![1, 2, 2] (fun h => by have := congrFun h 0; norm_num at this) (1 / 8)
  exact ⟨_, by rw [Ellipsoid.randomPoints, hx]; rfl⟩

section Field
variable {K : Type} [Field K] [LinearOrder K] [IsStrictOrderedRing K]

/-! ## C65, C41: capsules -/

/-- C65: `Capsule.random_points` returns exactly `n` points of the bounding box, each of which passes
`Capsule.contains`, or raises `ValueError`. -/
theorem C65_capsule (c : Capsule K) (hL : 0 ≤ c.cylinder.length) (hr : 0 ≤ c.cylinder.radius)
    (draw : ℕ → ℕ → List (Fin 3 → K)) (hd : ∀ k m, (draw k m).length = m) (n : ℕ) :
    c.randomPoints draw n = .error .value ∨
      ∃ ps, c.randomPoints draw n = .ok ps ∧ ps.length = n ∧ ∀ p ∈ ps, c.contains p = .ok true := by
  have hbox : c.mbb = .ok ⟨![c.cylinder.radius, c.cylinder.radius, c.fullLength / 2], c.cylinder.rotation,
      c.cylinder.center⟩ := by
    apply Box.init_ok
    intro i; fin_cases i
    · exact hr
    · exact hr
    · simp [Capsule.fullLength]; positivity
  unfold Capsule.randomPoints
  rw [hbox, c.caps_ok hr]
  simp only [bind, Except.bind]
  set dr := fun k m => (draw k m).map (Box.randomPoint (⟨![c.cylinder.radius, c.cylinder.radius,
    c.fullLength / 2], c.cylinder.rotation, c.cylinder.center⟩ : Box K)) with hdr
  rcases h : rejectionSample [fun p => (c.contains p).toOption.getD false] dr n with e | ps
  · left; rw [(C65_fails _ _ _ _).1 e h]
  · right
    refine ⟨ps, rfl, ?_⟩
    obtain ⟨h1, h2⟩ := C65_returns _ _ _ _ (by intro k m; simp [hdr, hd]) ps h
    refine ⟨h1, fun p hp => ?_⟩
    obtain ⟨f, hf, hfp⟩ := h2 p hp
    simp only [List.mem_singleton] at hf
    subst hf
    dsimp only at hfp
    rcases hc : c.contains p with e | b
    · rw [hc] at hfp; simp [Except.toOption] at hfp
    · rw [hc] at hfp
      simp only [Except.toOption, Option.getD_some] at hfp
      rw [hfp]

/-! ## C42: edges -/

/-- A point on an edge of a box: two of the three body coordinates are at their bounds, the third is within its
bounds. -/
def OnEdge (h : Fin 3 → K) (R : Matrix (Fin 3) (Fin 3) K) (c p : Fin 3 → K) : Prop :=
  ∃ y : Fin 3 → K, p = Spec.rigid R c y ∧ ∃ k : Fin 3, |y k| ≤ h k ∧ ∀ i, i ≠ k → |y i| = h i

/-- A point on the surface of a box. -/
def OnFace (h : Fin 3 → K) (R : Matrix (Fin 3) (Fin 3) K) (c p : Fin 3 → K) : Prop :=
  ∃ y : Fin 3 → K, p = Spec.rigid R c y ∧ (∀ i, |y i| ≤ h i) ∧ ∃ k : Fin 3, |y k| = h k

/-- C42: `random_points_on_edges` returns `n` points, each on an edge of the box, for every draw and every
way of distributing the points over the edges. -/
theorem C42_edges (b : Box K) (hb : ∀ i, 0 ≤ b.halfExtents i) (n : ℕ) (counts : Fin 12 → ℕ) (u : ℕ → K)
    (hu : ∀ i, |u i| ≤ 1) (shuffle : List (Fin 3 → K) → List (Fin 3 → K)) (hs : ∀ l, (shuffle l).Perm l)
    (ps : List (Fin 3 → K)) (h : b.randomPointsOnEdges n counts u shuffle = .ok ps) :
    ps.length = n ∧ ∀ p ∈ ps, OnEdge b.halfExtents b.rotation b.center p := by
  unfold Box.randomPointsOnEdges at h
  by_cases h0 : 4 * (b.halfExtents 0 + b.halfExtents 1 + b.halfExtents 2) = 0
  · rw [if_pos h0] at h; cases h
  · rw [if_neg h0] at h
    simp only [Except.ok.injEq] at h
    subst h
    refine ⟨by simp [(hs _).length_eq], fun p hp => ?_⟩
    obtain ⟨y, hy, rfl⟩ := List.mem_map.mp hp
    rw [(hs _).mem_iff] at hy
    obtain ⟨i, -, rfl⟩ := List.mem_map.mp hy
    refine ⟨_, rfl, ?_⟩
    have hm : ∀ j, |b.halfExtents j * u i| ≤ b.halfExtents j := fun j => by
      rw [abs_mul, abs_of_nonneg (hb j)]; exact mul_le_of_le_one_right (hb j) (hu i)
    have a0 := abs_of_nonneg (hb 0)
    have a1 := abs_of_nonneg (hb 1)
    have a2 := abs_of_nonneg (hb 2)
    split_ifs
    all_goals first
      | refine ⟨0, by simpa using hm 0, fun j hj => ?_⟩; fin_cases j
        · exact absurd rfl hj
        · first | exact a1 | exact (abs_neg _).trans a1
        · first | exact a2 | exact (abs_neg _).trans a2
      | refine ⟨1, by simpa using hm 1, fun j hj => ?_⟩; fin_cases j
        · first | exact a0 | exact (abs_neg _).trans a0
        · exact absurd rfl hj
        · first | exact a2 | exact (abs_neg _).trans a2
      | refine ⟨2, by simpa using hm 2, fun j hj => ?_⟩; fin_cases j
        · first | exact a0 | exact (abs_neg _).trans a0
        · first | exact a1 | exact (abs_neg _).trans a1
        · exact absurd rfl hj

/-- C42: a box of zero size has no edges to sample: `ValueError`; otherwise the call returns. -/
theorem C42_edges_ok (b : Box K) (hb : ∀ i, 0 ≤ b.halfExtents i) (n : ℕ) (counts : Fin 12 → ℕ) (u : ℕ → K)
    (shuffle : List (Fin 3 → K) → List (Fin 3 → K)) :
    (b.halfExtents = 0 → b.randomPointsOnEdges n counts u shuffle = .error .value) ∧
    (b.halfExtents ≠ 0 → ∃ ps, b.randomPointsOnEdges n counts u shuffle = .ok ps) := by
  unfold Box.randomPointsOnEdges
  constructor
  · intro h
    rw [if_pos (by simp [h])]
  · intro h
    rw [if_neg]
    · exact ⟨_, rfl⟩
    · intro h0
      apply h
      have h1 : b.halfExtents 0 + b.halfExtents 1 + b.halfExtents 2 = 0 := by linarith
      have := hb 0; have := hb 1; have := hb 2
      ext i; fin_cases i
      · change b.halfExtents 0 = 0; linarith
      · change b.halfExtents 1 = 0; linarith
      · change b.halfExtents 2 = 0; linarith

example : ∃ ps, (⟨![1, 2, 3], 1, 0⟩ : Box ℚ).randomPointsOnEdges 2 ![1, 0, 0, 0, 0, 0, 0, 0, 0, 0, 0, 1]
    (fun _ => 1 / 2) id = .ok ps :=
  (C42_edges_ok _ (by decide +kernel) _ _ _ _).2 (by decide +kernel)

/-! ## C42: faces -/

omit [LinearOrder K] [IsStrictOrderedRing K] in
theorem setCoord_length (l : List (Fin 3 → K)) (lo hi : ℕ) (k : Fin 3) (v : K) :
    (Box.setCoord l lo hi k v).length = l.length := by simp [Box.setCoord]

omit [LinearOrder K] [IsStrictOrderedRing K] in
theorem setCoord_getElem (l : List (Fin 3 → K)) (lo hi : ℕ) (k : Fin 3) (v : K) (i : ℕ)
    (hi' : i < (Box.setCoord l lo hi k v).length) : (Box.setCoord l lo hi k v)[i] =
      if lo ≤ i ∧ i < hi then Function.update (l[i]'(by rwa [setCoord_length] at hi')) k v
      else l[i]'(by rwa [setCoord_length] at hi') := by
  simp [Box.setCoord]

/-- For an axis-aligned box centred at the origin, `random_points_on_surface` returns `n` points on the surface, for every
draw. -/
theorem C42_surface_centred (b : Box K) (hb : ∀ i, 0 ≤ b.halfExtents i) (hR : b.rotation = 1) (hc : b.center = 0)
    (us : List (Fin 3 → K)) (hu : ∀ u ∈ us, ∀ i, |u i| ≤ 1) (counts : Fin 6 → ℕ)
    (shuffle : List (Fin 3 → K) → List (Fin 3 → K)) (hs : ∀ l, (shuffle l).Perm l)
    (ps : List (Fin 3 → K)) (h : b.randomPointsOnSurface us counts shuffle = .ok ps) :
    ps.length = us.length ∧ ∀ p ∈ ps, OnFace b.halfExtents b.rotation b.center p := by
  unfold Box.randomPointsOnSurface at h
  dsimp only at h
  split_ifs at h with h0 h1
  simp only [Except.ok.injEq] at h
  subst h
  refine ⟨by simp [(hs _).length_eq, setCoord_length], fun p hp => ?_⟩
  obtain ⟨y, hy, rfl⟩ := List.mem_map.mp hp
  rw [(hs _).mem_iff] at hy
  clear hp
  obtain ⟨i, hi, rfl⟩ := List.mem_iff_getElem.mp hy
  clear hy
  refine ⟨_, rfl, ?_⟩
  have hil : i < us.length := by simpa [setCoord_length] using hi
  have hin : ∀ j, |(b.randomPoint us[i]) j| ≤ b.halfExtents j := by
    have := C41_box b hb us[i] (hu _ (List.getElem_mem hil))
    rw [hR, hc] at this
    obtain ⟨y, hy, hp⟩ := this
    rw [rigid_zero_one] at hp
    rw [hp]; exact hy
  have hup : ∀ (q : Fin 3 → K), (∀ j, |q j| ≤ b.halfExtents j) → ∀ k v, |v| = b.halfExtents k →
      (∀ j, |Function.update q k v j| ≤ b.halfExtents j) := by
    intro q hq k v hv j
    by_cases hjk : j = k
    · subst hjk; rw [Function.update_self]; exact hv.le
    · rw [Function.update_of_ne hjk]; exact hq j
  have hn : ∀ k, |(-b.halfExtents k)| = b.halfExtents k := fun k => by rw [abs_neg, abs_of_nonneg (hb k)]
  have hp : ∀ k, |b.halfExtents k| = b.halfExtents k := fun k => abs_of_nonneg (hb k)
  simp only [setCoord_getElem, setCoord_length, List.getElem_map, List.length_map]
  have mono : ∀ k l : Fin 6, k ≤ l → (∑ i ∈ Finset.univ.filter (· ≤ k), counts i) ≤
      ∑ i ∈ Finset.univ.filter (· ≤ l), counts i := fun k l hkl =>
    Finset.sum_le_sum_of_subset (fun j hj => by
      simp only [Finset.mem_filter, Finset.mem_univ, true_and] at hj ⊢; exact hj.trans hkl)
  have m01 := mono 0 1 (by decide)
  have m12 := mono 1 2 (by decide)
  have m23 := mono 2 3 (by decide)
  have m34 := mono 3 4 (by decide)
  obtain ⟨i0, ei0⟩ : ∃ m, m = ∑ i ∈ Finset.univ.filter (· ≤ (0 : Fin 6)), counts i := ⟨_, rfl⟩
  obtain ⟨i1, ei1⟩ : ∃ m, m = ∑ i ∈ Finset.univ.filter (· ≤ (1 : Fin 6)), counts i := ⟨_, rfl⟩
  obtain ⟨i2, ei2⟩ : ∃ m, m = ∑ i ∈ Finset.univ.filter (· ≤ (2 : Fin 6)), counts i := ⟨_, rfl⟩
  obtain ⟨i3, ei3⟩ : ∃ m, m = ∑ i ∈ Finset.univ.filter (· ≤ (3 : Fin 6)), counts i := ⟨_, rfl⟩
  obtain ⟨i4, ei4⟩ : ∃ m, m = ∑ i ∈ Finset.univ.filter (· ≤ (4 : Fin 6)), counts i := ⟨_, rfl⟩
  by_cases c5 : i4 ≤ i
  · rw [if_pos (by omega), if_neg (by omega), if_neg (by omega), if_neg (by omega), if_neg (by omega),
      if_neg (by omega)]
    exact ⟨hup _ hin _ _ (hn 2), 2, by rw [Function.update_self]; exact hn 2⟩
  rw [if_neg (by omega)]
  by_cases c4 : i3 ≤ i
  · rw [if_pos (by omega), if_neg (by omega), if_neg (by omega), if_neg (by omega), if_neg (by omega)]
    exact ⟨hup _ hin _ _ (hp 2), 2, by rw [Function.update_self]; exact hp 2⟩
  rw [if_neg (by omega)]
  by_cases c3 : i2 ≤ i
  · rw [if_pos (by omega), if_neg (by omega), if_neg (by omega), if_neg (by omega)]
    exact ⟨hup _ hin _ _ (hn 1), 1, by rw [Function.update_self]; exact hn 1⟩
  rw [if_neg (by omega)]
  by_cases c2 : i1 ≤ i
  · rw [if_pos (by omega), if_neg (by omega), if_neg (by omega)]
    exact ⟨hup _ hin _ _ (hp 1), 1, by rw [Function.update_self]; exact hp 1⟩
  rw [if_neg (by omega)]
  by_cases c1 : i0 ≤ i
  · rw [if_pos (by omega), if_neg (by omega)]
    exact ⟨hup _ hin _ _ (hn 0), 0, by rw [Function.update_self]; exact hn 0⟩
  rw [if_neg (by omega), if_pos (by omega)]
  exact ⟨hup _ hin _ _ (hp 0), 0, by rw [Function.update_self]; exact hp 0⟩

/-- C42: `random_points_on_surface` fails with `IndexError` for a request of one point, with `ValueError` for a box of
zero surface area, and returns otherwise. -/
theorem C42_surface_ok (b : Box K) (hb : ∀ i, 0 ≤ b.halfExtents i) (us : List (Fin 3 → K)) (counts : Fin 6 → ℕ)
    (shuffle : List (Fin 3 → K) → List (Fin 3 → K)) :
    ((∃ i j, i ≠ j ∧ ∀ k, k = i ∨ k = j → b.halfExtents k = 0) →
      b.randomPointsOnSurface us counts shuffle = .error .value) ∧
    ((∃ i j, i ≠ j ∧ 0 < b.halfExtents i ∧ 0 < b.halfExtents j) → us.length = 1 →
      b.randomPointsOnSurface us counts shuffle = .error .index) ∧
    ((∃ i j, i ≠ j ∧ 0 < b.halfExtents i ∧ 0 < b.halfExtents j) → us.length ≠ 1 →
      ∃ ps, b.randomPointsOnSurface us counts shuffle = .ok ps) := by
  have h01 := mul_nonneg (hb 0) (hb 1)
  have h02 := mul_nonneg (hb 0) (hb 2)
  have h12 := mul_nonneg (hb 1) (hb 2)
  have key : (∃ i j, i ≠ j ∧ 0 < b.halfExtents i ∧ 0 < b.halfExtents j) →
      2 * (4 * b.halfExtents 1 * b.halfExtents 2 + 4 * b.halfExtents 0 * b.halfExtents 2 +
        4 * b.halfExtents 0 * b.halfExtents 1) ≠ 0 := by
    rintro ⟨i, j, hij, hi, hj⟩ h0
    have hpos := mul_pos hi hj
    fin_cases i <;> fin_cases j <;> simp at hij hpos <;> nlinarith
  unfold Box.randomPointsOnSurface
  dsimp only
  refine ⟨?_, fun h hl => ?_, fun h hl => ?_⟩
  · rintro ⟨i, j, hij, h⟩
    have hi := h i (Or.inl rfl)
    have hj := h j (Or.inr rfl)
    rw [if_pos]
    fin_cases i <;> fin_cases j <;> simp at hij hi hj <;> simp [hi, hj]
  · rw [if_neg (key h), if_pos hl]
  · rw [if_neg (key h), if_neg hl]; exact ⟨_, rfl⟩

/-- C42: an off-centre box: `random_points_on_surface` of the unit cube centred at `(0, 10, 0)` returns points that are
not even in the box (the translation is applied twice). -/
theorem C42_surface_translated_wrong : ∃ (b : Box ℚ) (us : List (Fin 3 → ℚ)) (ps : List (Fin 3 → ℚ)),
    (∀ i, 0 < b.halfExtents i) ∧ b.rotation = 1 ∧ (∀ u ∈ us, ∀ i, |u i| ≤ 1) ∧
    b.randomPointsOnSurface us ![1, 1, 0, 0, 0, 0] id = .ok ps ∧ ps.length = 2 ∧
      ∀ p ∈ ps, p ∉ Spec.box b.halfExtents b.rotation b.center := by
  refine ⟨⟨![1, 1, 1], 1, ![0, 10, 0]⟩, [0, 0], [![1, 20, 0], ![-1, 20, 0]], ?_, rfl, ?_, ?_, rfl, ?_⟩
  · decide +kernel
  · simp
  · unfold Box.randomPointsOnSurface
    dsimp only
    rw [if_neg (by decide +kernel), if_neg (by decide)]
    congr 1
    decide +kernel
  · intro p hp
    rw [Spec_box_iff Spec.Orthogonal.one]
    intro h
    have := h 1
    simp only [List.mem_cons, List.not_mem_nil, or_false] at hp
    rcases hp with rfl | rfl <;> norm_num at this

/-- C42: a rotated box centred at the origin is no better (the rotation is applied twice). -/
theorem C42_surface_rotated_wrong : ∃ (b : Box ℚ) (us : List (Fin 3 → ℚ)) (ps : List (Fin 3 → ℚ)),
    (∀ i, 0 < b.halfExtents i) ∧ Spec.Orthogonal b.rotation ∧ b.rotation.det = 1 ∧ b.center = 0 ∧
    (∀ u ∈ us, ∀ i, |u i| ≤ 1) ∧
    b.randomPointsOnSurface us ![0, 0, 2, 0, 0, 0] id = .ok ps ∧ ps.length = 2 ∧
      ∀ p ∈ ps, p ∉ Spec.box b.halfExtents b.rotation b.center := by
  have hR : Spec.Orthogonal (!![0, -1, 0; 1, 0, 0; 0, 0, 1] : Matrix (Fin 3) (Fin 3) ℚ) := by
    unfold Spec.Orthogonal; decide +kernel
  refine ⟨⟨![1, 2, 3], !![0, -1, 0; 1, 0, 0; 0, 0, 1], 0⟩, [![0, 1, 0], ![0, 1, 0]], [![-2, -2, 0], ![-2, -2, 0]],
    ?_, hR, ?_, rfl, ?_, ?_, rfl, ?_⟩
  · decide +kernel
  · decide +kernel
  · decide +kernel
  · unfold Box.randomPointsOnSurface
    dsimp only
    rw [if_neg (by decide +kernel), if_neg (by decide)]
    congr 1
    decide +kernel
  · intro p hp
    rw [Spec_box_iff hR]
    intro h
    have := h 0
    simp only [List.mem_cons, List.not_mem_nil, or_false, or_self] at hp
    subst hp
    revert this
    decide +kernel

example : ∃ ps, (⟨![1, 2, 3], 1, 0⟩ : Box ℚ).randomPointsOnSurface [![1, 0, 0], ![0, 1 / 2, 0]] ![1, 1, 0, 0, 0, 0] id =
    .ok ps :=
  (C42_surface_ok _ (by decide +kernel) _ _ _).2.2 ⟨0, 1, by decide +kernel⟩ (by decide)

/-! ## C42: ellipsoids -/

/-- C42: the surface points of an ellipsoid whose rotation matrix is symmetric (in particular the identity) lie on its
surface. -/
theorem C42_ellipsoid_symmetric {d : ℕ} (e : Ellipsoid K d) (hS : e.rotationᵀ = e.rotation) (p : Fin d → K)
    (hp : p ⬝ᵥ p = 1) : ∃ u : Fin d → K, u ⬝ᵥ u = 1 ∧
      e.randomSurfacePoint p = Spec.rigid e.rotation e.center (fun i => e.halfExtents i * u i) := by
  refine ⟨p, hp, ?_⟩
  unfold Ellipsoid.randomSurfacePoint Spec.rigid
  rw [vecMul_eq_transpose, hS]
  congr 2
  ext i; simp [mul_comm]

/-- C42: for a sphere the rotation does not matter. -/
theorem C42_ellipsoid_sphere {d : ℕ} (e : Ellipsoid K d) (hR : Spec.Orthogonal e.rotation) (r : K)
    (hr : ∀ i, e.halfExtents i = r) (p : Fin d → K) (hp : p ⬝ᵥ p = 1) :
    (e.randomSurfacePoint p - e.center) ⬝ᵥ (e.randomSurfacePoint p - e.center) = r ^ 2 := by
  unfold Ellipsoid.randomSurfacePoint
  have : p * e.halfExtents = r • p := by ext i; simp [hr, mul_comm]
  rw [add_sub_cancel_right, vecMul_eq_transpose, this, dot_mulVec_orthogonal hR.transpose, smul_dotProduct,
    dotProduct_smul, hp, smul_eq_mul, smul_eq_mul]
  ring

/-- C42: in general the returned points lie on the surface of the ellipsoid with the *inverse* rotation, and are on the
surface of the requested one only by accident. -/
theorem C42_ellipsoid_inverse {d : ℕ} (e : Ellipsoid K d) (p : Fin d → K) (hp : p ⬝ᵥ p = 1) :
    ∃ u : Fin d → K, u ⬝ᵥ u = 1 ∧
      e.randomSurfacePoint p = Spec.rigid e.rotationᵀ e.center (fun i => e.halfExtents i * u i) := by
  refine ⟨p, hp, ?_⟩
  unfold Ellipsoid.randomSurfacePoint Spec.rigid
  rw [vecMul_eq_transpose]
  congr 2
  ext i; simp [mul_comm]

/-- C42: a rotated ellipsoid and a draw for which the returned point is not even in the ellipsoid. -/
theorem C42_ellipsoid_wrong : ∃ (e : Ellipsoid ℚ 3) (p : Fin 3 → ℚ), (∀ i, 0 < e.halfExtents i) ∧
    Spec.Orthogonal e.rotation ∧ e.rotation.det = 1 ∧ p ⬝ᵥ p = 1 ∧
    e.randomSurfacePoint p ∉ Spec.ellipsoid e.halfExtents e.rotation e.center := by
  have hR : Spec.Orthogonal (!![3 / 5, -4 / 5, 0; 4 / 5, 3 / 5, 0; 0, 0, 1] : Matrix (Fin 3) (Fin 3) ℚ) := by
    unfold Spec.Orthogonal; decide +kernel
  refine ⟨⟨![2, 1, 1], !![3 / 5, -4 / 5, 0; 4 / 5, 3 / 5, 0; 0, 0, 1], 0⟩, ![1, 0, 0], ?_, hR, ?_, ?_, ?_⟩
  · decide +kernel
  · decide +kernel
  · decide +kernel
  · rw [Spec_ellipsoid_iff hR]
    rintro ⟨-, h⟩
    revert h
    decide +kernel

end Field

/-- C42: `Ellipsoid.random_points_on_surface` as a whole, for a symmetric rotation matrix: the points returned satisfy the
surface test (C43) at zero tolerance whenever the half extents are above `1e-8`. -/
theorem C42_ellipsoid_surface {k : ℕ} (e : Ellipsoid ℝ (k + 1)) (hR : Spec.Orthogonal e.rotation)
    (hS : e.rotationᵀ = e.rotation) (he : ∀ i, 1 / 100000000 < e.halfExtents i) (X p : Fin (k + 1) → ℝ)
    (h : e.randomPointsOnSurface X = .ok p) :
    e.onSurface p 0 = true ∧ p ∈ frontier (Spec.ellipsoid e.halfExtents e.rotation e.center) := by
  unfold Ellipsoid.randomPointsOnSurface at h
  have hpos : ∀ i, 0 < e.halfExtents i := fun i => lt_trans (by norm_num) (he i)
  simp only [pyAssert, hpos, implies_true, decide_true, if_true, bind, Except.bind] at h
  rcases hs : hyperspherePoint k X with er | s
  · rw [hs] at h; cases h
  · rw [hs] at h
    simp only [pure, Except.pure, Except.ok.injEq] at h
    subst h
    have hon := (C43_ellipsoid e hR he _).mpr (C42_ellipsoid_symmetric e hS s (C68_hypersphere k X s hs))
    exact ⟨hon, (C43_ellipsoid_frontier e hR (fun i => Or.inr (he i)) _).mp hon⟩

/-- C42: the acceptance threshold `g` of the rejection step is a probability, so that every value of the uniform draw
leads to a decision: `0 < g ≤ 1`. -/
theorem C42_acceptance {k : ℕ} (e : Ellipsoid ℝ (k + 1)) (he : ∀ i, 0 < e.halfExtents i) (p : Fin (k + 1) → ℝ)
    (hp : p ⬝ᵥ p = 1) : e.surfaceAccept p 0 = true ∧ ∀ u, 1 < u → e.surfaceAccept p u = false := by
  unfold Ellipsoid.surfaceAccept
  dsimp only
  set m := Finset.univ.inf' Finset.univ_nonempty e.halfExtents with hm
  have hm0 : 0 < m := (Finset.lt_inf'_iff _).mpr fun i _ => he i
  have hmi : ∀ i, m ≤ e.halfExtents i := fun i => Finset.inf'_le _ (Finset.mem_univ i)
  have hsum : ∑ i, (p i * e.halfExtents i) ^ 2 * (1 / e.halfExtents i ^ 4) ≤ 1 / m ^ 2 := by
    calc _ ≤ ∑ i, (p i * p i) * (1 / m ^ 2) := by
          refine Finset.sum_le_sum fun i _ => ?_
          have h1 : (p i * e.halfExtents i) ^ 2 * (1 / e.halfExtents i ^ 4) = (p i * p i) * (1 / e.halfExtents i ^ 2) := by
            have := (he i).ne'
            field_simp
          rw [h1]
          refine mul_le_mul_of_nonneg_left ?_ (mul_self_nonneg _)
          exact one_div_le_one_div_of_le (by positivity) (pow_le_pow_left₀ hm0.le (hmi i) 2)
      _ = 1 / m ^ 2 := by
          rw [← Finset.sum_mul]
          have : ∑ i, p i * p i = 1 := hp
          rw [this, one_mul]
  have hg : m * Real.sqrt (∑ i, (p i * e.halfExtents i) ^ 2 * (1 / e.halfExtents i ^ 4)) ≤ 1 := by
    calc _ ≤ m * Real.sqrt (1 / m ^ 2) := mul_le_mul_of_nonneg_left (Real.sqrt_le_sqrt hsum) hm0.le
      _ = 1 := by
        rw [one_div, Real.sqrt_inv, Real.sqrt_sq hm0.le, mul_inv_cancel₀ hm0.ne']
  constructor
  · rw [decide_eq_true_eq]; exact mul_nonneg hm0.le (Real.sqrt_nonneg _)
  · intro u hu
    rw [decide_eq_false_iff_not, not_le]
    exact lt_of_le_of_lt hg hu

end Rigeo
