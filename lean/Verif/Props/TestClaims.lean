import Mathlib.Analysis.Convex.Extreme
import Mathlib.Analysis.Convex.Join
import Verif.Props.Surface
import Verif.Props.Shells
import Verif.Props.Constructors
import Verif.Props.Shapes4
import Verif.Props.Realize2

/-!
# C104: the claims that the tests make about single objects, for all objects

tests/test_box.py, tests/test_ellipsoid.py, tests/test_cylinder.py and tests/test_double_description.py assert general
facts on one object each.  Here they are proved for all objects, or refuted.
-/

namespace Rigeo

open Matrix

section Generic
variable {K : Type} [Field K] [LinearOrder K] [IsStrictOrderedRing K]

/-! ### Bounding boxes of points -/

theorem two_le_countP {α : Type} (l : List α) (P : α → Bool) {x y : α} (hx : x ∈ l) (hy : y ∈ l) (hxy : x ≠ y)
    (hPx : P x = true) (hPy : P y = true) : 2 ≤ l.countP P := by
  have : [x, y].Subperm (l.filter P) := List.subperm_of_subset (by simp [hxy]) (by
    intro z hz
    rcases List.mem_cons.mp hz with rfl | hz
    · exact List.mem_filter.mpr ⟨hx, hPx⟩
    · obtain rfl := List.mem_singleton.mp hz
      exact List.mem_filter.mpr ⟨hy, hPy⟩)
  rw [List.countP_eq_length_filter]
  exact this.length_le

/-- Some point of the list attains each side of the bounding box. -/
theorem bound_attained (points : List (Fin 3 → K)) (hne : points ≠ []) : ∃ b : Box K,
    Box.fromPointsToBound points = .ok b ∧ b.rotation = 1 ∧ (∀ i, 0 ≤ b.halfExtents i) ∧
      (∀ p ∈ points, ∀ i, |p i - b.center i| ≤ b.halfExtents i) ∧
      ∀ i, (∃ p ∈ points, p i - b.center i = -b.halfExtents i) ∧ ∃ p ∈ points, p i - b.center i = b.halfExtents i := by
  obtain ⟨b, h1, h2, h3, h4, h5⟩ := C26_fromPointsToBound points hne
  have hin : ∀ p ∈ points, ∀ i, |p i - b.center i| ≤ b.halfExtents i := by
    intro p hp i
    obtain ⟨y, hy, rfl⟩ := h4 p hp
    simpa [Spec.rigid, h2] using hy i
  refine ⟨b, h1, h2, h3, hin, fun i => ?_⟩
  have hmem : ∀ s : K, |s| ≤ 1 → (fun j => b.center j + s * b.halfExtents j) ∈ Spec.box b.halfExtents b.rotation b.center := by
    intro s hs
    refine ⟨fun j => s * b.halfExtents j, fun j => ?_, ?_⟩
    · rw [abs_mul, abs_of_nonneg (h3 j)]
      exact mul_le_of_le_one_left (h3 j) hs
    · rw [h2]
      funext j
      simp [Spec.rigid, add_comm]
  classical
  constructor
  · obtain ⟨p, hp, hmin⟩ := Finset.exists_min_image points.toFinset (fun p => p i)
      (by rw [List.toFinset_nonempty_iff]; exact hne)
    rw [List.mem_toFinset] at hp
    have := h5 (Function.update (fun j => b.center j - b.halfExtents j) i (p i)) (fun j => b.center j + b.halfExtents j) (by
      intro q hq j
      have hj := abs_le.mp (hin q hq j)
      refine ⟨?_, by linarith⟩
      rcases eq_or_ne j i with rfl | hji
      · rw [Function.update_self]
        exact hmin q (List.mem_toFinset.mpr hq)
      · rw [Function.update_of_ne hji]
        linarith) (hmem (-1) (by simp)) i
    rw [Function.update_self] at this
    have h6 := abs_le.mp (hin p hp i)
    exact ⟨p, hp, by linarith [this.1, h6.1]⟩
  · obtain ⟨p, hp, hmax⟩ := Finset.exists_max_image points.toFinset (fun p => p i)
      (by rw [List.toFinset_nonempty_iff]; exact hne)
    rw [List.mem_toFinset] at hp
    have := h5 (fun j => b.center j - b.halfExtents j) (Function.update (fun j => b.center j + b.halfExtents j) i (p i)) (by
      intro q hq j
      have hj := abs_le.mp (hin q hq j)
      refine ⟨by linarith, ?_⟩
      rcases eq_or_ne j i with rfl | hji
      · rw [Function.update_self]
        exact hmax q (List.mem_toFinset.mpr hq)
      · rw [Function.update_of_ne hji]
        linarith) (hmem 1 (by simp)) i
    rw [Function.update_self] at this
    have h6 := abs_le.mp (hin p hp i)
    exact ⟨p, hp, by linarith [this.2, h6.2]⟩

/-- C104: of two or more points, at least two lie on the surface of their bounding box (tests/test_box.py:57-58), for
every non-negative tolerance. -/
theorem C104_points_to_bound (points : List (Fin 3 → K)) (hlen : 2 ≤ points.length) (tol : K) (htol : 0 ≤ tol) :
    ∃ b, Box.fromPointsToBound points = .ok b ∧ 2 ≤ points.countP fun p => b.onSurface p tol := by
  obtain ⟨b, h1, h2, h3, h4, h5⟩ := bound_attained points (by rintro rfl; simp at hlen)
  have hR : Spec.Orthogonal b.rotation := by rw [h2]; simp [Spec.Orthogonal]
  have hsurf : ∀ p ∈ points, (∃ i, |p i - b.center i| = b.halfExtents i) → b.onSurface p tol = true := by
    rintro p hp ⟨i, hi⟩
    rw [C43_box_tol b hR]
    refine ⟨p - b.center, fun j => (h4 p hp j).trans (by linarith), ⟨i, ?_⟩, ?_⟩
    · rw [Pi.sub_apply, hi, sub_self, abs_zero]
      exact htol
    · rw [Spec.rigid, h2, one_mulVec, sub_add_cancel]
  refine ⟨b, h1, ?_⟩
  obtain ⟨⟨p, hp, ep⟩, q, hq, eq⟩ := h5 0
  rcases (h3 0).eq_or_lt with h0 | h0
  · have : points.countP (fun p => b.onSurface p tol) = points.length := by
      rw [List.countP_eq_length]
      intro x hx
      refine hsurf x hx ⟨0, le_antisymm (h4 x hx 0) ?_⟩
      rw [← h0]
      exact abs_nonneg _
    omega
  · refine two_le_countP points _ hp hq ?_ (hsurf p hp ⟨0, ?_⟩) (hsurf q hq ⟨0, ?_⟩)
    · rintro rfl
      linarith
    · rw [ep, abs_neg, abs_of_pos h0]
    · rw [eq, abs_of_pos h0]

/-- C104: the points on the surface need not be opposing vertices of the box, as the comment in tests/test_box.py:57 has it: none
of them need be a vertex. -/
theorem C104_no_vertex : ∃ (points : List (Fin 3 → K)) (b : Box K), Box.fromPointsToBound points = .ok b ∧
    2 ≤ points.length ∧ ∀ p ∈ points, p ∉ b.vertices := by
  obtain ⟨b, h1, h2, h3, h4, h5⟩ := bound_attained [![-1, 0, 0], ![1, 0, 0], ![0, -1, 0], ![0, (1 : K), 0]] (by simp)
  refine ⟨_, b, h1, by simp, fun p hp hv => ?_⟩
  have hlo : ∀ i : Fin 3, i ≠ 2 → b.center i = 0 ∧ b.halfExtents i = 1 := by
    intro i hi
    obtain ⟨⟨p, hp, e1⟩, q, hq, e2⟩ := h5 i
    have a1 := h4 ![-1, 0, 0] (by simp) i
    have a2 := h4 ![1, 0, 0] (by simp) i
    have a3 := h4 ![0, -1, 0] (by simp) i
    have a4 := h4 ![0, 1, 0] (by simp) i
    rw [abs_le] at a1 a2 a3 a4
    simp only [List.mem_cons, List.not_mem_nil, or_false] at hp hq
    fin_cases i
    · rcases hp with rfl | rfl | rfl | rfl <;> rcases hq with rfl | rfl | rfl | rfl <;> simp at * <;>
        constructor <;> linarith
    · rcases hp with rfl | rfl | rfl | rfl <;> rcases hq with rfl | rfl | rfl | rfl <;> simp at * <;>
        constructor <;> linarith
    · exact absurd rfl hi
  simp only [Box.vertices, Box.toPoly, Box.boxVerts, List.mem_map, C08_mem, h2, one_mulVec] at hv
  obtain ⟨w, hw, rfl⟩ := hv
  have hne : ∀ i : Fin 3, i ≠ 2 → (w + b.center) i ≠ 0 := by
    intro i hi
    rw [Pi.add_apply, (hlo i hi).1, add_zero]
    rcases hw i with h | h <;> rw [h, (hlo i hi).2] <;> simp
  have n0 := hne 0 (by decide)
  have n1 := hne 1 (by decide)
  simp only [List.mem_cons, List.not_mem_nil, or_false] at hp
  rcases hp with h | h | h | h <;> rw [h] at n0 n1 <;> simp at n0 n1

/-! ### Span forms of unbounded polyhedra -/

/-- C104: the span form of a polyhedron that is unbounded and not a cone has vertices and rays
(tests/test_double_description.py:19-31). -/
theorem C104_mixed_span {d : ℕ} (cdd : CddLib K) (hcdd : Spec.IsCdd cdd) (f : FaceForm K d) (hf : f.faces ≠ [])
    (hunb : ¬ Spec.Bounded (Spec.halfspaces f.faces)) (x : Fin d → K) (hx : x ∈ Spec.halfspaces f.faces) (a : K) (ha : 0 ≤ a)
    (hxa : a • x ∉ Spec.halfspaces f.faces) :
    ∃ s, f.toSpanForm cdd = .ok (some s) ∧ s.isCone = false ∧ s.bounded = false ∧ 0 < s.nv ∧ 0 < s.nr := by
  obtain ⟨s, h1, h2⟩ := (C61_to_span_form cdd hcdd f hf).2 ⟨x, hx⟩
  rw [← h2] at hunb hx hxa
  have hv : 0 < s.nv := by
    by_contra h
    have hV : s.vertices.getD [] = [] := by
      rcases hv : s.vertices with _ | V
      · rfl
      · simpa [SpanForm.nv, hv] using h
    obtain ⟨v, r, l, hv, hr, hl, rfl⟩ := hx
    rw [if_pos hV] at hv
    obtain rfl := hv
    rw [mem_lineHull_nil] at hl
    obtain rfl := hl
    refine hxa ⟨0, a • r, 0, by rw [if_pos hV], coneHull_smul ha hr, (mem_lineHull_nil _).mpr rfl, by simp⟩
  have hVne : s.vertices.getD [] ≠ [] := by
    rcases hv' : s.vertices with _ | V
    · simp [SpanForm.nv, hv'] at hv
    · rintro rfl
      simp [SpanForm.nv, hv'] at hv
  have hr : 0 < s.nr := by
    by_contra h
    have hRs : s.rays.getD [] = [] := by
      rcases hr : s.rays with _ | V
      · rfl
      · simpa [SpanForm.nr, hr] using h
    refine hunb ?_
    rw [Spec.spanned, hRs, generated_hull hVne]
    exact hull_bounded _
  refine ⟨s, h1, ?_, ?_, hv, hr⟩
  · rcases hv' : s.vertices with _ | V
    · simp [SpanForm.nv, hv'] at hv
    · simp [SpanForm.isCone, hv']
  · rcases hr' : s.rays with _ | V
    · simp [SpanForm.nr, hr'] at hr
    · simp [SpanForm.bounded, hr']

/-- The inequalities of a box in the coordinates of the box. -/
theorem box_ineq_iff {R : Matrix (Fin 3) (Fin 3) K} (hR : Spec.Orthogonal R) (c y : Fin 3 → K) (ab : (Fin 3 → K) × K) :
    (ab.1 ᵥ* Rᵀ) ⬝ᵥ (Spec.rigid R c y) ≤ ab.2 + (ab.1 ᵥ* Rᵀ) ⬝ᵥ c ↔ ab.1 ⬝ᵥ y ≤ ab.2 := by
  rw [Spec.rigid, dotProduct_add, add_le_add_iff_right, ← dotProduct_mulVec, mulVec_mulVec,
    show Rᵀ * R = 1 from hR, one_mulVec]

/-- C104: a box with any one face removed has a span form with vertices and rays. -/
theorem C104_open_box (cdd : CddLib K) (hcdd : Spec.IsCdd cdd) (b : Box K) (hR : Spec.Orthogonal b.rotation)
    (hb : ∀ i, 0 < b.halfExtents i) (k : ℕ) (hk : k < 6) :
    ∃ s, (FaceForm.init (b.toPoly.faceForm.faces.eraseIdx k)).toSpanForm cdd = .ok (some s) ∧
      s.isCone = false ∧ s.bounded = false ∧ 0 < s.nv ∧ 0 < s.nr := by
  set h := b.halfExtents with hh
  set raw : List ((Fin 3 → K) × K) := [(![1, 0, 0], h 0), (![-1, 0, 0], h 0), (![0, 1, 0], h 1), (![0, -1, 0], h 1),
    (![0, 0, 1], h 2), (![0, 0, -1], h 2)] with hraw
  have hfaces : b.toPoly.faceForm.faces.eraseIdx k = (raw.eraseIdx k).map
      fun ab => (ab.1 ᵥ* b.rotationᵀ, ab.2 + (ab.1 ᵥ* b.rotationᵀ) ⬝ᵥ b.center) := by
    rw [← List.eraseIdx_map]
    rfl
  have hmem : ∀ y, Spec.rigid b.rotation b.center y ∈ Spec.halfspaces (b.toPoly.faceForm.faces.eraseIdx k) ↔
      ∀ ab ∈ raw.eraseIdx k, ab.1 ⬝ᵥ y ≤ ab.2 := by
    intro y
    rw [hfaces]
    simp only [Spec.halfspaces, Set.mem_ofPred_eq, List.forall_mem_map]
    exact forall₂_congr fun ab _ => box_ineq_iff hR b.center y ab
  -- a direction in which the set is unbounded and a coordinate in which it is bounded
  obtain ⟨r, i, hr, hray, hslab⟩ : ∃ (r : Fin 3 → K) (i : Fin 3), r ≠ 0 ∧
      (∀ t : K, 0 ≤ t → ∀ ab ∈ raw.eraseIdx k, ab.1 ⬝ᵥ (t • r) ≤ ab.2) ∧
      ∀ y : Fin 3 → K, ((∀ ab ∈ raw.eraseIdx k, ab.1 ⬝ᵥ y ≤ ab.2) → |y i| ≤ h i) ∧
        ((∀ j, |y j| ≤ h j) → ∀ ab ∈ raw.eraseIdx k, ab.1 ⬝ᵥ y ≤ ab.2) := by
    have h0 := hb 0
    have h1 := hb 1
    have h2 := hb 2
    have key : ∀ (r : Fin 3 → K) (i : Fin 3), r ≠ 0 → (∀ t : K, 0 ≤ t → ∀ ab ∈ raw.eraseIdx k, ab.1 ⬝ᵥ (t • r) ≤ ab.2) →
        (∀ y : Fin 3 → K, (∀ ab ∈ raw.eraseIdx k, ab.1 ⬝ᵥ y ≤ ab.2) → |y i| ≤ h i) →
        ∃ (r : Fin 3 → K) (i : Fin 3), r ≠ 0 ∧ (∀ t : K, 0 ≤ t → ∀ ab ∈ raw.eraseIdx k, ab.1 ⬝ᵥ (t • r) ≤ ab.2) ∧
          ∀ y : Fin 3 → K, ((∀ ab ∈ raw.eraseIdx k, ab.1 ⬝ᵥ y ≤ ab.2) → |y i| ≤ h i) ∧
            ((∀ j, |y j| ≤ h j) → ∀ ab ∈ raw.eraseIdx k, ab.1 ⬝ᵥ y ≤ ab.2) := by
      refine fun r i e1 e2 e3 => ⟨r, i, e1, e2, fun y => ⟨e3 y, fun hy ab hab => ?_⟩⟩
      have hab' : ab ∈ raw := List.mem_of_mem_eraseIdx hab
      have a0 := abs_le.mp (hy 0)
      have a1 := abs_le.mp (hy 1)
      have a2 := abs_le.mp (hy 2)
      simp only [hraw, List.mem_cons, List.not_mem_nil, or_false] at hab'
      rcases hab' with rfl | rfl | rfl | rfl | rfl | rfl <;> simp [dotProduct, Fin.sum_univ_three] <;> linarith
    interval_cases k
    · refine key ![1, 0, 0] 1 (fun e => by simpa using congrFun e 0) (fun t ht => ?_) (fun y => ?_) <;>
        simp [hraw, dotProduct, Fin.sum_univ_three, abs_le] <;>
        first | (constructorm* _ ∧ _ <;> linarith) | (intros; constructor <;> linarith)
    · refine key ![-1, 0, 0] 1 (fun e => by simpa using congrFun e 0) (fun t ht => ?_) (fun y => ?_) <;>
        simp [hraw, dotProduct, Fin.sum_univ_three, abs_le] <;>
        first | (constructorm* _ ∧ _ <;> linarith) | (intros; constructor <;> linarith)
    · refine key ![0, 1, 0] 2 (fun e => by simpa using congrFun e 1) (fun t ht => ?_) (fun y => ?_) <;>
        simp [hraw, dotProduct, Fin.sum_univ_three, abs_le] <;>
        first | (constructorm* _ ∧ _ <;> linarith) | (intros; constructor <;> linarith)
    · refine key ![0, -1, 0] 2 (fun e => by simpa using congrFun e 1) (fun t ht => ?_) (fun y => ?_) <;>
        simp [hraw, dotProduct, Fin.sum_univ_three, abs_le] <;>
        first | (constructorm* _ ∧ _ <;> linarith) | (intros; constructor <;> linarith)
    · refine key ![0, 0, 1] 0 (fun e => by simpa using congrFun e 2) (fun t ht => ?_) (fun y => ?_) <;>
        simp [hraw, dotProduct, Fin.sum_univ_three, abs_le] <;>
        first | (constructorm* _ ∧ _ <;> linarith) | (intros; constructor <;> linarith)
    · refine key ![0, 0, -1] 0 (fun e => by simpa using congrFun e 2) (fun t ht => ?_) (fun y => ?_) <;>
        simp [hraw, dotProduct, Fin.sum_univ_three, abs_le] <;>
        first | (constructorm* _ ∧ _ <;> linarith) | (intros; constructor <;> linarith)
  have hRr : b.rotation *ᵥ r ≠ 0 := by
    intro h0
    have := congrArg (fun w => b.rotationᵀ *ᵥ w) h0
    simp only [mulVec_mulVec, show b.rotationᵀ * b.rotation = 1 from hR, one_mulVec, mulVec_zero] at this
    exact hr this
  obtain ⟨σ, hσ, hσg⟩ : ∃ σ : K, |σ| = 1 ∧ |2 * (σ * h i) + (b.rotationᵀ *ᵥ b.center) i| = 2 * h i + |(b.rotationᵀ *ᵥ b.center) i| := by
    have hpos := hb i
    rcases le_total 0 ((b.rotationᵀ *ᵥ b.center) i) with hg | hg
    · exact ⟨1, by simp, by rw [abs_of_nonneg hg, one_mul, abs_of_nonneg (by linarith)]⟩
    · exact ⟨-1, by simp, by rw [abs_of_nonpos hg, abs_of_nonpos (by linarith)]; ring⟩
  refine C104_mixed_span cdd hcdd (FaceForm.init (b.toPoly.faceForm.faces.eraseIdx k)) ?_ ?_
    (Spec.rigid b.rotation b.center (Pi.single i (σ * h i))) ?_ 2 (by norm_num) ?_
  · change b.toPoly.faceForm.faces.eraseIdx k ≠ []
    rw [hfaces]
    intro e
    have := congrArg List.length e
    simp only [List.length_map, List.length_eraseIdx, hraw, List.length_cons, List.length_nil] at this
    rw [if_pos (by omega)] at this
    omega
  · refine halfline_unbounded (x := b.center) hRr fun t ht => ?_
    have := (hmem (t • r)).mpr (hray t ht)
    rwa [Spec.rigid, mulVec_smul, add_comm] at this
  · refine (hmem _).mpr ((hslab _).2 fun j => ?_)
    rcases eq_or_ne j i with rfl | hj
    · rw [Pi.single_eq_same, abs_mul, hσ, one_mul, abs_of_pos (hb j)]
    · rw [Pi.single_eq_of_ne hj, abs_zero]
      exact (hb j).le
  · intro hin
    have e : (2 : K) • Spec.rigid b.rotation b.center (Pi.single i (σ * h i)) =
        Spec.rigid b.rotation b.center ((2 : K) • Pi.single i (σ * h i) + b.rotationᵀ *ᵥ b.center) := by
      rw [Spec.rigid, Spec.rigid, mulVec_add, mulVec_smul, mulVec_mulVec, hR.mul_transpose, one_mulVec]
      module
    rw [e] at hin
    have h1 := (hslab _).1 ((hmem _).mp hin)
    rw [Pi.add_apply, Pi.smul_apply, Pi.single_eq_same, smul_eq_mul, hσg] at h1
    have := hb i
    linarith [abs_nonneg ((b.rotationᵀ *ᵥ b.center) i)]

/-! ### Vertices and inscribed ellipsoids -/

/-- The points of an irredundant list are extreme points of the hull. -/
theorem irredundant_extreme {d : ℕ} (V : List (Fin d → K)) (hV : Spec.Irredundant V) (v : Fin d → K) (hv : v ∈ V) :
    v ∈ (Spec.hull V).extremePoints K := by
  have hset : {u | u ∈ V} = insert v {u | u ∈ V.erase v} := by
    ext u
    rw [Set.mem_insert_iff]
    constructor
    · intro hu
      rcases eq_or_ne u v with h | h
      · exact Or.inl h
      · exact Or.inr ((List.mem_erase_of_ne h).mpr hu)
    · rintro (rfl | hu)
      · exact hv
      · exact List.mem_of_mem_erase hu
  rw [mem_extremePoints]
  refine ⟨subset_convexHull K _ hv, fun x hx y hy hxy => ?_⟩
  rcases Set.eq_empty_or_nonempty {u | u ∈ V.erase v} with he | hne
  · rw [Spec.hull, hset, he, insert_empty_eq, convexHull_singleton] at hx hy
    exact ⟨hx, hy⟩
  obtain ⟨α, β, hα, hβ, hαβ, e⟩ := hxy
  rw [Spec.hull, hset, convexHull_insert hne] at hx hy
  obtain ⟨v1, hv1, x', hx', a, a', ha, ha', haa, rfl⟩ := mem_convexJoin.mp hx
  obtain ⟨v2, hv2, y', hy', b, b', hb, hb', hbb, rfl⟩ := mem_convexJoin.mp hy
  obtain rfl : v1 = v := hv1
  obtain rfl : v2 = v1 := hv2
  have hs : 0 ≤ α * a' + β * b' := add_nonneg (mul_nonneg hα.le ha') (mul_nonneg hβ.le hb')
  rcases hs.eq_or_lt with hs | hs
  · have h1 : α * a' = 0 := le_antisymm (by linarith [mul_nonneg hβ.le hb']) (mul_nonneg hα.le ha')
    have h2 : β * b' = 0 := le_antisymm (by linarith [mul_nonneg hα.le ha']) (mul_nonneg hβ.le hb')
    obtain rfl : a' = 0 := (mul_eq_zero.mp h1).resolve_left hα.ne'
    obtain rfl : b' = 0 := (mul_eq_zero.mp h2).resolve_left hβ.ne'
    rw [add_zero] at haa hbb
    simp [haa, hbb]
  · exfalso
    have key : v2 = (α * a' / (α * a' + β * b')) • x' + (β * b' / (α * a' + β * b')) • y' := by
      have h1 : (α * a' + β * b') • v2 = (α * a') • x' + (β * b') • y' := by
        obtain rfl : a = 1 - a' := by linarith
        obtain rfl : b = 1 - b' := by linarith
        obtain rfl : α = 1 - β := by linarith
        ext i
        have := congrFun e i
        simp only [Pi.add_apply, Pi.smul_apply, smul_eq_mul] at this ⊢
        linear_combination -this
      ext i
      have := congrFun h1 i
      simp only [Pi.add_apply, Pi.smul_apply, smul_eq_mul] at this ⊢
      field_simp
      linear_combination this
    refine hV.2 v2 hv ?_
    have hmem := (convex_convexHull K {u | u ∈ V.erase v2}) hx' hy' (div_nonneg (mul_nonneg hα.le ha') hs.le)
      (div_nonneg (mul_nonneg hβ.le hb') hs.le) (by rw [← add_div, div_self hs.ne'])
    rw [← key] at hmem
    exact hmem
/-- C104: the vertices of a convex body are not strictly inside an inscribed ellipsoid (tests/test_ellipsoid.py:135-138). -/
theorem C104_inscribed {d : ℕ} (hd : 0 < d) (e : Ellipsoid K d) (hR : Spec.Orthogonal e.rotation)
    (he : ∀ i, 1 / 100000000 < e.halfExtents i) (S : Set (Fin d → K))
    (hsub : Spec.ellipsoid e.halfExtents e.rotation e.center ⊆ S) (x : Fin d → K) (hx : x ∈ S.extremePoints K) :
    ∃ M, e.S = .ok M ∧ 1 ≤ (x - e.center) ⬝ᵥ M *ᵥ (x - e.center) := by
  have hpos : ∀ i, 0 < e.halfExtents i := fun i => lt_trans (by norm_num) (he i)
  have hmem := fun p => ellipsoid_of_shape hR e.halfExtents e.center p hpos
  set M := e.rotation * diagonal (fun i => (1 / e.halfExtents i) ^ 2) * e.rotationᵀ with hM
  refine ⟨M, by simp [Ellipsoid.S, e.hInvFin_ok he, bind, Except.bind, pure, Except.pure, hM], ?_⟩
  clear_value M
  by_contra hlt
  push Not at hlt
  have hq0 : 0 ≤ (x - e.center) ⬝ᵥ M *ᵥ (x - e.center) := by
    rw [hM, quad_diag]
    positivity
  rw [mem_extremePoints] at hx
  by_cases hxc : x = e.center
  · set w := e.rotation *ᵥ (Pi.single ⟨0, hd⟩ (e.halfExtents ⟨0, hd⟩)) with hw
    have hu : ∀ s : K, s * s = 1 → s • w + e.center ∈ S := by
      intro s hs
      refine hsub ⟨Pi.single ⟨0, hd⟩ s, ?_, ?_⟩
      · rw [single_dotProduct, Pi.single_eq_same, hs]
      · rw [Spec.rigid, hw, ← mulVec_smul]
        congr 2
        funext i
        rcases eq_or_ne i ⟨0, hd⟩ with rfl | hi
        · simp [mul_comm]
        · simp [hi]
    have h1 := (hx.2 _ (hu 1 (by ring)) _ (hu (-1) (by ring)) ⟨1 / 2, 1 / 2, by norm_num, by norm_num, by norm_num, by
      rw [hxc]
      module⟩).1
    rw [hxc, one_smul, add_eq_right] at h1
    have h2 := congrArg (fun w => e.rotationᵀ *ᵥ w) h1
    simp only [hw, mulVec_mulVec, show e.rotationᵀ * e.rotation = 1 from hR, one_mulVec, mulVec_zero] at h2
    have h3 := congrFun h2 ⟨0, hd⟩
    rw [Pi.single_eq_same] at h3
    exact (hpos _).ne' h3
  · set q := (x - e.center) ⬝ᵥ M *ᵥ (x - e.center) with hq
    have h1 : e.center ∈ S := hsub ((hmem _).mpr (by simp))
    have h2 : e.center + (1 + (1 - q) / 4) • (x - e.center) ∈ S := by
      refine hsub ((hmem _).mpr ?_)
      rw [add_sub_cancel_left, mulVec_smul, smul_dotProduct, dotProduct_smul, ← hq, smul_eq_mul, smul_eq_mul]
      have hδ : 0 ≤ (1 - q) / 4 := by linarith
      generalize hd : (1 - q) / 4 = δ at hδ
      rw [show q = 1 - 4 * δ by linarith]
      nlinarith [pow_nonneg hδ 2, pow_nonneg hδ 3]
    have hs : 0 < 1 + (1 - q) / 4 := by linarith
    refine hxc (hx.2 _ h1 _ h2 ⟨1 - 1 / (1 + (1 - q) / 4), 1 / (1 + (1 - q) / 4), ?_, by positivity, by ring, ?_⟩).1.symm
    · rw [sub_pos, div_lt_one hs]
      linarith
    · rw [smul_add, smul_smul, one_div_mul_cancel hs.ne', one_smul, ← add_assoc, ← add_smul, sub_add_cancel, one_smul]
      abel

/-- C104: the same for the vertices of a pruned polyhedron. -/
theorem C104_inscribed_poly {d : ℕ} (hd : 0 < d) (e : Ellipsoid K d) (hR : Spec.Orthogonal e.rotation)
    (he : ∀ i, 1 / 100000000 < e.halfExtents i) (P : Poly K d) (hP : Spec.Irredundant P.vertices)
    (hsub : Spec.ellipsoid e.halfExtents e.rotation e.center ⊆ Spec.hull P.vertices) (x : Fin d → K) (hx : x ∈ P.vertices) :
    ∃ M, e.S = .ok M ∧ 1 ≤ (x - e.center) ⬝ᵥ M *ᵥ (x - e.center) :=
  C104_inscribed hd e hR he _ hsub x (irredundant_extreme _ hP x hx)

/-- C104: without pruning the claim fails: the center of the ellipsoid may be listed, which does not change the hull. -/
theorem C104_inscribed_redundant {d : ℕ} (e : Ellipsoid K d) (he : ∀ i, 1 / 100000000 < e.halfExtents i)
    (V : List (Fin d → K)) (hsub : Spec.ellipsoid e.halfExtents e.rotation e.center ⊆ Spec.hull V) :
    Spec.hull (e.center :: V) = Spec.hull V ∧
      ∃ M, e.S = .ok M ∧ ∃ x ∈ e.center :: V, (x - e.center) ⬝ᵥ M *ᵥ (x - e.center) < 1 := by
  constructor
  · have hc : e.center ∈ Spec.hull V := hsub ⟨0, by simp, by simp [Spec.rigid, ← Pi.zero_def]⟩
    refine Set.Subset.antisymm (convexHull_min ?_ (convex_convexHull K _)) (convexHull_mono fun v hv => List.mem_cons_of_mem _ hv)
    intro v hv
    rcases List.mem_cons.mp hv with rfl | hv
    · exact hc
    · exact subset_convexHull K _ hv
  · exact ⟨_, by rw [Ellipsoid.S, e.hInvFin_ok he]; rfl, e.center, by simp, by simp⟩

end Generic

/-! ### Inscribed box of a cylinder -/

/-- C104: the vertices of the inscribed box of a cylinder lie in the end planes of the cylinder and on its surface
(tests/test_cylinder.py:99-101). -/
theorem C104_mib_vertices (c : Cylinder ℝ) (hR : Spec.Orthogonal c.rotation) (hL : 0 ≤ c.length) (hr : 0 ≤ c.radius) :
    ∃ b, c.mib = .ok b ∧ b.center = c.center ∧ ∀ v ∈ b.vertices,
      |(v - b.center) ⬝ᵥ c.longitudinalAxis| = c.length / 2 ∧
      ((v - b.center) ᵥ* c.transverseAxes) ⬝ᵥ ((v - b.center) ᵥ* c.transverseAxes) = c.radius ^ 2 := by
  have hr' : 0 ≤ c.radius / Real.sqrt 2 := by positivity
  refine ⟨⟨![c.radius / Real.sqrt 2, c.radius / Real.sqrt 2, c.length / 2], c.rotation, c.center⟩, ?_, rfl, ?_⟩
  · simp only [Cylinder.mib, Box.init, pyAssert, Fin.forall_fin_succ]
    simp [hr', show 0 ≤ c.length / 2 by positivity, bind, Except.bind, pure, Except.pure]
  intro v hv
  simp only [Box.vertices, Box.toPoly, Box.boxVerts, List.mem_map, C08_mem] at hv
  obtain ⟨w, hw, rfl⟩ := hv
  have hcol : ∀ j, (fun i => c.rotation i j) ⬝ᵥ (c.rotation *ᵥ w) = w j := by
    intro j
    have := congrFun (congrArg (fun A => A *ᵥ w) (show c.rotationᵀ * c.rotation = 1 from hR)) j
    rw [← mulVec_mulVec, one_mulVec] at this
    exact this
  have h0 := hw 0
  have h1 := hw 1
  have h2 := hw 2
  simp only [cons_val_zero, cons_val_one, cons_val] at h0 h1 h2
  have hsq : (c.radius / Real.sqrt 2) ^ 2 = c.radius ^ 2 / 2 := by rw [div_pow, Real.sq_sqrt (by norm_num)]
  simp only [add_sub_cancel_right]
  constructor
  · rw [dotProduct_comm, show c.longitudinalAxis ⬝ᵥ (c.rotation *ᵥ w) = w 2 from hcol 2]
    rcases h2 with h | h <;> rw [h]
    · exact abs_of_nonneg (by positivity)
    · rw [abs_neg]
      exact abs_of_nonneg (by positivity)
  · have ht : ∀ j, ((c.rotation *ᵥ w) ᵥ* c.transverseAxes) j = w (Fin.castLE (by decide) j) := by
      intro j
      rw [← hcol, vecMul, dotProduct_comm]
      rfl
    rw [dotProduct, Fin.sum_univ_two, ht, ht]
    change w 0 * w 0 + w 1 * w 1 = _
    have e0 : w 0 * w 0 = c.radius ^ 2 / 2 := by rcases h0 with h | h <;> rw [h, ← hsq] <;> ring
    have e1 : w 1 * w 1 = c.radius ^ 2 / 2 := by rcases h1 with h | h <;> rw [h, ← hsq] <;> ring
    rw [e0, e1]
    ring

/-! ### Hollow boxes and ellipsoids -/

/-- C104: the second moments about the center of a hollow box are 5/3 of those of the hollow ellipsoid with the same half
extents (tests/test_box.py:168-172). -/
theorem C104_hollow_ratio (b : Box ℝ) (m : ℝ) (hm : 0 < m)
    (hA : b.halfExtents 0 * b.halfExtents 1 + b.halfExtents 0 * b.halfExtents 2 + b.halfExtents 1 * b.halfExtents 2 ≠ 0) :
    ∃ p q, b.hollowDensityParams m = .ok p ∧
      (⟨b.halfExtents, b.rotation, b.center⟩ : Ellipsoid ℝ 3).hollowDensityParams m = .ok q ∧
      (3 / 5 : ℝ) • (p.H - m • outer b.center b.center) = q.H - m • outer b.center b.center := by
  refine ⟨_, _, b.hollowDensityParams_ok m hm hA, Ellipsoid.hollowDensityParams_ok _ m hm hA, ?_⟩
  simp only [add_sub_cancel_right]
  rw [← Matrix.smul_mul, ← Matrix.mul_smul, smul_comm (3 / 5 : ℝ) m, ← diagonal_smul]
  congr 4
  ext i
  fin_cases i <;> simp <;> field_simp

/-- C104: the hollow densities are linear in the mass (tests/test_box.py:174-175, tests/test_ellipsoid.py:441-444). -/
theorem C104_hollow_linear (b : Box ℝ) (e : Ellipsoid ℝ 3) (m k : ℝ) (hm : 0 < m) (hk : 0 < k)
    (hA : b.halfExtents 0 * b.halfExtents 1 + b.halfExtents 0 * b.halfExtents 2 + b.halfExtents 1 * b.halfExtents 2 ≠ 0)
    (hE : e.halfExtents 0 * e.halfExtents 1 + e.halfExtents 0 * e.halfExtents 2 + e.halfExtents 1 * e.halfExtents 2 ≠ 0) :
    (∃ p q, b.hollowDensityParams m = .ok p ∧ b.hollowDensityParams (k * m) = .ok q ∧ q.J = k • p.J) ∧
    ∃ p q, e.hollowDensityParams m = .ok p ∧ e.hollowDensityParams (k * m) = .ok q ∧ q.J = k • p.J := by
  have hkm : 0 < k * m := mul_pos hk hm
  have hJ : ∀ (D : Matrix (Fin 3) (Fin 3) ℝ) (R : Matrix (Fin 3) (Fin 3) ℝ) (c : Fin 3 → ℝ),
      (⟨k * m, c, R * ((k * m) • D) * Rᵀ + (k * m) • outer c c⟩ : IP ℝ).J =
        k • (⟨m, c, R * (m • D) * Rᵀ + m • outer c c⟩ : IP ℝ).J := by
    intro D R c
    have hH : R * ((k * m) • D) * Rᵀ + (k * m) • outer c c = k • (R * (m • D) * Rᵀ + m • outer c c) := by
      rw [smul_add, ← Matrix.smul_mul, ← Matrix.mul_smul, smul_smul, smul_smul]
    rw [hH]
    ext i j
    refine Fin.lastCases (Fin.lastCases ?_ (fun j => ?_) j) (fun i => Fin.lastCases ?_ (fun j => ?_) j) i
    · rw [Matrix.smul_apply, IP.J, IP.J, bordered_ll, bordered_ll, smul_eq_mul]
    · rw [Matrix.smul_apply, IP.J, IP.J, bordered_lc, bordered_lc]
      simp [IP.h, mul_assoc]
    · rw [Matrix.smul_apply, IP.J, IP.J, bordered_cl, bordered_cl]
      simp [IP.h, mul_assoc]
    · rw [Matrix.smul_apply, IP.J, IP.J, bordered_cc, bordered_cc]
      rfl
  exact ⟨⟨_, _, b.hollowDensityParams_ok m hm hA, b.hollowDensityParams_ok (k * m) hkm hA, hJ _ _ _⟩,
    _, _, Ellipsoid.hollowDensityParams_ok _ m hm hE, Ellipsoid.hollowDensityParams_ok _ (k * m) hkm hE, hJ _ _ _⟩

/-! ### Examples -/

/-- Every box with positive half extents and identity rotation meets the hypotheses of `C104_open_box`; the box of
tests/test_double_description.py:20 has unit half extents. -/
example : Spec.Orthogonal (1 : Matrix (Fin 3) (Fin 3) ℚ) ∧ ∀ i : Fin 3, 0 < (fun _ => 1 : Fin 3 → ℚ) i :=
  ⟨by simp [Spec.Orthogonal], fun _ => one_pos⟩

/-- The points of `C104_no_vertex` are four, so two of them are on the surface. -/
example : ∃ b, Box.fromPointsToBound [![-1, 0, 0], ![1, 0, 0], ![0, -1, 0], ![0, (1 : ℚ), 0]] = .ok b ∧
    2 ≤ [![-1, 0, 0], ![1, 0, 0], ![0, -1, 0], ![0, (1 : ℚ), 0]].countP fun p => b.onSurface p 0 :=
  C104_points_to_bound _ (by simp) 0 le_rfl

/-- The half extents of tests/test_box.py:165 meet the hypothesis of `C104_hollow_ratio`. -/
example : ∃ p q, (⟨![1, 3 / 4, 1 / 2], 1, 0⟩ : Box ℝ).hollowDensityParams 1 = .ok p ∧
    (⟨![1, 3 / 4, 1 / 2], 1, 0⟩ : Ellipsoid ℝ 3).hollowDensityParams 1 = .ok q ∧
      (3 / 5 : ℝ) • (p.H - (1 : ℝ) • outer 0 0) = q.H - (1 : ℝ) • outer 0 0 :=
  C104_hollow_ratio ⟨![1, 3 / 4, 1 / 2], 1, 0⟩ 1 one_pos (by simp; norm_num)

/-- The unit ball in the cube of half side one: the vertices of the cube are extreme points of the cube. -/
example : ∃ M, (⟨fun _ => 1, 1, 0⟩ : Ellipsoid ℚ 1).S = .ok M ∧
    1 ≤ ((fun _ => 1 : Fin 1 → ℚ) - 0) ⬝ᵥ M *ᵥ ((fun _ => 1) - 0) := by
  refine C104_inscribed_poly one_pos ⟨fun _ => 1, 1, 0⟩ (by simp [Spec.Orthogonal]) (fun _ => by norm_num)
    ⟨[fun _ => 1, fun _ => -1], ⟨[]⟩⟩ ⟨by simp [funext_iff]; norm_num, ?_⟩ ?_ _ (by simp)
  · intro v hv
    have hs : ∀ a b : Fin 1 → ℚ, a ∈ Spec.hull [b] → a = b := by
      intro a b h
      have e : {v | v ∈ [b]} = {b} := by ext; simp
      rw [Spec.hull, e, convexHull_singleton] at h
      exact h
    rcases List.mem_cons.mp hv with rfl | hv
    · have : ([fun _ => 1, fun _ => -1] : List (Fin 1 → ℚ)).erase (fun _ => 1) = [fun _ => -1] := by decide +kernel
      rw [this]
      intro h
      have := congrFun (hs _ _ h) 0
      norm_num at this
    · obtain rfl := List.mem_singleton.mp hv
      have : ([fun _ => 1, fun _ => -1] : List (Fin 1 → ℚ)).erase (fun _ => -1) = [fun _ => 1] := by decide +kernel
      rw [this]
      intro h
      have := congrFun (hs _ _ h) 0
      norm_num at this
  · rintro p ⟨u, hu, rfl⟩
    have h2 : u 0 * u 0 ≤ 1 := by simpa [dotProduct] using hu
    have h3 := abs_le.mp (abs_le_one_iff_mul_self_le_one.mpr h2)
    refine (hull_weights _ _).mpr ⟨![(1 + u 0) / 2, (1 - u 0) / 2], fun k => ?_, ?_, ?_⟩
    · fin_cases k
      · simp
        linarith
      · simp
        linarith
    · simp
      ring
    · funext i
      fin_cases i
      simp [Spec.rigid]
      ring

end Rigeo
