import Verif.Props.Shapes
import Verif.Props.Polydd

/-!
# C74, C75, C81: box constructors and attributes, equality of inertial parameters, cones
-/

namespace Rigeo

open Matrix

section C74
variable {K : Type} [Field K] [LinearOrder K] [IsStrictOrderedRing K]

/-- C74: `Box.cube` builds the cube with the given half extent, with the default pose if none is given, and rejects
exactly the negative half extents. -/
theorem C74_cube (a : K) (c : Option (Fin 3 → K)) (R : Option (Matrix (Fin 3) (Fin 3) K)) :
    (0 ≤ a → ∃ b, Box.cube a c R = .ok b ∧ b.rotation = R.getD 1 ∧ b.center = c.getD 0 ∧
      Spec.box b.halfExtents b.rotation b.center =
        {p | ∃ y : Fin 3 → K, (∀ i, -a ≤ y i ∧ y i ≤ a) ∧ p = R.getD 1 *ᵥ y + c.getD 0}) ∧
    (a < 0 → Box.cube a c R = .error .assertion) := by
  refine ⟨fun ha => ⟨⟨fun _ => a * 1, R.getD 1, c.getD 0⟩, ?_, rfl, rfl, ?_⟩, fun ha => ?_⟩
  · simp [Box.cube, Box.init, pyAssert, ha, bind, Except.bind, pure, Except.pure]
  · ext p
    simp only [Spec.box, Set.mem_ofPred_eq, mul_one, abs_le, Spec.rigid]
  · simp [Box.cube, pyAssert, not_le.mpr ha, bind, Except.bind]

/-- C74: `Box.from_side_lengths` builds the box whose `side_lengths` are the given ones, and rejects exactly the
lists with a negative entry. -/
theorem C74_side_lengths (l : Fin 3 → K) (c : Option (Fin 3 → K)) (R : Option (Matrix (Fin 3) (Fin 3) K)) :
    ((∀ i, 0 ≤ l i) → ∃ b, Box.fromSideLengths l c R = .ok b ∧ b.sideLengths = l ∧ b.volume = l 0 * l 1 * l 2 ∧
      Spec.box b.halfExtents b.rotation b.center =
        {p | ∃ y : Fin 3 → K, (∀ i, -(l i / 2) ≤ y i ∧ y i ≤ l i / 2) ∧ p = R.getD 1 *ᵥ y + c.getD 0}) ∧
    ((∃ i, l i < 0) → Box.fromSideLengths l c R = .error .assertion) := by
  refine ⟨fun hl => ⟨⟨fun i => (1 / 2) * l i, R.getD 1, c.getD 0⟩, ?_, ?_, ?_, ?_⟩, fun ⟨i, hi⟩ => ?_⟩
  · have : ∀ i, 0 ≤ (1 / 2) * l i := fun i => mul_nonneg (by norm_num) (hl i)
    simp only [Box.fromSideLengths, Box.init, pyAssert, decide_eq_true this, if_true]
    rfl
  · ext i; simp [Box.sideLengths]
  · simp [Box.volume, Box.sideLengths, Fin.prod_univ_three]
  · ext p
    have e : ∀ x : K, 1 / 2 * x = x / 2 := fun x => by ring
    simp only [Spec.box, Set.mem_ofPred_eq, abs_le, Spec.rigid, e]
  · have : ¬ ∀ i, 0 ≤ (1 / 2) * l i := fun h => by have := h i; linarith
    simp only [Box.fromSideLengths, Box.init, pyAssert, decide_eq_false this]
    rfl

end C74

/-- C74: `diaglen` is the largest distance between two points of the box. -/
theorem C74_diaglen (b : Box ℝ) (hb : ∀ i, 0 ≤ b.halfExtents i) (hR : Spec.Orthogonal b.rotation) :
    IsGreatest {d | ∃ p ∈ Spec.box b.halfExtents b.rotation b.center, ∃ q ∈ Spec.box b.halfExtents b.rotation b.center,
      d = Real.sqrt ((p - q) ⬝ᵥ (p - q))} b.diaglen := by
  have key : ∀ y z : Fin 3 → ℝ, (Spec.rigid b.rotation b.center y - Spec.rigid b.rotation b.center z) ⬝ᵥ
      (Spec.rigid b.rotation b.center y - Spec.rigid b.rotation b.center z) = (y - z) ⬝ᵥ (y - z) := by
    intro y z
    have e : Spec.rigid b.rotation b.center y - Spec.rigid b.rotation b.center z = b.rotation *ᵥ (y - z) := by
      simp [Spec.rigid, mulVec_sub]
    rw [e, dotProduct_mulVec, ← mulVec_transpose, mulVec_mulVec, show b.rotationᵀ * b.rotation = 1 from hR, one_mulVec]
  have e2 : b.diaglen = Real.sqrt (4 * (b.halfExtents ⬝ᵥ b.halfExtents)) := by
    rw [Real.sqrt_mul (by norm_num), show (4 : ℝ) = 2 ^ 2 by norm_num, Real.sqrt_sq (by norm_num)]
    rfl
  constructor
  · refine ⟨_, ⟨b.halfExtents, fun i => (abs_of_nonneg (hb i)).le, rfl⟩, _,
      ⟨-b.halfExtents, fun i => by simp [abs_of_nonneg (hb i)], rfl⟩, ?_⟩
    rw [key, e2]
    congr 1
    simp [dotProduct, Fin.sum_univ_three]
    ring
  · rintro d ⟨_, ⟨y, hy, rfl⟩, _, ⟨z, hz, rfl⟩, rfl⟩
    rw [key, e2]
    apply Real.sqrt_le_sqrt
    rw [dotProduct, dotProduct, Finset.mul_sum]
    refine Finset.sum_le_sum fun i _ => ?_
    have h1 := abs_le.mp (hy i)
    have h2 := abs_le.mp (hz i)
    simp only [Pi.sub_apply]
    nlinarith [hb i]

example : (⟨![1, 2, 2], 1, 0⟩ : Box ℝ).diaglen = 6 := by
  rw [Box.diaglen, show (![1, 2, 2] : Fin 3 → ℝ) ⬝ᵥ ![1, 2, 2] = 3 ^ 2 by simp [dotProduct, Fin.sum_univ_three]; norm_num,
    Real.sqrt_sq (by norm_num)]
  norm_num

section C75
variable {K : Type} [Field K] [LinearOrder K] [IsStrictOrderedRing K]

/-- C75: `InertialParameters.is_same` holds exactly when the masses, the first moments and the second moments agree up
to the default tolerances of `np.allclose`. -/
theorem C75_iff (p q : IP K) : p.isSame q = true ↔
    (|p.mass - q.mass| ≤ 1 / 10 ^ 8 + 1 / 10 ^ 5 * |q.mass|) ∧
    (∀ i, |p.mass * p.com i - q.mass * q.com i| ≤ 1 / 10 ^ 8 + 1 / 10 ^ 5 * |q.mass * q.com i|) ∧
    ∀ i j, |p.H i j - q.H i j| ≤ 1 / 10 ^ 8 + 1 / 10 ^ 5 * |q.H i j| := by
  have ec : ∀ a b : K, isclose a b rtol5 tol8 = true ↔ |a - b| ≤ 1 / 10 ^ 8 + 1 / 10 ^ 5 * |b| := by
    intro a b
    rw [isclose, decide_eq_true_iff, tol8, rtol5]
    norm_num
  unfold IP.isSame
  rw [decide_eq_true_iff]
  simp only [ec, IP.J]
  constructor
  · intro h
    refine ⟨?_, fun i => ?_, fun i j => ?_⟩
    · have := h (Fin.last 3) (Fin.last 3); rwa [bordered_ll, bordered_ll] at this
    · have := h i.castSucc (Fin.last 3); rwa [bordered_cl, bordered_cl] at this
    · have := h i.castSucc j.castSucc; rwa [bordered_cc, bordered_cc] at this
  · rintro ⟨h1, h2, h3⟩ i j
    refine Fin.lastCases ?_ (fun i => ?_) i <;> refine Fin.lastCases ?_ (fun j => ?_) j
    · rw [bordered_ll, bordered_ll]; exact h1
    · rw [bordered_lc, bordered_lc]; exact h2 j
    · rw [bordered_cl, bordered_cl]; exact h2 i
    · rw [bordered_cc, bordered_cc]; exact h3 i j

/-- C75: parameters with the same mass and moments are the same; in particular the centers of mass of massless bodies
are ignored. -/
theorem C75_refl (p q : IP K) (hm : p.mass = q.mass) (hh : p.h = q.h) (hH : p.H = q.H) : p.isSame q = true := by
  have hn : ∀ x : K, 0 ≤ 1 / 10 ^ 8 + 1 / 10 ^ 5 * |x| := fun x => by positivity
  rw [C75_iff]
  refine ⟨by rw [hm, sub_self, abs_zero]; exact hn _, fun i => ?_, fun i j => by rw [hH, sub_self, abs_zero]; exact hn _⟩
  have : p.mass * p.com i = q.mass * q.com i := congrFun hh i
  rw [this, sub_self, abs_zero]
  exact hn _

/-- C75: the test is not symmetric. -/
theorem C75_not_symmetric : ∃ p q : IP K, p.isSame q = true ∧ q.isSame p = false := by
  have h0 : (0 : K) ≤ 1 / 10 ^ 8 := by positivity
  refine ⟨⟨1, 0, 0⟩, ⟨1 + (1 / 10 ^ 8 + 1 / 10 ^ 5 + 1 / 2 / 10 ^ 10), 0, 0⟩, ?_, ?_⟩
  · rw [C75_iff]
    refine ⟨?_, by simp, by simp⟩
    dsimp only
    rw [abs_le, abs_of_pos (by positivity)]
    constructor <;> norm_num
  · rw [← Bool.not_eq_true, C75_iff]
    rintro ⟨h, -⟩
    dsimp only at h
    rw [abs_le, abs_one] at h
    have := h.2
    norm_num at this

/-- C75: the test does not separate light bodies: any two bodies whose moments are at most `5e-9` are the same. -/
theorem C75_light (p q : IP K) (hp : ∀ i j, |p.J i j| ≤ 1 / 2 / 10 ^ 8) (hq : ∀ i j, |q.J i j| ≤ 1 / 2 / 10 ^ 8) :
    p.isSame q = true := by
  unfold IP.isSame
  rw [decide_eq_true_iff]
  intro i j
  rw [isclose, decide_eq_true_iff, tol8, rtol5]
  have h1 := abs_sub (p.J i j) (q.J i j)
  have h2 := hp i j
  have h3 := hq i j
  have h4 : (0 : K) ≤ 1 / 100000 * |q.J i j| := by positivity
  have h5 : (1 : K) / 2 / 10 ^ 8 + 1 / 2 / 10 ^ 8 = 1 / 100000000 := by norm_num
  linarith

/-- C75: a body of 5 micrograms is the same as no body. -/
example : (⟨1 / 2 / 10 ^ 8, 0, 0⟩ : IP ℚ).isSame ⟨0, 0, 0⟩ = true := by decide +kernel

end C75

section C81
variable {K : Type} [Field K] [LinearOrder K] [IsStrictOrderedRing K] {d : ℕ}

/-- C81: if `SpanForm.is_cone` says so, the polyhedron contains all non-negative multiples of its points. -/
theorem C81_cone (s : SpanForm K d) (hs : s.isCone = true) (x : Fin d → K) (hx : x ∈ Spec.spanned s) (a : K) (ha : 0 ≤ a) :
    a • x ∈ Spec.spanned s := by
  simp only [SpanForm.isCone, Bool.and_eq_true, Option.isNone_iff_eq_none] at hs
  obtain ⟨v, r, l, hv, ⟨w, hw, rfl⟩, ⟨w', rfl⟩, rfl⟩ := hx
  rw [hs.2] at hv
  obtain rfl : v = 0 := by simpa using hv
  refine ⟨0, _, _, by rw [hs.2]; simp, ⟨fun k => a * w k, fun k => mul_nonneg ha (hw k), rfl⟩, ⟨fun k => a * w' k, rfl⟩, ?_⟩
  simp only [smul_add, smul_zero, Finset.smul_sum, mul_smul]

/-- C81: the converse is false: with the apex listed as a vertex, a cone is not recognised. -/
theorem C81_cone_missed (R : List (Fin d → K)) :
    (∀ x ∈ Spec.spanned (⟨some [0], some R⟩ : SpanForm K d), ∀ a : K, 0 ≤ a →
      a • x ∈ Spec.spanned (⟨some [0], some R⟩ : SpanForm K d)) ∧
    Spec.spanned (⟨some [0], some R⟩ : SpanForm K d) = Spec.spanned ⟨none, some R⟩ ∧
    (⟨some [0], some R⟩ : SpanForm K d).isCone = false ∧ (⟨none, some R⟩ : SpanForm K d).isCone = true := by
  have e : Spec.spanned (⟨some [0], some R⟩ : SpanForm K d) = Spec.spanned ⟨none, some R⟩ := by
    ext x
    have : Spec.hull [(0 : Fin d → K)] = {0} := by simp [Spec.hull]
    simp [Spec.spanned, Spec.generated, this]
  refine ⟨fun x hx a ha => ?_, e, rfl, rfl⟩
  rw [e] at hx ⊢
  exact C81_cone _ rfl x hx a ha

/-- C81: if `bounded()` says so, all coordinates of the points are bounded. -/
theorem C81_bounded (s : SpanForm K d) (hs : s.bounded = true) (hne : s.vertices ≠ some []) :
    Spec.Bounded (Spec.spanned s) := by
  simp only [SpanForm.bounded, Bool.and_eq_true, Option.isNone_iff_eq_none] at hs
  obtain ⟨V, hV⟩ := Option.isSome_iff_exists.mp hs.2
  have hV' : V ≠ [] := by rintro rfl; exact hne hV
  have e : Spec.spanned s = Spec.hull V := by
    obtain ⟨vs, rs⟩ := s
    obtain ⟨rfl, -⟩ := hs
    obtain rfl : vs = some V := hV
    ext x
    simp [Spec.spanned, Spec.generated, Spec.coneHull, Spec.lineHull, hV']
  rw [e]
  exact hull_bounded V

example : (⟨none, some [![1, 2]]⟩ : SpanForm ℚ 2).isCone = true ∧ (⟨some [![1, 2]], none⟩ : SpanForm ℚ 2).bounded = true :=
  ⟨rfl, rfl⟩

end C81
end Rigeo
