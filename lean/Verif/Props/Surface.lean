import Verif.Props.Shapes3
import Mathlib.Topology.Order.OrderClosed
import Mathlib.Topology.Instances.Matrix
import Mathlib.Topology.Algebra.Order.Field
import Mathlib.Topology.Instances.Real.Lemmas

/-! # Surface predicates: C43 -/

namespace Rigeo

open Matrix

section Field
variable {K : Type} [Field K] [LinearOrder K] [IsStrictOrderedRing K]

/-- C43: `Box.on_surface` at zero tolerance accepts exactly the points of the box with a body coordinate
at its bound. -/
theorem C43_box (b : Box K) (hR : Spec.Orthogonal b.rotation) (p : Fin 3 → K) :
    b.onSurface p 0 = true ↔ ∃ y : Fin 3 → K, (∀ i, |y i| ≤ b.halfExtents i) ∧
      (∃ i, |y i| = b.halfExtents i) ∧ p = Spec.rigid b.rotation b.center y := by
  unfold Box.onSurface
  simp only [Bool.and_eq_true, Bool.or_eq_true, isclose_zero, b.contains_iff, add_zero,
    vecMul_eq_transpose]
  constructor
  · rintro ⟨h1, h2⟩
    refine ⟨b.rotationᵀ *ᵥ (p - b.center), h1, ?_, (rigid_iff hR _ _ _).mpr rfl⟩
    rcases h2 with (h | h) | h
    · exact ⟨0, h⟩
    · exact ⟨1, h⟩
    · exact ⟨2, h⟩
  · rintro ⟨y, h1, ⟨i, h2⟩, hp⟩
    rw [rigid_iff hR] at hp
    subst hp
    refine ⟨h1, ?_⟩
    fin_cases i
    · exact Or.inl (Or.inl h2)
    · exact Or.inl (Or.inr h2)
    · exact Or.inr h2

/-- C43: with a tolerance, every reported point is in the box grown by the tolerance and has a body
coordinate within the tolerance of its bound. -/
theorem C43_box_tol (b : Box K) (hR : Spec.Orthogonal b.rotation) (p : Fin 3 → K) (tol : K) :
    b.onSurface p tol = true ↔ ∃ y : Fin 3 → K, (∀ i, |y i| ≤ b.halfExtents i + tol) ∧
      (∃ i, |(|y i| - b.halfExtents i)| ≤ tol) ∧ p = Spec.rigid b.rotation b.center y := by
  unfold Box.onSurface isclose
  simp only [Bool.and_eq_true, Bool.or_eq_true, decide_eq_true_eq, b.contains_iff, zero_mul, add_zero,
    vecMul_eq_transpose]
  constructor
  · rintro ⟨h1, h2⟩
    refine ⟨b.rotationᵀ *ᵥ (p - b.center), h1, ?_, (rigid_iff hR _ _ _).mpr rfl⟩
    rcases h2 with (h | h) | h
    · exact ⟨0, h⟩
    · exact ⟨1, h⟩
    · exact ⟨2, h⟩
  · rintro ⟨y, h1, ⟨i, h2⟩, hp⟩
    rw [rigid_iff hR] at hp
    subst hp
    refine ⟨h1, ?_⟩
    fin_cases i
    · exact Or.inl (Or.inl h2)
    · exact Or.inl (Or.inr h2)
    · exact Or.inr h2

/-- C43: for a non-degenerate ellipsoid `on_surface` accepts exactly the image of the unit sphere. -/
theorem C43_ellipsoid {d : ℕ} (e : Ellipsoid K d) (hR : Spec.Orthogonal e.rotation)
    (he : ∀ i, 1 / 100000000 < e.halfExtents i) (p : Fin d → K) :
    e.onSurface p 0 = true ↔ ∃ u : Fin d → K, u ⬝ᵥ u = 1 ∧
      p = Spec.rigid e.rotation e.center (fun i => e.halfExtents i * u i) := by
  have hz : ∀ i, e.z i = false := e.z_false_of_lt he
  have hpos : ∀ i, 0 < e.halfExtents i := fun i => lt_trans (by norm_num) (he i)
  unfold Ellipsoid.onSurface
  rw [if_neg (by simp [hz])]
  simp only [isclose_zero, vecMul_eq_transpose]
  have hs : ∀ i, (e.hInvNz i ^ 2 * (e.rotationᵀ *ᵥ (p - e.center)) i) * (e.rotationᵀ *ᵥ (p - e.center)) i =
      ((e.rotationᵀ *ᵥ (p - e.center)) i / e.halfExtents i) ^ 2 := fun i => by
    rw [e.hInvNz_eq i (hz i)]; ring
  simp only [hs]
  constructor
  · intro h
    refine ⟨fun i => (e.rotationᵀ *ᵥ (p - e.center)) i / e.halfExtents i, ?_, ?_⟩
    · simp only [dotProduct, ← sq]; exact h
    · rw [rigid_iff hR]
      ext i
      have := (hpos i).ne'
      dsimp only; field_simp
  · rintro ⟨u, hu, hp⟩
    rw [rigid_iff hR] at hp
    rw [← hp]
    simp only [dotProduct, ← sq] at hu
    rw [← hu]
    refine Finset.sum_congr rfl fun i _ => ?_
    rw [mul_div_cancel_left₀ _ (hpos i).ne']

/-- C43: a degenerate ellipsoid is all surface. -/
theorem C43_degenerate {d : ℕ} (e : Ellipsoid K d) (hR : Spec.Orthogonal e.rotation)
    (he : ∀ i, Spec.Resolved (e.halfExtents i)) (hdeg : ∃ i, e.halfExtents i = 0) (p : Fin d → K) :
    e.onSurface p 0 = true ↔ p ∈ Spec.ellipsoid e.halfExtents e.rotation e.center := by
  unfold Ellipsoid.onSurface
  obtain ⟨i, hi⟩ := hdeg
  rw [if_pos ⟨i, (e.z_iff_zero he i).mpr hi⟩, C27_contains e hR he]

example : ∃ e : Ellipsoid ℚ 3, Spec.Orthogonal e.rotation ∧ (∀ i, Spec.Resolved (e.halfExtents i)) ∧
    ∃ i, e.halfExtents i = 0 :=
  ⟨⟨![1, 2, 0], 1, ![1, 1, 1]⟩, Spec.Orthogonal.one, by
    intro i; fin_cases i <;> simp [Spec.Resolved] <;> norm_num, 2, rfl⟩

end Field

/-! ## Over the reals: the reported points are the topological boundary -/

section Real
variable {n : ℕ}

/-- A point from which some direction leaves the set at once is not interior. -/
theorem not_interior_of_leaving {S : Set (Fin n → ℝ)} {p v : Fin n → ℝ}
    (h : ∀ ε : ℝ, 0 < ε → p + ε • v ∉ S) : p ∉ interior S := by
  intro hp
  have hc : Continuous fun ε : ℝ => p + ε • v := by fun_prop
  have hopen : IsOpen ((fun ε : ℝ => p + ε • v) ⁻¹' interior S) := isOpen_interior.preimage hc
  have h0 : (0 : ℝ) ∈ (fun ε : ℝ => p + ε • v) ⁻¹' interior S := by simpa using hp
  obtain ⟨δ, hδ, hb⟩ := Metric.isOpen_iff.mp hopen 0 h0
  have : δ / 2 ∈ Metric.ball (0 : ℝ) δ := by
    rw [Metric.mem_ball, Real.dist_eq, sub_zero, abs_of_pos (by positivity)]; linarith
  exact h (δ / 2) (by positivity) (interior_subset (hb this))

theorem continuous_body (R : Matrix (Fin n) (Fin n) ℝ) (c : Fin n → ℝ) (i : Fin n) :
    Continuous fun p : Fin n → ℝ => (Rᵀ *ᵥ (p - c)) i := by
  simp only [mulVec, dotProduct, Pi.sub_apply]
  fun_prop

/-- Moving along a body axis changes that body coordinate only. -/
theorem body_move {R : Matrix (Fin n) (Fin n) ℝ} (hR : Spec.Orthogonal R) (c p v : Fin n → ℝ) (ε : ℝ) :
    Rᵀ *ᵥ (p + ε • (R *ᵥ v) - c) = Rᵀ *ᵥ (p - c) + ε • v := by
  have : p + ε • (R *ᵥ v) - c = (p - c) + ε • (R *ᵥ v) := by module
  rw [this, mulVec_add, mulVec_smul, mulVec_mulVec, hR, one_mulVec]

theorem frontier_box {R : Matrix (Fin n) (Fin n) ℝ} (hR : Spec.Orthogonal R) (h c p : Fin n → ℝ) :
    p ∈ frontier (Spec.box h R c) ↔
      p ∈ Spec.box h R c ∧ ∃ i, |(Rᵀ *ᵥ (p - c)) i| = h i := by
  have hS : Spec.box h R c = {p | ∀ i, |(Rᵀ *ᵥ (p - c)) i| ≤ h i} := by
    ext p; exact Spec_box_iff hR h c p
  have hcl : IsClosed (Spec.box h R c) := by
    rw [hS]
    have : {p : Fin n → ℝ | ∀ i, |(Rᵀ *ᵥ (p - c)) i| ≤ h i} = ⋂ i, {p | |(Rᵀ *ᵥ (p - c)) i| ≤ h i} := by
      ext p; simp
    rw [this]
    exact isClosed_iInter fun i => isClosed_le (continuous_body R c i).abs continuous_const
  rw [hcl.frontier_eq, Set.mem_sdiff]
  refine and_congr_right fun hp => ?_
  have hp' := (Spec_box_iff hR h c p).mp hp
  constructor
  · intro hint
    by_contra hno
    push Not at hno
    apply hint
    have hopen : IsOpen {p : Fin n → ℝ | ∀ i, |(Rᵀ *ᵥ (p - c)) i| < h i} := by
      have : {p : Fin n → ℝ | ∀ i, |(Rᵀ *ᵥ (p - c)) i| < h i} = ⋂ i, {p | |(Rᵀ *ᵥ (p - c)) i| < h i} := by
        ext p; simp
      rw [this]
      exact isOpen_iInter_of_finite fun i => isOpen_lt (continuous_body R c i).abs continuous_const
    refine mem_interior.mpr ⟨_, ?_, hopen, fun i => lt_of_le_of_ne (hp' i) (hno i)⟩
    intro q hq
    rw [Spec_box_iff hR]
    exact fun i => (hq i).le
  · rintro ⟨i, hi⟩
    obtain ⟨s, hs, hsy⟩ : ∃ s : ℝ, |s| = 1 ∧ |(Rᵀ *ᵥ (p - c)) i| = s * (Rᵀ *ᵥ (p - c)) i := by
      rcases le_total 0 ((Rᵀ *ᵥ (p - c)) i) with h | h
      · exact ⟨1, by norm_num, by rw [abs_of_nonneg h, one_mul]⟩
      · exact ⟨-1, by norm_num, by rw [abs_of_nonpos h, neg_one_mul]⟩
    refine not_interior_of_leaving (v := R *ᵥ Pi.single i s) fun ε hε hq => ?_
    rw [Spec_box_iff hR] at hq
    have := hq i
    rw [body_move hR, Pi.add_apply, Pi.smul_apply, Pi.single_eq_same, smul_eq_mul] at this
    have h2 : s * ((Rᵀ *ᵥ (p - c)) i + ε * s) ≤ h i := by
      refine le_trans (le_abs_self _) ?_
      rw [abs_mul, hs, one_mul]; exact this
    have h3 : s * s = 1 := by rw [← abs_mul_abs_self, hs, one_mul]
    have : s * ((Rᵀ *ᵥ (p - c)) i + ε * s) = |(Rᵀ *ᵥ (p - c)) i| + ε := by
      rw [hsy]; linear_combination ε * h3
    linarith

/-- C43: the points reported by `Box.on_surface` are the topological boundary of the box. -/
theorem C43_box_frontier (b : Box ℝ) (hR : Spec.Orthogonal b.rotation) (p : Fin 3 → ℝ) :
    b.onSurface p 0 = true ↔ p ∈ frontier (Spec.box b.halfExtents b.rotation b.center) := by
  rw [C43_box b hR, frontier_box hR, Spec_box_iff hR]
  constructor
  · rintro ⟨y, h1, h2, hp⟩
    rw [rigid_iff hR] at hp
    rw [← hp]; exact ⟨h1, h2⟩
  · rintro ⟨h1, h2⟩
    exact ⟨_, h1, h2, (rigid_iff hR _ _ _).mpr rfl⟩

theorem isClosed_ellipsoid {R : Matrix (Fin n) (Fin n) ℝ} (hR : Spec.Orthogonal R) (h c : Fin n → ℝ) :
    IsClosed (Spec.ellipsoid h R c) := by
  have hS : Spec.ellipsoid h R c = (⋂ i, {p | h i = 0 → (Rᵀ *ᵥ (p - c)) i = 0}) ∩
      {p | ∑ i, ((Rᵀ *ᵥ (p - c)) i / h i) ^ 2 ≤ 1} := by
    ext p; simp [Spec_ellipsoid_iff hR h c p]
  rw [hS]
  refine IsClosed.inter (isClosed_iInter fun i => ?_) ?_
  · by_cases h0 : h i = 0
    · simp only [h0, true_implies]
      exact isClosed_eq (continuous_body R c i) continuous_const
    · simp [h0]
  · exact isClosed_le (continuous_finsetSum _ fun i _ => ((continuous_body R c i).div_const _).pow 2)
      continuous_const

/-- C43: the points reported by `Ellipsoid.on_surface` are the topological boundary of the ellipsoid,
for degenerate and non-degenerate ellipsoids of any dimension. -/
theorem C43_ellipsoid_frontier (e : Ellipsoid ℝ n) (hR : Spec.Orthogonal e.rotation)
    (he : ∀ i, Spec.Resolved (e.halfExtents i)) (p : Fin n → ℝ) :
    e.onSurface p 0 = true ↔ p ∈ frontier (Spec.ellipsoid e.halfExtents e.rotation e.center) := by
  rw [(isClosed_ellipsoid hR _ _).frontier_eq, Set.mem_sdiff]
  by_cases hdeg : ∃ i, e.halfExtents i = 0
  · rw [C43_degenerate e hR he hdeg]
    refine (and_iff_left_of_imp fun _ => ?_).symm
    obtain ⟨i, hi⟩ := hdeg
    by_contra hint
    have hp := (Spec_ellipsoid_iff hR _ _ _).mp (interior_subset hint)
    refine not_interior_of_leaving (v := e.rotation *ᵥ Pi.single i 1) (fun ε hε hq => ?_) hint
    have := ((Spec_ellipsoid_iff hR _ _ _).mp hq).1 i hi
    rw [body_move hR, Pi.add_apply, hp.1 i hi, Pi.smul_apply, Pi.single_eq_same] at this
    simp at this
    exact hε.ne' this
  · push Not at hdeg
    have he' : ∀ i, 1 / 100000000 < e.halfExtents i := fun i => (he i).resolve_left (hdeg i)
    rw [C43_ellipsoid e hR he']
    set g : (Fin n → ℝ) → ℝ := fun p => ∑ i, ((e.rotationᵀ *ᵥ (p - e.center)) i / e.halfExtents i) ^ 2 with hg
    have hmem : ∀ p, p ∈ Spec.ellipsoid e.halfExtents e.rotation e.center ↔ g p ≤ 1 := fun p => by
      rw [Spec_ellipsoid_iff hR]
      exact and_iff_right fun i hi => absurd hi (hdeg i)
    have hgc : Continuous g :=
      continuous_finsetSum _ fun i _ => ((continuous_body _ _ i).div_const _).pow 2
    have hlevel : (∃ u : Fin n → ℝ, u ⬝ᵥ u = 1 ∧
        p = Spec.rigid e.rotation e.center (fun i => e.halfExtents i * u i)) ↔ g p = 1 := by
      constructor
      · rintro ⟨u, hu, hp⟩
        rw [rigid_iff hR] at hp
        simp only [hg, ← hp, mul_div_cancel_left₀ _ (hdeg _)]
        rw [← hu]; simp [dotProduct, sq]
      · intro h
        refine ⟨fun i => (e.rotationᵀ *ᵥ (p - e.center)) i / e.halfExtents i, ?_, ?_⟩
        · rw [← h]; simp [hg, dotProduct, sq]
        · rw [rigid_iff hR]; ext i; dsimp only; rw [mul_div_cancel₀ _ (hdeg i)]
    rw [hlevel, hmem]
    constructor
    · intro h
      refine ⟨h.le, not_interior_of_leaving (v := p - e.center) fun ε hε hq => ?_⟩
      rw [hmem] at hq
      have : g (p + ε • (p - e.center)) = (1 + ε) ^ 2 * g p := by
        simp only [hg, Finset.mul_sum]
        refine Finset.sum_congr rfl fun i _ => ?_
        have : p + ε • (p - e.center) - e.center = (1 + ε) • (p - e.center) := by module
        rw [this, mulVec_smul, Pi.smul_apply, smul_eq_mul]; ring
      rw [this, h] at hq
      nlinarith
    · rintro ⟨h1, h2⟩
      by_contra hne
      refine h2 (mem_interior.mpr ⟨{q | g q < 1}, fun q hq => (hmem q).mpr (le_of_lt hq),
        isOpen_lt hgc continuous_const, lt_of_le_of_ne h1 hne⟩)

end Real
end Rigeo
