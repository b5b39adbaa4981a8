import Verif.Model.Closest
import Verif.Spec.Bodies
import Verif.Props.Shapes4
import Verif.Props.Polydd
import Mathlib.Topology.Order.Compact
import Mathlib.Topology.Instances.Matrix
import Mathlib.Analysis.Convex.Topology

/-!
# C67: closest points
-/

namespace Spec

open Matrix

/-- A solver that returns an optimum of the given minimization problem whenever there is one. -/
def Optimal (solver : ((Fin 3 → ℝ) → (Fin 3 → ℝ) → ℝ) → ((Fin 3 → ℝ) → (Fin 3 → ℝ) → Prop) →
    (Fin 3 → ℝ) × (Fin 3 → ℝ)) : Prop :=
  ∀ (f : (Fin 3 → ℝ) → (Fin 3 → ℝ) → ℝ) (C : (Fin 3 → ℝ) → (Fin 3 → ℝ) → Prop), (∃ p q, C p q ∧ ∀ p' q', C p' q' → f p q ≤ f p' q') →
    C (solver f C).1 (solver f C).2 ∧ ∀ p' q', C p' q' → f (solver f C).1 (solver f C).2 ≤ f p' q'

/-- The Euclidean distance of two points. -/
noncomputable def dist (p q : Fin 3 → ℝ) : ℝ := Real.sqrt ((q - p) ⬝ᵥ (q - p))

end Spec

namespace Rigeo

open Matrix

/-- What the constructors guarantee about a shape object, apart from the orthogonality of its rotation, which they do
not check. -/
def AnyShape.Valid {K : Type} [Field K] [LinearOrder K] [IsStrictOrderedRing K] : AnyShape K → Prop
  | .ellipsoid e => Spec.Orthogonal e.rotation ∧ ∀ i, 0 ≤ e.halfExtents i
  | .box b => Spec.Orthogonal b.rotation ∧ ∀ i, 0 ≤ b.halfExtents i
  | .poly P => P.Consistent
  | .cylinder c => Spec.Orthogonal c.rotation ∧ 0 ≤ c.length ∧ 0 ≤ c.radius
  | .capsule c => Spec.Orthogonal c.cylinder.rotation ∧ 0 ≤ c.cylinder.length ∧ 0 ≤ c.cylinder.radius

theorem AnyShape.mustContain_iff {s : AnyShape ℝ} (hs : s.Valid) (p : Fin 3 → ℝ) :
    Py.Holds (s.mustContain p) ↔ p ∈ Spec.region s := by
  have hok : ∀ c : Prop, Py.Holds (.ok c) ↔ c := by
    intro c
    exact ⟨fun ⟨q, h, hq⟩ => (Except.ok.inj h) ▸ hq, fun h => ⟨c, rfl, h⟩⟩
  cases s with
  | ellipsoid e => exact (hok _).trans (C29_unit_scale e hs.1 p)
  | box b =>
    refine (hok _).trans ?_
    rw [C30_box b hs.1 p 1 one_pos, inv_one, one_smul]
    rfl
  | poly P =>
    refine (hok _).trans ?_
    rw [C30_poly P p 1 one_pos, inv_one, one_smul, P.contains_iff]
    rfl
  | cylinder c =>
    refine (hok _).trans ?_
    rw [C30_cylinder c hs.1 hs.2.1 hs.2.2 p 1 one_pos, inv_one, one_smul]
    rfl
  | capsule c =>
    refine (C30_capsule c hs.1 hs.2.1 hs.2.2 p 1 one_pos).trans ?_
    rw [inv_one, one_smul]
    rfl

theorem AnyShape.mustContain_ok {s : AnyShape ℝ} (hs : s.Valid) (p : Fin 3 → ℝ) : ∃ c, s.mustContain p = .ok c := by
  cases s with
  | capsule c =>
    show ∃ x, c.mustContain p = .ok x
    unfold Capsule.mustContain
    rw [c.caps_ok hs.2.2]
    exact ⟨_, rfl⟩
  | _ => exact ⟨_, rfl⟩

theorem closestConstraints_iff {s1 s2 : AnyShape ℝ} (h1 : s1.Valid) (h2 : s2.Valid) (p q : Fin 3 → ℝ) :
    Py.Holds (closestConstraints s1 s2 p q) ↔ p ∈ Spec.region s1 ∧ q ∈ Spec.region s2 := by
  rw [← AnyShape.mustContain_iff h1, ← AnyShape.mustContain_iff h2]
  obtain ⟨c1, e1⟩ := AnyShape.mustContain_ok h1 p
  obtain ⟨c2, e2⟩ := AnyShape.mustContain_ok h2 q
  have hok : ∀ c : Prop, Py.Holds (.ok c) ↔ c := fun c =>
    ⟨fun ⟨q, h, hq⟩ => (Except.ok.inj h) ▸ hq, fun h => ⟨c, rfl, h⟩⟩
  unfold closestConstraints
  rw [e1, e2, hok, hok]
  exact hok _

/-! ### Shapes are non-empty compact sets -/

theorem AnyShape.nonempty {s : AnyShape ℝ} (hs : s.Valid) : (Spec.region s).Nonempty := by
  cases s with
  | ellipsoid e => exact ⟨_, 0, by simp, rfl⟩
  | box b => exact ⟨_, 0, fun i => by simpa using hs.2 i, rfl⟩
  | poly P =>
    show (Spec.halfspaces P.faceForm.faces).Nonempty
    rw [← hs.2.2]
    obtain ⟨v, hv⟩ := List.exists_mem_of_ne_nil _ hs.1
    exact ⟨v, subset_convexHull _ _ hv⟩
  | cylinder c => exact ⟨_, 0, by simpa using div_nonneg hs.2.1 zero_le_two, by simpa using sq_nonneg c.radius, rfl⟩
  | capsule c =>
    refine ⟨Spec.rigid c.cylinder.rotation c.cylinder.center ![0, 0, 0], 0, by simpa using div_nonneg hs.2.1 zero_le_two, ?_⟩
    · show (_ - _) ⬝ᵥ (_ - _) ≤ c.cylinder.radius ^ 2
      rw [sub_self, zero_dotProduct]
      positivity

theorem continuous_dot_self {n : ℕ} : Continuous fun u : Fin n → ℝ => u ⬝ᵥ u := by
  unfold dotProduct
  fun_prop

theorem continuous_rigid {n : ℕ} (R : Matrix (Fin n) (Fin n) ℝ) (c : Fin n → ℝ) : Continuous (Spec.rigid R c) := by
  unfold Spec.rigid
  fun_prop

/-- The closed ball of radius `r` is compact. -/
theorem ball_compact {n : ℕ} (r : ℝ) (c : Fin n → ℝ) : IsCompact (Spec.ball r c) := by
  refine IsCompact.of_isClosed_subset (isCompact_univ_pi fun i => isCompact_Icc (a := c i - |r|) (b := c i + |r|)) ?_ ?_
  · exact isClosed_le (continuous_dot_self.comp (continuous_id.sub continuous_const)) continuous_const
  · intro p hp i _
    have h1 : (p - c) ⬝ᵥ (p - c) ≤ r ^ 2 := hp
    have h2 : (p i - c i) ^ 2 ≤ (p - c) ⬝ᵥ (p - c) := by
      rw [sq]
      exact Finset.single_le_sum (f := fun i => (p - c) i * (p - c) i) (fun j _ => mul_self_nonneg _) (Finset.mem_univ i)
    have h3 := sq_le_sq.mp (h2.trans h1)
    obtain ⟨h4, h5⟩ := abs_le.mp h3
    exact ⟨by linarith, by linarith⟩

theorem AnyShape.compact {s : AnyShape ℝ} (hs : s.Valid) : IsCompact (Spec.region s) := by
  cases s with
  | ellipsoid e =>
    have : Spec.region (.ellipsoid e) = (fun u : Fin 3 → ℝ => Spec.rigid e.rotation e.center (fun i => e.halfExtents i * u i)) ''
        Spec.ball 1 0 := by
      ext p
      constructor
      · rintro ⟨u, hu, rfl⟩
        exact ⟨u, by show (u - 0) ⬝ᵥ (u - 0) ≤ 1 ^ 2; simpa using hu, rfl⟩
      · rintro ⟨u, hu, rfl⟩
        have hu' : (u - 0) ⬝ᵥ (u - 0) ≤ 1 ^ 2 := hu
        exact ⟨u, by simpa using hu', rfl⟩
    rw [this]
    exact (ball_compact 1 0).image ((continuous_rigid _ _).comp (by fun_prop))
  | box b =>
    have : Spec.region (.box b) = Spec.rigid b.rotation b.center '' {y | ∀ i, |y i| ≤ b.halfExtents i} := by
      ext p
      exact ⟨fun ⟨y, h, e⟩ => ⟨y, h, e.symm⟩, fun ⟨y, h, e⟩ => ⟨y, h, e.symm⟩⟩
    rw [this]
    refine IsCompact.image ?_ (continuous_rigid _ _)
    refine IsCompact.of_isClosed_subset (isCompact_univ_pi fun i => isCompact_Icc (a := -b.halfExtents i) (b := b.halfExtents i)) ?_ ?_
    · have : {y : Fin 3 → ℝ | ∀ i, |y i| ≤ b.halfExtents i} = ⋂ i, {y | |y i| ≤ b.halfExtents i} := by ext; simp
      rw [this]
      exact isClosed_iInter fun i => isClosed_le (continuous_abs.comp (continuous_apply i)) continuous_const
    · intro y hy i _
      exact abs_le.mp (hy i)
  | poly P =>
    show IsCompact (Spec.halfspaces P.faceForm.faces)
    rw [← hs.2.2]
    have hfin : Set.Finite {v | v ∈ P.vertices} := List.finite_toSet P.vertices
    exact hfin.isCompact_convexHull (𝕜 := ℝ)
  | cylinder c =>
    have : Spec.region (.cylinder c) = Spec.rigid c.rotation c.center '' {y | |y 2| ≤ c.length / 2 ∧ y 0 ^ 2 + y 1 ^ 2 ≤ c.radius ^ 2} := by
      ext p
      exact ⟨fun ⟨y, h1, h2, e⟩ => ⟨y, ⟨h1, h2⟩, e.symm⟩, fun ⟨y, h, e⟩ => ⟨y, h.1, h.2, e.symm⟩⟩
    rw [this]
    refine IsCompact.image ?_ (continuous_rigid _ _)
    refine IsCompact.of_isClosed_subset (ball_compact (Real.sqrt (c.radius ^ 2 + (c.length / 2) ^ 2)) 0) ?_ ?_
    · exact (isClosed_le (continuous_abs.comp (continuous_apply 2)) continuous_const).inter
        (isClosed_le (((continuous_apply 0).pow 2).add ((continuous_apply 1).pow 2)) continuous_const)
    · rintro y ⟨h1, h2⟩
      show (y - 0) ⬝ᵥ (y - 0) ≤ _ ^ 2
      rw [Real.sq_sqrt (by positivity), sub_zero, dotProduct, Fin.sum_univ_three]
      have h3 : y 2 ^ 2 ≤ (c.length / 2) ^ 2 := by
        have := abs_le.mp h1
        nlinarith
      nlinarith
  | capsule c =>
    have : Spec.region (.capsule c) = (fun zw : ℝ × (Fin 3 → ℝ) =>
        Spec.rigid c.cylinder.rotation c.cylinder.center ![0, 0, zw.1] + zw.2) ''
        (Set.Icc (-(c.cylinder.length / 2)) (c.cylinder.length / 2) ×ˢ Spec.ball c.cylinder.radius 0) := by
      ext p
      constructor
      · rintro ⟨z, hz, hp⟩
        refine ⟨(z, p - Spec.rigid c.cylinder.rotation c.cylinder.center ![0, 0, z]), ⟨abs_le.mp hz, ?_⟩, by simp⟩
        have hp' : (p - Spec.rigid c.cylinder.rotation c.cylinder.center ![0, 0, z]) ⬝ᵥ
          (p - Spec.rigid c.cylinder.rotation c.cylinder.center ![0, 0, z]) ≤ c.cylinder.radius ^ 2 := hp
        rw [← sub_zero (p - _)] at hp'
        exact hp'
      · rintro ⟨⟨z, w⟩, ⟨hz, hw⟩, rfl⟩
        refine ⟨z, abs_le.mpr hz, ?_⟩
        have hw' : (w - 0) ⬝ᵥ (w - 0) ≤ c.cylinder.radius ^ 2 := hw
        show (_ + w - _) ⬝ᵥ (_ + w - _) ≤ _
        rw [add_sub_cancel_left]
        rwa [sub_zero] at hw'
    rw [this]
    refine (isCompact_Icc.prod (ball_compact _ _)).image ?_
    refine ((continuous_rigid _ _).comp ?_).add continuous_snd
    refine continuous_pi fun i => ?_
    fin_cases i
    · exact continuous_const
    · exact continuous_const
    · exact continuous_fst

/-- Two shapes have a closest pair of points. -/
theorem closest_exists {s1 s2 : AnyShape ℝ} (h1 : s1.Valid) (h2 : s2.Valid) :
    ∃ p q, (p ∈ Spec.region s1 ∧ q ∈ Spec.region s2) ∧
      ∀ p' q', p' ∈ Spec.region s1 ∧ q' ∈ Spec.region s2 → Spec.dist p q ≤ Spec.dist p' q' := by
  have hc : Continuous fun pq : (Fin 3 → ℝ) × (Fin 3 → ℝ) => Spec.dist pq.1 pq.2 := by
    unfold Spec.dist
    exact Real.continuous_sqrt.comp (continuous_dot_self.comp (continuous_snd.sub continuous_fst))
  obtain ⟨⟨p, q⟩, hpq, hmin⟩ := ((AnyShape.compact h1).prod (AnyShape.compact h2)).exists_isMinOn
    ((AnyShape.nonempty h1).prod (AnyShape.nonempty h2)) hc.continuousOn
  exact ⟨p, q, hpq, fun p' q' h => hmin (Set.mk_mem_prod h.1 h.2)⟩

/-- C67: `closest_points` on two shapes of any classes, with a solver that solves the problem posed: it returns points
of the two shapes and their distance, and no pair of points of the shapes is closer. -/
theorem C67_closest (solver : ((Fin 3 → ℝ) → (Fin 3 → ℝ) → ℝ) → ((Fin 3 → ℝ) → (Fin 3 → ℝ) → Prop) →
      (Fin 3 → ℝ) × (Fin 3 → ℝ)) (hsolver : Spec.Optimal solver) (s1 s2 : AnyShape ℝ) (h1 : s1.Valid) (h2 : s2.Valid) :
    ∃ info, closestPoints solver s1 s2 = .ok info ∧ info.p1 ∈ Spec.region s1 ∧ info.p2 ∈ Spec.region s2 ∧
      info.dist = Spec.dist info.p1 info.p2 ∧
      ∀ p ∈ Spec.region s1, ∀ q ∈ Spec.region s2, info.dist ≤ Spec.dist p q := by
  obtain ⟨c1, e1⟩ := AnyShape.mustContain_ok h1 0
  obtain ⟨c2, e2⟩ := AnyShape.mustContain_ok h2 0
  have hok : ∃ c, closestConstraints s1 s2 0 0 = .ok c := by
    unfold closestConstraints
    rw [e1, e2]
    exact ⟨_, rfl⟩
  obtain ⟨c, hc⟩ := hok
  obtain ⟨p, q, hpq, hmin⟩ := closest_exists h1 h2
  obtain ⟨h3, h4⟩ := hsolver (fun p1 p2 => norm2 (p2 - p1)) (fun p1 p2 => Py.Holds (closestConstraints s1 s2 p1 p2))
    ⟨p, q, (closestConstraints_iff h1 h2 p q).2 hpq, fun p' q' h => hmin p' q' ((closestConstraints_iff h1 h2 p' q').1 h)⟩
  rw [closestConstraints_iff h1 h2] at h3
  refine ⟨⟨_, _, _⟩, by unfold closestPoints; rw [hc]; rfl, h3.1, h3.2, rfl, fun p hp q hq => ?_⟩
  exact h4 p q ((closestConstraints_iff h1 h2 p q).2 ⟨hp, hq⟩)

theorem dist_eq_zero {p q : Fin 3 → ℝ} : Spec.dist p q = 0 ↔ p = q := by
  unfold Spec.dist
  rw [Real.sqrt_eq_zero (dot_self_nonneg _), dot_self_eq_zero, sub_eq_zero]
  exact eq_comm

/-- C67: the distance is zero exactly if the shapes intersect, and then both points are the same point of the
intersection. -/
theorem C67_intersect (solver : ((Fin 3 → ℝ) → (Fin 3 → ℝ) → ℝ) → ((Fin 3 → ℝ) → (Fin 3 → ℝ) → Prop) →
      (Fin 3 → ℝ) × (Fin 3 → ℝ)) (hsolver : Spec.Optimal solver) (s1 s2 : AnyShape ℝ) (h1 : s1.Valid) (h2 : s2.Valid)
    (info : ClosestPointInfo) (hinfo : closestPoints solver s1 s2 = .ok info) :
    (info.dist = 0 ↔ (Spec.region s1 ∩ Spec.region s2).Nonempty) ∧
    (info.dist = 0 → info.p1 = info.p2 ∧ info.p1 ∈ Spec.region s1 ∩ Spec.region s2) := by
  obtain ⟨info', h3, h4, h5, h6, h7⟩ := C67_closest solver hsolver s1 s2 h1 h2
  rw [hinfo] at h3
  obtain rfl := Except.ok.inj h3
  have key : info.dist = 0 → info.p1 = info.p2 ∧ info.p1 ∈ Spec.region s1 ∩ Spec.region s2 := by
    intro h0
    have he : info.p1 = info.p2 := dist_eq_zero.1 (h6 ▸ h0)
    exact ⟨he, h4, he ▸ h5⟩
  refine ⟨⟨fun h0 => ⟨_, (key h0).2⟩, ?_⟩, key⟩
  rintro ⟨x, hx1, hx2⟩
  have h8 := h7 x hx1 x hx2
  rw [dist_eq_zero.2 rfl] at h8
  refine le_antisymm h8 ?_
  rw [h6]
  exact Real.sqrt_nonneg _

/-- C67: the distance does not depend on the solver or on the order of the shapes. -/
theorem C67_symm (solver solver' : ((Fin 3 → ℝ) → (Fin 3 → ℝ) → ℝ) → ((Fin 3 → ℝ) → (Fin 3 → ℝ) → Prop) →
      (Fin 3 → ℝ) × (Fin 3 → ℝ)) (hsolver : Spec.Optimal solver) (hsolver' : Spec.Optimal solver') (s1 s2 : AnyShape ℝ)
    (h1 : s1.Valid) (h2 : s2.Valid) (info info' : ClosestPointInfo) (hinfo : closestPoints solver s1 s2 = .ok info)
    (hinfo' : closestPoints solver' s2 s1 = .ok info') : info.dist = info'.dist := by
  obtain ⟨i1, a1, a2, a3, a4, a5⟩ := C67_closest solver hsolver s1 s2 h1 h2
  obtain ⟨i2, b1, b2, b3, b4, b5⟩ := C67_closest solver' hsolver' s2 s1 h2 h1
  rw [hinfo] at a1
  rw [hinfo'] at b1
  obtain rfl := Except.ok.inj a1
  obtain rfl := Except.ok.inj b1
  have hs : ∀ p q, Spec.dist p q = Spec.dist q p := by
    intro p q
    unfold Spec.dist
    rw [← neg_sub p q, neg_dotProduct, dotProduct_neg, neg_neg]
  refine le_antisymm ?_ ?_
  · have := a5 _ b3 _ b2
    rwa [hs, ← b4] at this
  · have := b5 _ a3 _ a2
    rwa [hs, ← a4] at this

open Classical in
/-- A solver with the assumed property exists. -/
theorem exists_optimal : ∃ solver, Spec.Optimal solver :=
  ⟨fun f C => if h : ∃ p q, C p q ∧ ∀ p' q', C p' q' → f p q ≤ f p' q' then (h.choose, h.choose_spec.choose) else 0,
    fun f C h => by
      dsimp only
      rw [dif_pos h]
      exact h.choose_spec.choose_spec⟩

/-- A concrete pair: a unit ball and a box at distance two. -/
example : ∃ solver info, Spec.Optimal solver ∧
    closestPoints solver (.ellipsoid ⟨fun _ => 1, 1, 0⟩) (.box ⟨fun _ => 1, 1, ![4, 0, 0]⟩) = .ok info ∧ info.dist = 2 := by
  obtain ⟨solver, hs⟩ := exists_optimal
  have hv1 : (AnyShape.ellipsoid ⟨fun _ => 1, 1, 0⟩ : AnyShape ℝ).Valid := ⟨Spec.Orthogonal.one, fun _ => zero_le_one⟩
  have hv2 : (AnyShape.box ⟨fun _ => 1, 1, ![4, 0, 0]⟩ : AnyShape ℝ).Valid := ⟨Spec.Orthogonal.one, fun _ => zero_le_one⟩
  obtain ⟨info, h1, h2, h3, h4, h5⟩ := C67_closest solver hs _ _ hv1 hv2
  refine ⟨solver, info, hs, h1, le_antisymm ?_ ?_⟩
  · have h6 := h5 ![1, 0, 0] ⟨![1, 0, 0], by simp, by simp [Spec.rigid]⟩ ![3, 0, 0]
      ⟨![-1, 0, 0], by intro i; fin_cases i <;> simp, by ext i; fin_cases i <;> simp [Spec.rigid]; norm_num⟩
    refine h6.trans (le_of_eq ?_)
    unfold Spec.dist
    rw [show ((![3, 0, 0] - ![1, 0, 0] : Fin 3 → ℝ) ⬝ᵥ (![3, 0, 0] - ![1, 0, 0])) = 2 ^ 2 by
      simp [dotProduct, Fin.sum_univ_three]; norm_num]
    exact Real.sqrt_sq (by norm_num)
  · obtain ⟨u, hu, hp⟩ := h2
    obtain ⟨y, hy, hq⟩ := h3
    rw [h4]
    unfold Spec.dist
    refine Real.le_sqrt_of_sq_le ?_
    have e1 : info.p1 0 = u 0 := by rw [hp]; simp [Spec.rigid]
    have e2 : info.p2 0 = y 0 + 4 := by rw [hq]; simp [Spec.rigid]
    have h6 : u 0 ^ 2 ≤ 1 := by
      simp only [dotProduct, Fin.sum_univ_three] at hu
      nlinarith [mul_self_nonneg (u 1), mul_self_nonneg (u 2)]
    have h7 := (abs_le.mp (hy 0)).1
    have h8 : (2 : ℝ) ≤ info.p2 0 - info.p1 0 := by
      rw [e1, e2]
      have : u 0 ≤ 1 := by nlinarith
      linarith
    simp only [dotProduct, Fin.sum_univ_three, Pi.sub_apply]
    nlinarith [mul_self_nonneg (info.p2 1 - info.p1 1), mul_self_nonneg (info.p2 2 - info.p1 2)]

end Rigeo
