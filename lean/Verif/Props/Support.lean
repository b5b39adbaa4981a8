import Verif.Props.Extent
import Verif.Props.CylinderExact
import Verif.Props.Identify2

/-!
# C103: the optimal values of the programs with containment constraints

The tests maximise a coordinate of a point under `must_contain` and compare the optimal value with a number.  Here the
optimal value is computed for every shape and every direction, with and without scale.
-/

namespace Rigeo

open Matrix

/-! ### Support functions -/

theorem greatest_ball {n : ℕ} (w : Fin n → ℝ) : IsGreatest {t | ∃ v : Fin n → ℝ, v ⬝ᵥ v ≤ 1 ∧ w ⬝ᵥ v = t} (Real.sqrt (w ⬝ᵥ w)) := by
  have hnn : 0 ≤ w ⬝ᵥ w := Finset.sum_nonneg fun i _ => mul_self_nonneg _
  constructor
  · rcases hnn.eq_or_lt with h | h
    · exact ⟨0, by simp, by simp [← h]⟩
    · have hs := Real.sqrt_pos.mpr h
      have hq := Real.mul_self_sqrt hnn
      refine ⟨(Real.sqrt (w ⬝ᵥ w))⁻¹ • w, ?_, ?_⟩
      · rw [smul_dotProduct, dotProduct_smul, smul_eq_mul, smul_eq_mul, ← hq]
        field_simp
        simp [Real.sqrt_mul_self hs.le]
      · rw [dotProduct_smul, smul_eq_mul]
        field_simp
        rw [sq, hq]
  · rintro t ⟨v, hv, rfl⟩
    refine Real.le_sqrt_of_sq_le ?_
    have := Finset.sum_mul_sq_le_sq_mul_sq Finset.univ w v
    have e1 : ∑ i, w i ^ 2 = w ⬝ᵥ w := Finset.sum_congr rfl fun i _ => sq _
    have e2 : ∑ i, v i ^ 2 = v ⬝ᵥ v := Finset.sum_congr rfl fun i _ => sq _
    rw [e1, e2] at this
    calc (w ⬝ᵥ v) ^ 2 ≤ (w ⬝ᵥ w) * (v ⬝ᵥ v) := this
      _ ≤ (w ⬝ᵥ w) * 1 := mul_le_mul_of_nonneg_left hv hnn
      _ = _ := mul_one _

theorem dot_rigid {n : ℕ} (R : Matrix (Fin n) (Fin n) ℝ) (c u y : Fin n → ℝ) :
    u ⬝ᵥ Spec.rigid R c y = u ⬝ᵥ c + (u ᵥ* R) ⬝ᵥ y := by
  rw [Spec.rigid, dotProduct_add, dotProduct_mulVec, add_comm]

theorem greatest_ellipsoid {n : ℕ} (h : Fin n → ℝ) (R : Matrix (Fin n) (Fin n) ℝ) (c u : Fin n → ℝ) :
    IsGreatest ((fun x => u ⬝ᵥ x) '' Spec.ellipsoid h R c) (u ⬝ᵥ c + Real.sqrt (∑ i, (h i * (u ᵥ* R) i) ^ 2)) := by
  have hg := greatest_ball fun i => h i * (u ᵥ* R) i
  have e1 : ((fun i => h i * (u ᵥ* R) i) ⬝ᵥ fun i => h i * (u ᵥ* R) i) = ∑ i, (h i * (u ᵥ* R) i) ^ 2 :=
    Finset.sum_congr rfl fun i _ => (sq _).symm
  have e2 : ∀ v : Fin n → ℝ, u ⬝ᵥ Spec.rigid R c (fun i => h i * v i) = u ⬝ᵥ c + (fun i => h i * (u ᵥ* R) i) ⬝ᵥ v := fun v => by
    rw [dot_rigid]
    congr 1
    exact Finset.sum_congr rfl fun i _ => by ring
  rw [e1] at hg
  constructor
  · obtain ⟨v, hv, hv'⟩ := hg.1
    exact ⟨_, ⟨v, hv, rfl⟩, by dsimp only; rw [e2, hv']⟩
  · rintro _ ⟨_, ⟨v, hv, rfl⟩, rfl⟩
    dsimp only
    rw [e2]
    exact add_le_add_right (hg.2 ⟨v, hv, rfl⟩) _

theorem greatest_cylinder (L r : ℝ) (hL : 0 ≤ L) (hr : 0 ≤ r) (R : Matrix (Fin 3) (Fin 3) ℝ) (c u : Fin 3 → ℝ) :
    IsGreatest ((fun x => u ⬝ᵥ x) '' Spec.cylinder L r R c)
      (u ⬝ᵥ c + L / 2 * |(u ᵥ* R) 2| + r * Real.sqrt ((u ᵥ* R) 0 ^ 2 + (u ᵥ* R) 1 ^ 2)) := by
  have hg := greatest_ball (![(u ᵥ* R) 0, (u ᵥ* R) 1] : Fin 2 → ℝ)
  simp only [dotProduct, Fin.sum_univ_two, cons_val_zero, cons_val_one, ← sq] at hg
  constructor
  · obtain ⟨v, hv, hv'⟩ := hg.1
    refine ⟨_, ⟨![r * v 0, r * v 1, if 0 ≤ (u ᵥ* R) 2 then L / 2 else -(L / 2)], ?_, ?_, rfl⟩, ?_⟩
    · show |(if 0 ≤ (u ᵥ* R) 2 then L / 2 else -(L / 2) : ℝ)| ≤ L / 2
      split_ifs
      · rw [abs_of_nonneg (by positivity)]
      · rw [abs_neg, abs_of_nonneg (by positivity)]
    · simp only [cons_val_zero, cons_val_one]
      nlinarith [mul_le_mul_of_nonneg_left hv (sq_nonneg r)]
    · dsimp only
      rw [dot_rigid, ← hv']
      simp only [dotProduct, Fin.sum_univ_three, cons_val_zero, cons_val_one, cons_val]
      split_ifs with h
      · rw [abs_of_nonneg h]; ring
      · rw [abs_of_neg (not_le.mp h)]; ring
  · rintro _ ⟨_, ⟨y, hy2, hy, rfl⟩, rfl⟩
    dsimp only
    rw [dot_rigid]
    have h1 : (u ᵥ* R) 0 * y 0 + (u ᵥ* R) 1 * y 1 ≤ r * Real.sqrt ((u ᵥ* R) 0 ^ 2 + (u ᵥ* R) 1 ^ 2) := by
      rw [← Real.sqrt_sq hr, ← Real.sqrt_mul (sq_nonneg r)]
      refine Real.le_sqrt_of_sq_le ?_
      nlinarith [sq_nonneg ((u ᵥ* R) 0 * y 1 - (u ᵥ* R) 1 * y 0),
        mul_le_mul_of_nonneg_right hy (add_nonneg (sq_nonneg ((u ᵥ* R) 0)) (sq_nonneg ((u ᵥ* R) 1)))]
    have h2 : (u ᵥ* R) 2 * y 2 ≤ L / 2 * |(u ᵥ* R) 2| := by
      calc (u ᵥ* R) 2 * y 2 ≤ |(u ᵥ* R) 2 * y 2| := le_abs_self _
        _ = |(u ᵥ* R) 2| * |y 2| := abs_mul _ _
        _ ≤ |(u ᵥ* R) 2| * (L / 2) := mul_le_mul_of_nonneg_left hy2 (abs_nonneg _)
        _ = _ := mul_comm _ _
    have e : (u ᵥ* R) ⬝ᵥ y = (u ᵥ* R) 0 * y 0 + (u ᵥ* R) 1 * y 1 + (u ᵥ* R) 2 * y 2 := by
      rw [dotProduct, Fin.sum_univ_three]
    linarith

theorem greatest_capsule (L r : ℝ) (hL : 0 ≤ L) (hr : 0 ≤ r) (R : Matrix (Fin 3) (Fin 3) ℝ) (c u : Fin 3 → ℝ) :
    IsGreatest ((fun x => u ⬝ᵥ x) '' Spec.capsule L r R c)
      (u ⬝ᵥ c + L / 2 * |(u ᵥ* R) 2| + r * Real.sqrt (u ⬝ᵥ u)) := by
  have hg := greatest_ball u
  have hz : ∀ z : ℝ, u ⬝ᵥ Spec.rigid R c ![0, 0, z] = u ⬝ᵥ c + (u ᵥ* R) 2 * z := fun z => by
    rw [dot_rigid]
    simp [dotProduct, Fin.sum_univ_three]
  constructor
  · obtain ⟨v, hv, hv'⟩ := hg.1
    refine ⟨_, ⟨if 0 ≤ (u ᵥ* R) 2 then L / 2 else -(L / 2), ?_,
      (show Spec.rigid R c ![0, 0, if 0 ≤ (u ᵥ* R) 2 then L / 2 else -(L / 2)] + r • v ∈ _ from ?_)⟩, ?_⟩
    · split_ifs
      · rw [abs_of_nonneg (by positivity)]
      · rw [abs_neg, abs_of_nonneg (by positivity)]
    · simp only [Spec.ball, Set.mem_ofPred_eq, add_sub_cancel_left, smul_dotProduct, dotProduct_smul, smul_eq_mul]
      nlinarith [mul_le_mul_of_nonneg_left hv (sq_nonneg r)]
    · dsimp only
      rw [dotProduct_add, hz, dotProduct_smul, smul_eq_mul, hv']
      split_ifs with h
      · rw [abs_of_nonneg h]; ring
      · rw [abs_of_neg (not_le.mp h)]; ring
  · rintro _ ⟨x, ⟨z, hz', hx⟩, rfl⟩
    dsimp only
    have h2 : (u ᵥ* R) 2 * z ≤ L / 2 * |(u ᵥ* R) 2| := by
      calc (u ᵥ* R) 2 * z ≤ |(u ᵥ* R) 2 * z| := le_abs_self _
        _ = |(u ᵥ* R) 2| * |z| := abs_mul _ _
        _ ≤ |(u ᵥ* R) 2| * (L / 2) := mul_le_mul_of_nonneg_left hz' (abs_nonneg _)
        _ = _ := mul_comm _ _
    have h1 : u ⬝ᵥ (x - Spec.rigid R c ![0, 0, z]) ≤ r * Real.sqrt (u ⬝ᵥ u) := by
      rcases hr.eq_or_lt with rfl | hr
      · have : x - Spec.rigid R c ![0, 0, z] = 0 := by
          rw [← dotProduct_self_eq_zero]
          refine le_antisymm ?_ (Finset.sum_nonneg fun i _ => mul_self_nonneg _)
          simpa [Spec.ball] using hx
        rw [this]; simp
      · have := hg.2 ⟨r⁻¹ • (x - Spec.rigid R c ![0, 0, z]), ?_, rfl⟩
        · rw [dotProduct_smul, smul_eq_mul, inv_mul_le_iff₀ hr] at this
          exact this
        · rw [smul_dotProduct, dotProduct_smul, smul_eq_mul, smul_eq_mul, ← mul_assoc, ← mul_inv, inv_mul_le_iff₀ (by positivity),
            mul_one, ← sq]
          exact hx
    rw [dotProduct_sub, hz] at h1
    linarith

theorem greatest_box (h : Fin 3 → ℝ) (hh : ∀ i, 0 ≤ h i) (R : Matrix (Fin 3) (Fin 3) ℝ) (c u : Fin 3 → ℝ) :
    IsGreatest ((fun x => u ⬝ᵥ x) '' Spec.box h R c) (u ⬝ᵥ c + ∑ i, h i * |(u ᵥ* R) i|) := by
  constructor
  · refine ⟨_, ⟨fun i => if 0 ≤ (u ᵥ* R) i then h i else -h i, fun i => ?_, rfl⟩, ?_⟩
    · dsimp only
      split_ifs <;> simp [abs_of_nonneg (hh i)]
    · dsimp only
      rw [dot_rigid]
      congr 1
      refine Finset.sum_congr rfl fun i _ => ?_
      dsimp only
      split_ifs with hi
      · rw [abs_of_nonneg hi]; ring
      · rw [abs_of_neg (not_le.mp hi)]; ring
  · rintro _ ⟨_, ⟨y, hy, rfl⟩, rfl⟩
    dsimp only
    rw [dot_rigid]
    refine add_le_add_right (Finset.sum_le_sum fun i _ => ?_) _
    calc (u ᵥ* R) i * y i ≤ |(u ᵥ* R) i * y i| := le_abs_self _
      _ = |(u ᵥ* R) i| * |y i| := abs_mul _ _
      _ ≤ |(u ᵥ* R) i| * h i := mul_le_mul_of_nonneg_left (hy i) (abs_nonneg _)
      _ = _ := mul_comm _ _

theorem greatest_hull {n : ℕ} (vs : List (Fin n → ℝ)) (u : Fin n → ℝ) (v : ℝ)
    (hv : IsGreatest {t | ∃ x ∈ vs, u ⬝ᵥ x = t} v) : IsGreatest ((fun x => u ⬝ᵥ x) '' Spec.hull vs) v := by
  constructor
  · obtain ⟨x, hx, e⟩ := hv.1
    exact ⟨x, subset_convexHull ℝ _ hx, e⟩
  · rintro _ ⟨x, hx, rfl⟩
    have hc : Convex ℝ {x : Fin n → ℝ | u ⬝ᵥ x ≤ v} := by
      intro x hx y hy a b ha hb hab
      simp only [Set.mem_ofPred_eq] at hx hy ⊢
      rw [dotProduct_add, dotProduct_smul, dotProduct_smul, smul_eq_mul, smul_eq_mul]
      have : v = a * v + b * v := by rw [← add_mul, hab, one_mul]
      linarith [mul_le_mul_of_nonneg_left hx ha, mul_le_mul_of_nonneg_left hy hb]
    exact convexHull_min (fun x hx => hv.2 ⟨x, hx, rfl⟩) hc hx

/-! ### The programs -/

/-- The values `u ⬝ᵥ p` over the points `p` that satisfy a constraint, as in
tests/test_ellipsoid.py:159-163. -/
def programValues {n : ℕ} (constraint : (Fin n → ℝ) → Prop) (u : Fin n → ℝ) : Set ℝ := {t | ∃ p, constraint p ∧ u ⬝ᵥ p = t}

/-- The values `u ⬝ᵥ h` over `h` and a mass between zero and `M`, as in tests/test_ellipsoid.py:166-173. -/
def scaledValues {n : ℕ} (constraint : (Fin n → ℝ) → ℝ → Prop) (M : ℝ) (u : Fin n → ℝ) : Set ℝ :=
  {t | ∃ (h : Fin n → ℝ) (m : ℝ), 0 ≤ m ∧ m ≤ M ∧ constraint h m ∧ u ⬝ᵥ h = t}

theorem greatest_programs {n : ℕ} {S : Set (Fin n → ℝ)} {con : (Fin n → ℝ) → ℝ → Prop}
    (hpos : ∀ q s, 0 < s → (con q s ↔ s⁻¹ • q ∈ S)) (hzero : ∀ q, con q 0 ↔ q = 0) {u : Fin n → ℝ} {v : ℝ}
    (hv : IsGreatest ((fun x => u ⬝ᵥ x) '' S) v) :
    IsGreatest (programValues (fun p => con p 1) u) v ∧
    ∀ M, 0 ≤ M → IsGreatest (scaledValues con M u) (M * max 0 v) := by
  have hone : ∀ q, con q 1 ↔ q ∈ S := fun q => by rw [hpos q 1 one_pos, inv_one, one_smul]
  refine ⟨⟨?_, ?_⟩, fun M hM => ⟨?_, ?_⟩⟩
  · obtain ⟨x, hx, e⟩ := hv.1
    exact ⟨x, (hone x).mpr hx, e⟩
  · rintro _ ⟨p, hp, rfl⟩
    exact hv.2 ⟨p, (hone p).mp hp, rfl⟩
  · rcases hM.eq_or_lt with rfl | hM
    · exact ⟨0, 0, le_rfl, le_rfl, (hzero 0).mpr rfl, by simp⟩
    · rcases le_total v 0 with h | h
      · exact ⟨0, 0, le_rfl, hM.le, (hzero 0).mpr rfl, by simp [max_eq_left h]⟩
      · obtain ⟨x, hx, e⟩ := hv.1
        refine ⟨M • x, M, hM.le, le_rfl, (hpos _ _ hM).mpr ?_, ?_⟩
        · rwa [smul_smul, inv_mul_cancel₀ hM.ne', one_smul]
        · rw [dotProduct_smul, smul_eq_mul, max_eq_right h]
          exact congrArg _ e
  · rintro _ ⟨h, m, hm, hmM, hc, rfl⟩
    rcases hm.eq_or_lt with rfl | hm
    · rw [(hzero h).mp hc, dotProduct_zero]
      exact mul_nonneg hM (le_max_left _ _)
    · have := hv.2 ⟨_, (hpos _ _ hm).mp hc, rfl⟩
      dsimp only at this
      rw [dotProduct_smul, smul_eq_mul, inv_mul_le_iff₀ hm] at this
      calc u ⬝ᵥ h ≤ m * v := this
        _ ≤ m * max 0 v := mul_le_mul_of_nonneg_left (le_max_right _ _) hm.le
        _ ≤ _ := mul_le_mul_of_nonneg_right hmM (le_max_left _ _)

theorem ellipsoid_quadratic {n : ℕ} (e : Ellipsoid ℝ n) (u : Fin n → ℝ) :
    u ⬝ᵥ e.E *ᵥ u = ∑ i, (e.halfExtents i * (u ᵥ* e.rotation) i) ^ 2 := by
  rw [Ellipsoid.E, ← mulVec_mulVec, ← mulVec_mulVec, dotProduct_mulVec, mulVec_transpose]
  refine Finset.sum_congr rfl fun i _ => ?_
  rw [mulVec_diagonal]
  ring

/-- C103: the largest value of a linear objective under `Ellipsoid.must_contain`, also for flat ellipsoids. -/
theorem C103_ellipsoid {n : ℕ} (e : Ellipsoid ℝ n) (hR : Spec.Orthogonal e.rotation) (u : Fin n → ℝ) :
    IsGreatest (programValues (fun p => e.mustContain p) u) (u ⬝ᵥ e.center + Real.sqrt (u ⬝ᵥ e.E *ᵥ u)) ∧
    ∀ M, 0 ≤ M → IsGreatest (scaledValues (fun h m => e.mustContain h m) M u)
      (M * max 0 (u ⬝ᵥ e.center + Real.sqrt (u ⬝ᵥ e.E *ᵥ u))) := by
  rw [ellipsoid_quadratic]
  exact greatest_programs (fun q s hs => C29_mustContain e hR q s hs) (fun q => C29_zero_scale e hR q) (greatest_ellipsoid _ _ _ _)

/-- Only the origin satisfies `must_contain` of a bounded polyhedron with scale zero. -/
theorem poly_zero_scale {n : ℕ} (P : Poly ℝ n) (hP : P.Consistent) (q : Fin n → ℝ) : P.mustContain q 0 ↔ q = 0 := by
  constructor
  · intro h
    obtain ⟨B, hB⟩ := hull_bounded P.vertices
    obtain ⟨v, hv⟩ := List.exists_mem_of_ne_nil _ hP.1
    have hv' : v ∈ Spec.hull P.vertices := subset_convexHull ℝ _ hv
    funext i
    by_contra hi
    have hi' : 0 < |q i| := abs_pos.mpr hi
    set t := (2 * B + 1) / |q i| with ht
    have hB0 : 0 ≤ B := (abs_nonneg _).trans (hB v hv' i)
    have ht0 : 0 ≤ t := by positivity
    have hm : v + t • q ∈ Spec.hull P.vertices := by
      rw [hP.2.2] at hv' ⊢
      intro f hf
      rw [dotProduct_add, dotProduct_smul, smul_eq_mul]
      have h1 := h f hf
      rw [zero_mul] at h1
      nlinarith [hv' f hf, mul_nonpos_of_nonneg_of_nonpos ht0 h1]
    have h1 := hB _ hm i
    have h2 := hB v hv' i
    have h3 : |t * q i| = 2 * B + 1 := by
      rw [abs_mul, abs_of_nonneg ht0, ht, div_mul_cancel₀ _ hi'.ne']
    have h4 : |t * q i| ≤ |v i + t * q i| + |v i| := by
      have := abs_sub (v i + t * q i) (v i)
      rwa [add_sub_cancel_left] at this
    simp only [Pi.add_apply, Pi.smul_apply, smul_eq_mul] at h1
    linarith
  · rintro rfl f hf
    simp

/-- C103: the largest value of a linear objective under `must_contain` of a polyhedron. -/
theorem C103_poly {n : ℕ} (P : Poly ℝ n) (hP : P.Consistent) (u : Fin n → ℝ) (v : ℝ)
    (hv : IsGreatest {t | ∃ x ∈ P.vertices, u ⬝ᵥ x = t} v) :
    IsGreatest (programValues (fun p => P.mustContain p) u) v ∧
    ∀ M, 0 ≤ M → IsGreatest (scaledValues (fun h m => P.mustContain h m) M u) (M * max 0 v) := by
  refine greatest_programs (S := Spec.hull P.vertices) (fun q s hs => ?_) (fun q => ?_) (greatest_hull _ _ _ hv)
  · rw [C30_poly P q s hs, hP.contains_iff]
  · exact poly_zero_scale P hP q

/-- C103: the largest value of a linear objective under `must_contain` of a box. -/
theorem C103_box (b : Box ℝ) (hR : Spec.Orthogonal b.rotation) (hb : ∀ i, 0 ≤ b.halfExtents i) (u : Fin 3 → ℝ) :
    IsGreatest (programValues (fun p => b.mustContain p) u)
      (u ⬝ᵥ b.center + ∑ i, b.halfExtents i * |b.rotation.col i ⬝ᵥ u|) ∧
    ∀ M, 0 ≤ M → IsGreatest (scaledValues (fun h m => b.mustContain h m) M u)
      (M * max 0 (u ⬝ᵥ b.center + ∑ i, b.halfExtents i * |b.rotation.col i ⬝ᵥ u|)) := by
  have hw : ∀ i, b.rotation.col i ⬝ᵥ u = (u ᵥ* b.rotation) i := fun i => by
    rw [dotProduct_comm]; rfl
  simp only [hw]
  refine greatest_programs (fun q s hs => C30_box b hR q s hs) (fun q => ?_) (greatest_box _ hb _ _ _)
  exact poly_zero_scale b.toPoly (b.toPoly_consistent hb hR) q

/-- C103: the largest value of a linear objective under `Cylinder.must_contain`. -/
theorem C103_cylinder (c : Cylinder ℝ) (hR : Spec.Orthogonal c.rotation) (hL : 0 ≤ c.length) (hr : 0 ≤ c.radius) (u : Fin 3 → ℝ) :
    IsGreatest (programValues (fun p => c.mustContain p) u)
      (u ⬝ᵥ c.center + c.length / 2 * |c.rotation.col 2 ⬝ᵥ u| +
        c.radius * Real.sqrt ((c.rotation.col 0 ⬝ᵥ u) ^ 2 + (c.rotation.col 1 ⬝ᵥ u) ^ 2)) ∧
    ∀ M, 0 ≤ M → IsGreatest (scaledValues (fun h m => c.mustContain h m) M u)
      (M * max 0 (u ⬝ᵥ c.center + c.length / 2 * |c.rotation.col 2 ⬝ᵥ u| +
        c.radius * Real.sqrt ((c.rotation.col 0 ⬝ᵥ u) ^ 2 + (c.rotation.col 1 ⬝ᵥ u) ^ 2))) := by
  have hw : ∀ i, c.rotation.col i ⬝ᵥ u = (u ᵥ* c.rotation) i := fun i => by
    rw [dotProduct_comm]; rfl
  simp only [hw]
  refine greatest_programs (fun q s hs => C30_cylinder c hR hL hr q s hs) (fun q => ?_) (greatest_cylinder _ _ hL hr _ _ _)
  rw [Cylinder.mustContain, C29_zero_scale _ Spec.Orthogonal.one, C29_zero_scale _ Spec.Orthogonal.one]
  constructor
  · rintro ⟨h1, h2⟩
    have h3 : q ᵥ* c.rotation = 0 := by
      funext i
      fin_cases i
      · exact congrFun h2 0
      · exact congrFun h2 1
      · exact congrFun h1 0
    have h4 : (q ᵥ* c.rotation) ᵥ* c.rotationᵀ = 0 := by rw [h3, zero_vecMul]
    rwa [vecMul_vecMul, mul_eq_one_comm.mp hR, vecMul_one] at h4
  · rintro rfl
    exact ⟨by simp; rfl, by simp⟩

/-- C103: the largest value of a linear objective under `Capsule.must_contain`. -/
theorem C103_capsule (c : Capsule ℝ) (hR : Spec.Orthogonal c.cylinder.rotation) (hL : 0 ≤ c.cylinder.length)
    (hr : 0 ≤ c.cylinder.radius) (u : Fin 3 → ℝ) :
    IsGreatest (programValues (fun p => Py.Holds (c.mustContain p)) u)
      (u ⬝ᵥ c.cylinder.center + c.cylinder.length / 2 * |c.cylinder.rotation.col 2 ⬝ᵥ u| + c.cylinder.radius * Real.sqrt (u ⬝ᵥ u)) ∧
    ∀ M, 0 ≤ M → IsGreatest (scaledValues (fun h m => Py.Holds (c.mustContain h m)) M u)
      (M * max 0 (u ⬝ᵥ c.cylinder.center + c.cylinder.length / 2 * |c.cylinder.rotation.col 2 ⬝ᵥ u| +
        c.cylinder.radius * Real.sqrt (u ⬝ᵥ u))) := by
  have hw : ∀ i, c.cylinder.rotation.col i ⬝ᵥ u = (u ᵥ* c.cylinder.rotation) i := fun i => by
    rw [dotProduct_comm]; rfl
  simp only [hw]
  refine greatest_programs (fun q s hs => C30_capsule c hR hL hr q s hs) (fun q => ?_) (greatest_capsule _ _ hL hr _ _ _)
  unfold Capsule.mustContain
  rw [c.caps_ok hr]
  simp only [bind, Except.bind, pure, Except.pure, Py.Holds]
  constructor
  · rintro ⟨p, hp, h⟩
    rw [← Except.ok.inj hp] at h
    obtain ⟨p1, p2, t, h1, h2, h3, h4, rfl⟩ := h
    obtain rfl : t = 0 := le_antisymm h4 h3
    rw [sub_self, C29_zero_scale _ Spec.Orthogonal.one] at h2
    rw [C29_zero_scale _ Spec.Orthogonal.one] at h1
    rw [h1, h2, add_zero]
  · rintro rfl
    refine ⟨_, rfl, 0, 0, 0, (C29_zero_scale _ Spec.Orthogonal.one 0).mpr rfl, ?_, le_rfl, le_rfl, (add_zero 0).symm⟩
    rw [sub_self]
    exact (C29_zero_scale _ Spec.Orthogonal.one 0).mpr rfl

/-- C103: the point of a capsule farthest in a direction that is not transverse is unique. -/
theorem C103_capsule_unique (c : Capsule ℝ) (hR : Spec.Orthogonal c.cylinder.rotation) (hL : 0 ≤ c.cylinder.length)
    (hr : 0 ≤ c.cylinder.radius) (u : Fin 3 → ℝ) (hu : 0 < c.cylinder.rotation.col 2 ⬝ᵥ u) (p : Fin 3 → ℝ) :
    (Py.Holds (c.mustContain p) ∧ IsGreatest (programValues (fun p => Py.Holds (c.mustContain p)) u) (u ⬝ᵥ p)) ↔
      p = c.cylinder.center + (c.cylinder.length / 2) • c.cylinder.rotation.col 2 +
        (c.cylinder.radius / Real.sqrt (u ⬝ᵥ u)) • u := by
  have hg := (C103_capsule c hR hL hr u).1
  have hmem := C30_capsule c hR hL hr p 1 one_pos
  rw [inv_one, one_smul] at hmem
  have hax : ∀ z : ℝ, Spec.rigid c.cylinder.rotation c.cylinder.center ![0, 0, z] = c.cylinder.center + z • c.cylinder.rotation.col 2 := by
    intro z
    funext i
    simp [Spec.rigid, mulVec, dotProduct, Fin.sum_univ_three]
    ring
  set R := c.cylinder.rotation
  set r := c.cylinder.radius
  set L := c.cylinder.length
  set x := c.cylinder.center
  have hu0 : u ≠ 0 := by rintro rfl; simp at hu
  have huu : 0 < u ⬝ᵥ u := lt_of_le_of_ne (Finset.sum_nonneg fun i _ => mul_self_nonneg _)
    fun e => hu0 (dotProduct_self_eq_zero.mp e.symm)
  have hs := Real.sqrt_pos.mpr huu
  have hq := Real.mul_self_sqrt huu.le
  set n := Real.sqrt (u ⬝ᵥ u)
  rw [abs_of_pos hu] at hg
  constructor
  · rintro ⟨h1, h2⟩
    have hval := h2.unique hg
    obtain ⟨z, hz, hb⟩ := hmem.mp h1
    rw [hax] at hb
    set d := p - (x + z • R.col 2) with hd
    have hb' : d ⬝ᵥ d ≤ r ^ 2 := hb
    have hp : p = x + z • R.col 2 + d := by rw [hd]; abel
    have hcs : u ⬝ᵥ d ≤ r * n := by
      have h3 : (u ⬝ᵥ d) ^ 2 ≤ (r * n) ^ 2 := by
        have := Finset.sum_mul_sq_le_sq_mul_sq Finset.univ u d
        have e1 : ∑ i, u i ^ 2 = u ⬝ᵥ u := Finset.sum_congr rfl fun i _ => sq _
        have e2 : ∑ i, d i ^ 2 = d ⬝ᵥ d := Finset.sum_congr rfl fun i _ => sq _
        rw [e1, e2] at this
        calc (u ⬝ᵥ d) ^ 2 ≤ (u ⬝ᵥ u) * (d ⬝ᵥ d) := this
          _ ≤ (u ⬝ᵥ u) * r ^ 2 := mul_le_mul_of_nonneg_left hb' huu.le
          _ = _ := by rw [← hq]; ring
      exact (le_abs_self _).trans (abs_le_of_sq_le_sq h3 (by positivity))
    clear_value d
    have hzL := (abs_le.mp hz).2
    have hsum : z * (R.col 2 ⬝ᵥ u) + u ⬝ᵥ d = L / 2 * (R.col 2 ⬝ᵥ u) + r * n := by
      rw [hp, dotProduct_add, dotProduct_add, dotProduct_smul, smul_eq_mul, dotProduct_comm u (R.col 2)] at hval
      linarith
    have hzeq : z = L / 2 := by
      refine le_antisymm hzL ?_
      have : L / 2 * (R.col 2 ⬝ᵥ u) ≤ z * (R.col 2 ⬝ᵥ u) := by linarith
      exact le_of_mul_le_mul_right this hu
    have hud : u ⬝ᵥ d = r * n := by rw [hzeq] at hsum; linarith
    have hdu : d - (r / n) • u = 0 := by
      rw [← dotProduct_self_eq_zero]
      refine le_antisymm ?_ (Finset.sum_nonneg fun i _ => mul_self_nonneg _)
      rw [sub_dotProduct, dotProduct_sub, dotProduct_sub, smul_dotProduct, dotProduct_smul, smul_dotProduct, dotProduct_smul,
        dotProduct_comm d u, hud, ← hq]
      simp only [smul_eq_mul]
      have : r / n * (r * n) = r ^ 2 := by field_simp
      have h5 : r / n * (r / n * (n * n)) = r ^ 2 := by field_simp
      linarith
    rw [hp, hzeq, sub_eq_zero.mp hdu]
  · rintro rfl
    refine ⟨hmem.mpr ⟨L / 2, by rw [abs_of_nonneg (by positivity)], ?_⟩, ?_⟩
    · rw [hax]
      simp only [Spec.ball, Set.mem_ofPred_eq, add_sub_cancel_left, smul_dotProduct, dotProduct_smul, smul_eq_mul]
      rw [← hq]
      refine le_of_eq ?_
      field_simp
    · convert hg using 1
      rw [dotProduct_add, dotProduct_add, dotProduct_smul, dotProduct_smul, smul_eq_mul, smul_eq_mul, dotProduct_comm u (R.col 2), ← hq]
      field_simp

/-! ### Exact moment constraints -/

/-- The values of an objective over the parameters of mass at most `M` that satisfy a constraint, as in
tests/test_ellipsoid_realizability.py:90-99. -/
def momentValues (constraint : IP ℝ → Prop) (M : ℝ) (f : IP ℝ → ℝ) : Set ℝ :=
  {t | ∃ q : IP ℝ, q.Hᵀ = q.H ∧ q.mass ≤ M ∧ constraint q ∧ f q = t}

theorem Spec.Realizable.second_le {S : Set (Fin 3 → ℝ)} {m : ℝ} {h : Fin 3 → ℝ} {H : Matrix (Fin 3) (Fin 3) ℝ}
    (hr : Spec.Realizable S m h H) (u : Fin 3 → ℝ) (a b : ℝ) (ha : ∀ x ∈ S, a ≤ u ⬝ᵥ x) (hb : ∀ x ∈ S, u ⬝ᵥ x ≤ b) :
    0 ≤ m ∧ u ⬝ᵥ h ≤ m * b ∧ u ⬝ᵥ H *ᵥ u ≤ m * max (a ^ 2) (b ^ 2) := by
  obtain ⟨s, hs, hw, rfl, rfl, rfl⟩ := hr
  induction s with
  | nil => simp [Spec.PointMasses.mass, Spec.PointMasses.first, Spec.PointMasses.second]
  | cons p s ih =>
    obtain ⟨i1, i2, i3⟩ := ih (fun q hq => hs q (List.mem_cons_of_mem _ hq)) (fun q hq => hw q (List.mem_cons_of_mem _ hq))
    have hp := hs p List.mem_cons_self
    have hpw := hw p List.mem_cons_self
    have hm : Spec.PointMasses.mass (p :: s) = p.1 + Spec.PointMasses.mass s := by simp [Spec.PointMasses.mass]
    have hf : Spec.PointMasses.first (p :: s) = p.1 • p.2 + Spec.PointMasses.first s := by simp [Spec.PointMasses.first]
    have hh : Spec.PointMasses.second (p :: s) = p.1 • vecMulVec p.2 p.2 + Spec.PointMasses.second s := by
      simp [Spec.PointMasses.second]
    have hsq : (u ⬝ᵥ p.2) ^ 2 ≤ max (a ^ 2) (b ^ 2) := by
      have h1 := ha _ hpw
      have h2 := hb _ hpw
      rcases le_total 0 (u ⬝ᵥ p.2) with h | h
      · exact le_max_of_le_right (pow_le_pow_left₀ h h2 2)
      · exact le_max_of_le_left (by nlinarith)
    refine ⟨by rw [hm]; exact add_nonneg hp i1, ?_, ?_⟩
    · rw [hm, hf, dotProduct_add, dotProduct_smul, smul_eq_mul, add_mul]
      exact add_le_add (mul_le_mul_of_nonneg_left (hb _ hpw) hp) i2
    · rw [hm, hh, add_mulVec, dotProduct_add, smul_mulVec, dotProduct_smul, vecMulVec_mulVec, op_smul_eq_smul, dotProduct_smul,
        smul_eq_mul, smul_eq_mul, add_mul, dotProduct_comm p.2 u, ← sq]
      exact add_le_add (mul_le_mul_of_nonneg_left hsq hp) i3

theorem greatest_moments {S : Set (Fin 3 → ℝ)} {con : IP ℝ → Prop}
    (hcon : ∀ q : IP ℝ, q.Hᵀ = q.H → (con q ↔ Spec.Realizable S q.mass q.h q.H)) {u : Fin 3 → ℝ} {a b : ℝ}
    (ha : IsLeast ((fun x => u ⬝ᵥ x) '' S) a) (hb : IsGreatest ((fun x => u ⬝ᵥ x) '' S) b) {M : ℝ} (hM : 0 ≤ M) :
    IsGreatest (momentValues con M fun q => u ⬝ᵥ q.h) (M * max 0 b) ∧
    IsGreatest (momentValues con M fun q => u ⬝ᵥ q.H *ᵥ u) (M * max (a ^ 2) (b ^ 2)) := by
  have hle : ∀ x ∈ S, a ≤ u ⬝ᵥ x := fun x hx => ha.2 ⟨x, hx, rfl⟩
  have hge : ∀ x ∈ S, u ⬝ᵥ x ≤ b := fun x hx => hb.2 ⟨x, hx, rfl⟩
  have hpt : ∀ m : ℝ, 0 ≤ m → ∀ x ∈ S, ∃ q : IP ℝ, q.mass = m ∧ q.h = m • x ∧ q.H = m • outer x x ∧ q.Hᵀ = q.H ∧ con q := by
    intro m hm x hx
    have hr := Spec.Realizable.point hm hx
    obtain ⟨q, e1, e2, e3, -⟩ := exists_ip hr
    have hsym : q.Hᵀ = q.H := by
      rw [e3]
      ext i j
      simp [outer, mul_comm]
    exact ⟨q, e1, e2, e3, hsym, (hcon q hsym).mpr (by rw [e1, e2, e3]; exact hr)⟩
  have hsec : ∀ (q : IP ℝ) (x : Fin 3 → ℝ), q.H = M • outer x x → u ⬝ᵥ q.H *ᵥ u = M * (u ⬝ᵥ x) ^ 2 := by
    intro q x e
    rw [e, smul_mulVec, dotProduct_smul, outer_eq_vecMulVec, vecMulVec_mulVec, op_smul_eq_smul, dotProduct_smul, smul_eq_mul,
      smul_eq_mul, dotProduct_comm x u, sq]
  obtain ⟨xa, hxa, ea⟩ := ha.1
  obtain ⟨xb, hxb, eb⟩ := hb.1
  dsimp only at ea eb
  refine ⟨⟨?_, ?_⟩, ⟨?_, ?_⟩⟩
  · rcases le_total b 0 with h | h
    · obtain ⟨q, e1, e2, e3, e4, e5⟩ := hpt 0 le_rfl xb hxb
      exact ⟨q, e4, by rw [e1]; exact hM, e5, by dsimp only; rw [e2, max_eq_left h]; simp⟩
    · obtain ⟨q, e1, e2, e3, e4, e5⟩ := hpt M hM xb hxb
      exact ⟨q, e4, e1.le, e5, by dsimp only; rw [e2, max_eq_right h, dotProduct_smul, eb, smul_eq_mul]⟩
  · rintro _ ⟨q, h1, h2, h3, rfl⟩
    obtain ⟨g1, g2, -⟩ := Spec.Realizable.second_le ((hcon q h1).mp h3) u a b hle hge
    calc u ⬝ᵥ q.h ≤ q.mass * b := g2
      _ ≤ q.mass * max 0 b := mul_le_mul_of_nonneg_left (le_max_right _ _) g1
      _ ≤ _ := mul_le_mul_of_nonneg_right h2 (le_max_left _ _)
  · rcases le_total (a ^ 2) (b ^ 2) with h | h
    · obtain ⟨q, e1, e2, e3, e4, e5⟩ := hpt M hM xb hxb
      exact ⟨q, e4, e1.le, e5, by dsimp only; rw [hsec q xb e3, eb, max_eq_right h]⟩
    · obtain ⟨q, e1, e2, e3, e4, e5⟩ := hpt M hM xa hxa
      exact ⟨q, e4, e1.le, e5, by dsimp only; rw [hsec q xa e3, ea, max_eq_left h]⟩
  · rintro _ ⟨q, h1, h2, h3, rfl⟩
    obtain ⟨g1, -, g2⟩ := Spec.Realizable.second_le ((hcon q h1).mp h3) u a b hle hge
    exact g2.trans (mul_le_mul_of_nonneg_right h2 ((sq_nonneg a).trans (le_max_left _ _)))

/-- A set symmetric about a point extends equally far on both sides of it. -/
theorem least_of_greatest {S : Set (Fin 3 → ℝ)} {u : Fin 3 → ℝ} {k w : ℝ}
    (h1 : IsGreatest ((fun x => u ⬝ᵥ x) '' S) (k + w)) (h2 : IsGreatest ((fun x => -(u ⬝ᵥ x)) '' S) (-k + w)) :
    IsLeast ((fun x => u ⬝ᵥ x) '' S) (k - w) := by
  constructor
  · obtain ⟨x, hx, e⟩ := h2.1
    dsimp only at e
    exact ⟨x, hx, by dsimp only; linarith⟩
  · rintro _ ⟨x, hx, rfl⟩
    have := h2.2 ⟨x, hx, rfl⟩
    dsimp only at this ⊢
    linarith

theorem max_sq_sides {k w : ℝ} (hw : 0 ≤ w) : max ((k - w) ^ 2) ((k + w) ^ 2) = (|k| + w) ^ 2 := by
  rcases le_total 0 k with h | h
  · rw [abs_of_nonneg h, max_eq_right]
    nlinarith [mul_nonneg h hw]
  · rw [abs_of_nonpos h, max_eq_left]
    · ring
    · nlinarith [mul_nonneg (neg_nonneg.mpr h) hw]

/-- C103: the largest first and second moments under `Ellipsoid.moment_constraints`, also for flat ellipsoids. -/
theorem C103_ellipsoid_moments (e : Ellipsoid ℝ 3) (hR : Spec.Orthogonal e.rotation) (he : ∀ i, Spec.Resolved (e.halfExtents i))
    (useTrace : Bool) (var : IP ℝ → ParamVar ℝ) (hvar : var = (fun q => .mat q.J) ∨ var = fun q => .vec q.vec)
    (u : Fin 3 → ℝ) (M : ℝ) (hM : 0 ≤ M) :
    IsGreatest (momentValues (fun q => Py.Holds (e.momentConstraints (var q) 0 useTrace)) M fun q => u ⬝ᵥ q.h)
      (M * max 0 (u ⬝ᵥ e.center + Real.sqrt (u ⬝ᵥ e.E *ᵥ u))) ∧
    IsGreatest (momentValues (fun q => Py.Holds (e.momentConstraints (var q) 0 useTrace)) M fun q => u ⬝ᵥ q.H *ᵥ u)
      (M * (|u ⬝ᵥ e.center| + Real.sqrt (u ⬝ᵥ e.E *ᵥ u)) ^ 2) := by
  have hE : ∀ v : Fin 3 → ℝ, v ⬝ᵥ e.E *ᵥ v = ∑ i, (e.halfExtents i * (v ᵥ* e.rotation) i) ^ 2 := ellipsoid_quadratic e
  have hg := greatest_ellipsoid e.halfExtents e.rotation e.center
  have h1 := hg u
  have h2 := hg (-u)
  rw [← hE] at h1
  rw [← hE] at h2
  simp only [neg_dotProduct, mulVec_neg, dotProduct_neg, neg_neg] at h2
  rw [← max_sq_sides (Real.sqrt_nonneg _)]
  refine greatest_moments (fun q hq => ?_) (least_of_greatest h1 h2) h1 hM
  rcases hvar with rfl | rfl
  · obtain ⟨c, hc, hiff⟩ := C51_mat e hR he q.J 0 le_rfl useTrace
    dsimp only
    have e1 : q.J 3 3 = q.mass := bordered_ll _ _ _ _
    have e2 : (fun i : Fin 3 => q.J i.castSucc 3) = q.h := funext fun i => bordered_cl _ _ _ _ i
    have e3 : (Matrix.of fun i j : Fin 3 => q.J i.castSucc j.castSucc) = q.H := by
      ext i j
      exact bordered_cc _ _ _ _ i j
    rw [hc, holds_ok, hiff, zero_smul, sub_zero, e1, e2, e3]
    exact ⟨fun h => h.2, fun h => ⟨h.psd, h⟩⟩
  · obtain ⟨c, hc, hiff⟩ := C51_vec e hR he q hq 0 le_rfl useTrace
    dsimp only
    rw [hc, holds_ok, hiff, zero_smul, sub_zero]
    exact ⟨fun h => h.2, fun h => ⟨h.psd, h⟩⟩

/-- C103: the largest first and second moments under `Cylinder.moment_custom_vertex_constraints`. -/
theorem C103_cylinder_moments (c : Cylinder ℝ) (hR : Spec.Orthogonal c.rotation) (hr : Spec.Resolved c.radius) (hL : 0 ≤ c.length)
    (var : IP ℝ → ParamVar ℝ) (hvar : var = (fun q => .mat q.J) ∨ var = fun q => .vec q.vec)
    (u : Fin 3 → ℝ) (M : ℝ) (hM : 0 ≤ M) :
    IsGreatest (momentValues (fun q => Py.Holds (c.momentCustomVertexConstraints (var q) 0)) M fun q => u ⬝ᵥ q.h)
      (M * max 0 (u ⬝ᵥ c.center + (c.length / 2 * |c.rotation.col 2 ⬝ᵥ u| +
        c.radius * Real.sqrt ((c.rotation.col 0 ⬝ᵥ u) ^ 2 + (c.rotation.col 1 ⬝ᵥ u) ^ 2)))) ∧
    IsGreatest (momentValues (fun q => Py.Holds (c.momentCustomVertexConstraints (var q) 0)) M fun q => u ⬝ᵥ q.H *ᵥ u)
      (M * (|u ⬝ᵥ c.center| + (c.length / 2 * |c.rotation.col 2 ⬝ᵥ u| +
        c.radius * Real.sqrt ((c.rotation.col 0 ⬝ᵥ u) ^ 2 + (c.rotation.col 1 ⬝ᵥ u) ^ 2))) ^ 2) := by
  have hw : ∀ (v : Fin 3 → ℝ) i, c.rotation.col i ⬝ᵥ v = (v ᵥ* c.rotation) i := fun v i => by
    rw [dotProduct_comm]; rfl
  have hg := greatest_cylinder c.length c.radius hL (hr.elim (fun h => h.ge) fun h => le_trans (by norm_num) h.le) c.rotation c.center
  have h1 := hg u
  have h2 := hg (-u)
  simp only [← hw, add_assoc] at h1 h2
  simp only [dotProduct_neg, neg_dotProduct, abs_neg, neg_sq] at h2
  rw [← max_sq_sides (add_nonneg (mul_nonneg (by positivity) (abs_nonneg _)) (mul_nonneg
    (hr.elim (fun h => h.ge) fun h => le_trans (by norm_num) h.le) (Real.sqrt_nonneg _)))]
  refine greatest_moments (fun q hq => ?_) (least_of_greatest h1 h2) h1 hM
  rcases hvar with rfl | rfl
  · exact C88_exact c hR hr hL q
  · exact C88_exact_vec c hR hr hL q hq

/-! ### The values in the tests -/

/-- tests/test_ellipsoid.py:176-182: the sphere of radius 1/2 around `(1, 1, 1)`, with mass at most one, in the `x` direction. -/
example : IsGreatest (scaledValues (fun h m => (⟨fun _ => 1 / 2, 1, 1⟩ : Ellipsoid ℝ 3).mustContain h m) 1 ![1, 0, 0]) (3 / 2) := by
  convert (C103_ellipsoid (⟨fun _ => 1 / 2, 1, 1⟩ : Ellipsoid ℝ 3) (by simp [Spec.Orthogonal]) ![1, 0, 0]).2 1 zero_le_one using 1
  have : (![1, 0, 0] : Fin 3 → ℝ) ⬝ᵥ (⟨fun _ => 1 / 2, 1, 1⟩ : Ellipsoid ℝ 3).E *ᵥ ![1, 0, 0] = (1 / 2) ^ 2 := by
    rw [ellipsoid_quadratic]
    simp [Fin.sum_univ_three]
  rw [this, Real.sqrt_sq (by norm_num)]
  simp [dotProduct, Fin.sum_univ_three]
  norm_num

/-- tests/test_ellipsoid.py:228-254: the disk tilted by 45 degrees has maximal `z` coordinate `sqrt 2 / 4`. -/
example : IsGreatest (programValues (fun p => (⟨![1 / 2, 1 / 2, 0],
    !![Real.sqrt 2 / 2, 0, Real.sqrt 2 / 2; 0, 1, 0; -(Real.sqrt 2 / 2), 0, Real.sqrt 2 / 2], 0⟩ : Ellipsoid ℝ 3).mustContain p) ![0, 0, 1])
    (1 / 4 * Real.sqrt 2) := by
  have h2 : Real.sqrt 2 * Real.sqrt 2 = 2 := Real.mul_self_sqrt (by norm_num)
  convert (C103_ellipsoid (⟨![1 / 2, 1 / 2, 0],
    !![Real.sqrt 2 / 2, 0, Real.sqrt 2 / 2; 0, 1, 0; -(Real.sqrt 2 / 2), 0, Real.sqrt 2 / 2], 0⟩ : Ellipsoid ℝ 3) (by
      ext i j
      fin_cases i <;> fin_cases j <;> simp [Matrix.mul_apply, Fin.sum_univ_three] <;> nlinarith) ![0, 0, 1]).1 using 1
  rw [ellipsoid_quadratic, dotProduct_zero, zero_add]
  symm
  rw [Real.sqrt_eq_iff_mul_self_eq (Finset.sum_nonneg fun i _ => sq_nonneg _) (by positivity)]
  simp [vecMul, dotProduct, Fin.sum_univ_three]
  nlinarith

/-- tests/test_capsule.py:10-18: the capsule of length 2 and radius 1 in the direction of its axis. -/
example (p : Fin 3 → ℝ) : (Py.Holds ((⟨⟨2, 1, 1, 0⟩⟩ : Capsule ℝ).mustContain p) ∧
    IsGreatest (programValues (fun p => Py.Holds ((⟨⟨2, 1, 1, 0⟩⟩ : Capsule ℝ).mustContain p)) ![0, 0, 1]) (![0, 0, 1] ⬝ᵥ p)) ↔
      p = ![0, 0, 2] := by
  rw [C103_capsule_unique (⟨⟨2, 1, 1, 0⟩⟩ : Capsule ℝ) (by simp [Spec.Orthogonal]) (by norm_num) (by norm_num) ![0, 0, 1]
    (by simp [dotProduct, Fin.sum_univ_three])]
  have h1 : (![0, 0, 1] : Fin 3 → ℝ) ⬝ᵥ ![0, 0, 1] = 1 := by simp [dotProduct, Fin.sum_univ_three]
  rw [h1, Real.sqrt_one]
  have : (0 : Fin 3 → ℝ) + (2 / 2 : ℝ) • (1 : Matrix (Fin 3) (Fin 3) ℝ).col 2 + (1 / 1 : ℝ) • ![0, 0, 1] = ![0, 0, 2] := by
    funext i
    fin_cases i <;> simp [Matrix.one_apply]
    norm_num
  rw [this]

/-- tests/test_cylinder_realizability.py:87-100: the offset cylinder, largest second moment along `x`. -/
example : IsGreatest (momentValues (fun q => Py.Holds ((⟨1, 1 / 2, 1, ![1, 0, 0]⟩ : Cylinder ℝ).momentCustomVertexConstraints (.mat q.J) 0)) 1
    fun q => ![1, 0, 0] ⬝ᵥ q.H *ᵥ ![1, 0, 0]) ((3 / 2) ^ 2) := by
  convert (C103_cylinder_moments (⟨1, 1 / 2, 1, ![1, 0, 0]⟩ : Cylinder ℝ) (by simp [Spec.Orthogonal]) (Or.inr (by norm_num)) (by norm_num)
    (fun q => .mat q.J) (Or.inl rfl) ![1, 0, 0] 1 zero_le_one).2 using 1
  simp [dotProduct, Fin.sum_univ_three, Matrix.one_apply]
  norm_num

end Rigeo
