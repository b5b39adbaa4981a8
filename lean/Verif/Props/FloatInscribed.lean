import Verif.Model.FloatInscribed
import Verif.Props.FloatShells
import Verif.Props.Density
import Verif.Props.Extremal

/-!
# C133: rounding in bounding ellipsoids and inscribed boxes
-/

namespace Rigeo

open Spec

local notation "u" => unitRoundoff

section
variable {fl : ℝ → ℝ} (hfl : IsRounding fl)
include hfl

theorem relErr_sqrt_three : RelErr 2 1 (Real.sqrt 3) (fl (Real.sqrt 3)) := by
  have h1 : 1 ≤ Real.sqrt 3 := Real.one_le_sqrt.mpr (by norm_num)
  have h2 : Real.sqrt 3 ≤ 3 := Real.sqrt_le_iff.mpr (by norm_num)
  have := relErr_fl hfl (relErr_exact (e := 1) (a := Real.sqrt 3) (by linarith) (by linarith)) (le_refl 0) (by norm_num) (by norm_num)
  rwa [zero_add] at this

theorem relErr_sqrt_two : RelErr 2 1 (Real.sqrt 2) (fl (Real.sqrt 2)) := by
  have h1 : 1 ≤ Real.sqrt 2 := Real.one_le_sqrt.mpr (by norm_num)
  have h2 : Real.sqrt 2 ≤ 2 := Real.sqrt_le_iff.mpr (by norm_num)
  have := relErr_fl hfl (relErr_exact (e := 1) (a := Real.sqrt 2) (by linarith) (by linarith)) (le_refl 0) (by norm_num) (by norm_num)
  rwa [zero_add] at this

omit hfl in
theorem RelErr.between {e : ℕ} {a a' : ℝ} (h : RelErr 5 e a a') : (1 - 5 * u) * a ≤ a' ∧ a' ≤ (1 + 5 * u) * a := by
  have := abs_le.mp h.2.2
  constructor <;> linarith

/-- C133: `Box.mbe` with rounding: enlarged by `6 · 2⁻⁵³` the ellipsoid contains the box, and its volume is at most `1 + 16 · 2⁻⁵³` times
that of any ellipsoid that contains the box. -/
theorem C133_box_mbe {b : Box ℝ} (hh : ∀ i, 1 / 10 ^ 15 ≤ b.halfExtents i ∧ b.halfExtents i ≤ 10 ^ 15) :
    box b.halfExtents b.rotation b.center ⊆
      ellipsoid (fun i => (1 + 6 * (2 : ℝ) ^ (-53 : ℤ)) * (b.mbeFloat fl).halfExtents i) (b.mbeFloat fl).rotation (b.mbeFloat fl).center ∧
    ∀ (O O' : Matrix (Fin 3) (Fin 3) ℝ) (c c' h' : Fin 3 → ℝ), Orthogonal O → Orthogonal O' → (∀ i, 0 ≤ h' i) →
      box b.halfExtents O c ⊆ ellipsoid h' O' c' →
      MeasureTheory.volume.real (ellipsoid (b.mbeFloat fl).halfExtents O c) ≤
        (1 + 16 * (2 : ℝ) ^ (-53 : ℤ)) * MeasureTheory.volume.real (ellipsoid h' O' c') := by
  have hu : (2 : ℝ) ^ (-53 : ℤ) = u := by unfold unitRoundoff; norm_num
  rw [hu]
  have hu0 := u_pos
  have hu1 := u_le
  have hu2 : u * u ≤ u / 1000000 := by
    have := mul_le_mul_of_nonneg_left hu1 hu0.le
    norm_num at this ⊢
    linarith
  have hpos : ∀ i, 0 < b.halfExtents i := fun i => lt_of_lt_of_le (by norm_num) (hh i).1
  have s0 : 0 < Real.sqrt 3 := Real.sqrt_pos.mpr (by norm_num)
  have s1 : Real.sqrt 3 * Real.sqrt 3 = 3 := Real.mul_self_sqrt (by norm_num)
  have r : ∀ i, RelErr 5 16 (b.halfExtents i * Real.sqrt 3) ((b.mbeFloat fl).halfExtents i) := fun i =>
    relErr_mul hfl (relErr_exact (e := 15) (hh i).1 (hh i).2) (relErr_sqrt_three hfl)
  have hlow : ∀ i, b.halfExtents i * Real.sqrt 3 ≤ (1 + 6 * u) * (b.mbeFloat fl).halfExtents i := fun i => by
    have h1 := mul_le_mul_of_nonneg_left (r i).between.1 (show 0 ≤ 1 + 6 * u by linarith)
    have h2 : 0 < b.halfExtents i * Real.sqrt 3 := (r i).pos
    have h3 := mul_le_mul_of_nonneg_right (show 1 ≤ (1 + 6 * u) * (1 - 5 * u) by linarith) h2.le
    linarith
  have hup : ∀ i, 0 ≤ (b.mbeFloat fl).halfExtents i := fun i => by
    have h2 : 0 < b.halfExtents i * Real.sqrt 3 := (r i).pos
    by_contra h
    have := hlow i
    have h3 := mul_nonpos_of_nonneg_of_nonpos (show 0 ≤ 1 + 6 * u by linarith) (le_of_lt (not_le.mp h))
    linarith
  refine ⟨?_, fun O O' c c' h' hO hO' hh' hsub => ?_⟩
  · rintro p ⟨y, hy, rfl⟩
    have hk : ∀ i, 0 < (1 + 6 * u) * (b.mbeFloat fl).halfExtents i := fun i => lt_of_lt_of_le (r i).pos (hlow i)
    refine ⟨fun i => y i / ((1 + 6 * u) * (b.mbeFloat fl).halfExtents i), ?_, ?_⟩
    · have key : ∀ i, y i / ((1 + 6 * u) * (b.mbeFloat fl).halfExtents i) * (y i / ((1 + 6 * u) * (b.mbeFloat fl).halfExtents i)) ≤
          1 / 3 := fun i => by
        have h1 : |y i / ((1 + 6 * u) * (b.mbeFloat fl).halfExtents i)| ≤ 1 / Real.sqrt 3 := by
          rw [abs_div, abs_of_pos (hk i), div_le_div_iff₀ (hk i) s0, one_mul]
          exact (mul_le_mul_of_nonneg_right (hy i) s0.le).trans (hlow i)
        have h2 := mul_self_le_mul_self (abs_nonneg _) h1
        rw [abs_mul_abs_self, one_div_mul_one_div, s1] at h2
        exact h2
      rw [dotProduct, Fin.sum_univ_three]
      linarith [key 0, key 1, key 2]
    · congr 1
      ext i
      rw [mul_div_cancel₀ _ (hk i).ne']
  · have k := box_in_ellipsoid hO hO' (fun i => (hpos i).le) hh' hsub
    rw [← C73_ellipsoid ⟨_, O, c⟩ hup hO, ← C73_ellipsoid ⟨h', O', c'⟩ hh' hO', Ellipsoid.volume, Ellipsoid.volume]
    have h1 : ∏ i, (b.mbeFloat fl).halfExtents i ≤ ∏ i, (1 + 5 * u) * (b.halfExtents i * Real.sqrt 3) :=
      Finset.prod_le_prod (fun i _ => hup i) fun i _ => (r i).between.2
    have h2 : ∏ i, (1 + 5 * u) * (b.halfExtents i * Real.sqrt 3) = (1 + 5 * u) ^ 3 * (Real.sqrt 3 ^ 3 * ∏ i, b.halfExtents i) := by
      simp only [Fin.prod_univ_three]; ring
    have h3 : (1 + 5 * u) ^ 3 ≤ 1 + 16 * u := by
      have h5 : u * (u * u) ≤ u := by
        have := mul_le_mul_of_nonneg_left hu2 hu0.le
        linarith
      have e : (1 + 5 * u) ^ 3 = 1 + 15 * u + 75 * (u * u) + 125 * (u * (u * u)) := by ring
      have h6 : u * (u * u) ≤ u * u / 1000000 := by
        have := mul_le_mul_of_nonneg_left hu2 hu0.le
        linarith
      rw [e]
      linarith
    have h4 : ∏ i, (b.mbeFloat fl).halfExtents i ≤ (1 + 16 * u) * ∏ i, h' i := by
      rw [h2] at h1
      refine h1.trans (mul_le_mul h3 k ?_ (by linarith))
      have := Finset.prod_nonneg fun i (_ : i ∈ Finset.univ) => (hpos i).le
      positivity
    have h5 := mul_le_mul_of_nonneg_left h4 (show 0 ≤ 4 * Real.pi / 3 by positivity)
    show 4 * Real.pi * (∏ i, (b.mbeFloat fl).halfExtents i) / 3 ≤ (1 + 16 * u) * (4 * Real.pi * (∏ i, h' i) / 3)
    linarith

/-- C133: `Ellipsoid.mib` with rounding: the box is inside the ellipsoid enlarged by `6 · 2⁻⁵³`, and no box inside the ellipsoid has more
than `1 + 16 · 2⁻⁵³` times its volume. -/
theorem C133_ellipsoid_mib {e : Ellipsoid ℝ 3} (hh : ∀ i, 1 / 10 ^ 15 ≤ e.halfExtents i ∧ e.halfExtents i ≤ 10 ^ 15) :
    box (e.mibFloat fl).halfExtents (e.mibFloat fl).rotation (e.mibFloat fl).center ⊆
      ellipsoid (fun i => (1 + 6 * (2 : ℝ) ^ (-53 : ℤ)) * e.halfExtents i) e.rotation e.center ∧
    ∀ (O O' : Matrix (Fin 3) (Fin 3) ℝ) (c c' h' : Fin 3 → ℝ), Orthogonal O → Orthogonal O' → (∀ i, 0 ≤ h' i) →
      box h' O' c' ⊆ ellipsoid e.halfExtents O c →
      MeasureTheory.volume.real (box h' O' c') ≤
        (1 + 16 * (2 : ℝ) ^ (-53 : ℤ)) * MeasureTheory.volume.real (box (e.mibFloat fl).halfExtents O c) := by
  have hu : (2 : ℝ) ^ (-53 : ℤ) = u := by unfold unitRoundoff; norm_num
  rw [hu]
  have hu0 := u_pos
  have hu1 := u_le
  have hu2 : u * u ≤ u / 1000000 := by
    have := mul_le_mul_of_nonneg_left hu1 hu0.le
    norm_num at this ⊢
    linarith
  have hu3 : u ≤ 1 / 1000 := hu1.trans (by norm_num)
  have hpos : ∀ i, 0 < e.halfExtents i := fun i => lt_of_lt_of_le (by norm_num) (hh i).1
  have s0 : 0 < Real.sqrt 3 := Real.sqrt_pos.mpr (by norm_num)
  have s1 : Real.sqrt 3 * Real.sqrt 3 = 3 := Real.mul_self_sqrt (by norm_num)
  have r : ∀ i, RelErr 5 16 (e.halfExtents i / Real.sqrt 3) ((e.mibFloat fl).halfExtents i) := fun i =>
    relErr_div hfl (relErr_exact (e := 15) (hh i).1 (hh i).2) (relErr_sqrt_three hfl)
  have hup : ∀ i, 0 ≤ (e.mibFloat fl).halfExtents i := fun i =>
    le_trans (mul_nonneg (by linarith) (r i).pos.le) (r i).between.1
  refine ⟨?_, fun O O' c c' h' hO hO' hh' hsub => ?_⟩
  · rintro p ⟨y, hy, rfl⟩
    have hk : ∀ i, 0 < (1 + 6 * u) * e.halfExtents i := fun i => mul_pos (by linarith) (hpos i)
    refine ⟨fun i => y i / ((1 + 6 * u) * e.halfExtents i), ?_, ?_⟩
    · have key : ∀ i, y i / ((1 + 6 * u) * e.halfExtents i) * (y i / ((1 + 6 * u) * e.halfExtents i)) ≤ 1 / 3 := fun i => by
        have h1 : |y i / ((1 + 6 * u) * e.halfExtents i)| ≤ 1 / Real.sqrt 3 := by
          rw [abs_div, abs_of_pos (hk i), div_le_div_iff₀ (hk i) s0, one_mul]
          have h2 := mul_le_mul_of_nonneg_right ((hy i).trans (r i).between.2) s0.le
          have e1 : (1 + 5 * u) * (e.halfExtents i / Real.sqrt 3) * Real.sqrt 3 = (1 + 5 * u) * e.halfExtents i := by field_simp
          rw [e1] at h2
          have h3 : 0 < u * e.halfExtents i := mul_pos hu0 (hpos i)
          linarith
        have h2 := mul_self_le_mul_self (abs_nonneg _) h1
        rw [abs_mul_abs_self, one_div_mul_one_div, s1] at h2
        exact h2
      rw [dotProduct, Fin.sum_univ_three]
      linarith [key 0, key 1, key 2]
    · congr 1
      ext i
      rw [mul_div_cancel₀ _ (hk i).ne']
  · have k := box_in_ellipsoid hO' hO hh' (fun i => (hpos i).le) hsub
    rw [← C73_box ⟨h', O', c'⟩ hh' hO', ← C73_box ⟨_, O, c⟩ hup hO]
    have h1 : ∏ i, (1 - 5 * u) * (e.halfExtents i / Real.sqrt 3) ≤ ∏ i, (e.mibFloat fl).halfExtents i :=
      Finset.prod_le_prod (fun i _ => mul_nonneg (by linarith) (r i).pos.le) fun i _ => (r i).between.1
    have h2 : ∏ i, (1 - 5 * u) * (e.halfExtents i / Real.sqrt 3) = (1 - 5 * u) ^ 3 * ((∏ i, e.halfExtents i) / Real.sqrt 3 ^ 3) := by
      simp only [Fin.prod_univ_three]; field_simp
    have k' : ∏ i, h' i ≤ (∏ i, e.halfExtents i) / Real.sqrt 3 ^ 3 := by
      rw [le_div_iff₀ (by positivity), mul_comm]
      exact k
    have h3 : 1 ≤ (1 + 16 * u) * (1 - 5 * u) ^ 3 := by
      have h6 : (1 - 5 * u) ^ 3 ≥ 1 - 15 * u := by
        have e : (1 - 5 * u) ^ 3 = 1 - 15 * u + u * u * (75 - 125 * u) := by ring
        have : 0 ≤ u * u * (75 - 125 * u) := mul_nonneg (by positivity) (by linarith)
        linarith
      have h7 := mul_le_mul_of_nonneg_left h6 (show 0 ≤ 1 + 16 * u by linarith)
      linarith
    have hP : 0 ≤ (∏ i, e.halfExtents i) / Real.sqrt 3 ^ 3 :=
      div_nonneg (Finset.prod_nonneg fun i _ => (hpos i).le) (by positivity)
    have h4 : ∏ i, h' i ≤ (1 + 16 * u) * ∏ i, (e.mibFloat fl).halfExtents i := by
      rw [h2] at h1
      have h5 := mul_le_mul_of_nonneg_left h1 (show 0 ≤ 1 + 16 * u by linarith)
      have h6 := mul_le_mul_of_nonneg_right h3 hP
      linarith
    show ∏ i, 2 * h' i ≤ (1 + 16 * u) * ∏ i, 2 * (e.mibFloat fl).halfExtents i
    simp only [Fin.prod_univ_three] at h4 ⊢
    linarith

/-- C133: `Cylinder.mib` with rounding: the box is inside the cylinder enlarged by `6 · 2⁻⁵³`, and no box in the same pose inside the
cylinder has more than `1 + 16 · 2⁻⁵³` times its volume. -/
theorem C133_cylinder_mib {c : Cylinder ℝ} (hr : 1 / 10 ^ 15 ≤ c.radius ∧ c.radius ≤ 10 ^ 15)
    (hl : 1 / 10 ^ 15 ≤ c.length ∧ c.length ≤ 10 ^ 15) :
    box (c.mibFloat fl).halfExtents (c.mibFloat fl).rotation (c.mibFloat fl).center ⊆
      cylinder ((1 + 6 * (2 : ℝ) ^ (-53 : ℤ)) * c.length) ((1 + 6 * (2 : ℝ) ^ (-53 : ℤ)) * c.radius) c.rotation c.center ∧
    ∀ (O : Matrix (Fin 3) (Fin 3) ℝ) (t h' : Fin 3 → ℝ), Orthogonal O → (∀ i, 0 ≤ h' i) →
      box h' O t ⊆ cylinder c.length c.radius O t →
      MeasureTheory.volume.real (box h' O t) ≤
        (1 + 16 * (2 : ℝ) ^ (-53 : ℤ)) * MeasureTheory.volume.real (box (c.mibFloat fl).halfExtents O t) := by
  have hu : (2 : ℝ) ^ (-53 : ℤ) = u := by unfold unitRoundoff; norm_num
  rw [hu]
  have hu0 := u_pos
  have r0 : 0 < c.radius := lt_of_lt_of_le (by norm_num) hr.1
  have l0 : 0 < c.length := lt_of_lt_of_le (by norm_num) hl.1
  have s0 : 0 < Real.sqrt 2 := Real.sqrt_pos.mpr (by norm_num)
  have s1 : Real.sqrt 2 * Real.sqrt 2 = 2 := Real.mul_self_sqrt (by norm_num)
  have r := relErr_div hfl (l := 5) (g := 16) (relErr_exact (e := 15) hr.1 hr.2) (relErr_sqrt_two hfl)
  have l := relErr_div hfl (l := 5) (g := 16) (relErr_exact (e := 15) hl.1 hl.2)
    (relErr_exact (e := 1) (a := 2) (by norm_num) (by norm_num))
  have hur : 0 < u * c.radius := mul_pos hu0 r0
  have hul : 0 < u * c.length := mul_pos hu0 l0
  refine ⟨?_, fun O t h' hO hh' hsub => ?_⟩
  · rintro p ⟨y, hy, rfl⟩
    have key : ∀ t, |t| ≤ fl (c.radius / fl (Real.sqrt 2)) → t ^ 2 ≤ ((1 + 6 * u) * c.radius) ^ 2 / 2 := fun t ht => by
      have h2 := mul_le_mul_of_nonneg_right (ht.trans r.between.2) s0.le
      have e1 : (1 + 5 * u) * (c.radius / Real.sqrt 2) * Real.sqrt 2 = (1 + 5 * u) * c.radius := by field_simp
      rw [e1] at h2
      have h3 : |t| * Real.sqrt 2 ≤ (1 + 6 * u) * c.radius := by linarith
      have h4 := mul_self_le_mul_self (mul_nonneg (abs_nonneg t) s0.le) h3
      have e2 : |t| * Real.sqrt 2 * (|t| * Real.sqrt 2) = t ^ 2 * 2 := by
        rw [mul_mul_mul_comm, s1, abs_mul_abs_self]; ring
      rw [e2] at h4
      linarith
    refine ⟨y, ?_, ?_, rfl⟩
    · have h1 : |y 2| ≤ fl (c.length / 2) := hy 2
      have h2 := l.between.2
      linarith
    · have h1 := key _ (hy 0)
      have h2 := key _ (hy 1)
      linarith
  · have hu1 := u_le
    have hu3 : u ≤ 1 / 1000 := hu1.trans (by norm_num)
    have hu2 : u * u ≤ u / 1000000 := by
      have := mul_le_mul_of_nonneg_left hu1 hu0.le
      norm_num at this ⊢
      linarith
    have g0 : 0 ≤ fl (c.radius / fl (Real.sqrt 2)) := le_trans (mul_nonneg (by linarith) r.pos.le) r.between.1
    have g2 : 0 ≤ fl (c.length / 2) := le_trans (mul_nonneg (by linarith) l.pos.le) l.between.1
    have hup : ∀ i, 0 ≤ (c.mibFloat fl).halfExtents i := fun i => by
      fin_cases i
      · exact g0
      · exact g0
      · exact g2
    rw [← C73_box ⟨h', O, t⟩ hh' hO, ← C73_box ⟨_, O, t⟩ hup hO]
    obtain ⟨y, hy1, hy2, hy⟩ := hsub ⟨h', fun i => (abs_of_nonneg (hh' i)).le, rfl⟩
    have hy' : h' = y := by
      have e1 : Matrix.mulVec O h' = Matrix.mulVec O y := add_right_cancel (b := t) hy
      have e2 := congrArg (Matrix.mulVec O.transpose) e1
      have hO' : O.transpose * O = 1 := hO
      rwa [Matrix.mulVec_mulVec, Matrix.mulVec_mulVec, hO', Matrix.one_mulVec, Matrix.one_mulVec] at e2
    subst hy'
    rw [abs_of_nonneg (hh' 2)] at hy1
    have p1 : h' 0 * h' 1 ≤ c.radius ^ 2 / 2 := by linarith [sq_nonneg (h' 0 - h' 1)]
    have p2 : h' 0 * h' 1 * h' 2 ≤ c.radius ^ 2 / 2 * (c.length / 2) := mul_le_mul p1 hy1 (hh' 2) (by positivity)
    have q1 := mul_le_mul r.between.1 r.between.1 (mul_nonneg (by linarith) r.pos.le) g0
    have q2 := mul_le_mul q1 l.between.1 (mul_nonneg (by linarith) l.pos.le) (mul_nonneg g0 g0)
    have e3 : (1 - 5 * u) * (c.radius / Real.sqrt 2) * ((1 - 5 * u) * (c.radius / Real.sqrt 2)) * ((1 - 5 * u) * (c.length / 2)) =
        (1 - 5 * u) ^ 3 * (c.radius ^ 2 / (Real.sqrt 2 * Real.sqrt 2) * (c.length / 2)) := by ring
    rw [e3, s1] at q2
    have h3 : 1 ≤ (1 + 16 * u) * (1 - 5 * u) ^ 3 := by
      have h6 : (1 - 5 * u) ^ 3 ≥ 1 - 15 * u := by
        have e : (1 - 5 * u) ^ 3 = 1 - 15 * u + u * u * (75 - 125 * u) := by ring
        have : 0 ≤ u * u * (75 - 125 * u) := mul_nonneg (by positivity) (by linarith)
        linarith
      have h7 := mul_le_mul_of_nonneg_left h6 (show 0 ≤ 1 + 16 * u by linarith)
      linarith
    have h5 := mul_le_mul_of_nonneg_left q2 (show 0 ≤ 1 + 16 * u by linarith)
    have h6 := mul_le_mul_of_nonneg_right h3 (show 0 ≤ c.radius ^ 2 / 2 * (c.length / 2) by positivity)
    show ∏ i, 2 * h' i ≤ (1 + 16 * u) * ∏ i, 2 * (c.mibFloat fl).halfExtents i
    rw [Fin.prod_univ_three, Fin.prod_univ_three]
    show 2 * h' 0 * (2 * h' 1) * (2 * h' 2) ≤ (1 + 16 * u) *
      (2 * fl (c.radius / fl (Real.sqrt 2)) * (2 * fl (c.radius / fl (Real.sqrt 2))) * (2 * fl (c.length / 2)))
    linarith

end

/-! ### The hypotheses can be met -/

example : (∀ i, (1 : ℝ) / 10 ^ 15 ≤ (![1, 2, 3] : Fin 3 → ℝ) i ∧ (![1, 2, 3] : Fin 3 → ℝ) i ≤ 10 ^ 15) ∧
    ∃ (O' : Matrix (Fin 3) (Fin 3) ℝ) (c' h' : Fin 3 → ℝ), Orthogonal O' ∧ (∀ i, 0 ≤ h' i) ∧
      box (![1, 2, 3] : Fin 3 → ℝ) 1 0 ⊆ ellipsoid h' O' c' := by
  have hn : ∀ i, (0 : ℝ) ≤ (![1, 2, 3] : Fin 3 → ℝ) i := fun i => by fin_cases i <;> norm_num
  refine ⟨fun i => by fin_cases i <;> norm_num, ?_⟩
  have h1 : Orthogonal (1 : Matrix (Fin 3) (Fin 3) ℝ) := by unfold Orthogonal; simp
  obtain ⟨e, he, hsub, -⟩ := C36_box_mbe ⟨![1, 2, 3], 1, 0⟩ hn h1
  rw [Box.mbe_false _ hn] at he
  obtain rfl := Except.ok.inj he
  exact ⟨1, 0, _, h1, fun i => mul_nonneg (hn i) (Real.sqrt_nonneg 3), hsub⟩

end Rigeo
