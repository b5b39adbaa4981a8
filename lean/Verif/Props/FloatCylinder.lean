import Verif.Props.FloatContains
import Verif.Model.FloatCylinder
import Verif.Props.Shapes2
import Mathlib.Algebra.Order.Chebyshev

/-! # C109: containment tests of cylinders and capsules with rounding -/

namespace Rigeo

open Matrix Spec

local notation "u" => unitRoundoff

section
variable {fl : ℝ → ℝ} (hfl : IsRounding fl)
include hfl

theorem fl_zero' : fl 0 = 0 := by
  have := (hfl 0 (by rw [abs_zero]; positivity)).2 0 ⟨0, 0, by norm_num, by norm_num, by norm_num, by simp⟩
  simpa using this

/-- A half extent that is rounded once. -/
theorem extent_close {h : ℝ} (hh : h = 0 ∨ 3 / 10 ^ 8 ≤ h ∧ h ≤ 10 ^ 10) :
    h = 0 ∧ fl h = 0 ∨ 3 / 10 ^ 8 ≤ h ∧ h ≤ 10 ^ 10 ∧ |fl h - h| ≤ 1 / 10 ^ 15 * h := by
  rcases hh with rfl | ⟨h1, h2⟩
  · exact .inl ⟨rfl, fl_zero' hfl⟩
  · refine .inr ⟨h1, h2, ?_⟩
    have h0 : 0 < h := lt_of_lt_of_le (by norm_num) h1
    have := fl_near hfl (x := h) (by rw [abs_of_pos h0]; exact h2.trans (by norm_num))
    rw [abs_of_pos h0] at this
    have h3 : u * h ≤ 112 / 10 ^ 18 * h := by have := u_le; gcongr
    have h4 : (1 / 10 ^ 200 : ℝ) ≤ 1 / 10 ^ 18 * (3 / 10 ^ 8) := by norm_num
    have h5 : (1 / 10 ^ 18 * (3 / 10 ^ 8) : ℝ) ≤ 1 / 10 ^ 18 * h := by gcongr
    have h6 : (112 / 10 ^ 18 * h + 1 / 10 ^ 18 * h : ℝ) ≤ 1 / 10 ^ 15 * h := by
      rw [← add_mul]; gcongr; norm_num
    linarith

/-- The scale against which errors are measured. -/
noncomputable def unit (h : ℝ) : ℝ := if h = 0 then 1 else h

omit hfl in
theorem unit_bounds {h : ℝ} (hh : h = 0 ∨ 3 / 10 ^ 8 ≤ h ∧ h ≤ 10 ^ 10) : 3 / 10 ^ 8 ≤ unit h ∧ unit h ≤ 10 ^ 10 := by
  unfold unit
  rcases hh with rfl | h1
  · norm_num
  · rw [if_neg (by rintro rfl; norm_num at h1)]; exact h1

/-- One projected coordinate. -/
theorem project_close {a c p : Fin 3 → ℝ} {s t H : ℝ} (hH : 3 / 10 ^ 8 ≤ H ∧ H ≤ 10 ^ 10) (ha : ∀ j, |a j| ≤ 101 / 100)
    (hp : ∀ j, |p j| ≤ 4 * 10 ^ 4 * H ∧ |c j| ≤ 4 * 10 ^ 4 * H)
    (hs : FlDot fl (List.ofFn fun j => (a j, c j)) s) (ht : FlDot fl (List.ofFn fun j => (p j, a j)) t) :
    |t - s - a ⬝ᵥ (p - c)| ≤ 2 / 10 ^ 10 * H ∧ |t - s| ≤ 25 * 10 ^ 4 * H := by
  have hH0 : 0 < H := lt_of_lt_of_le (by norm_num) hH.1
  have hu := u_le
  have h1 : ∑ j, |a j * c j| ≤ 3 * (101 / 100 * (4 * 10 ^ 4 * H)) := by
    have : ∀ j ∈ Finset.univ, |a j * c j| ≤ 101 / 100 * (4 * 10 ^ 4 * H) := fun j _ => by
      rw [abs_mul]; exact mul_le_mul (ha j) (hp j).2 (abs_nonneg _) (by norm_num)
    simpa using Finset.sum_le_card_nsmul _ _ _ this
  have h2 : ∑ j, |p j * a j| ≤ 3 * (101 / 100 * (4 * 10 ^ 4 * H)) := by
    have : ∀ j ∈ Finset.univ, |p j * a j| ≤ 101 / 100 * (4 * 10 ^ 4 * H) := fun j _ => by
      rw [abs_mul, mul_comm]; exact mul_le_mul (ha j) (hp j).1 (abs_nonneg _) (by norm_num)
    simpa using Finset.sum_le_card_nsmul _ _ _ this
  have hbig : 3 * (101 / 100 * (4 * 10 ^ 4 * H)) ≤ (10 : ℝ) ^ 100 := by
    have := hH.2
    calc 3 * (101 / 100 * (4 * 10 ^ 4 * H)) ≤ 3 * (101 / 100 * (4 * 10 ^ 4 * 10 ^ 10)) := by gcongr
      _ ≤ _ := by norm_num
  have e1 := dot_error hfl hs (by norm_num) (h1.trans hbig)
  have e2 := dot_error hfl ht (by norm_num) (h2.trans hbig)
  have hE : ∀ S, S ≤ 3 * (101 / 100 * (4 * 10 ^ 4 * H)) → 2 * ((3 : ℕ) : ℝ) * u * S + 1 / 10 ^ 190 ≤ 9 / 10 ^ 11 * H := fun S hS => by
    have g1 : 2 * ((3 : ℕ) : ℝ) * u * S ≤ 2 * 3 * (112 / 10 ^ 18) * (3 * (101 / 100 * (4 * 10 ^ 4 * H))) := by
      have := u_pos
      calc 2 * ((3 : ℕ) : ℝ) * u * S ≤ 2 * ((3 : ℕ) : ℝ) * u * (3 * (101 / 100 * (4 * 10 ^ 4 * H))) := by gcongr
        _ ≤ _ := by push_cast; gcongr
    have g2 : (1 / 10 ^ 190 : ℝ) ≤ 1 / 10 ^ 13 * H :=
      le_trans (by norm_num : (1 / 10 ^ 190 : ℝ) ≤ 1 / 10 ^ 13 * (3 / 10 ^ 8)) (by have := hH.1; gcongr)
    calc _ ≤ 2 * 3 * (112 / 10 ^ 18) * (3 * (101 / 100 * (4 * 10 ^ 4 * H))) + 1 / 10 ^ 13 * H := add_le_add g1 g2
      _ = (2 * 3 * (112 / 10 ^ 18) * (3 * (101 / 100 * (4 * 10 ^ 4))) + 1 / 10 ^ 13) * H := by ring
      _ ≤ _ := by gcongr; norm_num
  have e1' := e1.trans (hE _ h1)
  have e2' := e2.trans (hE _ h2)
  have hx : a ⬝ᵥ (p - c) = p ⬝ᵥ a - a ⬝ᵥ c := by rw [dotProduct_sub, dotProduct_comm a p]
  have hbound : |a ⬝ᵥ (p - c)| ≤ 2 * (3 * (101 / 100 * (4 * 10 ^ 4 * H))) := by
    rw [hx]
    refine (abs_sub _ _).trans ?_
    have k1 : |p ⬝ᵥ a| ≤ ∑ j, |p j * a j| := Finset.abs_sum_le_sum_abs _ _
    have k2 : |a ⬝ᵥ c| ≤ ∑ j, |a j * c j| := Finset.abs_sum_le_sum_abs _ _
    linarith
  have hmain : |t - s - a ⬝ᵥ (p - c)| ≤ 2 / 10 ^ 10 * H := by
    rw [hx]
    have : t - s - (p ⬝ᵥ a - a ⬝ᵥ c) = (t - p ⬝ᵥ a) - (s - a ⬝ᵥ c) := by ring
    rw [this]
    refine (abs_sub _ _).trans ?_
    have : (9 / 10 ^ 11 * H + 9 / 10 ^ 11 * H : ℝ) ≤ 2 / 10 ^ 10 * H := by rw [← add_mul]; gcongr; norm_num
    linarith
  refine ⟨hmain, ?_⟩
  have h3 := abs_add_le (t - s - a ⬝ᵥ (p - c)) (a ⬝ᵥ (p - c))
  rw [sub_add_cancel] at h3
  have : (2 / 10 ^ 10 * H + 2 * (3 * (101 / 100 * (4 * 10 ^ 4 * H))) : ℝ) ≤ 25 * 10 ^ 4 * H := by
    rw [show (2 / 10 ^ 10 * H + 2 * (3 * (101 / 100 * (4 * 10 ^ 4 * H))) : ℝ) =
      (2 / 10 ^ 10 + 2 * (3 * (101 / 100 * (4 * 10 ^ 4)))) * H by ring]
    gcongr; norm_num
  linarith

omit hfl in
/-- A small change of the coordinates changes the form little. -/
theorem form_shift {d : ℕ} (hd : d ≤ 3) {z z' : Fin d → ℝ} (hz : ∑ i, z i ^ 2 ≤ 1 + 3 / 10 ^ 8)
    (hc : ∀ i, |z' i - z i| ≤ 5 / 10 ^ 10) : ∑ i, z' i ^ 2 ≤ ∑ i, z i ^ 2 + 2 / 10 ^ 9 := by
  have hd' : (d : ℝ) ≤ 3 := by exact_mod_cast hd
  have h1 : ∀ i ∈ Finset.univ, z' i ^ 2 ≤ z i ^ 2 + (1 / 10 ^ 9 * |z i| + 25 / 10 ^ 20) := fun i _ => by
    have h2 : z' i ^ 2 = z i ^ 2 + 2 * (z' i - z i) * z i + (z' i - z i) ^ 2 := by ring
    have h3 : 2 * (z' i - z i) * z i ≤ 2 * (5 / 10 ^ 10) * |z i| := by
      refine (le_abs_self _).trans ?_
      rw [abs_mul, abs_mul, abs_two]
      have := hc i; gcongr
    have h4 : (z' i - z i) ^ 2 ≤ (5 / 10 ^ 10) ^ 2 := by rw [← sq_abs]; have := hc i; gcongr
    rw [h2]
    norm_num at h3 h4 ⊢; linarith
  have h5 := Finset.sum_le_sum h1
  rw [Finset.sum_add_distrib, Finset.sum_add_distrib, ← Finset.mul_sum, Finset.sum_const, Finset.card_univ, Fintype.card_fin,
    nsmul_eq_mul] at h5
  have h6 : (∑ i, |z i|) ^ 2 ≤ 3 * (1 + 3 / 10 ^ 8) := by
    have h7 := sq_sum_le_card_mul_sum_sq (s := (Finset.univ : Finset (Fin d))) (f := fun i => |z i|)
    simp only [sq_abs, Finset.card_univ, Fintype.card_fin] at h7
    refine h7.trans (mul_le_mul hd' hz (Finset.sum_nonneg fun i _ => sq_nonneg _) (by norm_num))
  have h8 : ∑ i, |z i| ≤ 175 / 100 := abs_le_of_sq_le_sq' (h6.trans (by norm_num)) (by norm_num) |>.2
  have h9 : (d : ℝ) * (25 / 10 ^ 20) ≤ 3 * (25 / 10 ^ 20) := by gcongr
  have h10 : 1 / 10 ^ 9 * ∑ i, |z i| ≤ 1 / 10 ^ 9 * (175 / 100) := by gcongr
  norm_num at h5 h9 h10 ⊢; linarith

omit hfl in
/-- Scaled coordinates. -/
theorem ratio_close {h h' y y' : ℝ} (hh : 3 / 10 ^ 8 ≤ h) (hh' : |h' - h| ≤ 1 / 10 ^ 15 * h) (hy : |y' - y| ≤ 2 / 10 ^ 10 * h)
    (hb : |y'| ≤ 25 * 10 ^ 4 * h) : |y' / h' - y / h| ≤ 5 / 10 ^ 10 ∧ 2 / 10 ^ 8 ≤ h' ∧ h ≤ 11 / 10 * h' ∧ h' ≤ 11 / 10 * h := by
  have h0 : 0 < h := lt_of_lt_of_le (by norm_num) hh
  obtain ⟨a1, a2⟩ := abs_le.mp hh'
  have g1 : 99 / 100 * h ≤ h' := by
    have : (1 / 10 ^ 15 * h : ℝ) ≤ 1 / 100 * h := by gcongr; norm_num
    linarith
  have g2 : h' ≤ 11 / 10 * h := by
    have : (1 / 10 ^ 15 * h : ℝ) ≤ 1 / 100 * h := by gcongr; norm_num
    linarith
  have h0' : 0 < h' := lt_of_lt_of_le (by positivity) g1
  refine ⟨?_, by norm_num at hh ⊢; linarith, by linarith, g2⟩
  have e : y' / h' - y / h = (y' * (h - h')) / (h' * h) + (y' - y) / h := by field_simp; ring
  rw [e]
  refine (abs_add_le _ _).trans ?_
  rw [abs_div, abs_div, abs_mul, abs_mul, abs_of_pos h0, abs_of_pos h0', abs_sub_comm h h']
  have p1 : |y'| * |h' - h| / (h' * h) ≤ 253 / 10 ^ 12 := by
    rw [div_le_iff₀ (by positivity)]
    calc |y'| * |h' - h| ≤ (25 * 10 ^ 4 * h) * (1 / 10 ^ 15 * h) := mul_le_mul hb hh' (abs_nonneg _) (by positivity)
      _ = 25 / 10 ^ 11 * (h * h) := by ring
      _ ≤ 25 / 10 ^ 11 * ((100 / 99 * h') * h) := by gcongr; linarith
      _ ≤ _ := by
        rw [show (25 / 10 ^ 11 * ((100 / 99 * h') * h) : ℝ) = (25 / 10 ^ 11 * (100 / 99)) * (h' * h) by ring]
        gcongr; norm_num
  have p2 : |y' - y| / h ≤ 2 / 10 ^ 10 := by rw [div_le_iff₀ h0]; exact hy
  norm_num at p1 p2 ⊢; linarith

/-- What a test of an ellipsoid along the axes decides about coordinates `y`, when it works with half extents `h'`, a center `s` and
a point `t` that approximate them. -/
theorem slice_test {d : ℕ} (hd : d ≤ 3) {h h' s t y : Fin d → ℝ}
    (hh : ∀ i, h i = 0 ∧ h' i = 0 ∨ 3 / 10 ^ 8 ≤ h i ∧ h i ≤ 9 * 10 ^ 9 ∧ |h' i - h i| ≤ 1 / 10 ^ 15 * h i)
    (hy : ∀ i, |t i - s i - y i| ≤ 2 / 10 ^ 10 * unit (h i)) (hb : ∀ i j, |t j - s j| ≤ 25 * 10 ^ 4 * unit (h i)) :
    ((∀ i, h i = 0 → y i = 0) → ∑ i, (y i / h i) ^ 2 ≤ 1 →
      ¬ (⟨h', 1, s⟩ : Ellipsoid ℝ d).containsFloat fl t (fl (1 / 10 ^ 8)) false) ∧
    ((⟨h', 1, s⟩ : Ellipsoid ℝ d).containsFloat fl t (fl (1 / 10 ^ 8)) true →
      (∀ i, h i = 0 → |y i| ≤ 3 / 10 ^ 8) ∧ ∑ i, (y i / h i) ^ 2 ≤ 1 + 3 / 10 ^ 8) := by
  have hzero : ∀ i, h i = 0 ↔ h' i = 0 := fun i => by
    rcases hh i with ⟨h1, h2⟩ | ⟨h1, -, h2⟩
    · simp [h1, h2]
    · have g := (ratio_close h1 h2 (y := 0) (y' := 0) (by simp; linarith [show (0 : ℝ) < 3 / 10 ^ 8 by norm_num])
        (by simp; linarith [show (0 : ℝ) < 3 / 10 ^ 8 by norm_num])).2.1
      have p1 : (0 : ℝ) < 3 / 10 ^ 8 := by norm_num
      have p2 : (0 : ℝ) < 2 / 10 ^ 8 := by norm_num
      exact ⟨fun h3 => by linarith, fun h3 => by linarith⟩
  have hrat : ∀ i, h i ≠ 0 → |(t i - s i) / h' i - y i / h i| ≤ 5 / 10 ^ 10 ∧ 2 / 10 ^ 8 ≤ h' i ∧ h i ≤ 11 / 10 * h' i ∧
      h' i ≤ 11 / 10 * h i := fun i hi => by
    rcases hh i with ⟨h1, -⟩ | ⟨h1, -, h2⟩
    · exact absurd h1 hi
    · have e1 := hy i
      have e2 := hb i i
      rw [unit, if_neg hi] at e1 e2
      exact ratio_close h1 h2 e1 e2
  have hclose : ∀ i, |(t i - s i) / h' i - y i / h i| ≤ 5 / 10 ^ 10 := fun i => by
    by_cases hi : h i = 0
    · rw [hi, (hzero i).mp hi]; simp; norm_num
    · exact (hrat i hi).1
  have hone : ∀ i, ((1 : Matrix (Fin d) (Fin d) ℝ)ᵀ *ᵥ (t - s)) i = t i - s i := fun i => by
    rw [transpose_one, one_mulVec]; rfl
  have hscale : EllipsoidScale (⟨h', 1, s⟩ : Ellipsoid ℝ d) t := by
    refine ⟨hd, fun i => ?_, fun j i => ?_, fun i hi j => ?_, fun i hi j => ?_⟩
    · by_cases hi : h i = 0
      · exact .inl ((hzero i).mp hi)
      · refine .inr ⟨(hrat i hi).2.1, (hrat i hi).2.2.2.trans ?_⟩
        rcases hh i with ⟨h1, -⟩ | ⟨-, h2, -⟩
        · exact absurd h1 hi
        · norm_num at h2 ⊢; linarith
    · by_cases hji : j = i
      · subst hji; simp; norm_num
      · simp [Matrix.one_apply_ne hji]; norm_num
    · have := hb i j
      rw [unit, if_pos ((hzero i).mpr hi)] at this
      change |t j - s j| ≤ _
      exact this.trans (by norm_num)
    · have hi' : h i ≠ 0 := fun h0 => hi ((hzero i).mp h0)
      have := hb i j
      rw [unit, if_neg hi'] at this
      have h3 := (hrat i hi').2.2.1
      have h4 : 0 ≤ h' i := le_trans (by norm_num) (hrat i hi').2.1
      change |t j - s j| ≤ 3 * 10 ^ 5 * h' i
      norm_num at this ⊢; linarith
  constructor
  · intro hz hq hf
    refine absurd (ellipsoid_accepts_slack hfl _ t hscale (fun i hi => ?_) ?_ hf) (by simp)
    · have hi' : h i = 0 := (hzero i).mpr hi
      have := hy i
      rw [unit, if_pos hi', hz i hi', sub_zero] at this
      change |((1 : Matrix (Fin d) (Fin d) ℝ)ᵀ *ᵥ (t - s)) i| ≤ _
      rw [hone]
      exact this.trans (by norm_num)
    · change ∑ i, (((1 : Matrix (Fin d) (Fin d) ℝ)ᵀ *ᵥ (t - s)) i / h' i) ^ 2 ≤ _
      simp only [hone]
      have := form_shift hd (z := fun i => y i / h i) (z' := fun i => (t i - s i) / h' i) (hq.trans (by norm_num)) hclose
      linarith
  · intro hf
    obtain ⟨h1, h2⟩ := C105_ellipsoid_sound hfl _ t hscale hf
    change ∀ i, h' i = 0 → |((1 : Matrix (Fin d) (Fin d) ℝ)ᵀ *ᵥ (t - s)) i| ≤ _ at h1
    change ∑ i, (((1 : Matrix (Fin d) (Fin d) ℝ)ᵀ *ᵥ (t - s)) i / h' i) ^ 2 ≤ _ at h2
    simp only [hone] at h1 h2
    refine ⟨fun i hi => ?_, ?_⟩
    · have g1 := h1 i ((hzero i).mp hi)
      have g2 := hy i
      rw [unit, if_pos hi] at g2
      have g3 := abs_sub (t i - s i) (t i - s i - y i)
      rw [sub_sub_cancel] at g3
      norm_num at g1 g2 ⊢; linarith
    · have := form_shift hd (z := fun i => (t i - s i) / h' i) (z' := fun i => y i / h i) (h2.trans (by norm_num))
        (fun i => by rw [abs_sub_comm]; exact hclose i)
      norm_num at h2 this ⊢; linarith

/-- What is assumed of a cylinder and a point: half length and radius each zero or between `3e-8` and `9e9`, entries of the rotation
that are not larger than those of a rotation, and coordinates of the point and the center of at most 40000 times the half length
and the radius (40000 where these are zero). -/
structure CylinderScale (c : Cylinder ℝ) (p : Fin 3 → ℝ) : Prop where
  length : c.length / 2 = 0 ∨ 3 / 10 ^ 8 ≤ c.length / 2 ∧ c.length / 2 ≤ 9 * 10 ^ 9
  radius : c.radius = 0 ∨ 3 / 10 ^ 8 ≤ c.radius ∧ c.radius ≤ 9 * 10 ^ 9
  rotation : ∀ j i, |c.rotation j i| ≤ 101 / 100
  lengthRatio : ∀ j, |p j| ≤ 4 * 10 ^ 4 * unit (c.length / 2) ∧ |c.center j| ≤ 4 * 10 ^ 4 * unit (c.length / 2)
  radiusRatio : ∀ j, |p j| ≤ 4 * 10 ^ 4 * unit c.radius ∧ |c.center j| ≤ 4 * 10 ^ 4 * unit c.radius

omit hfl in
theorem col_eq (R : Matrix (Fin 3) (Fin 3) ℝ) (v : Fin 3 → ℝ) (i : Fin 3) : (Rᵀ *ᵥ v) i = (fun j => R j i) ⬝ᵥ v := rfl

theorem cylinder_parts (c : Cylinder ℝ) (p : Fin 3 → ℝ) (hs : CylinderScale c p) {answer : Bool} (h : c.containsFloat fl p answer) :
    ((c.length = 0 → (c.rotationᵀ *ᵥ (p - c.center)) 2 = 0) → ((c.rotationᵀ *ᵥ (p - c.center)) 2 / (c.length / 2)) ^ 2 ≤ 1 →
      (c.radius = 0 → (c.rotationᵀ *ᵥ (p - c.center)) 0 = 0 ∧ (c.rotationᵀ *ᵥ (p - c.center)) 1 = 0) →
      ((c.rotationᵀ *ᵥ (p - c.center)) 0 / c.radius) ^ 2 + ((c.rotationᵀ *ᵥ (p - c.center)) 1 / c.radius) ^ 2 ≤ 1 →
      answer = true) ∧
    (answer = true → (c.length = 0 → |(c.rotationᵀ *ᵥ (p - c.center)) 2| ≤ 3 / 10 ^ 8) ∧
      ((c.rotationᵀ *ᵥ (p - c.center)) 2 / (c.length / 2)) ^ 2 ≤ 1 + 3 / 10 ^ 8 ∧
      (c.radius = 0 → |(c.rotationᵀ *ᵥ (p - c.center)) 0| ≤ 3 / 10 ^ 8 ∧ |(c.rotationᵀ *ᵥ (p - c.center)) 1| ≤ 3 / 10 ^ 8) ∧
      ((c.rotationᵀ *ᵥ (p - c.center)) 0 / c.radius) ^ 2 + ((c.rotationᵀ *ᵥ (p - c.center)) 1 / c.radius) ^ 2 ≤
        1 + 3 / 10 ^ 8) := by
  obtain ⟨c1, p1, c2, p2, a1, a2, hc1, hp1, hc2, hp2, h1, h2, hans⟩ := h
  set y := c.rotationᵀ *ᵥ (p - c.center) with hydef
  have htol : (1 / 100000000 : ℝ) = 1 / 10 ^ 8 := by norm_num
  rw [htol] at h1 h2
  have ub1 := unit_bounds (hs.length.imp id fun h => ⟨h.1, h.2.trans (by norm_num)⟩)
  have ub2 := unit_bounds (hs.radius.imp id fun h => ⟨h.1, h.2.trans (by norm_num)⟩)
  have k1 := fun i => project_close hfl ub1 (fun j => hs.rotation j 2) hs.lengthRatio (hc1 i) (hp1 i)
  have k2 := fun i : Fin 2 => project_close hfl ub2 (fun j => hs.rotation j (Fin.castLE (by decide) i)) hs.radiusRatio (hc2 i) (hp2 i)
  have s1 := slice_test hfl (d := 1) (by norm_num) (h := fun _ => c.length / 2) (h' := fun _ => fl (c.length / 2)) (s := c1) (t := p1)
    (y := fun _ => y 2)
    (fun i => by
      rcases extent_close hfl (hs.length.imp id fun h => ⟨h.1, h.2.trans (by norm_num)⟩) with h | h
      · exact .inl h
      · exact .inr ⟨h.1, (hs.length.resolve_left fun h0 => by
          have := h.1; rw [h0] at this; norm_num at this).2, h.2.2⟩)
    (fun i => (k1 i).1) (fun i j => (k1 j).2)
  have s2 := slice_test hfl (d := 2) (by norm_num) (h := fun _ => c.radius) (h' := fun _ => c.radius) (s := c2) (t := p2)
    (y := fun i => y (Fin.castLE (by decide) i))
    (fun i => by
      rcases hs.radius with h | h
      · exact .inl ⟨h, h⟩
      · refine .inr ⟨h.1, h.2, ?_⟩
        have : (0 : ℝ) < 3 / 10 ^ 8 := by norm_num
        rw [sub_self, abs_zero]
        have := this.trans_le h.1
        positivity)
    (fun i => (k2 i).1) (fun i j => (k2 j).2)
  simp only [Fin.sum_univ_one, Fin.sum_univ_two] at s1 s2
  have i0 : (Fin.castLE (by decide) (0 : Fin 2) : Fin 3) = 0 := rfl
  have i1 : (Fin.castLE (by decide) (1 : Fin 2) : Fin 3) = 1 := rfl
  have hL : c.length / 2 = 0 ↔ c.length = 0 := by simp
  constructor
  · intro g1 g2 g3 g4
    have b1 : a1 = true := by
      by_contra hne
      rw [Bool.not_eq_true] at hne; subst hne
      exact s1.1 (fun _ h0 => g1 (hL.mp h0)) g2 h1
    have b2 : a2 = true := by
      by_contra hne
      rw [Bool.not_eq_true] at hne; subst hne
      refine s2.1 (fun i h0 => ?_) g4 h2
      fin_cases i
      · exact (g3 h0).1
      · exact (g3 h0).2
    rw [hans, b1, b2]; rfl
  · intro ha
    rw [ha, eq_comm, Bool.and_eq_true] at hans
    obtain ⟨b1, b2⟩ := hans
    subst b1; subst b2
    obtain ⟨r1, r2⟩ := s1.2 h1
    obtain ⟨r3, r4⟩ := s2.2 h2
    exact ⟨fun h0 => r1 0 (hL.mpr h0), r2, fun h0 => ⟨r3 0 h0, r3 1 h0⟩, r4⟩

/-- C109: `Cylinder.contains` with rounding: under `CylinderScale` a point of the cylinder is accepted, whatever the order of the
additions, and a point that is accepted lies in the cylinder with half length and radius enlarged by the factor `1 + 2e-8`. -/
theorem C109_cylinder (c : Cylinder ℝ) (hO : Spec.Orthogonal c.rotation) (p : Fin 3 → ℝ) (hs : CylinderScale c p) :
    (p ∈ Spec.cylinder c.length c.radius c.rotation c.center → ¬ c.containsFloat fl p false) ∧
      (c.length ≠ 0 → c.radius ≠ 0 → c.containsFloat fl p true →
        p ∈ Spec.cylinder (c.length * (1 + 2 / 10 ^ 8)) (c.radius * (1 + 2 / 10 ^ 8)) c.rotation c.center) := by
  rw [Spec_cylinder_iff hO, Spec_cylinder_iff hO]
  set y := c.rotationᵀ *ᵥ (p - c.center) with hydef
  constructor
  · rintro ⟨h1, h2⟩ hf
    refine absurd ((cylinder_parts hfl c p hs hf).1 ?_ ?_ ?_ ?_) (by simp)
    · intro h0; rw [h0, zero_div] at h1; exact abs_nonpos_iff.mp h1
    · rw [div_pow]
      refine div_le_one_of_le₀ ?_ (sq_nonneg _)
      rw [← sq_abs]; gcongr
    · intro h0
      rw [h0] at h2
      constructor <;> nlinarith [sq_nonneg (y 0), sq_nonneg (y 1)]
    · rw [div_pow, div_pow, ← add_div]
      exact div_le_one_of_le₀ h2 (sq_nonneg _)
  · intro hL hr hf
    obtain ⟨-, h1, -, h2⟩ := (cylinder_parts hfl c p hs hf).2 rfl
    have hL0 : 0 < c.length / 2 := lt_of_lt_of_le (by norm_num) (hs.length.resolve_left (by simpa using hL)).1
    have hL1 : 0 < c.length := by linarith
    have hr0 : 0 < c.radius := lt_of_lt_of_le (by norm_num) (hs.radius.resolve_left hr).1
    rw [div_pow, div_le_iff₀ (by positivity)] at h1
    rw [div_pow, div_pow, ← add_div, div_le_iff₀ (by positivity)] at h2
    have hsq : (1 + 3 / 10 ^ 8 : ℝ) ≤ (1 + 2 / 10 ^ 8) ^ 2 := by norm_num
    constructor
    · refine abs_le_of_sq_le_sq ?_ (by positivity)
      calc _ ≤ (1 + 3 / 10 ^ 8) * (c.length / 2) ^ 2 := h1
        _ ≤ (1 + 2 / 10 ^ 8) ^ 2 * (c.length / 2) ^ 2 := by gcongr
        _ = _ := by ring
    · calc _ ≤ (1 + 3 / 10 ^ 8) * c.radius ^ 2 := h2
        _ ≤ (1 + 2 / 10 ^ 8) ^ 2 * c.radius ^ 2 := by gcongr
        _ = _ := by ring

/-- What is assumed of a capsule and a point: in addition, the half length is at most 40000 times the radius. -/
structure CapsuleScale (c : Capsule ℝ) (p : Fin 3 → ℝ) : Prop where
  cylinder : CylinderScale c.cylinder p
  ratio : c.cylinder.length / 2 ≤ 4 * 10 ^ 4 * unit c.cylinder.radius

/-- A computed coordinate of an end point. -/
theorem end_close {m a c H v w : ℝ} (hm : m = 0 ∨ 3 / 10 ^ 8 ≤ m ∧ m ≤ 10 ^ 10) (hmH : m ≤ 4 * 10 ^ 4 * H) (ha : |a| ≤ 101 / 100)
    (hc : |c| ≤ 4 * 10 ^ 4 * H) (hH : 3 / 10 ^ 8 ≤ H ∧ H ≤ 10 ^ 10)
    (hv : v = m * a ∧ w = fl (fl m * a) ∨ v = -(m * a) ∧ w = -fl (fl m * a)) :
    |fl (w + c) - (v + c)| ≤ 2 / 10 ^ 10 * H ∧ |v + c| ≤ 9 * 10 ^ 4 * H := by
  have hH0 : 0 < H := lt_of_lt_of_le (by norm_num) hH.1
  have hu := u_le
  have hu0 := u_pos
  have hm0 : 0 ≤ m := by
    rcases hm with h | h
    · rw [h]
    · exact le_trans (by norm_num) h.1
  have htiny : (1 / 10 ^ 200 : ℝ) ≤ 1 / 10 ^ 20 * H :=
    le_trans (by norm_num : (1 / 10 ^ 200 : ℝ) ≤ 1 / 10 ^ 20 * (3 / 10 ^ 8)) (by have := hH.1; gcongr)
  have e1 : |fl m - m| ≤ 1 / 10 ^ 15 * m := by
    rcases extent_close hfl hm with ⟨h1, h2⟩ | h
    · rw [h1, fl_zero' hfl]; simp
    · exact h.2.2
  have e1' : |fl m - m| ≤ 4 / 10 ^ 11 * H := by
    calc _ ≤ 1 / 10 ^ 15 * m := e1
      _ ≤ 1 / 10 ^ 15 * (4 * 10 ^ 4 * H) := by gcongr
      _ = (1 / 10 ^ 15 * (4 * 10 ^ 4)) * H := by ring
      _ ≤ _ := by gcongr; norm_num
  have hflm : |fl m| ≤ 5 * 10 ^ 4 * H := by
    have h1 := abs_add_le (fl m - m) m
    rw [sub_add_cancel, abs_of_nonneg hm0] at h1
    have : (4 / 10 ^ 11 * H + 4 * 10 ^ 4 * H : ℝ) ≤ 5 * 10 ^ 4 * H := by rw [← add_mul]; gcongr; norm_num
    linarith
  have hprod : |fl m * a| ≤ 6 * 10 ^ 4 * H := by
    rw [abs_mul]
    calc |fl m| * |a| ≤ (5 * 10 ^ 4 * H) * (101 / 100) := mul_le_mul hflm ha (abs_nonneg _) (by positivity)
      _ = (5 * 10 ^ 4 * (101 / 100)) * H := by ring
      _ ≤ _ := mul_le_mul_of_nonneg_right (by norm_num) hH0.le
  have hbig : ∀ {x : ℝ}, |x| ≤ 20 * 10 ^ 4 * H → |x| ≤ 10 ^ 150 := fun {x} hx => by
    refine hx.trans ?_
    calc (20 * 10 ^ 4 * H : ℝ) ≤ 20 * 10 ^ 4 * 10 ^ 10 := by have := hH.2; gcongr
      _ ≤ _ := by norm_num
  have hround : ∀ {x : ℝ}, |x| ≤ 20 * 10 ^ 4 * H → |fl x - x| ≤ 3 / 10 ^ 11 * H := fun {x} hx => by
    refine (fl_near hfl (hbig hx)).trans ?_
    calc u * |x| + 1 / 10 ^ 200 ≤ 112 / 10 ^ 18 * (20 * 10 ^ 4 * H) + 1 / 10 ^ 20 * H := by
          refine add_le_add ?_ htiny; gcongr
      _ = (112 / 10 ^ 18 * (20 * 10 ^ 4) + 1 / 10 ^ 20) * H := by ring
      _ ≤ _ := by gcongr; norm_num
  have e2 := hround (x := fl m * a) (hprod.trans (by gcongr; norm_num))
  have e3 : |fl (fl m * a) - m * a| ≤ 8 / 10 ^ 11 * H := by
    have : fl (fl m * a) - m * a = (fl (fl m * a) - fl m * a) + (fl m - m) * a := by ring
    rw [this]
    refine (abs_add_le _ _).trans ?_
    rw [abs_mul]
    have h1 : |fl m - m| * |a| ≤ (4 / 10 ^ 11 * H) * (101 / 100) := mul_le_mul e1' ha (abs_nonneg _) (by positivity)
    have h2 : (3 / 10 ^ 11 * H + (4 / 10 ^ 11 * H) * (101 / 100) : ℝ) ≤ 8 / 10 ^ 11 * H := by
      rw [show (3 / 10 ^ 11 * H + (4 / 10 ^ 11 * H) * (101 / 100) : ℝ) = (3 / 10 ^ 11 + (4 / 10 ^ 11) * (101 / 100)) * H by ring]
      gcongr; norm_num
    linarith
  have hva : |m * a| ≤ 5 * 10 ^ 4 * H := by
    rw [abs_mul, abs_of_nonneg hm0]
    calc m * |a| ≤ (4 * 10 ^ 4 * H) * (101 / 100) := mul_le_mul hmH ha (abs_nonneg _) (by positivity)
      _ = (4 * 10 ^ 4 * (101 / 100)) * H := by ring
      _ ≤ _ := mul_le_mul_of_nonneg_right (by norm_num) hH0.le
  have hvw : |w - v| ≤ 8 / 10 ^ 11 * H ∧ |v| ≤ 5 * 10 ^ 4 * H := by
    rcases hv with ⟨rfl, rfl⟩ | ⟨rfl, rfl⟩
    · exact ⟨e3, hva⟩
    · rw [abs_neg]
      refine ⟨?_, hva⟩
      rw [show -fl (fl m * a) - -(m * a) = -(fl (fl m * a) - m * a) by ring, abs_neg]
      exact e3
  have hvc : |v + c| ≤ 9 * 10 ^ 4 * H := by
    refine (abs_add_le _ _).trans ?_
    have := hvw.2
    linarith
  have hwc : |w + c| ≤ 20 * 10 ^ 4 * H := by
    have : w + c = (w - v) + (v + c) := by ring
    rw [this]
    refine (abs_add_le _ _).trans ?_
    have h1 : (8 / 10 ^ 11 * H + 9 * 10 ^ 4 * H : ℝ) ≤ 20 * 10 ^ 4 * H := by rw [← add_mul]; gcongr; norm_num
    have := hvw.1
    linarith
  refine ⟨?_, hvc⟩
  have : fl (w + c) - (v + c) = (fl (w + c) - (w + c)) + (w - v) := by ring
  rw [this]
  refine (abs_add_le _ _).trans ?_
  have h1 := hround hwc
  have h2 : (3 / 10 ^ 11 * H + 8 / 10 ^ 11 * H : ℝ) ≤ 2 / 10 ^ 10 * H := by rw [← add_mul]; gcongr; norm_num
  have := hvw.1
  linarith

/-- One spherical cap: `e'` is the computed end point, `e` the exact one. -/
theorem cap_parts {r : ℝ} (hr : r = 0 ∨ 3 / 10 ^ 8 ≤ r ∧ r ≤ 9 * 10 ^ 9) {p e e' : Fin 3 → ℝ}
    (hp : ∀ j, |p j| ≤ 4 * 10 ^ 4 * unit r) (he : ∀ j, |e' j - e j| ≤ 2 / 10 ^ 10 * unit r ∧ |e j| ≤ 9 * 10 ^ 4 * unit r) :
    (p ∈ Spec.ball r e → ¬ (⟨fun _ => r, 1, e'⟩ : Ellipsoid ℝ 3).containsFloat fl p (fl (1 / 10 ^ 8)) false) ∧
      (r ≠ 0 → (⟨fun _ => r, 1, e'⟩ : Ellipsoid ℝ 3).containsFloat fl p (fl (1 / 10 ^ 8)) true →
        p ∈ Spec.ball (r * (1 + 2 / 10 ^ 8)) e) := by
  have ub := unit_bounds (hr.imp id fun h => ⟨h.1, h.2.trans (by norm_num)⟩)
  have hU0 : 0 < unit r := lt_of_lt_of_le (by norm_num) ub.1
  have s := slice_test hfl (d := 3) le_rfl (h := fun _ => r) (h' := fun _ => r) (s := e') (t := p) (y := fun j => p j - e j)
    (fun i => by
      rcases hr with h | h
      · exact .inl ⟨h, h⟩
      · refine .inr ⟨h.1, h.2, ?_⟩
        have := lt_of_lt_of_le (by norm_num : (0 : ℝ) < 3 / 10 ^ 8) h.1
        rw [sub_self, abs_zero]; positivity)
    (fun j => by rw [show p j - e' j - (p j - e j) = -(e' j - e j) by ring, abs_neg]; exact (he j).1)
    (fun i j => by
      have h1 : p j - e' j = p j - e j - (e' j - e j) := by ring
      have h2 := abs_sub (p j - e j) (e' j - e j)
      have h3 := abs_sub (p j) (e j)
      rw [h1]
      have h4 : (2 / 10 ^ 10 * unit r + (4 * 10 ^ 4 * unit r + 9 * 10 ^ 4 * unit r) : ℝ) ≤ 25 * 10 ^ 4 * unit r := by
        rw [← add_mul, ← add_mul]; gcongr; norm_num
      linarith [(he j).1, (he j).2, hp j])
  have hball : ∀ ρ : ℝ, p ∈ Spec.ball ρ e ↔ (p 0 - e 0) ^ 2 + (p 1 - e 1) ^ 2 + (p 2 - e 2) ^ 2 ≤ ρ ^ 2 := fun ρ => by
    change (p - e) ⬝ᵥ (p - e) ≤ ρ ^ 2 ↔ _
    simp only [dotProduct, Fin.sum_univ_three, Pi.sub_apply, sq]
  simp only [Fin.sum_univ_three] at s
  rw [hball, hball]
  constructor
  · intro h hf
    refine s.1 (fun i h0 => ?_) ?_ hf
    · rw [show r = 0 from h0] at h
      fin_cases i
      · change p 0 - e 0 = 0; nlinarith [sq_nonneg (p 0 - e 0), sq_nonneg (p 1 - e 1), sq_nonneg (p 2 - e 2)]
      · change p 1 - e 1 = 0; nlinarith [sq_nonneg (p 0 - e 0), sq_nonneg (p 1 - e 1), sq_nonneg (p 2 - e 2)]
      · change p 2 - e 2 = 0; nlinarith [sq_nonneg (p 0 - e 0), sq_nonneg (p 1 - e 1), sq_nonneg (p 2 - e 2)]
    · simp only [div_pow]
      rw [← add_div, ← add_div]
      exact div_le_one_of_le₀ h (sq_nonneg _)
  · intro hr0 hf
    have h := (s.2 hf).2
    have hpos : 0 < r := lt_of_lt_of_le (by norm_num) (hr.resolve_left hr0).1
    simp only [div_pow] at h
    rw [← add_div, ← add_div, div_le_iff₀ (by positivity)] at h
    have hsq : (1 + 3 / 10 ^ 8 : ℝ) ≤ (1 + 2 / 10 ^ 8) ^ 2 := by norm_num
    calc _ ≤ (1 + 3 / 10 ^ 8) * r ^ 2 := h
      _ ≤ (1 + 2 / 10 ^ 8) ^ 2 * r ^ 2 := by gcongr
      _ = _ := by ring

omit hfl in
theorem rigid_axis (R : Matrix (Fin 3) (Fin 3) ℝ) (c : Fin 3 → ℝ) (z : ℝ) (j : Fin 3) :
    Spec.rigid R c ![0, 0, z] j = z * R j 2 + c j := by
  simp [Spec.rigid, mulVec, dotProduct, Fin.sum_univ_three]; ring

/-- C109: `Capsule.contains` with rounding: under `CapsuleScale` a point of the capsule is accepted, whatever the order of the
additions, and a point that is accepted lies in the capsule with half length and radius enlarged by the factor `1 + 2e-8`. -/
theorem C109_capsule (c : Capsule ℝ) (hO : Spec.Orthogonal c.cylinder.rotation) (p : Fin 3 → ℝ) (hs : CapsuleScale c p) :
    (p ∈ Spec.capsule c.cylinder.length c.cylinder.radius c.cylinder.rotation c.cylinder.center →
      ¬ c.containsFloat fl p (fl (1 / 10 ^ 8)) false) ∧
    (c.cylinder.length ≠ 0 → c.cylinder.radius ≠ 0 → c.containsFloat fl p (fl (1 / 10 ^ 8)) true →
      p ∈ Spec.capsule (c.cylinder.length * (1 + 2 / 10 ^ 8)) (c.cylinder.radius * (1 + 2 / 10 ^ 8)) c.cylinder.rotation
        c.cylinder.center) := by
  obtain ⟨C⟩ := c
  obtain ⟨hsc, hratio⟩ := hs
  dsimp only at *
  have hL0 : 0 ≤ C.length := by
    rcases hsc.length with h | h
    · linarith
    · have := le_trans (by norm_num : (0 : ℝ) ≤ 3 / 10 ^ 8) h.1; linarith
  have hr0 : 0 ≤ C.radius := by
    rcases hsc.radius with h | h
    · exact h.ge
    · exact le_trans (by norm_num) h.1
  have ub2 := unit_bounds (hsc.radius.imp id fun h => ⟨h.1, h.2.trans (by norm_num)⟩)
  have hm : 1 / 2 * C.length = 0 ∨ 3 / 10 ^ 8 ≤ 1 / 2 * C.length ∧ 1 / 2 * C.length ≤ 10 ^ 10 := by
    rw [one_div_mul_eq_div]; exact hsc.length.imp id fun h => ⟨h.1, h.2.trans (by norm_num)⟩
  have hmH : 1 / 2 * C.length ≤ 4 * 10 ^ 4 * unit C.radius := by rw [one_div_mul_eq_div]; exact hratio
  have k1 := fun j => end_close hfl hm hmH (hsc.rotation j 2) (hsc.radiusRatio j).2 ub2 (.inl ⟨rfl, rfl⟩)
  have k2 := fun j => end_close hfl hm hmH (hsc.rotation j 2) (hsc.radiusRatio j).2 ub2 (.inr ⟨rfl, rfl⟩)
  have E1 : ∀ j, Spec.rigid C.rotation C.center ![0, 0, C.length / 2] j = 1 / 2 * C.length * C.rotation j 2 + C.center j :=
    fun j => by rw [rigid_axis]; ring
  have E2 : ∀ j, Spec.rigid C.rotation C.center ![0, 0, -(C.length / 2)] j = -(1 / 2 * C.length * C.rotation j 2) + C.center j :=
    fun j => by rw [rigid_axis]; ring
  have cap1 := cap_parts hfl hsc.radius (p := p) (e := Spec.rigid C.rotation C.center ![0, 0, C.length / 2])
    (e' := fun j => fl (fl (fl (1 / 2 * C.length) * C.longitudinalAxis j) + C.center j)) (fun j => (hsc.radiusRatio j).1)
    (fun j => by rw [E1]; exact k1 j)
  have cap2 := cap_parts hfl hsc.radius (p := p) (e := Spec.rigid C.rotation C.center ![0, 0, -(C.length / 2)])
    (e' := fun j => fl (-fl (fl (1 / 2 * C.length) * C.longitudinalAxis j) + C.center j)) (fun j => (hsc.radiusRatio j).1)
    (fun j => by rw [E2]; exact k2 j)
  have cyl := C109_cylinder hfl C hO p hsc
  constructor
  · rintro hp ⟨a, a3, ha, h3, hans⟩
    simp only [Cylinder.endpointsFloat, List.mem_cons, List.not_mem_nil, or_false, forall_eq_or_imp, forall_eq, List.any_cons,
      List.any_nil, Bool.or_false] at ha hans
    rw [eq_comm, Bool.or_eq_false_iff, Bool.or_eq_false_iff] at hans
    obtain ⟨⟨n1, n2⟩, n3⟩ := hans
    rw [n1, n2] at ha
    subst n3
    rw [C32_union hO _ _ hL0] at hp
    rcases hp with (hp | hp) | hp
    · exact cap1.1 hp ha.1
    · exact cap2.1 hp ha.2
    · exact cyl.1 hp h3
  · rintro hL hr ⟨a, a3, ha, h3, hans⟩
    have hL' : C.length ≤ C.length * (1 + 2 / 10 ^ 8) := le_mul_of_one_le_right hL0 (by norm_num)
    have hr' : C.radius ≤ C.radius * (1 + 2 / 10 ^ 8) := le_mul_of_one_le_right hr0 (by norm_num)
    simp only [Cylinder.endpointsFloat, List.mem_cons, List.not_mem_nil, or_false, forall_eq_or_imp, forall_eq, List.any_cons,
      List.any_nil, Bool.or_false] at ha hans
    rw [eq_comm, Bool.or_eq_true, Bool.or_eq_true] at hans
    rcases hans with (n | n) | n
    · rw [n] at ha
      exact ⟨C.length / 2, by rw [abs_of_nonneg (by positivity)]; linarith, cap1.2 hr ha.1⟩
    · rw [n] at ha
      exact ⟨-(C.length / 2), by rw [abs_neg, abs_of_nonneg (by positivity)]; linarith, cap2.2 hr ha.2⟩
    · subst n
      rw [C32_union hO _ _ (hL0.trans hL')]
      exact .inr (cyl.2 hL hr h3)

omit hfl in
/-- C109: the tests give some answer for every point, so the statements about all answers are not empty. -/
theorem C109_total (c : Capsule ℝ) (p : Fin 3 → ℝ) (tol : ℝ) :
    (∃ answer, c.cylinder.containsFloat fl p answer) ∧ ∃ answer, c.containsFloat fl p tol answer := by
  have hdot : ∀ (x y : Fin 3 → ℝ), ∃ s, FlDot fl (List.ofFn fun j => (x j, y j)) s := fun x y =>
    ⟨_, by
      have h1 : FlDot fl ([(x 0, y 0)] ++ [(x 1, y 1)]) _ := .fma _ _ (by simp) (.prod (x 0) (y 0))
      have h2 : FlDot fl (([(x 0, y 0)] ++ [(x 1, y 1)]) ++ [(x 2, y 2)]) _ := .fma _ _ (by simp) h1
      simpa [List.ofFn_succ] using h2⟩
  choose D hD using hdot
  obtain ⟨-, -, hE⟩ := C105_total fl
  have hcyl : ∃ answer, c.cylinder.containsFloat fl p answer := by
    obtain ⟨a1, h1⟩ := hE 1 ⟨fun _ => fl (c.cylinder.length / 2), 1, fun _ => D c.cylinder.longitudinalAxis c.cylinder.center⟩
      (fun _ => D p c.cylinder.longitudinalAxis) (fl (1 / 100000000))
    obtain ⟨a2, h2⟩ := hE 2 ⟨fun _ => c.cylinder.radius, 1, fun i => D (fun j => c.cylinder.transverseAxes j i) c.cylinder.center⟩
      (fun i => D p (fun j => c.cylinder.transverseAxes j i)) (fl (1 / 100000000))
    exact ⟨a1 && a2, _, _, _, _, a1, a2, fun _ => hD _ _, fun _ => hD _ _, fun _ => hD _ _, fun _ => hD _ _, h1, h2, rfl⟩
  refine ⟨hcyl, ?_⟩
  obtain ⟨a3, h3⟩ := hcyl
  choose a ha using fun e => hE 3 ⟨fun _ => c.cylinder.radius, 1, e⟩ p tol
  exact ⟨_, a, a3, fun e _ => ha e, h3, rfl⟩

end

/-- The hypotheses are met by a cylinder and a capsule away from the origin. -/
theorem capsuleScale_case : CapsuleScale ⟨⟨2, 1, 1, ![1, 2, 3]⟩⟩ ![1, 2, 5] where
  cylinder := {
    length := by norm_num
    radius := by norm_num
    rotation := by
      intro j i
      by_cases h : j = i
      · subst h; simp; norm_num
      · simp [Matrix.one_apply_ne h]
        norm_num
    lengthRatio := by intro j; fin_cases j <;> simp [unit] <;> norm_num
    radiusRatio := by intro j; fin_cases j <;> simp [unit] <;> norm_num }
  ratio := by norm_num [unit]

example {fl : ℝ → ℝ} (hfl : IsRounding fl) :=
  C109_capsule hfl ⟨⟨2, 1, 1, ![1, 2, 3]⟩⟩ (by simp [Spec.Orthogonal]) ![1, 2, 5] capsuleScale_case

example {fl : ℝ → ℝ} (hfl : IsRounding fl) : ¬ (⟨2, 1, 1, ![1, 2, 3]⟩ : Cylinder ℝ).containsFloat fl ![2, 2, 4] false :=
  (C109_cylinder hfl ⟨2, 1, 1, ![1, 2, 3]⟩ (by simp [Spec.Orthogonal]) ![2, 2, 4] {
    length := by norm_num
    radius := by norm_num
    rotation := capsuleScale_case.cylinder.rotation
    lengthRatio := by intro j; fin_cases j <;> simp [unit] <;> norm_num
    radiusRatio := by intro j; fin_cases j <;> simp [unit] <;> norm_num }).1
  ⟨![1, 0, 1], by simp, by simp, by ext j; fin_cases j <;> simp [Spec.rigid] <;> norm_num⟩

end Rigeo
