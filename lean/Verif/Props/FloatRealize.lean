import Verif.Model.FloatRealize
import Verif.Props.FloatRandom
import Verif.Props.Realize

/-!
# C116: rounding in `Ellipsoid.can_realize`
-/

namespace Rigeo

open Spec Matrix

local notation "u" => unitRoundoff

section
variable {fl : ℝ → ℝ} (hfl : IsRounding fl)

/-- One product of two approximations. -/
theorem prod_approx {a a' x x' A X ε δ : ℝ} (ha : |a' - a| ≤ ε * u * A) (hA : |a| ≤ A) (hx : |x' - x| ≤ δ * u * X) (hX : |x| ≤ X)
    (hε : ε ≤ 10 ^ 6) (hε0 : 0 ≤ ε) (hδ : δ ≤ 10 ^ 6) (hδ0 : 0 ≤ δ) :
    |a' * x' - a * x| ≤ (ε + δ + 1 / 100) * u * (A * X) ∧ |a' * x'| ≤ (1 + 1 / 100) * (A * X) := by
  have hu0 := u_pos
  have hA0 := (abs_nonneg a).trans hA
  have hX0 := (abs_nonneg x).trans hX
  have hεu : ε * u ≤ 1 / 10 ^ 9 := by
    have := mul_le_mul hε u_le hu0.le (by norm_num)
    exact this.trans (by norm_num)
  have hδu : δ * u ≤ 1 / 10 ^ 9 := by
    have := mul_le_mul hδ u_le hu0.le (by norm_num)
    exact this.trans (by norm_num)
  have hAX : 0 ≤ A * X := by positivity
  have h1 : |a' * x' - a * x| ≤ |a' - a| * |x' - x| + |a' - a| * |x| + |a| * |x' - x| := by
    have : a' * x' - a * x = (a' - a) * (x' - x) + (a' - a) * x + a * (x' - x) := by ring
    rw [this, ← abs_mul, ← abs_mul, ← abs_mul]
    exact (abs_add_le _ _).trans (add_le_add (abs_add_le _ _) le_rfl)
  have h2 : |a' - a| * |x' - x| ≤ (ε * u * A) * (δ * u * X) := mul_le_mul ha hx (abs_nonneg _) (by positivity)
  have h3 : |a' - a| * |x| ≤ (ε * u * A) * X := mul_le_mul ha hX (abs_nonneg _) (by positivity)
  have h4 : |a| * |x' - x| ≤ A * (δ * u * X) := mul_le_mul hA hx (abs_nonneg _) hA0
  have h5 : (ε * u * A) * (δ * u * X) ≤ 1 / 100 * u * (A * X) := by
    have h6 : ε * (δ * u) ≤ 10 ^ 6 * (1 / 10 ^ 9) := mul_le_mul hε hδu (by positivity) (by norm_num)
    have h7 : ε * (δ * u) * (u * (A * X)) ≤ 10 ^ 6 * (1 / 10 ^ 9) * (u * (A * X)) := mul_le_mul_of_nonneg_right h6 (by positivity)
    have h8 : 10 ^ 6 * (1 / 10 ^ 9) * (u * (A * X)) ≤ 1 / 100 * (u * (A * X)) :=
      mul_le_mul_of_nonneg_right (by norm_num) (by positivity)
    calc _ = ε * (δ * u) * (u * (A * X)) := by ring
      _ ≤ _ := h7
      _ ≤ _ := h8
      _ = _ := by ring
  have hmain : |a' * x' - a * x| ≤ (ε + δ + 1 / 100) * u * (A * X) := by
    refine h1.trans ((add_le_add (add_le_add (h2.trans h5) h3) h4).trans (le_of_eq ?_))
    ring
  refine ⟨hmain, ?_⟩
  have h6 := abs_add_le (a' * x' - a * x) (a * x)
  rw [sub_add_cancel, abs_mul a x] at h6
  have h7 : |a| * |x| ≤ A * X := mul_le_mul hA hX (abs_nonneg _) hA0
  have h8 : (ε + δ + 1 / 100) * u ≤ 1 / 100 := by
    have : 1 / 100 * u ≤ 1 / 100 * (112 / 10 ^ 18) := mul_le_mul_of_nonneg_left u_le (by norm_num)
    have h9 : 1 / 10 ^ 9 + 1 / 10 ^ 9 + 1 / 100 * (112 / 10 ^ 18) ≤ (1 / 100 : ℝ) := by norm_num
    linarith
  have h9 := mul_le_mul_of_nonneg_right h8 hAX
  linarith

include hfl

/-- A computed dot product of approximations: every term is at most `P`. -/
theorem dot_approx {n : ℕ} (hn0 : 1 ≤ n) (hn : n ≤ 4) {a a' x x' A X : Fin n → ℝ} {s ε δ P : ℝ}
    (hs : FlDot fl (List.ofFn fun k => (a' k, x' k)) s) (ha : ∀ k, |a' k - a k| ≤ ε * u * A k) (hA : ∀ k, |a k| ≤ A k)
    (hx : ∀ k, |x' k - x k| ≤ δ * u * X k) (hX : ∀ k, |x k| ≤ X k) (hε : ε ≤ 10 ^ 6) (hε0 : 0 ≤ ε) (hδ : δ ≤ 10 ^ 6) (hδ0 : 0 ≤ δ)
    (hP : ∀ k, A k * X k ≤ P) (hlo : 1 / 10 ^ 80 ≤ P) (hhi : P ≤ 10 ^ 80) :
    |s - ∑ k, a k * x k| ≤ n * (ε + δ + 9) * u * P := by
  have hu0 := u_pos
  have hu2 : 110 / 10 ^ 18 ≤ u := by unfold unitRoundoff; norm_num
  have hP0 : 0 < P := lt_of_lt_of_le (by norm_num) hlo
  have hn1 : (1 : ℝ) ≤ n := by exact_mod_cast hn0
  have hn4 : (n : ℝ) ≤ 4 := by exact_mod_cast hn
  have hp := fun k => prod_approx (ha k) (hA k) (hx k) (hX k) hε hε0 hδ hδ0
  have hAb : ((List.ofFn fun k => (a' k, x' k)).map fun p => |p.1 * p.2|).sum = ∑ k, |a' k * x' k| := by
    rw [List.map_ofFn, List.sum_ofFn]; rfl
  have hB : ((List.ofFn fun k => (a' k, x' k)).map fun p => p.1 * p.2).sum = ∑ k, a' k * x' k := by
    rw [List.map_ofFn, List.sum_ofFn]; rfl
  have hsum : ∑ k, |a' k * x' k| ≤ n * (101 / 100 * P) := by
    refine (Finset.sum_le_sum fun k _ => (hp k).2.trans (mul_le_mul_of_nonneg_left (hP k) (by norm_num))).trans (le_of_eq ?_)
    simp only [Finset.sum_const, Finset.card_univ, Fintype.card_fin, nsmul_eq_mul]
    ring
  have hsum' : ∑ k, |a' k * x' k| ≤ 4 * (101 / 100 * 10 ^ 80) := by
    refine hsum.trans (mul_le_mul hn4 (mul_le_mul_of_nonneg_left hhi (by norm_num)) (by positivity) (by norm_num))
  have h1 := C105_dot hfl hs (by simp; omega) (by rw [hAb]; exact hsum'.trans (by norm_num))
  rw [hAb, hB, List.length_ofFn] at h1
  have h2 : |∑ k, a' k * x' k - ∑ k, a k * x k| ≤ n * ((ε + δ + 1 / 100) * u * P) := by
    rw [← Finset.sum_sub_distrib]
    refine (Finset.abs_sum_le_sum_abs _ _).trans ((Finset.sum_le_sum fun k _ => (hp k).1.trans
      (mul_le_mul_of_nonneg_left (hP k) (by positivity))).trans (le_of_eq ?_))
    simp only [Finset.sum_const, Finset.card_univ, Fintype.card_fin, nsmul_eq_mul]
  have h3 := abs_add_le (s - ∑ k, a' k * x' k) (∑ k, a' k * x' k - ∑ k, a k * x k)
  rw [sub_add_sub_cancel] at h3
  have hu : (2 : ℝ) ^ (-53 : ℤ) = u := rfl
  rw [hu] at h1
  have h4 : 2 * (n : ℝ) * u * ∑ k, |a' k * x' k| ≤ 2 * n * u * (4 * (101 / 100 * P)) := by
    refine mul_le_mul_of_nonneg_left (hsum.trans ?_) (by positivity)
    exact mul_le_mul_of_nonneg_right hn4 (by positivity)
  have h5 : (1 : ℝ) / 10 ^ 190 ≤ n * (1 / 100 * u * P) := by
    have h6 : 110 / 10 ^ 18 * (1 / 10 ^ 80) ≤ u * P := mul_le_mul hu2 hlo (by norm_num) hu0.le
    have h7 : (1 : ℝ) / 10 ^ 190 ≤ 1 / 100 * (110 / 10 ^ 18 * (1 / 10 ^ 80)) := by norm_num
    have h8 : 1 / 100 * u * P ≤ n * (1 / 100 * u * P) := le_mul_of_one_le_left (by positivity) hn1
    linarith
  have h9 : 0 ≤ n * u * P := by positivity
  have h10 : n * (ε + δ + 9) * u * P = n * ((ε + δ + 1 / 100) * u * P) + (9 - 1 / 100) * (n * u * P) := by ring
  have h11 : 2 * n * u * (4 * (101 / 100 * P)) = 808 / 100 * (n * u * P) := by ring
  have h12 : n * (1 / 100 * u * P) = 1 / 100 * (n * u * P) := by ring
  rw [h10]
  rw [h11] at h4
  rw [h12] at h5
  linarith

omit hfl in
theorem dot_bound {n : ℕ} {a x A X : Fin n → ℝ} {P : ℝ} (hA : ∀ k, |a k| ≤ A k) (hX : ∀ k, |x k| ≤ X k) (hP : ∀ k, A k * X k ≤ P) :
    |∑ k, a k * x k| ≤ n * P := by
  refine (Finset.abs_sum_le_sum_abs _ _).trans ((Finset.sum_le_sum (g := fun _ => P) fun k _ => ?_).trans (le_of_eq ?_))
  · rw [abs_mul]
    exact (mul_le_mul (hA k) (hX k) (abs_nonneg _) ((abs_nonneg _).trans (hA k))).trans (hP k)
  · simp

/-- The squared reciprocal of a half extent. -/
theorem recip_approx {h ρ : ℝ} (hρ : 2 / 10 ^ 8 ≤ ρ) (h1 : ρ ≤ h) (h2 : h ≤ 10 ^ 10) :
    |fl (fl (1 / h) * fl (1 / h)) - (1 / h) ^ 2| ≤ 4 * u * (1 / ρ ^ 2) ∧ |(1 / h) ^ 2| ≤ 1 / ρ ^ 2 := by
  have hu0 := u_pos
  have hu2 : 110 / 10 ^ 18 ≤ u := by unfold unitRoundoff; norm_num
  have hρ0 : 0 < ρ := lt_of_lt_of_le (by norm_num) hρ
  have hh0 : 0 < h := lt_of_lt_of_le hρ0 h1
  set b := 1 / h with hb
  have hb0 : 0 < b := by positivity
  have hblo : 1 / 10 ^ 10 ≤ b := one_div_le_one_div_of_le hh0 h2
  have hbhi : b ≤ 10 ^ 8 := by
    rw [hb, div_le_iff₀ hh0]
    have : (10 : ℝ) ^ 8 * (2 / 10 ^ 8) ≤ 10 ^ 8 * h := mul_le_mul_of_nonneg_left (hρ.trans h1) (by norm_num)
    norm_num at this ⊢
    linarith
  have hbρ : b ^ 2 ≤ 1 / ρ ^ 2 := by
    rw [hb, div_pow, one_pow]
    exact one_div_le_one_div_of_le (by positivity) (pow_le_pow_left₀ hρ0.le h1 2)
  have e1 : |fl b - b| ≤ 101 / 100 * u * b := by
    have h3 := fl_near hfl (x := b) (by rw [abs_of_pos hb0]; exact hbhi.trans (by norm_num))
    rw [abs_of_pos hb0] at h3
    have h4 : 110 / 10 ^ 18 * (1 / 10 ^ 10) ≤ u * b := mul_le_mul hu2 hblo (by norm_num) hu0.le
    have h5 : (1 : ℝ) / 10 ^ 200 ≤ 1 / 100 * (110 / 10 ^ 18 * (1 / 10 ^ 10)) := by norm_num
    linarith
  obtain ⟨e2, e3⟩ := prod_approx e1 (abs_of_pos hb0).le e1 (abs_of_pos hb0).le (by norm_num) (by norm_num) (by norm_num) (by norm_num)
  have hbb : b * b ≤ 10 ^ 16 := by
    have := mul_le_mul hbhi hbhi hb0.le (by norm_num)
    norm_num at this ⊢
    exact this
  have hbl : 1 / 10 ^ 20 ≤ b * b := by
    have := mul_le_mul hblo hblo (by norm_num) hb0.le
    norm_num at this ⊢
    exact this
  have e4 := fl_near hfl (x := fl b * fl b) (e3.trans ((mul_le_mul_of_nonneg_left hbb (by norm_num)).trans (by norm_num)))
  have e5 : u * |fl b * fl b| ≤ u * ((1 + 1 / 100) * (b * b)) := mul_le_mul_of_nonneg_left e3 hu0.le
  have e6 : (1 : ℝ) / 10 ^ 200 ≤ 1 / 100 * (u * (b * b)) := by
    have h4 : 110 / 10 ^ 18 * (1 / 10 ^ 20) ≤ u * (b * b) := mul_le_mul hu2 hbl (by norm_num) hu0.le
    have h5 : (1 : ℝ) / 10 ^ 200 ≤ 1 / 100 * (110 / 10 ^ 18 * (1 / 10 ^ 20)) := by norm_num
    linarith
  have e7 := abs_add_le (fl (fl b * fl b) - fl b * fl b) (fl b * fl b - b * b)
  rw [sub_add_sub_cancel] at e7
  refine ⟨?_, by rw [abs_of_pos (by positivity)]; exact hbρ⟩
  have e8 : 4 * u * b ^ 2 ≤ 4 * u * (1 / ρ ^ 2) := mul_le_mul_of_nonneg_left hbρ (by positivity)
  have e9 : 0 ≤ u * (b * b) := by positivity
  rw [sq] at e8 ⊢
  linarith

omit hfl in
/-- The data of a test `can_realize`: half extents between `ρ` and 10¹⁰, a center and a center of mass within `10 ρ` of the origin along
each axis, second moments of at most `100 m ρ²`, entries of the rotation that are not larger than those of a rotation. -/
structure RealizeScale (e : Ellipsoid ℝ 3) (p : IP ℝ) (ρ : ℝ) : Prop where
  lo : 2 / 10 ^ 8 ≤ ρ
  extents : ∀ i, ρ ≤ e.halfExtents i ∧ e.halfExtents i ≤ 10 ^ 10
  rotation : ∀ i j, |e.rotation i j| ≤ 101 / 100
  center : ∀ j, |e.center j| ≤ 10 * ρ
  mass : 1 / 10 ^ 20 ≤ p.mass ∧ p.mass ≤ 10 ^ 20
  com : ∀ j, |p.com j| ≤ 10 * ρ
  second : ∀ j k, |p.H j k| ≤ 100 * (p.mass * ρ ^ 2)

omit hfl in
/-- The shape matrix in exact arithmetic. -/
noncomputable def shapeMatrix (e : Ellipsoid ℝ 3) : Matrix (Fin 3) (Fin 3) ℝ :=
  e.rotation * Matrix.diagonal (fun i => (1 / e.halfExtents i) ^ 2) * e.rotationᵀ

theorem S_approx {e : Ellipsoid ℝ 3} {p : IP ℝ} {ρ : ℝ} (hs : RealizeScale e p ρ) {S : Matrix (Fin 3) (Fin 3) ℝ} (h : e.SFloat fl S)
    (i j : Fin 3) : |S i j - shapeMatrix e i j| ≤ 49 * u * (31 / 10 * (1 / ρ ^ 2)) ∧ |shapeMatrix e i j| ≤ 31 / 10 * (1 / ρ ^ 2) := by
  obtain ⟨T, hT, hS⟩ := h
  have hu0 := u_pos
  have hρ0 : 0 < ρ := lt_of_lt_of_le (by norm_num) hs.lo
  have hρ1 : ρ ≤ 10 ^ 10 := (hs.extents 0).1.trans (hs.extents 0).2
  set g := 1 / ρ ^ 2 with hg
  have hg0 : 0 < g := by positivity
  have hglo : 1 / 10 ^ 20 ≤ g := by
    rw [hg]
    refine one_div_le_one_div_of_le (by positivity) ((pow_le_pow_left₀ hρ0.le hρ1 2).trans (by norm_num))
  have hghi : g ≤ 10 ^ 16 := by
    rw [hg, div_le_iff₀ (by positivity)]
    have := pow_le_pow_left₀ (by norm_num) hs.lo 2
    have h1 : (10 : ℝ) ^ 16 * (2 / 10 ^ 8) ^ 2 ≤ 10 ^ 16 * ρ ^ 2 := mul_le_mul_of_nonneg_left this (by norm_num)
    norm_num at h1 ⊢
    linarith
  set D : Fin 3 → ℝ := fun i => (1 / e.halfExtents i) ^ 2 with hD
  have hr := fun k => recip_approx hfl hs.lo (hs.extents k).1 (hs.extents k).2
  have hTk : ∀ i k, |T i k - (e.rotation * Matrix.diagonal D) i k| ≤ 40 * u * (101 / 100 * g) := fun i k => by
    have h1 := dot_approx hfl (n := 3) (by norm_num) (by norm_num) (a := fun j => e.rotation i j) (x := fun j => Matrix.diagonal D j k)
      (A := fun _ => 101 / 100) (X := fun _ => g) (ε := 0) (δ := 4) (P := 101 / 100 * g) (hT i k) (fun j => by simp)
      (fun j => hs.rotation i j) (fun j => by
        rcases eq_or_ne j k with rfl | hjk
        · simpa only [Matrix.diagonal_apply_eq] using (hr j).1
        · rw [Matrix.diagonal_apply_ne _ hjk, Matrix.diagonal_apply_ne _ hjk, sub_self, abs_zero]
          positivity) (fun j => by
        rcases eq_or_ne j k with rfl | hjk
        · simpa only [Matrix.diagonal_apply_eq] using (hr j).2
        · rw [Matrix.diagonal_apply_ne _ hjk, abs_zero]
          positivity) (by norm_num) (by norm_num) (by norm_num) (by norm_num) (fun _ => le_rfl)
      (by have : (1 : ℝ) / 10 ^ 80 ≤ 101 / 100 * (1 / 10 ^ 20) := by norm_num
          linarith)
      (by have : 101 / 100 * (10 : ℝ) ^ 16 ≤ 10 ^ 80 := by norm_num
          linarith)
    rw [Matrix.mul_apply]
    refine h1.trans ?_
    push_cast
    have : 0 ≤ u * (101 / 100 * g) := by positivity
    linarith
  have hTb : ∀ i k, |(e.rotation * Matrix.diagonal D) i k| ≤ 101 / 100 * g := fun i k => by
    rw [Matrix.mul_diagonal, abs_mul]
    exact mul_le_mul (hs.rotation i k) (hr k).2 (abs_nonneg _) (by norm_num)
  have hSS : shapeMatrix e i j = ∑ k, (e.rotation * Matrix.diagonal D) i k * e.rotationᵀ k j := by
    rw [shapeMatrix, Matrix.mul_apply]
  rw [hSS]
  constructor
  · have h1 := dot_approx hfl (n := 3) (by norm_num) (by norm_num) (a := fun k => (e.rotation * Matrix.diagonal D) i k)
      (x := fun k => e.rotationᵀ k j) (A := fun _ => 101 / 100 * g) (X := fun _ => 101 / 100) (ε := 40) (δ := 0)
      (P := 101 / 100 * g * (101 / 100)) (hS i j) (fun k => hTk i k) (fun k => hTb i k) (fun k => by simp) (fun k => hs.rotation j k)
      (by norm_num) (by norm_num) (by norm_num) (by norm_num) (fun _ => le_rfl)
      (by have : (1 : ℝ) / 10 ^ 80 ≤ 101 / 100 * (1 / 10 ^ 20) * (101 / 100) := by norm_num
          linarith)
      (by have : 101 / 100 * (10 : ℝ) ^ 16 * (101 / 100) ≤ 10 ^ 80 := by norm_num
          linarith)
    refine h1.trans ?_
    push_cast
    have : 0 ≤ u * g := by positivity
    linarith
  · refine (dot_bound (fun k => hTb i k) (fun k => hs.rotation j k) (fun _ => le_rfl)).trans ?_
    push_cast
    linarith

/-- The entries of `Q`. -/
theorem Q_approx {e : Ellipsoid ℝ 3} {p : IP ℝ} {ρ : ℝ} (hs : RealizeScale e p ρ) {Q : Matrix (Fin 4) (Fin 4) ℝ} (h : e.QFloat fl Q)
    (i j : Fin 4) :
    |Q i j - (qMatrix (shapeMatrix e) e.center) i j| ≤
        70 * u * bordered (Matrix.of fun _ _ => 31 / 10 * (1 / ρ ^ 2)) (fun _ => 93 * (1 / ρ)) (fun _ => 93 * (1 / ρ)) 2791 i j ∧
      |(qMatrix (shapeMatrix e) e.center) i j| ≤
        bordered (Matrix.of fun _ _ => 31 / 10 * (1 / ρ ^ 2)) (fun _ => 93 * (1 / ρ)) (fun _ => 93 * (1 / ρ)) 2791 i j := by
  obtain ⟨S, v, w, t, hS, hv, hw, ht, rfl⟩ := h
  have hu0 := u_pos
  have hρ0 : 0 < ρ := lt_of_lt_of_le (by norm_num) hs.lo
  have hρ1 : ρ ≤ 10 ^ 10 := (hs.extents 0).1.trans (hs.extents 0).2
  have hSa := S_approx hfl hs hS
  set X := shapeMatrix e with hX
  have hc := hs.center
  have hg : 31 / 10 * (1 / ρ ^ 2) * (10 * ρ) = 31 * (1 / ρ) := by field_simp
  have hg' : 10 * ρ * (31 / 10 * (1 / ρ ^ 2)) = 31 * (1 / ρ) := by field_simp
  have hr0 : 0 < 1 / ρ := by positivity
  have hrlo : 1 / 10 ^ 10 ≤ 1 / ρ := one_div_le_one_div_of_le hρ0 hρ1
  have hrhi : 1 / ρ ≤ 10 ^ 8 := by
    rw [div_le_iff₀ hρ0]
    have := hs.lo
    norm_num at this ⊢
    linarith
  have hPlo : 1 / 10 ^ 80 ≤ 31 * (1 / ρ) := by
    have : (1 : ℝ) / 10 ^ 80 ≤ 31 * (1 / 10 ^ 10) := by norm_num
    linarith
  have hPhi : 31 * (1 / ρ) ≤ 10 ^ 80 := by
    have : 31 * (10 : ℝ) ^ 8 ≤ 10 ^ 80 := by norm_num
    linarith
  have hvb : ∀ i, |(X *ᵥ e.center) i| ≤ 93 * (1 / ρ) := fun i => by
    refine (dot_bound (fun k => (hSa i k).2) hc (fun _ => hg.le)).trans (le_of_eq ?_)
    push_cast; ring
  have hva : ∀ i, |v i - (X *ᵥ e.center) i| ≤ 58 * u * (93 * (1 / ρ)) := fun i => by
    have h1 := dot_approx hfl (n := 3) (by norm_num) (by norm_num) (a := fun k => X i k) (x := fun k => e.center k)
      (A := fun _ => 31 / 10 * (1 / ρ ^ 2)) (X := fun _ => 10 * ρ) (ε := 49) (δ := 0) (P := 31 * (1 / ρ)) (hv i)
      (fun k => (hSa i k).1) (fun k => (hSa i k).2) (fun k => by simp) hc (by norm_num) (by norm_num) (by norm_num) (by norm_num)
      (fun _ => hg.le) hPlo hPhi
    refine h1.trans (le_of_eq ?_)
    push_cast; ring
  have hwb : ∀ j, |(e.center ᵥ* X) j| ≤ 93 * (1 / ρ) := fun j => by
    refine (dot_bound hc (fun k => (hSa k j).2) (fun _ => hg'.le)).trans (le_of_eq ?_)
    push_cast; ring
  have hwa : ∀ j, |w j - (e.center ᵥ* X) j| ≤ 58 * u * (93 * (1 / ρ)) := fun j => by
    have h1 := dot_approx hfl (n := 3) (by norm_num) (by norm_num) (a := fun k => e.center k) (x := fun k => X k j)
      (A := fun _ => 10 * ρ) (X := fun _ => 31 / 10 * (1 / ρ ^ 2)) (ε := 0) (δ := 49) (P := 31 * (1 / ρ)) (hw j)
      (fun k => by simp) hc (fun k => (hSa k j).1) (fun k => (hSa k j).2) (by norm_num) (by norm_num) (by norm_num) (by norm_num)
      (fun _ => hg'.le) hPlo hPhi
    refine h1.trans (le_of_eq ?_)
    push_cast; ring
  have hg2 : 93 * (1 / ρ) * (10 * ρ) = 930 := by field_simp; norm_num
  have htb : |(e.center ᵥ* X) ⬝ᵥ e.center| ≤ 2790 := by
    refine (dot_bound hwb hc (fun _ => hg2.le)).trans (le_of_eq ?_)
    norm_num
  have hta : |t - (e.center ᵥ* X) ⬝ᵥ e.center| ≤ 186930 * u := by
    have h1 := dot_approx hfl (n := 3) (by norm_num) (by norm_num) (a := fun k => (e.center ᵥ* X) k) (x := fun k => e.center k)
      (A := fun _ => 93 * (1 / ρ)) (X := fun _ => 10 * ρ) (ε := 58) (δ := 0) (P := 930) ht
      hwa hwb (fun k => by simp) hc (by norm_num) (by norm_num) (by norm_num) (by norm_num)
      (fun _ => hg2.le) (by norm_num) (by norm_num)
    refine h1.trans (le_of_eq ?_)
    push_cast; ring
  have hcorner : |fl (1 - t) - (1 - (e.center ᵥ* X) ⬝ᵥ e.center)| ≤ 70 * u * 2791 := by
    set τ := (e.center ᵥ* X) ⬝ᵥ e.center
    have hu1 := u_le
    have hu2 : 110 / 10 ^ 18 ≤ u := by unfold unitRoundoff; norm_num
    have h0 : |1 - t| ≤ 2792 := by
      have h1 := abs_add_le (1 - τ) (-(t - τ))
      rw [show 1 - τ + -(t - τ) = 1 - t by ring, abs_neg] at h1
      have h2 := abs_sub (1 : ℝ) τ
      rw [abs_one] at h2
      have : (186930 : ℝ) * (112 / 10 ^ 18) ≤ 1 := by norm_num
      linarith
    have h1 := fl_near hfl (x := 1 - t) (h0.trans (by norm_num))
    have h2 := abs_add_le (fl (1 - t) - (1 - t)) (-(t - τ))
    rw [show fl (1 - t) - (1 - t) + -(t - τ) = fl (1 - t) - (1 - τ) by ring, abs_neg] at h2
    have h3 : u * |1 - t| ≤ u * 2792 := mul_le_mul_of_nonneg_left h0 hu0.le
    have h4 : (1 : ℝ) / 10 ^ 200 ≤ 110 / 10 ^ 18 := by norm_num
    linarith
  have hcb : |1 - (e.center ᵥ* X) ⬝ᵥ e.center| ≤ 2791 := by
    have h2 := abs_sub (1 : ℝ) ((e.center ᵥ* X) ⬝ᵥ e.center)
    rw [abs_one] at h2
    linarith
  have hmono : ∀ {B : ℝ}, 0 ≤ B → ∀ {k : ℝ}, k ≤ 70 → k * u * B ≤ 70 * u * B := fun hB k hk =>
    mul_le_mul_of_nonneg_right (mul_le_mul_of_nonneg_right hk hu0.le) hB
  unfold qMatrix
  induction i using Fin.lastCases with
  | last =>
    induction j using Fin.lastCases with
    | last => rw [bordered_ll, bordered_ll, bordered_ll]; exact ⟨hcorner, hcb⟩
    | cast j =>
      rw [bordered_lc, bordered_lc, bordered_lc]
      exact ⟨(hva j).trans (hmono (by positivity) (by norm_num)), hvb j⟩
  | cast i =>
    induction j using Fin.lastCases with
    | last =>
      rw [bordered_cl, bordered_cl, bordered_cl]
      exact ⟨(hva i).trans (hmono (by positivity) (by norm_num)), hvb i⟩
    | cast j =>
      rw [bordered_cc, bordered_cc, bordered_cc, Matrix.neg_apply, Matrix.neg_apply, neg_sub_neg, abs_sub_comm, abs_neg]
      exact ⟨(hSa i j).1.trans (hmono (by positivity) (by norm_num)), (hSa i j).2⟩

/-- C116: The computed trace differs from that of exact arithmetic by at most `10⁻⁹` times the mass. -/
theorem C116_trace {e : Ellipsoid ℝ 3} {p : IP ℝ} {ρ : ℝ} (hs : RealizeScale e p ρ) {t : ℝ} (h : e.traceQJFloat fl p t) :
    |t - (qMatrix (e.rotation * Matrix.diagonal (fun i => (1 / e.halfExtents i) ^ 2) * e.rotationᵀ) e.center * p.J).trace| ≤
      1 / 10 ^ 9 * p.mass := by
  obtain ⟨Q, M, hQ, hM, ht⟩ := h
  change |t - (qMatrix (shapeMatrix e) e.center * p.J).trace| ≤ _
  have hu0 := u_pos
  have hu1 := u_le
  have hu2 : 110 / 10 ^ 18 ≤ u := by unfold unitRoundoff; norm_num
  have hρ0 : 0 < ρ := lt_of_lt_of_le (by norm_num) hs.lo
  have hm0 : 0 < p.mass := lt_of_lt_of_le (by norm_num) hs.mass.1
  have hQa := Q_approx hfl hs hQ
  set B : Matrix (Fin 4) (Fin 4) ℝ :=
    bordered (Matrix.of fun _ _ => 31 / 10 * (1 / ρ ^ 2)) (fun _ => 93 * (1 / ρ)) (fun _ => 93 * (1 / ρ)) 2791 with hB
  set C : Matrix (Fin 4) (Fin 4) ℝ := bordered (Matrix.of fun _ _ => 100 * (p.mass * ρ ^ 2)) (fun _ => 10 * (p.mass * ρ))
    (fun _ => 10 * (p.mass * ρ)) p.mass with hC
  have hh : ∀ j, |p.hFloat fl j - p.h j| ≤ 2 * u * (10 * (p.mass * ρ)) ∧ |p.h j| ≤ 10 * (p.mass * ρ) := fun j => by
    have h1 : |p.h j| ≤ 10 * (p.mass * ρ) := by
      change |p.mass * p.com j| ≤ _
      rw [abs_mul, abs_of_pos hm0]
      have := mul_le_mul_of_nonneg_left (hs.com j) hm0.le
      linarith
    refine ⟨?_, h1⟩
    have hρ1 : ρ ≤ 10 ^ 10 := (hs.extents 0).1.trans (hs.extents 0).2
    have h2 : p.mass * ρ ≤ 10 ^ 20 * 10 ^ 10 := mul_le_mul hs.mass.2 hρ1 hρ0.le (by norm_num)
    have h3 := fl_near hfl (x := p.h j) (h1.trans ((mul_le_mul_of_nonneg_left h2 (by norm_num)).trans (by norm_num)))
    have h4 : u * |p.h j| ≤ u * (10 * (p.mass * ρ)) := mul_le_mul_of_nonneg_left h1 hu0.le
    have h5 : 1 / 10 ^ 20 * (2 / 10 ^ 8) ≤ p.mass * ρ := mul_le_mul hs.mass.1 hs.lo (by norm_num) hm0.le
    have h6 : 110 / 10 ^ 18 * (1 / 10 ^ 20 * (2 / 10 ^ 8)) ≤ u * (p.mass * ρ) := mul_le_mul hu2 h5 (by norm_num) hu0.le
    have h7 : (1 : ℝ) / 10 ^ 200 ≤ 110 / 10 ^ 18 * (1 / 10 ^ 20 * (2 / 10 ^ 8)) := by norm_num
    have h8 : |p.hFloat fl j - p.h j| ≤ u * |p.h j| + 1 / 10 ^ 200 := h3
    linarith
  have hJa : ∀ i j, |p.JFloat fl i j - p.J i j| ≤ 2 * u * C i j ∧ |p.J i j| ≤ C i j := fun i j => by
    rw [IP.JFloat, IP.J, hC]
    induction i using Fin.lastCases with
    | last =>
      induction j using Fin.lastCases with
      | last =>
        rw [bordered_ll, bordered_ll, bordered_ll, sub_self, abs_zero, abs_of_pos hm0]
        exact ⟨by positivity, le_rfl⟩
      | cast j => rw [bordered_lc, bordered_lc, bordered_lc]; exact hh j
    | cast i =>
      induction j using Fin.lastCases with
      | last => rw [bordered_cl, bordered_cl, bordered_cl]; exact hh i
      | cast j =>
        rw [bordered_cc, bordered_cc, bordered_cc, sub_self, abs_zero, Matrix.of_apply]
        exact ⟨by positivity, hs.second i j⟩
  have hBC : ∀ i k, B i k * C k i ≤ 2791 * p.mass := fun i k => by
    have e1 : 31 / 10 * (1 / ρ ^ 2) * (100 * (p.mass * ρ ^ 2)) = 310 * p.mass := by field_simp; norm_num
    have e2 : 93 * (1 / ρ) * (10 * (p.mass * ρ)) = 930 * p.mass := by field_simp; norm_num
    rw [hB, hC]
    induction i using Fin.lastCases with
    | last =>
      induction k using Fin.lastCases with
      | last => rw [bordered_ll, bordered_ll]
      | cast k => rw [bordered_lc, bordered_cl, e2]; linarith
    | cast i =>
      induction k using Fin.lastCases with
      | last => rw [bordered_cl, bordered_lc, e2]; linarith
      | cast k => rw [bordered_cc, bordered_cc, Matrix.of_apply, Matrix.of_apply, e1]; linarith
  set Y := qMatrix (shapeMatrix e) e.center with hY
  have hMa : ∀ i, |M i i - (Y * p.J) i i| ≤ 905000 * u * p.mass := fun i => by
    have h1 := dot_approx hfl (n := 4) (by norm_num) (by norm_num) (a := fun k => Y i k) (x := fun k => p.J k i)
      (A := fun k => B i k) (X := fun k => C k i) (ε := 70) (δ := 2) (P := 2791 * p.mass) (hM i i)
      (fun k => (hQa i k).1) (fun k => (hQa i k).2) (fun k => (hJa k i).1) (fun k => (hJa k i).2)
      (by norm_num) (by norm_num) (by norm_num) (by norm_num) (fun k => hBC i k)
      (by have : (1 : ℝ) / 10 ^ 80 ≤ 2791 * (1 / 10 ^ 20) := by norm_num
          linarith [hs.mass.1])
      (by have : 2791 * (10 : ℝ) ^ 20 ≤ 10 ^ 80 := by norm_num
          linarith [hs.mass.2])
    rw [Matrix.mul_apply]
    refine h1.trans ?_
    push_cast
    have : 0 ≤ u * p.mass := by positivity
    linarith
  have hMb : ∀ i, |(Y * p.J) i i| ≤ 11164 * p.mass := fun i => by
    rw [Matrix.mul_apply]
    refine (dot_bound (fun k => (hQa i k).2) (fun k => (hJa k i).2) (fun k => hBC i k)).trans (le_of_eq ?_)
    push_cast; ring
  have hsm : 905000 * u * p.mass ≤ p.mass := by
    have : 905000 * u ≤ 905000 * (112 / 10 ^ 18) := mul_le_mul_of_nonneg_left hu1 (by norm_num)
    have h2 : (905000 : ℝ) * (112 / 10 ^ 18) ≤ 1 := by norm_num
    have := mul_le_mul_of_nonneg_right (this.trans h2) hm0.le
    linarith
  have hMc : ∀ i, |M i i| ≤ 11165 * p.mass := fun i => by
    have h1 := abs_add_le (M i i - (Y * p.J) i i) ((Y * p.J) i i)
    rw [sub_add_cancel] at h1
    linarith [hMa i, hMb i]
  have hab : (([M 0 0, M 1 1, M 2 2, M 3 3] : List ℝ).map abs).sum ≤ 44660 * p.mass := by
    simp only [List.map_cons, List.map_nil, List.sum_cons, List.sum_nil, add_zero]
    linarith [hMc 0, hMc 1, hMc 2, hMc 3]
  have h1 := C105_sum hfl ht (by norm_num) (hab.trans (by
    have : 44660 * (10 : ℝ) ^ 20 ≤ 10 ^ 100 := by norm_num
    linarith [hs.mass.2]))
  have hu : (2 : ℝ) ^ (-53 : ℤ) = u := rfl
  rw [hu] at h1
  have h2 : 2 * (([M 0 0, M 1 1, M 2 2, M 3 3] : List ℝ).length : ℝ) * u * (([M 0 0, M 1 1, M 2 2, M 3 3] : List ℝ).map abs).sum ≤
      8 * u * (44660 * p.mass) := by
    have h3 := mul_le_mul_of_nonneg_left hab (by positivity : (0 : ℝ) ≤ 8 * u)
    refine le_trans (le_of_eq ?_) h3
    simp only [List.length_cons, List.length_nil]
    push_cast; ring
  have htr : (Y * p.J).trace = (Y * p.J) 0 0 + (Y * p.J) 1 1 + (Y * p.J) 2 2 + (Y * p.J) 3 3 := by
    rw [Matrix.trace, Fin.sum_univ_four]; rfl
  have hl : ([M 0 0, M 1 1, M 2 2, M 3 3] : List ℝ).sum = M 0 0 + M 1 1 + M 2 2 + M 3 3 := by
    simp only [List.sum_cons, List.sum_nil, add_zero]; ring
  rw [hl] at h1
  rw [htr]
  have h3 : (1 : ℝ) / 10 ^ 190 ≤ u * p.mass := by
    have h4 : 110 / 10 ^ 18 * (1 / 10 ^ 20) ≤ u * p.mass := mul_le_mul hu2 hs.mass.1 (by norm_num) hu0.le
    have h5 : (1 : ℝ) / 10 ^ 190 ≤ 110 / 10 ^ 18 * (1 / 10 ^ 20) := by norm_num
    linarith
  have h4 : 4 * (905000 * u * p.mass) + 8 * u * (44660 * p.mass) + u * p.mass ≤ 1 / 10 ^ 9 * p.mass := by
    have h5 : 3977281 * (u * p.mass) ≤ 3977281 * (112 / 10 ^ 18 * p.mass) :=
      mul_le_mul_of_nonneg_left (mul_le_mul_of_nonneg_right hu1 hm0.le) (by norm_num)
    have h6 : (3977281 : ℝ) * (112 / 10 ^ 18) ≤ 1 / 10 ^ 9 := by norm_num
    have h7 := mul_le_mul_of_nonneg_right h6 hm0.le
    linarith
  have a0 := abs_le.mp (hMa 0)
  have a1 := abs_le.mp (hMa 1)
  have a2 := abs_le.mp (hMa 2)
  have a3 := abs_le.mp (hMa 3)
  have a4 := abs_le.mp (h1.trans (add_le_add h2 h3))
  rw [abs_le]
  constructor
  · linarith [a0.1, a1.1, a2.1, a3.1, a4.1]
  · linarith [a0.2, a1.2, a2.2, a3.2, a4.2]

omit hfl in
/-- The trace condition of a scaled ellipsoid. -/
theorem trace_scaled (e : Ellipsoid ℝ 3) (p : IP ℝ) {κ : ℝ} (hκ : κ ≠ 0) :
    (qMatrix (e.rotation * Matrix.diagonal (fun i => (1 / (κ * e.halfExtents i)) ^ 2) * e.rotationᵀ) e.center * p.J).trace =
      (1 / κ ^ 2) * (qMatrix (shapeMatrix e) e.center * p.J).trace + (1 - 1 / κ ^ 2) * p.mass := by
  have hS : e.rotation * Matrix.diagonal (fun i => (1 / (κ * e.halfExtents i)) ^ 2) * e.rotationᵀ = (1 / κ ^ 2) • shapeMatrix e := by
    have hD : (Matrix.diagonal fun i => (1 / (κ * e.halfExtents i)) ^ 2) =
        (1 / κ ^ 2) • Matrix.diagonal fun i => (1 / e.halfExtents i) ^ 2 := by
      rw [← Matrix.diagonal_smul]
      congr 1
      funext i
      simp only [Pi.smul_apply, smul_eq_mul, div_pow, mul_pow, one_pow]
      rw [div_mul_div_comm, one_mul]
    rw [hD, shapeMatrix, Matrix.mul_smul, Matrix.smul_mul]
  have hQ : qMatrix ((1 / κ ^ 2) • shapeMatrix e) e.center =
      (1 / κ ^ 2) • qMatrix (shapeMatrix e) e.center + bordered 0 0 0 (1 - 1 / κ ^ 2) := by
    unfold qMatrix
    rw [bordered_smul, bordered_add]
    congr 1
    · simp
    · rw [smul_mulVec, add_zero]
    · rw [smul_mulVec, add_zero]
    · rw [vecMul_smul, smul_dotProduct]
      simp only [smul_eq_mul]
      ring
  rw [hS, hQ, Matrix.add_mul, Matrix.trace_add, Matrix.smul_mul, Matrix.trace_smul, smul_eq_mul]
  congr 1
  rw [IP.J, bordered_mul, bordered_trace]
  simp [outer]

/-- C116: If `can_realize` says yes on a non-degenerate ellipsoid, the parameters (with a positive semidefinite pseudo-inertia matrix)
can be realized in the ellipsoid enlarged by the factor `1 + 10⁻⁹`, and the computed smallest eigenvalue was at least `eps`. -/
theorem C116_sound {e : Ellipsoid ℝ 3} {p : IP ℝ} {ρ : ℝ} (hs : RealizeScale e p ρ) (hO : Spec.Orthogonal e.rotation) {eps lam : ℝ}
    (h : e.canRealizeFloat fl p eps lam true) (hJ : Spec.PSD p.J) :
    Spec.Realizable (Spec.ellipsoid (fun i => (1 + 1 / 10 ^ 9) * e.halfExtents i) e.rotation e.center) p.mass p.h p.H ∧
      eps ≤ lam := by
  obtain ⟨t, ht, h1⟩ := h
  refine ⟨?_, (h1.mp rfl).1⟩
  have ht0 := (h1.mp rfl).2
  have h2 := (abs_le.mp (C116_trace hfl hs ht)).2
  have hm0 : 0 < p.mass := lt_of_lt_of_le (by norm_num) hs.mass.1
  rw [realizable_ellipsoid_iff hO]
  refine ⟨hJ, ?_, fun i hi => ?_⟩
  · have h3 := trace_scaled e p (κ := 1 + 1 / 10 ^ 9) (by norm_num)
    change (qMatrix _ _ * p.J).trace = _ at h3
    change 0 ≤ (qMatrix _ _ * p.J).trace
    rw [h3]
    change t - (qMatrix (shapeMatrix e) e.center * p.J).trace ≤ _ at h2
    norm_num at h2 ⊢
    linarith
  · have h0 : 0 < e.halfExtents i := lt_of_lt_of_le (lt_of_lt_of_le (by norm_num) hs.lo) (hs.extents i).1
    exact absurd hi (by positivity)

/-- C116: If the parameters can be realized in the ellipsoid shrunk by the factor `1 - 10⁻⁹` and the computed smallest eigenvalue is at
least `eps`, `can_realize` says yes. -/
theorem C116_accepts {e : Ellipsoid ℝ 3} {p : IP ℝ} {ρ : ℝ} (hs : RealizeScale e p ρ) (hO : Spec.Orthogonal e.rotation) {eps lam : ℝ}
    (hl : eps ≤ lam)
    (hr : Spec.Realizable (Spec.ellipsoid (fun i => (1 - 1 / 10 ^ 9) * e.halfExtents i) e.rotation e.center) p.mass p.h p.H)
    {answer : Bool} (h : e.canRealizeFloat fl p eps lam answer) : answer = true := by
  obtain ⟨t, ht, h1⟩ := h
  refine h1.mpr ⟨hl, ?_⟩
  have h2 := (abs_le.mp (C116_trace hfl hs ht)).1
  have hm0 : 0 < p.mass := lt_of_lt_of_le (by norm_num) hs.mass.1
  obtain ⟨-, h4, -⟩ := (realizable_ellipsoid_iff hO _ _ _ _ _).mp hr
  have h3 := trace_scaled e p (κ := 1 - 1 / 10 ^ 9) (by norm_num)
  change (qMatrix _ _ * p.J).trace = _ at h3
  change 0 ≤ (qMatrix _ _ * p.J).trace at h4
  rw [h3] at h4
  change _ ≤ t - (qMatrix (shapeMatrix e) e.center * p.J).trace at h2
  norm_num at h2 h4 ⊢
  linarith

/-! ### A realizable body that is rejected -/

omit hfl in
/-- The nonzero products of a dot product. -/
noncomputable def nonzeroProducts (l : List (ℝ × ℝ)) : List ℝ := by
  classical exact (l.map fun p => p.1 * p.2).filter (· ≠ 0)

omit hfl in
theorem nonzeroProducts_append (l r : List (ℝ × ℝ)) : nonzeroProducts (l ++ r) = nonzeroProducts l ++ nonzeroProducts r := by
  simp [nonzeroProducts]

/-- Dot products with at most one nonzero term have one rounding, in every order. -/
theorem flDot_single {l : List (ℝ × ℝ)} {a : ℝ} (h : FlDot fl l a) :
    (nonzeroProducts l = [] → a = 0) ∧ ∀ v, |v| ≤ 10 ^ 100 → nonzeroProducts l = [v] → a = fl v := by
  have hff : ∀ v, |v| ≤ 10 ^ 100 → fl (fl v) = fl v := fun v hv => by
    have hv' : |v| ≤ 10 ^ 150 := hv.trans (by norm_num)
    refine fl_same hfl (fl_binary64 hfl hv') ?_
    have h1 := fl_near hfl hv'
    have h2 := abs_add_le (fl v - v) v
    rw [sub_add_cancel] at h2
    have h3 : u * |v| ≤ 1 * 10 ^ 100 := mul_le_mul (u_le.trans (by norm_num)) hv (abs_nonneg _) (by norm_num)
    have h4 : 1 * (10 : ℝ) ^ 100 + 1 / 10 ^ 200 + 10 ^ 100 ≤ 10 ^ 150 := by norm_num
    linarith
  have hz := fl_zero hfl
  induction h with
  | nil => exact ⟨fun _ => rfl, fun v _ hv => by simp [nonzeroProducts] at hv⟩
  | prod x y =>
    by_cases hxy : x * y = 0
    · refine ⟨fun _ => by rw [hxy, hz], fun v _ hv => ?_⟩
      simp [nonzeroProducts, hxy] at hv
    · refine ⟨fun h => ?_, fun v _ hv => ?_⟩
      · exact absurd (by simpa [nonzeroProducts] using h) hxy
      · have : nonzeroProducts [(x, y)] = [x * y] := by simp [nonzeroProducts, hxy]
        rw [this] at hv
        rw [List.singleton_injective hv]
  | @add l r a b _ _ _ _ iha ihb =>
    rw [nonzeroProducts_append]
    refine ⟨fun h => ?_, fun v hvb hv => ?_⟩
    · rw [List.append_eq_nil_iff] at h
      rw [iha.1 h.1, ihb.1 h.2, add_zero, hz]
    · rcases List.append_eq_singleton_iff.mp hv with ⟨h1, h2⟩ | ⟨h1, h2⟩
      · rw [iha.1 h1, ihb.2 v hvb h2, zero_add, hff v hvb]
      · rw [iha.2 v hvb h1, ihb.1 h2, add_zero, hff v hvb]
  | @fma l a x y _ _ iha =>
    rw [nonzeroProducts_append]
    by_cases hxy : x * y = 0
    · have : nonzeroProducts [(x, y)] = [] := by simp [nonzeroProducts, hxy]
      rw [this, List.append_nil, hxy, add_zero]
      exact ⟨fun h => by rw [iha.1 h, hz], fun v hvb hv => by rw [iha.2 v hvb hv, hff v hvb]⟩
    · have : nonzeroProducts [(x, y)] = [x * y] := by simp [nonzeroProducts, hxy]
      rw [this]
      refine ⟨fun h => by simp at h, fun v hvb hv => ?_⟩
      rcases List.append_eq_singleton_iff.mp hv with ⟨h1, h2⟩ | ⟨h1, h2⟩
      · rw [iha.1 h1, zero_add, List.singleton_injective h2]
      · simp at h2
  | @perm l l' a hp _ ih =>
    have hpp : (nonzeroProducts l).Perm (nonzeroProducts l') := by
      unfold nonzeroProducts
      exact (hp.map _).filter _
    refine ⟨fun h => ih.1 (by rw [h] at hpp; exact hpp.eq_nil), fun v hvb hv => ih.2 v hvb (by
      rw [hv] at hpp; exact List.perm_singleton.mp hpp)⟩

/-- The sums of four numbers. -/
theorem flSum_four {l : List ℝ} {s : ℝ} (h : FlSum fl l s) (h4 : l.length = 4) : ∃ x y z w, [x, y, z, w].Perm l ∧
    (s = fl (fl (fl (x + y) + z) + w) ∨ s = fl (fl (x + y) + fl (z + w))) := by
  induction h with
  | nil => simp at h4
  | single y => simp at h4
  | @add l r a b hl hr ha hb _ _ =>
    rw [List.length_append] at h4
    have h1 := List.length_pos_iff.mpr hl
    have h2 := List.length_pos_iff.mpr hr
    rcases (by omega : l.length = 3 ∧ r.length = 1 ∨ l.length = 2 ∧ r.length = 2 ∨ l.length = 1 ∧ r.length = 3) with
      ⟨e1, e2⟩ | ⟨e1, e2⟩ | ⟨e1, e2⟩
    · obtain ⟨x, y, z, hp, rfl⟩ := flSum_three ha e1
      obtain ⟨w, rfl⟩ := List.length_eq_one_iff.mp e2
      obtain rfl := flSum_one hb w rfl
      exact ⟨x, y, z, b, by simpa using hp.append_right [b], .inl rfl⟩
    · obtain ⟨x, y, hp, rfl⟩ := flSum_two ha e1
      obtain ⟨z, w, hq, rfl⟩ := flSum_two hb e2
      exact ⟨x, y, z, w, by simpa using hp.append hq, .inr rfl⟩
    · obtain ⟨w, rfl⟩ := List.length_eq_one_iff.mp e1
      obtain rfl := flSum_one ha w rfl
      obtain ⟨x, y, z, hp, rfl⟩ := flSum_three hb e2
      refine ⟨x, y, z, a, ?_, .inl (by rw [add_comm])⟩
      have := (hp.append_right [a]).trans List.perm_append_comm
      simpa using this
  | @perm l l' a hp _ ih =>
    obtain ⟨x, y, z, w, hq, h⟩ := ih (by rw [hp.length_eq]; exact h4)
    exact ⟨x, y, z, w, hq.trans hp, h⟩

/-- Products of diagonal matrices have one rounding per entry. -/
theorem diag_mul_float {n : ℕ} {a b : Fin n → ℝ} {C : Matrix (Fin n) (Fin n) ℝ}
    (h : matMulFloat fl (Matrix.diagonal a) (Matrix.diagonal b) C) (hab : ∀ i, |a i * b i| ≤ 10 ^ 100) :
    C = Matrix.diagonal fun i => fl (a i * b i) := by
  ext i k
  have hmap : ((List.ofFn fun j => (Matrix.diagonal a i j, Matrix.diagonal b j k)).map fun p => p.1 * p.2) =
      List.ofFn fun j => if j = i ∧ i = k then a i * b i else 0 := by
    rw [List.map_ofFn]
    congr 1
    funext j
    simp only [Function.comp_apply]
    by_cases hji : j = i
    · subst hji
      by_cases hjk : j = k
      · subst hjk; simp
      · simp [Matrix.diagonal_apply_ne _ hjk, hjk]
    · simp [Matrix.diagonal_apply_ne _ (Ne.symm hji), hji]
  have hs := flDot_single hfl (h i k)
  unfold nonzeroProducts at hs
  rw [hmap] at hs
  classical
  rcases eq_or_ne i k with rfl | hik
  · rw [Matrix.diagonal_apply_eq]
    simp only [and_true] at hs
    by_cases h0 : a i * b i = 0
    · rw [hs.1 (by rw [List.filter_eq_nil_iff]; intro x hx; obtain ⟨j, rfl⟩ := List.mem_ofFn.mp hx; simp [h0]), h0, fl_zero hfl]
    · refine hs.2 _ (hab i) ?_
      rw [List.ofFn_eq_map, List.filter_map]
      have : (List.finRange n).filter ((fun x => decide (x ≠ 0)) ∘ fun j => if j = i then a i * b i else 0) = [i] := by
        have e1 : ((fun x : ℝ => decide (x ≠ 0)) ∘ fun j => if j = i then a i * b i else 0) = fun j => decide (j = i) := by
          funext j
          by_cases hj : j = i <;> simp [hj, h0]
        rw [e1]
        have e2 := (List.nodup_finRange n).filter (fun j => decide (j = i))
        have e3 : ∀ j, j ∈ (List.finRange n).filter (fun j => decide (j = i)) ↔ j ∈ [i] := by simp
        exact List.perm_singleton.mp ((List.perm_ext_iff_of_nodup e2 (by simp)).mpr e3)
      rw [this]
      simp
  · rw [Matrix.diagonal_apply_ne _ hik]
    refine hs.1 ?_
    rw [List.filter_eq_nil_iff]
    intro x hx
    obtain ⟨j, rfl⟩ := List.mem_ofFn.mp hx
    simp [hik]

/-- Products with the zero vector are exact. -/
theorem dot_zero_float {n : ℕ} {a b : Fin n → ℝ} {s : ℝ} (h : FlDot fl (List.ofFn fun j => (a j, b j)) s) (h0 : ∀ j, a j * b j = 0) :
    s = 0 := by
  refine (flDot_single hfl h).1 ?_
  unfold nonzeroProducts
  rw [List.filter_eq_nil_iff]
  intro x hx
  rw [List.map_ofFn] at hx
  obtain ⟨j, rfl⟩ := List.mem_ofFn.mp hx
  simp only [Function.comp_apply, h0 j, ne_eq, not_true_eq_false, decide_false, Bool.false_eq_true, not_false_eq_true]

omit hfl in
/-- The ball of radius 5 around the origin. -/
noncomputable def ballFive : Ellipsoid ℝ 3 := ⟨fun _ => 5, 1, 0⟩

omit hfl in
/-- The parameters of six unit masses at distance 5 from the origin along the axes. -/
noncomputable def sixMasses : IP ℝ := ⟨6, 0, Matrix.diagonal fun _ => 50⟩

omit hfl in
/-- The six masses. -/
noncomputable def sixPoints : Spec.PointMasses ℝ 3 :=
  [(1, ![5, 0, 0]), (1, ![-5, 0, 0]), (1, ![0, 5, 0]), (1, ![0, -5, 0]), (1, ![0, 0, 5]), (1, ![0, 0, -5])]

omit hfl in
/-- The masses lie in the ball and have the parameters. -/
theorem sixMasses_realizable : Spec.Realizable (Spec.ellipsoid ballFive.halfExtents ballFive.rotation ballFive.center)
    sixMasses.mass sixMasses.h sixMasses.H := by
  refine ⟨sixPoints, ?_, ?_, ?_, ?_, ?_⟩
  · intro q hq
    simp only [sixPoints, List.mem_cons, List.not_mem_nil, or_false] at hq
    rcases hq with rfl | rfl | rfl | rfl | rfl | rfl <;> norm_num
  · intro q hq
    refine ⟨fun i => q.2 i / 5, ?_, ?_⟩
    · simp only [sixPoints, List.mem_cons, List.not_mem_nil, or_false] at hq
      rcases hq with rfl | rfl | rfl | rfl | rfl | rfl <;>
        (simp only [dotProduct, Fin.sum_univ_three, Matrix.cons_val]; norm_num)
    · funext i
      simp only [Spec.rigid, ballFive, one_mulVec, add_zero]
      ring
  · norm_num [sixPoints, Spec.PointMasses.mass, sixMasses]
  · funext i
    fin_cases i <;> norm_num [sixPoints, Spec.PointMasses.first, sixMasses, IP.h]
  · ext i j
    fin_cases i <;> fin_cases j <;> norm_num [sixPoints, Spec.PointMasses.second, sixMasses, Matrix.diagonal, vecMulVec_apply]

omit hfl in
theorem bordered_diagonal (a : Fin 3 → ℝ) (e : ℝ) :
    bordered (Matrix.diagonal a) 0 0 e = Matrix.diagonal ![a 0, a 1, a 2, e] := by
  have h : (![a 0, a 1, a 2, e] : Fin 4 → ℝ) = Fin.snoc (α := fun _ => ℝ) a e := by
    funext i; fin_cases i <;> rfl
  rw [h]
  apply ext_last
  · intro i j
    rcases eq_or_ne i j with rfl | hij
    · simp
    · rw [bordered_cc, Matrix.diagonal_apply_ne _ hij, Matrix.diagonal_apply_ne _ (by simpa using hij)]
  · intro i; rw [bordered_cl, Matrix.diagonal_apply_ne _ (Fin.castSucc_lt_last i).ne]; rfl
  · intro i; rw [bordered_lc, Matrix.diagonal_apply_ne _ (Fin.castSucc_lt_last i).ne']; rfl
  · rw [bordered_ll, Matrix.diagonal_apply_eq, Fin.snoc_last]

/-- The matrix of a ball around the origin has one rounded entry. -/
theorem ball_Q {r b : ℝ} (e2 : fl (fl (1 / r) * fl (1 / r)) = b) (e3 : fl b = b) (hb : |b| ≤ 10 ^ 100) {Q : Matrix (Fin 4) (Fin 4) ℝ}
    (h : Ellipsoid.QFloat fl ⟨fun _ => r, 1, 0⟩ Q) : Q = Matrix.diagonal ![-b, -b, -b, 1] := by
  obtain ⟨S, v, w, t, ⟨T, hT, hS⟩, hv, hw, ht, rfl⟩ := h
  have hT' : T = Matrix.diagonal fun _ => b := by
    have h1 : matMulFloat fl (Matrix.diagonal fun _ : Fin 3 => (1 : ℝ))
        (Matrix.diagonal fun _ => fl (fl (1 / r) * fl (1 / r))) T := by
      rw [Matrix.diagonal_one]; exact hT
    rw [e2] at h1
    rw [diag_mul_float hfl h1 (fun i => by rwa [one_mul])]
    simp only [one_mul, e3]
  have hS' : S = Matrix.diagonal fun _ => b := by
    have h1 : matMulFloat fl (Matrix.diagonal fun _ => b) (Matrix.diagonal fun _ : Fin 3 => (1 : ℝ)) S := by
      rw [← hT', Matrix.diagonal_one]
      have : (1 : Matrix (Fin 3) (Fin 3) ℝ)ᵀ = 1 := Matrix.transpose_one
      rwa [this] at hS
    rw [diag_mul_float hfl h1 (fun i => by rwa [mul_one])]
    simp only [mul_one, e3]
  have hv' : v = 0 := funext fun i => dot_zero_float hfl (hv i) fun j => mul_zero _
  have ht' : t = 0 := dot_zero_float hfl ht fun j => mul_zero _
  have e4 : fl (1 - 0) = 1 := by
    rw [sub_zero]; simpa using fl_int hfl 1 (by norm_num)
  rw [hS', hv', ht', e4, Matrix.diagonal_neg, bordered_diagonal]

/-- The diagonal of the product for a ball around the origin and masses with a diagonal pseudo-inertia matrix. -/
theorem ball_trace {r b q m t : ℝ} (e2 : fl (fl (1 / r) * fl (1 / r)) = b) (e3 : fl b = b) (hb : |b| ≤ 10 ^ 10) (hq : |q| ≤ 10 ^ 10)
    (hm : |m| ≤ 10 ^ 10) (h : Ellipsoid.traceQJFloat fl ⟨fun _ => r, 1, 0⟩ ⟨m, 0, Matrix.diagonal fun _ => q⟩ t) :
    FlSum fl [fl (-b * q), fl (-b * q), fl (-b * q), fl (1 * m)] t := by
  obtain ⟨Q, M, hQ, hM, ht⟩ := h
  have hJ : IP.JFloat fl ⟨m, 0, Matrix.diagonal fun _ => q⟩ = Matrix.diagonal ![q, q, q, m] := by
    have hh : IP.hFloat fl ⟨m, 0, Matrix.diagonal fun _ => q⟩ = 0 := funext fun i => by
      change fl (m * 0) = 0
      rw [mul_zero, fl_zero hfl]
    rw [IP.JFloat, hh]
    exact bordered_diagonal _ _
  rw [ball_Q hfl e2 e3 (hb.trans (by norm_num)) hQ, hJ] at hM
  have h1 : |-b * q| ≤ 10 ^ 100 := by
    rw [abs_mul, abs_neg]
    exact (mul_le_mul hb hq (abs_nonneg _) (by norm_num)).trans (by norm_num)
  have h2 : |1 * m| ≤ 10 ^ 100 := by rw [one_mul]; exact hm.trans (by norm_num)
  have hM' := diag_mul_float hfl hM (fun i => by fin_cases i <;> first | exact h1 | exact h2)
  have m0 : M 0 0 = fl (-b * q) := by rw [hM', Matrix.diagonal_apply_eq]; rfl
  have m1 : M 1 1 = fl (-b * q) := by rw [hM', Matrix.diagonal_apply_eq]; rfl
  have m2 : M 2 2 = fl (-b * q) := by rw [hM', Matrix.diagonal_apply_eq]; rfl
  have m3 : M 3 3 = fl (1 * m) := by rw [hM', Matrix.diagonal_apply_eq]; rfl
  rwa [m0, m1, m2, m3] at ht

/-- The sum of the diagonal is negative in every order. -/
theorem six_sum {x y z w t : ℝ}
    (hp : [x, y, z, w].Perm [-(2 + 2 ^ (-51 : ℤ)), -(2 + 2 ^ (-51 : ℤ)), -(2 + 2 ^ (-51 : ℤ)), 6])
    (ht : t = fl (fl (fl (x + y) + z) + w) ∨ t = fl (fl (x + y) + fl (z + w))) : t < 0 := by
  have hsum := hp.sum_eq
  simp only [List.sum_cons, List.sum_nil, add_zero] at hsum
  have hmem : ∀ q ∈ [x, y, z, w], q = -(2 + 2 ^ (-51 : ℤ)) ∨ q = 6 := fun q hq => by
    have := hp.mem_iff.mp hq
    simp only [List.mem_cons, List.not_mem_nil, or_false] at this
    tauto
  have hx := hmem x (by simp)
  have hy := hmem y (by simp)
  have hz := hmem z (by simp)
  have hw := hmem w (by simp)
  clear hmem hp
  have hpow : (2 : ℝ) ^ (-51 : ℤ) = 1 / 2251799813685248 := by norm_num
  rw [hpow] at hx hy hz hw hsum
  -- the sums that occur
  have f1 : fl (-(2 + 1 / 2251799813685248) + -(2 + 1 / 2251799813685248)) = -(4 + 2 / 2251799813685248) := by
    rw [show (-(2 + 1 / 2251799813685248) + -(2 + 1 / 2251799813685248) : ℝ) = -(4 + 2 / 2251799813685248) by norm_num]
    exact fl_same hfl ⟨-4503599627370497, -50, by norm_num, by norm_num, by norm_num, by norm_num⟩ (by norm_num [abs_of_pos])
  have f3 : fl (-(2 + 1 / 2251799813685248) + 6) = 4 - 1 / 2251799813685248 := by
    rw [show (-(2 + 1 / 2251799813685248) + 6 : ℝ) = 4 - 1 / 2251799813685248 by norm_num]
    exact fl_same hfl ⟨9007199254740991, -51, by norm_num, by norm_num, by norm_num, by norm_num⟩ (by norm_num [abs_of_pos])
  have f4 : fl (4 - 1 / 2251799813685248 + -(2 + 1 / 2251799813685248)) = 2 - 2 / 2251799813685248 := by
    rw [show (4 - 1 / 2251799813685248 + -(2 + 1 / 2251799813685248) : ℝ) = 2 - 2 / 2251799813685248 by norm_num]
    exact fl_same hfl ⟨2251799813685247, -50, by norm_num, by norm_num, by norm_num, by norm_num⟩ (by norm_num [abs_of_pos])
  have f5 : fl (2 - 2 / 2251799813685248 + -(2 + 1 / 2251799813685248)) = -(3 / 2251799813685248) := by
    rw [show (2 - 2 / 2251799813685248 + -(2 + 1 / 2251799813685248) : ℝ) = -(3 / 2251799813685248) by norm_num]
    exact fl_same hfl ⟨-3, -51, by norm_num, by norm_num, by norm_num, by norm_num⟩ (by norm_num [abs_of_pos])
  have f6 : fl (-(4 + 2 / 2251799813685248) + 6) = 2 - 2 / 2251799813685248 := by
    rw [show (-(4 + 2 / 2251799813685248) + 6 : ℝ) = 2 - 2 / 2251799813685248 by norm_num]
    exact fl_same hfl ⟨2251799813685247, -50, by norm_num, by norm_num, by norm_num, by norm_num⟩ (by norm_num [abs_of_pos])
  have f7 : fl (-(4 + 2 / 2251799813685248) + (4 - 1 / 2251799813685248)) = -(3 / 2251799813685248) := by
    rw [show (-(4 + 2 / 2251799813685248) + (4 - 1 / 2251799813685248) : ℝ) = -(3 / 2251799813685248) by norm_num]
    exact fl_same hfl ⟨-3, -51, by norm_num, by norm_num, by norm_num, by norm_num⟩ (by norm_num [abs_of_pos])
  have f2 : fl (fl (-(4 + 2 / 2251799813685248) + -(2 + 1 / 2251799813685248)) + 6) < 0 := by
    have b1 : Binary64 (-(6 + 2 / 2251799813685248)) := ⟨-6755399441055745, -50, by norm_num, by norm_num, by norm_num, by norm_num⟩
    have b2 : Binary64 (-(2 / 2251799813685248)) := ⟨-1, -50, by norm_num, by norm_num, by norm_num, by norm_num⟩
    have g1 := fl_mono hfl (x := -(4 + 2 / 2251799813685248) + -(2 + 1 / 2251799813685248)) (y := -(6 + 2 / 2251799813685248))
      (by norm_num) (by norm_num [abs_of_pos]) (by norm_num [abs_of_pos])
    rw [fl_same hfl b1 (by norm_num [abs_of_pos])] at g1
    have g2 := fl_near hfl (x := -(4 + 2 / 2251799813685248) + -(2 + 1 / 2251799813685248)) (by norm_num [abs_of_pos])
    set φ := fl (-(4 + 2 / 2251799813685248) + -(2 + 1 / 2251799813685248))
    have g3 : -7 ≤ φ := by
      have h1 := (abs_le.mp g2).1
      have h2 := mul_le_mul_of_nonneg_right u_le (abs_nonneg (-(4 + 2 / 2251799813685248) + -(2 + 1 / 2251799813685248) : ℝ))
      norm_num [abs_of_neg] at h1 h2 ⊢
      linarith
    have g4 : |φ + 6| ≤ 10 ^ 150 := by
      rw [abs_le]
      constructor <;> norm_num at g1 ⊢ <;> linarith
    have g5 := fl_mono hfl (x := φ + 6) (y := -(2 / 2251799813685248)) (by linarith) g4 (by norm_num [abs_of_pos])
    rw [fl_same hfl b2 (by norm_num [abs_of_pos])] at g5
    exact lt_of_le_of_lt g5 (by norm_num)
  rcases hx with rfl | rfl <;> rcases hy with rfl | rfl <;> rcases hz with rfl | rfl <;> rcases hw with rfl | rfl <;>
    first
    | (exfalso; norm_num at hsum; done)
    | (rcases ht with rfl | rfl
       · simp only [add_comm (6 : ℝ), f1, f3, f4, f5, f6]
         first | exact f2 | norm_num
       · simp only [add_comm (6 : ℝ), f1, f3, f7, add_comm (4 - 1 / 2251799813685248 : ℝ)]
         norm_num)

/-- C116: Without a tolerance the test can reject a realizable body: six unit masses on the surface of the ball of radius 5 around the
origin have the parameters of `sixMasses`, all numbers involved are floats and the pseudo-inertia matrix is diagonal with the entries 50,
50, 50, 6, but `can_realize` says no whatever the order of the sums. -/
theorem C116_rejects : Spec.Realizable (Spec.ellipsoid ballFive.halfExtents ballFive.rotation ballFive.center)
      sixMasses.mass sixMasses.h sixMasses.H ∧
    ∀ (eps lam : ℝ) (answer : Bool), ballFive.canRealizeFloat fl sixMasses eps lam answer → answer = false := by
  refine ⟨sixMasses_realizable, fun eps lam answer ⟨t, ht, h⟩ => ?_⟩
  have B1 : Binary64 (2 + 2 ^ (-51 : ℤ)) := ⟨4503599627370497, -51, by norm_num, by norm_num, by norm_num, by norm_num⟩
  have e1 : fl (-(1441151880758559 / 36028797018963968) * 50) = -(2 + 2 ^ (-51 : ℤ)) := by
    refine fl_eq_of_near hfl 1 (le_range ?_) (binary64_neg B1) ?_ ?_ <;> norm_num [abs_of_pos, abs_lt]
  have e2 : fl (1 * 6) = 6 := by rw [one_mul]; simpa using fl_int hfl 6 (by norm_num)
  have B2 : Binary64 (1441151880758559 / 36028797018963968) := ⟨1441151880758559, -55, by norm_num, by norm_num, by norm_num, by norm_num⟩
  have e0 : fl (1 / 5) = 3602879701896397 / 18014398509481984 := by
    refine fl_eq_of_near hfl (-3) (le_range ?_) ⟨3602879701896397, -54, ?_, by norm_num, by norm_num, ?_⟩ ?_ ?_ <;>
      norm_num [abs_of_pos, abs_lt]
  replace ht := ball_trace hfl (b := 1441151880758559 / 36028797018963968)
    (by
      rw [e0]
      refine fl_eq_of_near hfl (-5) (le_range ?_) B2 ?_ ?_ <;> norm_num [abs_of_pos, abs_lt])
    (fl_same hfl B2 (by norm_num [abs_of_pos])) (by norm_num [abs_of_pos]) (by norm_num [abs_of_pos]) (by norm_num [abs_of_pos]) ht
  rw [e1, e2] at ht
  have ht0 : t < 0 := by
    obtain ⟨x, y, z, w, hp, hsum⟩ := flSum_four hfl ht rfl
    exact six_sum hfl hp hsum
  cases answer with
  | false => rfl
  | true => exact absurd (h.mp rfl).2 (not_le.mpr ht0)

/-- C116: On the boundary of a ball of radius one the trace is zero without rounding error and the parameters of six unit masses are
accepted. -/
theorem C116_boundary {eps lam : ℝ} (hl : eps ≤ lam) {answer : Bool}
    (h : Ellipsoid.canRealizeFloat fl ⟨fun _ => 1, 1, 0⟩ ⟨6, 0, Matrix.diagonal fun _ => 2⟩ eps lam answer) : answer = true := by
  obtain ⟨t, ht, h⟩ := h
  have one : fl 1 = 1 := by simpa using fl_int hfl 1 (by norm_num)
  have six : fl (1 * 6) = 6 := by rw [one_mul]; simpa using fl_int hfl 6 (by norm_num)
  have f2 : fl (-1 * 2) = -2 := by
    rw [show (-1 * 2 : ℝ) = ((-2 : ℤ) : ℝ) by norm_num, fl_int hfl _ (by norm_num)]; norm_num
  have h1 := ball_trace hfl (r := 1) (b := 1) (by rw [div_one, one, mul_one, one]) one (by norm_num) (by norm_num [abs_of_pos])
    (by norm_num [abs_of_pos]) ht
  rw [f2, six] at h1
  obtain ⟨x, y, z, w, hp, hsum⟩ := flSum_four hfl h1 rfl
  have hs := hp.sum_eq
  simp only [List.sum_cons, List.sum_nil, add_zero] at hs
  have hmem : ∀ q ∈ [x, y, z, w], q = -2 ∨ q = 6 := fun q hq => by
    have := hp.mem_iff.mp hq
    simp only [List.mem_cons, List.not_mem_nil, or_false] at this
    tauto
  have hint : ∀ k : ℤ, |k| ≤ 100 → fl (k : ℝ) = k := fun k hk => fl_int hfl k (hk.trans_lt (by norm_num))
  have g0 := hint 0 (by norm_num)
  have g1 := hint (-4) (by norm_num)
  have g2 := hint (-6) (by norm_num)
  have g3 := hint 4 (by norm_num)
  have g4 := hint 2 (by norm_num)
  norm_num at g0 g1 g2 g3 g4
  have hx := hmem x (by simp)
  have hy := hmem y (by simp)
  have hz := hmem z (by simp)
  have hw := hmem w (by simp)
  have ht0 : t = 0 := by
    clear hmem hp h1 ht h
    rcases hx with rfl | rfl <;> rcases hy with rfl | rfl <;> rcases hz with rfl | rfl <;> rcases hw with rfl | rfl <;>
      first
      | (exfalso; norm_num at hs; done)
      | (rcases hsum with rfl | rfl <;> norm_num [g0, g1, g2, g3, g4])
  exact h.mpr ⟨hl, ht0.ge⟩

omit hfl in
/-- Products of matrices have a result. -/
theorem matMulFloat.exists (fl : ℝ → ℝ) {l m n : ℕ} (A : Matrix (Fin l) (Fin m) ℝ) (B : Matrix (Fin m) (Fin n) ℝ) :
    ∃ C, matMulFloat fl A B C := by
  choose C hC using fun (i : Fin l) (k : Fin n) => FlDot.exists (fl := fl) (List.ofFn fun j => (A i j, B j k))
  exact ⟨Matrix.of C, fun i k => hC i k⟩

omit hfl in
/-- C116: The test has an answer for all arguments. -/
theorem C116_result (fl : ℝ → ℝ) (e : Ellipsoid ℝ 3) (p : IP ℝ) (eps lam : ℝ) : ∃ answer, e.canRealizeFloat fl p eps lam answer := by
  obtain ⟨T, hT⟩ := matMulFloat.exists fl e.rotation
    (Matrix.diagonal fun i => fl (fl (1 / e.halfExtents i) * fl (1 / e.halfExtents i)))
  obtain ⟨S, hS⟩ := matMulFloat.exists fl T e.rotationᵀ
  choose v hv using fun i => FlDot.exists (fl := fl) (List.ofFn fun j => (S i j, e.center j))
  choose w hw using fun j => FlDot.exists (fl := fl) (List.ofFn fun i => (e.center i, S i j))
  obtain ⟨t, ht⟩ := FlDot.exists (fl := fl) (List.ofFn fun j => (w j, e.center j))
  obtain ⟨M, hM⟩ := matMulFloat.exists fl (bordered (-S) v v (fl (1 - t))) (p.JFloat fl)
  obtain ⟨r, hr⟩ := FlSum.exists (fl := fl) [M 0 0, M 1 1, M 2 2, M 3 3]
  classical
  exact ⟨decide (eps ≤ lam ∧ 0 ≤ r), r, ⟨_, M, ⟨S, v, w, t, ⟨T, hT, hS⟩, hv, hw, ht, rfl⟩, hM, hr⟩, by simp⟩

end

/-- The hypotheses of C116 hold for two masses in a tilted ellipsoid away from the origin. -/
example : ∃ (e : Ellipsoid ℝ 3) (p : IP ℝ) (ρ : ℝ), RealizeScale e p ρ ∧ Spec.Orthogonal e.rotation ∧ Spec.PSD p.J ∧
    Spec.Realizable (Spec.ellipsoid (fun i => (1 - 1 / 10 ^ 9) * e.halfExtents i) e.rotation e.center) p.mass p.h p.H := by
  let e : Ellipsoid ℝ 3 := ⟨![1, 2, 3], !![3 / 5, -4 / 5, 0; 4 / 5, 3 / 5, 0; 0, 0, 1], ![1, 0, 0]⟩
  let p : IP ℝ := ⟨2, ![1, 0, 0], !![109 / 50, 6 / 25, 0; 6 / 25, 8 / 25, 0; 0, 0, 0]⟩
  have hO : Spec.Orthogonal e.rotation := by
    ext i j
    rw [Matrix.mul_apply, Fin.sum_univ_three]
    fin_cases i <;> fin_cases j <;> (simp [e]; try norm_num)
  have hR : Spec.Realizable (Spec.ellipsoid (fun i => (1 - 1 / 10 ^ 9) * e.halfExtents i) e.rotation e.center) p.mass p.h p.H := by
    refine ⟨[(1, ![13 / 10, 2 / 5, 0]), (1, ![7 / 10, -2 / 5, 0])], ?_, ?_, ?_, ?_, ?_⟩
    · intro q hq
      simp only [List.mem_cons, List.not_mem_nil, or_false] at hq
      rcases hq with rfl | rfl <;> norm_num
    · intro q hq
      simp only [List.mem_cons, List.not_mem_nil, or_false] at hq
      rcases hq with rfl | rfl
      · refine ⟨![1 / 2 / (1 - 1 / 10 ^ 9), 0, 0], ?_, ?_⟩
        · simp only [dotProduct, Fin.sum_univ_three, Matrix.cons_val]; norm_num
        · funext i
          fin_cases i <;>
            (simp [Spec.rigid, e, Matrix.mulVec, dotProduct, Fin.sum_univ_three, Matrix.cons_val]; try norm_num)
      · refine ⟨![-(1 / 2) / (1 - 1 / 10 ^ 9), 0, 0], ?_, ?_⟩
        · simp only [dotProduct, Fin.sum_univ_three, Matrix.cons_val]; norm_num
        · funext i
          fin_cases i <;>
            (simp [Spec.rigid, e, Matrix.mulVec, dotProduct, Fin.sum_univ_three, Matrix.cons_val]; try norm_num)
    · norm_num [Spec.PointMasses.mass, p]
    · funext i
      fin_cases i <;> norm_num [Spec.PointMasses.first, p, IP.h]
    · ext i j
      fin_cases i <;> fin_cases j <;> norm_num [Spec.PointMasses.second, p, vecMulVec_apply]
  refine ⟨e, p, 1, ⟨by norm_num, fun i => ?_, fun i j => ?_, fun j => ?_, by norm_num [p], fun j => ?_, fun j k => ?_⟩, hO,
    ((realizable_ellipsoid_iff hO _ _ _ _ _).mp hR).1, hR⟩
  · fin_cases i <;> norm_num [e]
  · fin_cases i <;> fin_cases j <;> norm_num [e, abs_of_pos]
  · fin_cases j <;> norm_num [e]
  · fin_cases j <;> norm_num [p]
  · fin_cases j <;> fin_cases k <;> norm_num [p, abs_of_pos]

end Rigeo
