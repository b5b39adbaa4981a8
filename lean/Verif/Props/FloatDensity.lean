import Verif.Model.FloatDensity
import Verif.Props.Density
import Verif.Props.FloatInertialTransform

/-!
# C130: rounding in the inertial parameters of uniform densities
-/

namespace Rigeo

open Spec Matrix

local notation "u" => unitRoundoff

section
variable {fl : ℝ → ℝ} (hfl : IsRounding fl)
include hfl

/-- A moment of inertia about the center: a square, a product with the mass and a quotient. -/
theorem scaled_square {m x X d S : ℝ} (hm1 : 1 / 10 ^ 20 ≤ m) (hm2 : m ≤ 10 ^ 20) (hS1 : 1 / 10 ^ 15 ≤ S) (hS2 : S ≤ 10 ^ 15)
    (hx : |x| ≤ 2 * S) (hX : |X - x ^ 2| ≤ 2 * u * x ^ 2 + 1 / 10 ^ 200) (hd : 3 ≤ d) :
    |fl (fl (m * X) / d) - m * x ^ 2 / d| ≤ 8 * u * (m * S ^ 2) := by
  have hu0 := u_pos
  have hu1 := u_le
  have hu2 : 110 / 10 ^ 18 ≤ u := by unfold unitRoundoff; norm_num
  have hS0 : 0 < S := lt_of_lt_of_le (by norm_num) hS1
  have hm0 : 0 < m := lt_of_lt_of_le (by norm_num) hm1
  have hSS : 1 / 10 ^ 30 ≤ S ^ 2 := by
    have := pow_le_pow_left₀ (by norm_num) hS1 2
    norm_num at this ⊢
    linarith
  have hSS' : S ^ 2 ≤ 10 ^ 30 := by
    have := pow_le_pow_left₀ hS0.le hS2 2
    norm_num at this ⊢
    linarith
  set B := m * S ^ 2 with hB
  have hB0 : 0 < B := by positivity
  have hB1 : 1 / 10 ^ 50 ≤ B := le_trans (by norm_num) (mul_le_mul hm1 hSS (by norm_num) hm0.le)
  have hB2 : B ≤ 10 ^ 50 := (mul_le_mul hm2 hSS' (by positivity) (by norm_num)).trans (by norm_num)
  have t1 : (1 : ℝ) / 10 ^ 200 ≤ u * S ^ 2 / 100 := by
    have := mul_le_mul hu2 hSS (by norm_num) hu0.le
    have h3 : (1 : ℝ) / 10 ^ 200 ≤ 110 / 10 ^ 18 * (1 / 10 ^ 30) / 100 := by norm_num
    linarith
  have t2 : (1 : ℝ) / 10 ^ 200 ≤ u * B / 100 := by
    have := mul_le_mul hu2 hB1 (by norm_num) hu0.le
    have h3 : (1 : ℝ) / 10 ^ 200 ≤ 110 / 10 ^ 18 * (1 / 10 ^ 50) / 100 := by norm_num
    linarith
  have huB : 1000 * (u * B) ≤ B := by
    have : 1000 * u ≤ 1 := by norm_num at hu1 ⊢; linarith
    have := mul_le_of_le_one_left hB0.le this
    linarith
  have hx2 : x ^ 2 ≤ 4 * S ^ 2 := by
    have := pow_le_pow_left₀ (abs_nonneg x) hx 2
    rw [sq_abs] at this
    linarith
  have e1 : |X - x ^ 2| ≤ 81 / 10 * (u * S ^ 2) := by
    have := mul_le_mul_of_nonneg_left hx2 hu0.le
    linarith
  have e2 : |m * X - m * x ^ 2| ≤ 81 / 10 * (u * B) := by
    rw [← mul_sub, abs_mul, abs_of_pos hm0]
    refine (mul_le_mul_of_nonneg_left e1 hm0.le).trans (le_of_eq ?_)
    rw [hB]; ring
  have h0 : |m * x ^ 2| ≤ 4 * B := by
    rw [abs_of_nonneg (by positivity)]
    refine (mul_le_mul_of_nonneg_left hx2 hm0.le).trans (le_of_eq ?_)
    rw [hB]; ring
  have e3 : |m * X| ≤ 41 / 10 * B := by
    have := abs_sub_abs_le_abs_sub (m * X) (m * x ^ 2)
    linarith
  have e4 := fl_near hfl (e3.trans ((mul_le_mul_of_nonneg_left hB2 (by norm_num)).trans (by norm_num)) : _ ≤ (10 : ℝ) ^ 150)
  have e5 := mul_le_mul_of_nonneg_left e3 hu0.le
  set Y := fl (m * X) with hY
  have e6 : |Y - m * x ^ 2| ≤ 123 / 10 * (u * B) := by
    have e : Y - m * x ^ 2 = (Y - m * X) + (m * X - m * x ^ 2) := by ring
    rw [e]
    exact (abs_add_le _ _).trans (by linarith)
  have e7 : |Y| ≤ 42 / 10 * B := by
    have := abs_sub_abs_le_abs_sub Y (m * x ^ 2)
    linarith
  have hd0 : 0 < d := by linarith
  have third : ∀ {z w : ℝ}, |z| ≤ w → 0 ≤ w → |z / d| ≤ w / 3 := fun {z w} hz hw => by
    rw [abs_div, abs_of_pos hd0]
    exact div_le_div₀ hw hz (by norm_num) hd
  have e8 := third e6 (by positivity)
  have e9 := third e7 (by positivity)
  have e10 := fl_near hfl (e9.trans ((show 42 / 10 * B / 3 ≤ 10 ^ 50 * 2 by linarith).trans (by norm_num)) : _ ≤ (10 : ℝ) ^ 150)
  have e11 := mul_le_mul_of_nonneg_left e9 hu0.le
  have e : fl (Y / d) - m * x ^ 2 / d = (fl (Y / d) - Y / d) + (Y - m * x ^ 2) / d := by ring
  rw [e]
  exact (abs_add_le _ _).trans (by linarith)

/-- The parameters of a body about its center, moved to its pose. -/
theorem density_close {m S : ℝ} {R O A : Matrix (Fin 3) (Fin 3) ℝ} {c D : Fin 3 → ℝ} {q : IP ℝ} (hO : NearRotation R O)
    (hm1 : 1 / 10 ^ 20 ≤ m) (hm2 : m ≤ 10 ^ 20) (hS1 : 1 / 10 ^ 15 ≤ S) (hS2 : S ≤ 10 ^ 15) (hc : ∀ i, |c i| ≤ S)
    (hA : ∀ i j, |A i j - Matrix.diagonal D i j| ≤ 8 * u * (m * S ^ 2)) (hD : ∀ i, |D i| ≤ m * S ^ 2 / 2)
    (hq : (IP.centredFloat fl m A).transformFloat fl R c q) :
    q.mass = m ∧ (∀ i, |q.com i - c i| ≤ 160 * u * S) ∧
      ∀ i j, |q.H i j - (O * Matrix.diagonal D * Oᵀ + m • outer c c) i j| ≤ 2100 * u * (m * S ^ 2) := by
  have hu : (2 : ℝ) ^ (-53 : ℤ) = u := by unfold unitRoundoff; norm_num
  have hu0 := u_pos
  have hu1 := u_le
  have hS0 : 0 < S := lt_of_lt_of_le (by norm_num) hS1
  have hm0 : 0 < m := lt_of_lt_of_le (by norm_num) hm1
  set B := m * S ^ 2 with hB
  have hB0 : 0 < B := by positivity
  have huB0 : 0 < u * B := by positivity
  have huB : 1000 * (u * B) ≤ B := by
    have : 1000 * u ≤ 1 := by norm_num at hu1 ⊢; linarith
    have := mul_le_of_le_one_left hB0.le this
    linarith
  have huS : 160 * u * S ≤ S / 100 := by
    have : 16000 * u ≤ 1 := by norm_num at hu1 ⊢; linarith
    have := mul_le_of_le_one_left hS0.le this
    linarith
  set p := IP.centredFloat fl m A with hp
  have hcom : ∀ i, p.com i = 0 := fun i => by
    show fl (0 / m) = 0
    rw [zero_div]; exact fl_zero hfl
  have hcom' : p.com = 0 := funext hcom
  have hA1 : ∀ i j, |A i j| ≤ B := fun i j => by
    have h1 := abs_sub_abs_le_abs_sub (A i j) (Matrix.diagonal D i j)
    have h2 : |Matrix.diagonal D i j| ≤ B / 2 := by
      by_cases h : i = j
      · subst h; rw [Matrix.diagonal_apply_eq]; exact hD i
      · rw [Matrix.diagonal_apply_ne _ h, abs_zero]; positivity
    linarith [hA i j]
  have hpH : (Matrix.of fun i j => p.H i j - p.mass * p.com i * p.com j) = A := by
    ext i j
    show p.H i j - p.mass * p.com i * p.com j = A i j
    rw [hcom i, mul_zero, zero_mul, sub_zero]
    rfl
  have hmove : movedBy [⟨O, c⟩] p.com = c := by
    show rigid O c p.com = c
    rw [hcom']; simp [rigid]
  obtain ⟨k1, k2, k3⟩ := C123_transforms hfl (args := [⟨R, c⟩]) (l := [⟨O, c⟩]) (p := p) (q := q) (.cons ⟨hO, rfl⟩ .nil)
    ⟨q, hq, rfl⟩ (S := S) hm1 hm2 hS1 hS2
    (fun k i => by
      cases k with
      | zero => show |p.com i| ≤ S; rw [hcom, abs_zero]; exact hS0.le
      | succ k => rw [List.take_succ_cons, List.take_nil, hmove]; exact hc i)
    (fun i j => by
      rw [hcom i, mul_zero, zero_mul, sub_zero]
      exact hA1 i j)
    (by simp)
  rw [hu] at k2 k3
  rw [hpH] at k3
  rw [hmove] at k2
  have k1' : q.mass = m := k1
  have k2' : ∀ i, |q.com i - c i| ≤ 160 * u * S := fun i => by
    have := k2 i
    simp only [List.length_cons, List.length_nil] at this
    norm_num at this ⊢
    exact this
  refine ⟨k1', k2', fun i j => ?_⟩
  have k3' : |(q.H i j - m * q.com i * q.com j) - (O * A * Oᵀ) i j| ≤ 1700 * u * B := by
    have h1 := k3 i j
    rw [k1'] at h1
    have h2 : turnedBy [⟨O, c⟩] A = O * A * Oᵀ := rfl
    rw [h2] at h1
    have h3 : p.mass = m := rfl
    rw [h3] at h1
    simp only [List.length_cons, List.length_nil] at h1
    norm_num at h1 ⊢
    linarith
  have g1 : |(O * A * Oᵀ) i j - (O * Matrix.diagonal D * Oᵀ) i j| ≤ 72 * (u * B) := by
    have e1 : (O * A * Oᵀ) i j - (O * Matrix.diagonal D * Oᵀ) i j = ∑ l, ∑ k, O i k * (A k l - Matrix.diagonal D k l) * O j l := by
      have h1 : O * A * Oᵀ - O * Matrix.diagonal D * Oᵀ = O * (A - Matrix.diagonal D) * Oᵀ := by
        rw [Matrix.mul_sub, Matrix.sub_mul]
      have h2 := congrFun (congrFun h1 i) j
      rw [Matrix.sub_apply] at h2
      rw [h2, Matrix.mul_apply]
      refine Finset.sum_congr rfl fun l _ => ?_
      rw [Matrix.mul_apply, Finset.sum_mul]
      rfl
    rw [e1]
    have h1 : ∀ l ∈ Finset.univ, |∑ k, O i k * (A k l - Matrix.diagonal D k l) * O j l| ≤ 24 * (u * B) := fun l _ => by
      have h2 : ∀ k ∈ Finset.univ, |O i k * (A k l - Matrix.diagonal D k l) * O j l| ≤ 8 * (u * B) := fun k _ => by
        rw [abs_mul, abs_mul]
        have h3 := orthogonal_entry hO.1 i k
        have h4 := orthogonal_entry hO.1 j l
        have h5 := mul_le_mul h3 (hA k l) (abs_nonneg _) zero_le_one
        have h6 := mul_le_mul h5 h4 (abs_nonneg _) (by positivity)
        linarith
      refine (Finset.abs_sum_le_sum_abs _ _).trans ((Finset.sum_le_card_nsmul _ _ _ h2).trans ?_)
      rw [Finset.card_univ, Fintype.card_fin, nsmul_eq_mul]
      push_cast
      linarith
    refine (Finset.abs_sum_le_sum_abs _ _).trans ((Finset.sum_le_card_nsmul _ _ _ h1).trans ?_)
    rw [Finset.card_univ, Fintype.card_fin, nsmul_eq_mul]
    push_cast
    linarith
  have g2 : |m * q.com i * q.com j - m * c i * c j| ≤ 322 * (u * B) := by
    have e1 : m * q.com i * q.com j - m * c i * c j = m * ((q.com i - c i) * q.com j + c i * (q.com j - c j)) := by ring
    have h1 : |q.com j| ≤ 101 / 100 * S := by
      have := abs_sub_abs_le_abs_sub (q.com j) (c j)
      linarith [k2' j, hc j]
    rw [e1, abs_mul, abs_of_pos hm0]
    have h2 : |(q.com i - c i) * q.com j + c i * (q.com j - c j)| ≤ 160 * u * S * (101 / 100 * S) + S * (160 * u * S) := by
      refine (abs_add_le _ _).trans ?_
      rw [abs_mul, abs_mul]
      exact add_le_add (mul_le_mul (k2' i) h1 (abs_nonneg _) (by positivity)) (mul_le_mul (hc i) (k2' j) (abs_nonneg _) hS0.le)
    refine (mul_le_mul_of_nonneg_left h2 hm0.le).trans ?_
    have e2 : m * (160 * u * S * (101 / 100 * S) + S * (160 * u * S)) = 3216 / 10 * (u * B) := by rw [hB]; ring
    rw [e2]
    linarith
  have e : q.H i j - (O * Matrix.diagonal D * Oᵀ + m • outer c c) i j =
      ((q.H i j - m * q.com i * q.com j) - (O * A * Oᵀ) i j) + ((O * A * Oᵀ) i j - (O * Matrix.diagonal D * Oᵀ) i j) +
        (m * q.com i * q.com j - m * c i * c j) := by
    have h1 : (O * Matrix.diagonal D * Oᵀ + m • outer c c) i j = (O * Matrix.diagonal D * Oᵀ) i j + m * (c i * c j) := rfl
    rw [h1]; ring
  rw [e]
  refine (abs_add_three _ _ _).trans ?_
  linarith

/-- The matrix of a box or an ellipsoid. -/
theorem diagonal_close {m S d : ℝ} {h : Fin 3 → ℝ} (hm1 : 1 / 10 ^ 20 ≤ m) (hm2 : m ≤ 10 ^ 20) (hS1 : 1 / 10 ^ 15 ≤ S)
    (hS2 : S ≤ 10 ^ 15) (hh : ∀ i, 0 ≤ h i ∧ h i ≤ S) (hd : 3 ≤ d) (i j : Fin 3) :
    |fl (fl (m * Matrix.diagonal (fun i => fl (h i * h i)) i j) / d) - Matrix.diagonal (fun i => m * h i ^ 2 / d) i j| ≤
      8 * u * (m * S ^ 2) := by
  have hu0 := u_pos
  have hS0 : 0 < S := lt_of_lt_of_le (by norm_num) hS1
  have hm0 : 0 < m := lt_of_lt_of_le (by norm_num) hm1
  by_cases hij : i = j
  · subst hij
    rw [Matrix.diagonal_apply_eq, Matrix.diagonal_apply_eq]
    have hx : |h i| ≤ 2 * S := by rw [abs_of_nonneg (hh i).1]; linarith [(hh i).2]
    refine scaled_square hfl hm1 hm2 hS1 hS2 hx ?_ hd
    have h1 : |h i * h i| ≤ 10 ^ 150 := by
      rw [abs_of_nonneg (mul_self_nonneg _)]
      exact (mul_le_mul ((hh i).2.trans hS2) ((hh i).2.trans hS2) (hh i).1 (by norm_num)).trans (by norm_num)
    have h2 := fl_near hfl h1
    rw [abs_of_nonneg (mul_self_nonneg (h i)), ← sq] at h2
    rw [← sq]
    have : 0 ≤ u * h i ^ 2 := by positivity
    linarith
  · rw [Matrix.diagonal_apply_ne _ hij, Matrix.diagonal_apply_ne _ hij, mul_zero, fl_zero hfl, zero_div, fl_zero hfl, sub_zero, abs_zero]
    positivity

/-- C130: `Box.uniform_density_params` with rounding: the mass is exact, the center of mass and the second moments are those of the
uniform density up to rounding. `O` is the rotation or reflection that the stored matrix stands for. -/
theorem C130_box {b : Box ℝ} {O : Matrix (Fin 3) (Fin 3) ℝ} (hO : NearRotation b.rotation O) {m S : ℝ} (hm1 : 1 / 10 ^ 20 ≤ m)
    (hm2 : m ≤ 10 ^ 20) (hS1 : 1 / 10 ^ 15 ≤ S) (hS2 : S ≤ 10 ^ 15) (hh : ∀ i, 0 < b.halfExtents i ∧ b.halfExtents i ≤ S)
    (hc : ∀ i, |b.center i| ≤ S) {q : IP ℝ} (hq : b.uniformDensityFloat fl m q) :
    ∃ (h : Fin 3 → ℝ) (H : Matrix (Fin 3) (Fin 3) ℝ), HasMoments (uniform m (box b.halfExtents O b.center)) m h H ∧ q.mass = m ∧
      (∀ i, |q.com i - h i / m| ≤ 160 * (2 : ℝ) ^ (-53 : ℤ) * S) ∧ ∀ i j, |q.H i j - H i j| ≤ 2100 * (2 : ℝ) ^ (-53 : ℤ) * (m * S ^ 2) := by
  have hu : (2 : ℝ) ^ (-53 : ℤ) = u := by unfold unitRoundoff; norm_num
  have hm0 : 0 < m := lt_of_lt_of_le (by norm_num) hm1
  obtain ⟨p, hp, hmom⟩ := C57_box ⟨b.halfExtents, O, b.center⟩ (fun i => (hh i).1) hO.1 m hm0
  rw [Box.uniformDensityParams_ok _ m hm0] at hp
  injection hp with hp
  subst hp
  have hDe : (m • Matrix.diagonal fun i => 1 / 3 * b.halfExtents i ^ 2) = Matrix.diagonal fun i => m * b.halfExtents i ^ 2 / 3 := by
    rw [← Matrix.diagonal_smul]
    congr 1
    ext i
    show m * (1 / 3 * b.halfExtents i ^ 2) = m * b.halfExtents i ^ 2 / 3
    ring
  have key := density_close hfl hO hm1 hm2 hS1 hS2 hc (D := fun i => m * b.halfExtents i ^ 2 / 3)
    (fun i j => diagonal_close hfl hm1 hm2 hS1 hS2 (fun i => ⟨(hh i).1.le, (hh i).2⟩) (le_refl 3) i j)
    (fun i => by
      have h1 := mul_le_mul_of_nonneg_left (pow_le_pow_left₀ (hh i).1.le (hh i).2 2) hm0.le
      have h2 : 0 ≤ m * b.halfExtents i ^ 2 := by positivity
      rw [abs_of_nonneg (by positivity)]
      linarith) hq.2
  rw [hu]
  refine ⟨_, _, hmom, key.1, fun i => ?_, fun i j => ?_⟩
  · have : (m * b.center i) / m = b.center i := by field_simp
    show |q.com i - (m * b.center i) / m| ≤ _
    rw [this]; exact key.2.1 i
  · have := key.2.2 i j
    rw [← hDe] at this
    exact this

/-- C130: the same for `Ellipsoid.uniform_density_params` in three dimensions. -/
theorem C130_ellipsoid {e : Ellipsoid ℝ 3} {O : Matrix (Fin 3) (Fin 3) ℝ} (hO : NearRotation e.rotation O) {m S : ℝ}
    (hm1 : 1 / 10 ^ 20 ≤ m) (hm2 : m ≤ 10 ^ 20) (hS1 : 1 / 10 ^ 15 ≤ S) (hS2 : S ≤ 10 ^ 15)
    (hh : ∀ i, 0 < e.halfExtents i ∧ e.halfExtents i ≤ S) (hc : ∀ i, |e.center i| ≤ S) {q : IP ℝ} (hq : e.uniformDensityFloat fl m q) :
    ∃ (h : Fin 3 → ℝ) (H : Matrix (Fin 3) (Fin 3) ℝ), HasMoments (uniform m (ellipsoid e.halfExtents O e.center)) m h H ∧ q.mass = m ∧
      (∀ i, |q.com i - h i / m| ≤ 160 * (2 : ℝ) ^ (-53 : ℤ) * S) ∧ ∀ i j, |q.H i j - H i j| ≤ 2100 * (2 : ℝ) ^ (-53 : ℤ) * (m * S ^ 2) := by
  have hu : (2 : ℝ) ^ (-53 : ℤ) = u := by unfold unitRoundoff; norm_num
  have hm0 : 0 < m := lt_of_lt_of_le (by norm_num) hm1
  obtain ⟨p, hp, hmom⟩ := C57_ellipsoid ⟨e.halfExtents, O, e.center⟩ (fun i => (hh i).1) hO.1 m hm0
  rw [Ellipsoid.uniformDensityParams_ok _ m hm0] at hp
  injection hp with hp
  subst hp
  have hDe : (m • Matrix.diagonal fun i => 1 / 5 * e.halfExtents i ^ 2) = Matrix.diagonal fun i => m * e.halfExtents i ^ 2 / 5 := by
    rw [← Matrix.diagonal_smul]
    congr 1
    ext i
    show m * (1 / 5 * e.halfExtents i ^ 2) = m * e.halfExtents i ^ 2 / 5
    ring
  have key := density_close hfl hO hm1 hm2 hS1 hS2 hc (D := fun i => m * e.halfExtents i ^ 2 / 5)
    (fun i j => diagonal_close hfl hm1 hm2 hS1 hS2 (fun i => ⟨(hh i).1.le, (hh i).2⟩) (by norm_num) i j)
    (fun i => by
      have h1 := mul_le_mul_of_nonneg_left (pow_le_pow_left₀ (hh i).1.le (hh i).2 2) hm0.le
      have h2 : 0 ≤ m * e.halfExtents i ^ 2 := by positivity
      rw [abs_of_nonneg (by positivity)]
      linarith) hq.2
  rw [hu]
  refine ⟨_, _, hmom, key.1, fun i => ?_, fun i j => ?_⟩
  · have : (m * e.center i) / m = e.center i := by field_simp
    show |q.com i - (m * e.center i) / m| ≤ _
    rw [this]; exact key.2.1 i
  · have := key.2.2 i j
    rw [← hDe] at this
    exact this

/-- C130: the same for `Cylinder.uniform_density_params`, if the squares of the mathematical library are off by at most `2 · 2⁻⁵³`. -/
theorem C130_cylinder {c : Cylinder ℝ} {O : Matrix (Fin 3) (Fin 3) ℝ} (hO : NearRotation c.rotation O) {m S : ℝ}
    (hm1 : 1 / 10 ^ 20 ≤ m) (hm2 : m ≤ 10 ^ 20) (hS1 : 1 / 10 ^ 15 ≤ S) (hS2 : S ≤ 10 ^ 15) (hr : 0 < c.radius ∧ c.radius ≤ S)
    (hl : 0 < c.length ∧ c.length / 2 ≤ S) (hc : ∀ i, |c.center i| ≤ S) {sq : ℝ → ℝ}
    (hsq : ∀ x, 0 ≤ x → x ≤ 10 ^ 16 → |sq x - x ^ 2| ≤ 2 * (2 : ℝ) ^ (-53 : ℤ) * x ^ 2 + 1 / 10 ^ 200) {q : IP ℝ}
    (hq : c.uniformDensityFloat fl sq m q) :
    ∃ (h : Fin 3 → ℝ) (H : Matrix (Fin 3) (Fin 3) ℝ), HasMoments (uniform m (cylinder c.length c.radius O c.center)) m h H ∧ q.mass = m ∧
      (∀ i, |q.com i - h i / m| ≤ 160 * (2 : ℝ) ^ (-53 : ℤ) * S) ∧ ∀ i j, |q.H i j - H i j| ≤ 2100 * (2 : ℝ) ^ (-53 : ℤ) * (m * S ^ 2) := by
  have hu : (2 : ℝ) ^ (-53 : ℤ) = u := by unfold unitRoundoff; norm_num
  rw [hu] at hsq
  have hu0 := u_pos
  have hS0 : 0 < S := lt_of_lt_of_le (by norm_num) hS1
  have hm0 : 0 < m := lt_of_lt_of_le (by norm_num) hm1
  obtain ⟨p, hp, hmom⟩ := C57_cylinder ⟨c.length, c.radius, O, c.center⟩ hl.1 hr.1 hO.1 m hm0
  rw [Cylinder.uniformDensityParams_ok _ m hm0] at hp
  injection hp with hp
  subst hp
  have hDe : (m • Matrix.diagonal fun i => (![1 / 4, 1 / 4, 1 / 3] : Fin 3 → ℝ) i *
      (![c.radius, c.radius, c.length / 2] : Fin 3 → ℝ) i ^ 2) =
      Matrix.diagonal ![m * c.radius ^ 2 / 4, m * c.radius ^ 2 / 4, m * c.length ^ 2 / 12] := by
    rw [← Matrix.diagonal_smul]
    congr 1
    ext i
    fin_cases i
    · show m * (1 / 4 * c.radius ^ 2) = m * c.radius ^ 2 / 4
      ring
    · show m * (1 / 4 * c.radius ^ 2) = m * c.radius ^ 2 / 4
      ring
    · show m * (1 / 3 * (c.length / 2) ^ 2) = m * c.length ^ 2 / 12
      ring
  have er : ∀ {d : ℝ}, 3 ≤ d → |fl (fl (m * sq c.radius) / d) - m * c.radius ^ 2 / d| ≤ 8 * u * (m * S ^ 2) := fun {d} hd =>
    scaled_square hfl hm1 hm2 hS1 hS2 (by rw [abs_of_pos hr.1]; linarith) (hsq _ hr.1.le (by norm_num at hS2 ⊢; linarith)) hd
  have el : |fl (fl (m * sq c.length) / 12) - m * c.length ^ 2 / 12| ≤ 8 * u * (m * S ^ 2) :=
    scaled_square hfl hm1 hm2 hS1 hS2 (by rw [abs_of_pos hl.1]; linarith) (hsq _ hl.1.le (by norm_num at hS2 ⊢; linarith)) (by norm_num)
  have hr2 := mul_le_mul_of_nonneg_left (pow_le_pow_left₀ hr.1.le hr.2 2) hm0.le
  have hl2 := mul_le_mul_of_nonneg_left (pow_le_pow_left₀ (by linarith [hl.1]) hl.2 2) hm0.le
  have hB0 : 0 < m * S ^ 2 := by positivity
  have key := density_close hfl hO hm1 hm2 hS1 hS2 hc (D := ![m * c.radius ^ 2 / 4, m * c.radius ^ 2 / 4, m * c.length ^ 2 / 12])
    (fun i j => by
      by_cases hij : i = j
      · subst hij
        rw [Matrix.diagonal_apply_eq, Matrix.diagonal_apply_eq]
        fin_cases i
        · exact er (by norm_num)
        · exact er (by norm_num)
        · exact el
      · rw [Matrix.diagonal_apply_ne _ hij, Matrix.diagonal_apply_ne _ hij, sub_zero, abs_zero]
        positivity)
    (fun i => by
      fin_cases i
      · show |m * c.radius ^ 2 / 4| ≤ _
        rw [abs_of_nonneg (by positivity)]
        linarith
      · show |m * c.radius ^ 2 / 4| ≤ _
        rw [abs_of_nonneg (by positivity)]
        linarith
      · show |m * c.length ^ 2 / 12| ≤ _
        rw [abs_of_nonneg (by positivity)]
        linarith) hq.2
  rw [hu]
  refine ⟨_, _, hmom, key.1, fun i => ?_, fun i j => ?_⟩
  · have : (m * c.center i) / m = c.center i := by field_simp
    show |q.com i - (m * c.center i) / m| ≤ _
    rw [this]; exact key.2.1 i
  · have := key.2.2 i j
    rw [← hDe] at this
    exact this

omit hfl in
/-- C130: there are such parameters for every positive mass, whatever the rounding. -/
theorem C130_result (b : Box ℝ) (e : Ellipsoid ℝ 3) (c : Cylinder ℝ) (sq : ℝ → ℝ) {m : ℝ} (hm : 0 < m) :
    (∃ q, b.uniformDensityFloat fl m q) ∧ (∃ q, e.uniformDensityFloat fl m q) ∧ ∃ q, c.uniformDensityFloat fl sq m q := by
  have step : ∀ (p : IP ℝ) (R : Matrix (Fin 3) (Fin 3) ℝ) (t : Fin 3 → ℝ), ∃ q, p.transformFloat fl R t q := fun p R t => by
    obtain ⟨q, q', hq, -⟩ := C123_result (fl := fl) p [⟨R, t⟩]
    exact ⟨q', hq⟩
  obtain ⟨q1, h1⟩ := step _ b.rotation b.center
  obtain ⟨q2, h2⟩ := step _ e.rotation e.center
  obtain ⟨q3, h3⟩ := step _ c.rotation c.center
  exact ⟨⟨q1, hm, h1⟩, ⟨q2, hm, h2⟩, q3, hm, h3⟩

end

/-! ### The hypotheses can be met -/

/-- A box in another pose, and an exact square. -/
example : ∃ (b : Box ℝ) (O : Matrix (Fin 3) (Fin 3) ℝ), NearRotation b.rotation O ∧ O ≠ 1 ∧
    (∀ i, 0 < b.halfExtents i ∧ b.halfExtents i ≤ 4) ∧ (∀ i, |b.center i| ≤ 4) ∧
    ∀ x : ℝ, 0 ≤ x → x ≤ 10 ^ 16 → |x ^ 2 - x ^ 2| ≤ 2 * (2 : ℝ) ^ (-53 : ℤ) * x ^ 2 + 1 / 10 ^ 200 := by
  let Q : Matrix (Fin 3) (Fin 3) ℝ := !![1, 0, 0; 0, 0, -1; 0, 1, 0]
  have hQ : Orthogonal Q := by
    unfold Orthogonal
    ext i j
    rw [Matrix.mul_apply, Fin.sum_univ_three]
    fin_cases i <;> fin_cases j <;> simp [Q]
  let b : Box ℝ := ⟨![1, 2, 3], Q, ![0, 0, 4]⟩
  refine ⟨b, Q, ⟨hQ, fun i j => by simp [b]⟩, ?_, ?_, ?_, ?_⟩
  · intro h
    have := congrFun (congrFun h 1) 1
    simp [Q] at this
  · intro i
    show (0 : ℝ) < (![1, 2, 3] : Fin 3 → ℝ) i ∧ (![1, 2, 3] : Fin 3 → ℝ) i ≤ 4
    fin_cases i <;> norm_num
  · intro i
    show |(![0, 0, 4] : Fin 3 → ℝ) i| ≤ 4
    fin_cases i <;> norm_num
  · intro x _ _
    rw [sub_self, abs_zero]
    positivity

end Rigeo
