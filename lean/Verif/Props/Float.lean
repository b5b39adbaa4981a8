import Verif.Lemmas.Float
import Verif.Model.Float
import Verif.Props.Util

/-!
# C94: floating-point rounding in the size of `unvech`, in evaluation times and in bounding boxes
-/

namespace Rigeo

open Spec

section
variable {fl : ℝ → ℝ} (hfl : IsRounding fl)
include hfl

theorem le_huge {x : ℝ} {k : ℕ} (h : |x| ≤ 2 ^ k) (hk : k ≤ 1023 := by norm_num) : |x| ≤ 2 ^ (1023 : ℤ) := by
  have h2 : (2 : ℝ) ^ (k : ℤ) ≤ 2 ^ (1023 : ℤ) := zpow_le_zpow_right₀ (by norm_num) (by exact_mod_cast hk)
  rw [zpow_natCast] at h2
  exact h.trans h2

/-- The last two operations of `is_triangular_number` are exact. -/
theorem half_pred_exact {r : ℝ} (hr : Binary64 r) (h1 : 2 ≤ r) (h2 : r ≤ 2 ^ 40) : fl (1 / 2 * fl (r - 1)) = 1 / 2 * (r - 1) := by
  -- `r` is a multiple of `2 ^ (-51)`
  obtain ⟨m, e, hm, he1, he2, rfl⟩ := hr
  have hgrid : Binary64 (m * (2 : ℝ) ^ e - 1) ∧ Binary64 (1 / 2 * (m * (2 : ℝ) ^ e - 1)) := by
    have hpos : (0 : ℝ) < 2 ^ e := by positivity
    have hmpos : (0 : ℝ) < m := by
      by_contra h
      push Not at h
      nlinarith
    have hm0 : 0 < m := by exact_mod_cast hmpos
    rw [abs_of_pos hm0] at hm
    rcases le_or_gt 0 e with he | he
    · -- an integer
      obtain ⟨t, rfl⟩ := Int.eq_ofNat_of_zero_le he
      have hk : (m : ℝ) * 2 ^ (t : ℤ) = ((m * 2 ^ t : ℤ) : ℝ) := by push_cast; rw [zpow_natCast]
      rw [hk] at h1 h2 ⊢
      have hk1 : (2 : ℤ) ≤ m * 2 ^ t := by exact_mod_cast h1
      have hk2 : m * 2 ^ t ≤ 2 ^ 40 := by exact_mod_cast h2
      generalize m * 2 ^ t = j at *
      refine ⟨⟨j - 1, 0, ?_, by norm_num, by norm_num, by push_cast; simp⟩,
        ⟨j - 1, -1, ?_, by norm_num, by norm_num, by push_cast; rw [zpow_neg_one]; ring⟩⟩ <;>
      · rw [abs_of_nonneg (by omega)]
        omega
    · have he52 : -52 ≤ e := by
        by_contra h
        push Not at h
        have h3 : (2 : ℝ) ^ e ≤ 2 ^ (-53 : ℤ) := zpow_le_zpow_right₀ (by norm_num) (by omega)
        have h4 : (m : ℝ) < 2 ^ 53 := by exact_mod_cast hm
        have h5 : (m : ℝ) * 2 ^ e ≤ 2 ^ 53 * 2 ^ (-53 : ℤ) := mul_le_mul h4.le h3 hpos.le (by positivity)
        norm_num at h5
        linarith
      obtain ⟨t, ht⟩ := Int.eq_ofNat_of_zero_le (show 0 ≤ -e by omega)
      have hone : (1 : ℝ) = ((2 ^ t : ℤ) : ℝ) * 2 ^ e := by
        push_cast
        rw [← zpow_natCast, ← zpow_add₀ (by norm_num), ← ht]
        simp
      have hge : 2 ^ t ≤ m := by
        have h6 : ((2 ^ t : ℤ) : ℝ) * 2 ^ e ≤ m * 2 ^ e := by rw [← hone]; linarith
        exact_mod_cast le_of_mul_le_mul_right h6 hpos
      have hpos2 : (0 : ℤ) < 2 ^ t := by positivity
      refine ⟨⟨m - 2 ^ t, e, ?_, by omega, by omega, ?_⟩, ⟨m - 2 ^ t, e - 1, ?_, by omega, by omega, ?_⟩⟩
      · rw [abs_of_nonneg (by omega)]; omega
      · conv_lhs => rw [hone]
        push_cast; ring
      · rw [abs_of_nonneg (by omega)]; omega
      · have h7 : (m : ℝ) * 2 ^ e - 1 = ((m - 2 ^ t : ℤ) : ℝ) * 2 ^ e := by
          conv_lhs => rw [hone]
          push_cast; ring
        rw [h7, zpow_sub₀ (by norm_num), zpow_one]
        ring
  have hb1 : |(m : ℝ) * 2 ^ e - 1| ≤ 2 ^ 40 := by rw [abs_of_nonneg (by linarith)]; linarith
  have hb2 : |1 / 2 * ((m : ℝ) * 2 ^ e - 1)| ≤ 2 ^ 40 := by rw [abs_of_nonneg (by linarith)]; linarith
  rw [fl_exact hfl hgrid.1 (le_huge hfl hb1), fl_exact hfl hgrid.2 (le_huge hfl hb2)]

theorem float_value {x : ℤ} {v : ℝ} (hx : ¬ x < 1) (h : fl (1 / 2 * fl (fl (Real.sqrt (fl (1 + 8 * x))) - 1)) = v) :
    isTriangularNumberFloat fl x = (@decide (∃ k : ℤ, v = k) (Classical.propDecidable _), ⌊v⌋) := by
  subst h
  unfold isTriangularNumberFloat
  rw [if_neg hx]

theorem fl_rel {x : ℝ} (h1 : 2 ^ (-600 : ℤ) ≤ |x|) (h2 : |x| ≤ 2 ^ 600) : |fl x - x| ≤ 2 ^ (-52 : ℤ) * |x| := by
  refine (fl_error hfl (le_huge hfl h2)).trans ?_
  have h3 : (2 : ℝ) ^ (-1075 : ℤ) ≤ 2 ^ (-653 : ℤ) := zpow_le_zpow_right₀ (by norm_num) (by norm_num)
  have h4 : (2 : ℝ) ^ (-653 : ℤ) = 2 ^ (-53 : ℤ) * 2 ^ (-600 : ℤ) := by rw [← zpow_add₀ (by norm_num)]; congr 1
  have h5 : (2 : ℝ) ^ (-53 : ℤ) * 2 ^ (-600 : ℤ) ≤ 2 ^ (-53 : ℤ) * |x| := mul_le_mul_of_nonneg_left h1 (by positivity)
  have h6 : (2 : ℝ) ^ (-52 : ℤ) = 2 * 2 ^ (-53 : ℤ) := by norm_num
  rw [h6]
  generalize (2 : ℝ) ^ (-1075 : ℤ) = a at *
  generalize (2 : ℝ) ^ (-653 : ℤ) = b at *
  generalize (2 : ℝ) ^ (-600 : ℤ) = c at *
  linarith

/-- C94: with rounding, `is_triangular_number` is still right for every int below `2 ^ 50`. -/
theorem C94_triangular (x : ℤ) (hx : x < 2 ^ 50) (n : ℤ) :
    (isTriangularNumberFloat fl x = (true, n) ↔ 1 ≤ n ∧ 2 * x = n * (n + 1)) ∧
    ((∀ k : ℤ, 1 ≤ k → 2 * x ≠ k * (k + 1)) → (isTriangularNumberFloat fl x).1 = false) := by
  rcases lt_or_ge x 1 with h | h
  · have h1 : isTriangularNumberFloat fl x = (false, -1) := by unfold isTriangularNumberFloat; rw [if_pos h]
    rw [h1]
    refine ⟨⟨fun h => by simp at h, fun ⟨h2, h3⟩ => ?_⟩, fun _ => rfl⟩
    nlinarith
  -- the square root is rounded by at most `2 ^ (-27)`
  have hN : fl (1 + 8 * (x : ℝ)) = 1 + 8 * x := by
    have := fl_int hfl (1 + 8 * x) (by rw [abs_of_nonneg (by omega)]; omega)
    push_cast at this
    exact this
  have hxr : (1 : ℝ) ≤ x := by exact_mod_cast h
  have hxr2 : (x : ℝ) < 2 ^ 50 := by exact_mod_cast hx
  set y := Real.sqrt (1 + 8 * (x : ℝ)) with hy
  have hyy : y ^ 2 = 1 + 8 * x := Real.sq_sqrt (by linarith)
  have hy0 : 0 ≤ y := Real.sqrt_nonneg _
  have hy3 : 3 ≤ y := by
    rw [hy]; refine Real.le_sqrt_of_sq_le ?_; linarith
  have hy27 : y < 2 ^ 27 := by
    by_contra hc
    push Not at hc
    have : (2 : ℝ) ^ 27 * 2 ^ 27 ≤ y * y := mul_le_mul hc hc (by positivity) hy0
    rw [← pow_two y, hyy] at this
    norm_num at this
    norm_num at hxr2
    linarith
  have hyb : |y| ≤ 2 ^ 27 := by rw [abs_of_nonneg hy0]; exact hy27.le
  have hyh := le_huge hfl hyb
  have herr : |fl y - y| ≤ 2 ^ (-25 : ℤ) := by
    refine (fl_error hfl hyh).trans ?_
    have h1 : (2 : ℝ) ^ (-53 : ℤ) * |y| ≤ 2 ^ (-53 : ℤ) * 2 ^ 27 := mul_le_mul_of_nonneg_left hyb (by positivity)
    have h2 : (2 : ℝ) ^ (-1075 : ℤ) ≤ 2 ^ (-26 : ℤ) := zpow_le_zpow_right₀ (by norm_num) (by norm_num)
    have h3 : (2 : ℝ) ^ (-53 : ℤ) * 2 ^ 27 + 2 ^ (-26 : ℤ) = 2 ^ (-25 : ℤ) := by norm_num
    linarith
  have herr1 : |fl y - y| ≤ 1 / 2 ^ 25 := by
    rw [show (1 : ℝ) / 2 ^ 25 = 2 ^ (-25 : ℤ) by norm_num]; exact herr
  have hab := abs_le.mp herr1
  have hr2 : 2 ≤ fl y := by
    have : (1 : ℝ) / 2 ^ 25 ≤ 1 := by norm_num
    linarith
  have hr40 : fl y ≤ 2 ^ 40 := by
    have : (1 : ℝ) / 2 ^ 25 ≤ 1 := by norm_num
    have h2 : (2 : ℝ) ^ 27 + 1 ≤ 2 ^ 40 := by norm_num
    linarith
  have hval : isTriangularNumberFloat fl x = (@decide (∃ k : ℤ, 1 / 2 * (fl y - 1) = k) (Classical.propDecidable _),
      ⌊1 / 2 * (fl y - 1)⌋) := by
    refine float_value hfl (by omega) ?_
    rw [hN, ← hy, half_pred_exact hfl (hfl y hyh).1 hr2 hr40]
  -- an odd integer results only from an odd integer
  have key : ∀ k : ℤ, 1 / 2 * (fl y - 1) = k → 1 ≤ k ∧ 2 * x = k * (k + 1) := by
    intro k hk
    have hr : fl y = 2 * k + 1 := by linarith
    have hk1 : 1 ≤ k := by
      have : (1 : ℝ) / 2 < k := by
        have h5 : (1 : ℝ) / 2 ^ 25 < 1 / 2 := by norm_num
        linarith
      by_contra hc
      have : (k : ℝ) ≤ 0 := by exact_mod_cast (by omega : k ≤ 0)
      linarith
    refine ⟨hk1, ?_⟩
    have hd : |(8 * x - 4 * (k * (k + 1)) : ℝ)| < 8 := by
      have h6 : (8 * x - 4 * (k * (k + 1)) : ℝ) = -(fl y - y) * (fl y + y) := by
        have : (8 * x : ℝ) = y ^ 2 - 1 := by linarith
        rw [this, hr]; ring
      rw [h6, abs_mul, abs_neg, abs_of_nonneg (a := fl y + y) (by linarith)]
      have h7 : fl y + y < 2 ^ 28 + 1 := by
        have : (1 : ℝ) / 2 ^ 25 ≤ 1 := by norm_num
        have : (2 : ℝ) ^ 28 = 2 * 2 ^ 27 := by norm_num
        linarith
      -- `2 ^ (-25) * 2 ^ 28 = 8` is not quite enough: use the sharper bound of the error
      have h8 : |fl y - y| ≤ 2 ^ (-53 : ℤ) * 2 ^ 27 + 2 ^ (-1075 : ℤ) :=
        (fl_error hfl hyh).trans (by
          have := mul_le_mul_of_nonneg_left hyb (by positivity : (0 : ℝ) ≤ 2 ^ (-53 : ℤ))
          linarith)
      have h9 : (2 : ℝ) ^ (-1075 : ℤ) ≤ 2 ^ (-30 : ℤ) := zpow_le_zpow_right₀ (by norm_num) (by norm_num)
      have h10 : |fl y - y| ≤ 2 ^ (-53 : ℤ) * 2 ^ 27 + 2 ^ (-30 : ℤ) := by linarith
      have h11 : |fl y - y| * (fl y + y) ≤ (2 ^ (-53 : ℤ) * 2 ^ 27 + 2 ^ (-30 : ℤ)) * (2 ^ 28 + 1) :=
        mul_le_mul h10 h7.le (by linarith) (by positivity)
      refine h11.trans_lt ?_
      norm_num
    have hdi : |8 * x - 4 * (k * (k + 1))| < 8 := by exact_mod_cast hd
    obtain ⟨c, hc⟩ := Int.even_mul_succ_self k
    rw [hc] at hdi ⊢
    rw [abs_lt] at hdi
    omega
  -- the root of a triangular number is computed exactly
  have exact : ∀ k : ℤ, 1 ≤ k → 2 * x = k * (k + 1) → 1 / 2 * (fl y - 1) = k := by
    intro k hk hkx
    have hkr : (1 : ℝ) ≤ k := by exact_mod_cast hk
    have hyk : y = 2 * k + 1 := by
      rw [hy, Real.sqrt_eq_iff_mul_self_eq (by linarith) (by linarith)]
      have : (2 * x : ℝ) = k * (k + 1) := by exact_mod_cast hkx
      nlinarith
    have hk27 : 2 * k + 1 < 2 ^ 27 := by
      have : (2 * (k : ℝ) + 1) < 2 ^ 27 := hyk ▸ hy27
      exact_mod_cast this
    have := fl_int hfl (2 * k + 1) (by rw [abs_of_nonneg (by omega)]; omega)
    push_cast at this
    rw [hyk, this]
    ring
  rw [hval]
  constructor
  · simp only [Prod.mk.injEq, decide_eq_true_eq]
    constructor
    · rintro ⟨⟨k, hk⟩, hn⟩
      rw [hk, Int.floor_intCast] at hn
      exact hn ▸ key k hk
    · rintro ⟨h1, h2⟩
      have := exact n h1 h2
      exact ⟨⟨n, this⟩, by rw [this, Int.floor_intCast]⟩
  · intro hno
    simp only [decide_eq_false_iff_not]
    rintro ⟨k, hk⟩
    exact hno k (key k hk).1 (key k hk).2

/-- C94: `unvech` is not affected by rounding: no vector is long enough. -/
theorem C94_unvech {K : Type} [Zero K] (a : List K) (ha : a.length < 2 ^ 50) : unvechFloat fl a = unvech a := by
  have h1 := C94_triangular hfl (a.length : ℤ) (by exact_mod_cast ha)
  by_cases h : ∃ n : ℤ, 1 ≤ n ∧ 2 * (a.length : ℤ) = n * (n + 1)
  · obtain ⟨n, hn, hna⟩ := h
    have h2 := (h1 n).1.mpr ⟨hn, hna⟩
    have h3 : isTriangularNumber (a.length : ℝ) = (true, n) := (C02_isTriangularNumber _ n).mpr ⟨hn, by
      have : (2 * (a.length : ℝ)) = n * (n + 1) := by exact_mod_cast hna
      linarith⟩
    unfold unvechFloat unvech
    simp only [h2, h3, if_true]
    rfl
  · push Not at h
    have h2 := (h1 0).2 h
    unfold unvechFloat
    simp only [h2]
    rw [C01_unvech_error a fun n hn hc => h n (by exact_mod_cast hn) (by exact_mod_cast hc)]
    rfl

/-- C94: for larger numbers it is wrong: `2 ^ 53 + 2 ^ 26 + 1` is not triangular, but it is the successor of a triangular
number, and the square root rounds to the one of that number. -/
theorem C94_triangular_wrong :
    isTriangularNumberFloat fl (2 ^ 53 + 2 ^ 26 + 1) = (true, 2 ^ 27) ∧
    ∀ n : ℤ, 1 ≤ n → 2 * (2 ^ 53 + 2 ^ 26 + 1) ≠ n * (n + 1) := by
  have hN : fl (1 + 8 * ((2 ^ 53 + 2 ^ 26 + 1 : ℤ) : ℝ)) = 2 ^ 56 + 2 ^ 29 + 16 := by
    refine fl_eq_of_near hfl 56 (le_huge hfl (k := 60) ?_) ⟨2 ^ 52 + 2 ^ 25 + 1, 4, ?_, by norm_num, by norm_num, ?_⟩ ?_ ?_
    · norm_num
    · norm_num
    · norm_num
    · norm_num
    · norm_num
  have hy1 : (2 : ℝ) ^ 28 + 1 ≤ Real.sqrt (2 ^ 56 + 2 ^ 29 + 16) := Real.le_sqrt_of_sq_le (by norm_num)
  have hy2 : Real.sqrt (2 ^ 56 + 2 ^ 29 + 16) < 2 ^ 28 + 1 + 1 / 2 ^ 25 := by
    rw [Real.sqrt_lt' (by positivity)]
    norm_num
  have hr : fl (Real.sqrt (2 ^ 56 + 2 ^ 29 + 16)) = 2 ^ 28 + 1 := by
    refine fl_eq_of_near hfl 28 (le_huge hfl (k := 40) ?_) ⟨2 ^ 28 + 1, 0, ?_, by norm_num, by norm_num, ?_⟩ ?_ ?_
    · rw [abs_of_nonneg (Real.sqrt_nonneg _)]
      norm_num at hy2 ⊢
      linarith
    · norm_num
    · norm_num
    · norm_num
    · rw [abs_sub_comm, abs_of_nonneg (by linarith)]
      norm_num at hy2 ⊢
      linarith
  have hlast := half_pred_exact hfl (r := 2 ^ 28 + 1) ⟨2 ^ 28 + 1, 0, by norm_num, by norm_num, by norm_num, by norm_num⟩
    (by norm_num) (by norm_num)
  refine ⟨?_, ?_⟩
  · rw [float_value hfl (v := ((2 ^ 27 : ℤ) : ℝ)) (by norm_num) (by rw [hN, hr, hlast]; norm_num), Int.floor_intCast]
    simp only [Prod.mk.injEq, decide_eq_true_eq, and_true]
    exact ⟨2 ^ 27, rfl⟩
  · intro n hn h
    rcases lt_or_ge n (2 ^ 27 + 1) with h1 | h1
    · have : n * (n + 1) ≤ 2 ^ 27 * (2 ^ 27 + 1) := by nlinarith
      norm_num at this h
      omega
    · have : (2 ^ 27 + 1) * (2 ^ 27 + 2) ≤ n * (n + 1) := by nlinarith
      norm_num at this h
      omega

omit hfl in
theorem pos_aux {q f ε : ℝ} (hq : 0 < q) (hε : ε ≤ 1 / 4) (h : -(ε * q) ≤ f - q) : 0 < f := by nlinarith

omit hfl in
theorem le_aux {q f ε i : ℝ} (hi : i ≤ f) (h : f - q ≤ ε * q) : i ≤ q * (1 + ε) := by linarith

omit hfl in
theorem ge_aux {q f ε i : ℝ} (hi : f ≤ i) (h : -(ε * q) ≤ f - q) : q * (1 - ε) ≤ i := by linarith

omit hfl in
theorem time_aux {x d ε t : ℝ} (hd : 0 < d) (h0 : 0 < ε) (h1 : ε ≤ 1 / 4) (hx : 0 ≤ x) (hl : -(ε * x) ≤ t - x)
    (hr : t - x ≤ ε * x) (h : x ≤ d * (1 + ε)) : 0 ≤ t ∧ t ≤ d * (1 + 4 * ε) := by
  constructor
  · nlinarith
  · have h4 : x * (1 + ε) ≤ d * (1 + ε) * (1 + ε) := mul_le_mul_of_nonneg_right h (by linarith)
    nlinarith [mul_pos hd h0]

/-- C94: with rounding, the evaluation times still cover the interval up to a relative error of a few units in the last
place. -/
theorem C94_times (duration step : ℝ) (hd : 2 ^ (-500 : ℤ) ≤ duration) (hs : 2 ^ (-500 : ℤ) ≤ step) (hd' : duration ≤ 2 ^ 400)
    (hq : duration / step ≤ 2 ^ 52) (hq' : 2 ^ (-500 : ℤ) ≤ duration / step) :
    ∃ n times, computeEvaluationTimesFloat fl duration step = .ok (n, times) ∧ 1 ≤ n ∧ times.length = n ∧
      (∀ i, (hi : i < times.length) → |times[i] - i * step| ≤ 2 ^ (-52 : ℤ) * (i * step)) ∧
      (∀ t ∈ times, 0 ≤ t ∧ t ≤ duration * (1 + 2 ^ (-50 : ℤ))) ∧ duration * (1 - 2 ^ (-52 : ℤ)) ≤ n * step := by
  have hpow : ∀ a : ℤ, (0 : ℝ) < 2 ^ a := fun a => by positivity
  have hd0 : 0 < duration := (hpow _).trans_le hd
  have hs0 : 0 < step := (hpow _).trans_le hs
  have hm : (2 : ℝ) ^ (-600 : ℤ) ≤ 2 ^ (-500 : ℤ) := zpow_le_zpow_right₀ (by norm_num) (by norm_num)
  set q := duration / step with hqdef
  have hq0 : 0 < q := div_pos hd0 hs0
  have hqs : q * step = duration := div_mul_cancel₀ _ hs0.ne'
  have h52 : (2 : ℝ) ^ 52 ≤ 2 ^ 600 := pow_le_pow_right₀ (by norm_num) (by norm_num)
  have h401 : (2 : ℝ) ^ 401 ≤ 2 ^ 600 := pow_le_pow_right₀ (by norm_num) (by norm_num)
  have h401' : (2 : ℝ) ^ 401 = 2 * 2 ^ 400 := by rw [pow_succ]; ring
  have hf := fl_rel hfl (x := q) (by rw [abs_of_pos hq0]; exact hm.trans hq')
    (by rw [abs_of_pos hq0]; exact hq.trans h52)
  rw [abs_of_pos hq0, abs_le] at hf
  set ε : ℝ := 2 ^ (-52 : ℤ) with hε
  have hε0 : 0 < ε := hpow _
  have hε1 : ε ≤ 1 / 4 := by rw [hε]; norm_num
  have hε50 : (2 : ℝ) ^ (-50 : ℤ) = 4 * ε := by rw [hε]; norm_num
  have hε2 : 1 + ε ≤ 2 := by rw [hε]; norm_num
  have hf0 : 0 < fl q := pos_aux hq0 hε1 hf.1
  set n := ⌈fl q⌉₊ with hn
  have hn1 : 1 ≤ n := Nat.one_le_ceil_iff.mpr hf0
  have hni : ∀ i : ℕ, i < n → (i : ℝ) * step ≤ duration * (1 + ε) := by
    intro i hi
    have h1 : (i : ℝ) < fl q := Nat.lt_ceil.mp hi
    have h2 : (i : ℝ) ≤ q * (1 + ε) := le_aux h1.le hf.2
    calc (i : ℝ) * step ≤ q * (1 + ε) * step := mul_le_mul_of_nonneg_right h2 hs0.le
      _ = duration * (1 + ε) := by rw [← hqs]; ring
  have htime : ∀ i : ℕ, i < n → |fl (step * i) - i * step| ≤ ε * (i * step) := by
    intro i hi
    rcases Nat.eq_zero_or_pos i with rfl | hi0
    · have : fl 0 = 0 := by simpa using fl_int hfl 0 (by norm_num)
      simp [this]
    · have h1 : (1 : ℝ) ≤ i := by exact_mod_cast hi0
      have h2 : step ≤ step * i := by nlinarith
      have h3 := hni i hi
      have h4 : duration * (1 + ε) ≤ 2 ^ 400 * 2 := mul_le_mul hd' hε2 (by positivity) (by positivity)
      have h5 := fl_rel hfl (x := step * i) (by rw [abs_of_pos (by positivity)]; exact hm.trans (hs.trans h2))
        (by rw [abs_of_pos (by positivity), mul_comm]
            refine (h3.trans h4).trans (le_trans (le_of_eq ?_) h401)
            rw [h401', mul_comm])
      rw [abs_of_pos (a := step * i) (by positivity)] at h5
      rwa [mul_comm (i : ℝ)]
  refine ⟨n, (List.range n).map fun i : ℕ => fl (step * (i : ℝ)), ?_, hn1, by simp, ?_, ?_, ?_⟩
  · unfold computeEvaluationTimesFloat
    simp [pyAssert, hd0, hs0, hn, hqdef]
    rfl
  · intro i hi
    have hi' : i < n := by simpa using hi
    simpa using htime i hi'
  · intro t ht
    obtain ⟨i, hi, rfl⟩ := List.mem_map.mp ht
    have hi' := List.mem_range.mp hi
    have h1 := abs_le.mp (htime i hi')
    have h2 := hni i hi'
    have h3 : 0 ≤ (i : ℝ) * step := by positivity
    rw [hε50]
    exact time_aux hd0 hε0 hε1 h3 h1.1 h1.2 h2
  · have h1 : fl q ≤ n := Nat.le_ceil _
    have h2 : q * (1 - ε) ≤ n := ge_aux h1 hf.1
    calc duration * (1 - ε) = q * (1 - ε) * step := by rw [← hqs]; ring
      _ ≤ n * step := mul_le_mul_of_nonneg_right h2 hs0.le

/-- C94: but the last time can be the duration itself, contrary to exact arithmetic: for the floats nearest to `0.07` and
`0.01` there are eight times and the last one is `0.07`. -/
theorem C94_times_wrong : ∃ times, computeEvaluationTimesFloat fl (fl (7 / 100)) (fl (1 / 100)) = .ok (8, times) ∧
    times[7]? = some (fl (7 / 100)) := by
  have hT : fl (7 / 100) = 1261007895663739 / 18014398509481984 := by
    refine fl_eq_of_near hfl (-4) (le_huge hfl (k := 0) ?_) ⟨1261007895663739 * 4, -56, ?_, by norm_num, by norm_num, ?_⟩ ?_ ?_ <;>
      norm_num [abs_of_pos, abs_lt]
  have hs : fl (1 / 100) = 5764607523034235 / 576460752303423488 := by
    refine fl_eq_of_near hfl (-7) (le_huge hfl (k := 0) ?_) ⟨5764607523034235, -59, ?_, by norm_num, by norm_num, ?_⟩ ?_ ?_ <;>
      norm_num [abs_of_pos, abs_lt]
  have hq : fl (1261007895663739 / 18014398509481984 / (5764607523034235 / 576460752303423488)) = 7 + 1 / 2 ^ 50 := by
    refine fl_eq_of_near hfl 2 (le_huge hfl (k := 3) ?_) ⟨7 * 2 ^ 50 + 1, -50, ?_, by norm_num, by norm_num, ?_⟩ ?_ ?_ <;>
      norm_num [abs_of_pos, abs_lt]
  have h7 : fl (5764607523034235 / 576460752303423488 * (7 : ℕ)) = 1261007895663739 / 18014398509481984 := by
    refine fl_eq_of_near hfl (-4) (le_huge hfl (k := 0) ?_) ⟨1261007895663739 * 4, -56, ?_, by norm_num, by norm_num, ?_⟩ ?_ ?_ <;>
      norm_num [abs_of_pos, abs_lt]
  have hceil : ⌈(7 + 1 / 2 ^ 50 : ℝ)⌉₊ = 8 := by
    rw [Nat.ceil_eq_iff (by norm_num)]
    norm_num
  refine ⟨(List.range 8).map fun i : ℕ => fl (5764607523034235 / 576460752303423488 * (i : ℝ)), ?_, ?_⟩
  · rw [hT, hs]
    unfold computeEvaluationTimesFloat
    rw [hq, hceil]
    norm_num [pyAssert]
    rfl
  · rw [hT, ← h7]
    simp

/-- C94: every point is in the floating-point bounding box with the default tolerance, as long as the coordinates are at most
ten million. -/
theorem C94_bound (lo hi p : ℝ) (h1 : lo ≤ p) (h2 : p ≤ hi) (hlo : |lo| ≤ 10000000) (hhi : |hi| ≤ 10000000) :
    boundContainsFloat fl lo hi p (fl (1 / 100000000)) := by
  have err : ∀ x : ℝ, |x| ≤ 2 ^ 30 → |fl x - x| ≤ |x| / 2 ^ 53 + 1 / 2 ^ 60 := by
    intro x hx
    refine (fl_error hfl (le_huge hfl hx)).trans ?_
    have h9 : (2 : ℝ) ^ (-1075 : ℤ) ≤ 2 ^ (-60 : ℤ) := zpow_le_zpow_right₀ (by norm_num) (by norm_num)
    have h10 : (2 : ℝ) ^ (-60 : ℤ) = 1 / 2 ^ 60 := by norm_num
    have h11 : (2 : ℝ) ^ (-53 : ℤ) * |x| = |x| / 2 ^ 53 := by rw [div_eq_mul_inv, mul_comm]; norm_num
    rw [h11, ← h10]
    gcongr
  -- the error for arguments of size at most `B`
  have err' : ∀ x B : ℝ, |x| ≤ B → B ≤ 2 ^ 30 → |fl x - x| ≤ B / 2 ^ 53 + 1 / 2 ^ 60 := by
    intro x B hx hB
    have := err x (hx.trans hB)
    have h3 : |x| / 2 ^ 53 ≤ B / 2 ^ 53 := by gcongr
    linarith
  obtain ⟨a1, a2⟩ := abs_le.mp hlo
  obtain ⟨b1, b2⟩ := abs_le.mp hhi
  have t0 := abs_le.mp (err' (1 / 100000000) 1 (by norm_num) (by norm_num))
  have s1 := abs_le.mp (err' (lo + hi) 20000000 (abs_le.mpr ⟨by linarith, by linarith⟩) (by norm_num))
  have s2 := abs_le.mp (err' (hi - lo) 20000000 (abs_le.mpr ⟨by linarith, by linarith⟩) (by norm_num))
  norm_num at t0 s1 s2
  have c1 := abs_le.mp (err' (1 / 2 * fl (lo + hi)) 10000001 (abs_le.mpr ⟨by linarith, by linarith⟩) (by norm_num))
  have c2 := abs_le.mp (err' (1 / 2 * fl (hi - lo)) 10000001 (abs_le.mpr ⟨by linarith, by linarith⟩) (by norm_num))
  unfold boundContainsFloat boundCenterFloat boundHalfFloat
  generalize fl (1 / 100000000) = t at *
  generalize fl (lo + hi) = s at *
  generalize fl (hi - lo) = d at *
  norm_num at c1 c2
  dsimp only
  norm_num
  generalize fl (1 / 2 * s) = c at *
  generalize fl (1 / 2 * d) = h at *
  have e1 := abs_le.mp (err' (h + c) 10000010 (abs_le.mpr ⟨by linarith, by linarith⟩) (by norm_num))
  have e2 := abs_le.mp (err' (h + -c) 10000010 (abs_le.mpr ⟨by linarith, by linarith⟩) (by norm_num))
  norm_num at e1 e2
  generalize fl (h + c) = u at *
  generalize fl (h + -c) = v at *
  have f1 := abs_le.mp (err' (u + t) 10000020 (abs_le.mpr ⟨by linarith, by linarith⟩) (by norm_num))
  have f2 := abs_le.mp (err' (v + t) 10000020 (abs_le.mpr ⟨by linarith, by linarith⟩) (by norm_num))
  norm_num at f1 f2
  constructor <;> linarith

/-- C94: for larger coordinates a point can be outside of its own bounding box: the box of `-2^-26` and `2^29` does not
contain the former within the default tolerance. -/
theorem C94_bound_wrong : ¬ boundContainsFloat fl (-(1 / 2 ^ 26)) (2 ^ 29) (-(1 / 2 ^ 26)) (fl (1 / 100000000)) := by
  have hsum : fl (-(1 / 2 ^ 26) + 2 ^ 29) = 2 ^ 29 := by
    refine fl_eq_of_near hfl 28 (le_huge hfl (k := 30) ?_) ⟨2 ^ 29, 0, ?_, by norm_num, by norm_num, ?_⟩ ?_ ?_ <;>
      norm_num [abs_of_pos, abs_lt]
  have hdiff : fl (2 ^ 29 - -(1 / 2 ^ 26)) = 2 ^ 29 := by
    refine fl_eq_of_near hfl 28 (le_huge hfl (k := 30) ?_) ⟨2 ^ 29, 0, ?_, by norm_num, by norm_num, ?_⟩ ?_ ?_ <;>
      norm_num [abs_of_pos, abs_lt]
  have hhalf : fl (1 / 2 * 2 ^ 29) = 2 ^ 28 := by
    have := fl_int hfl (2 ^ 28) (by norm_num)
    norm_num at this ⊢
    exact this
  have hzero : fl (2 ^ 28 + -2 ^ 28) = 0 := by
    have := fl_int hfl 0 (by norm_num)
    push_cast at this
    rw [add_neg_cancel, this]
  have ht : fl (0 + fl (1 / 100000000)) = fl (1 / 100000000) := by
    have hb : Binary64 (fl (1 / 100000000)) := (hfl _ (le_huge hfl (k := 0) (by norm_num [abs_of_pos]))).1
    have hle : |fl (1 / 100000000)| ≤ 2 ^ 1 := by
      have := fl_rel hfl (x := 1 / 100000000)
        (by
          have h1 : (2 : ℝ) ^ (-600 : ℤ) ≤ 2 ^ (-30 : ℤ) := zpow_le_zpow_right₀ (by norm_num) (by norm_num)
          refine h1.trans ?_
          norm_num [abs_of_pos])
        (by
          have h1 : (2 : ℝ) ^ 0 ≤ 2 ^ 600 := pow_le_pow_right₀ (by norm_num) (by norm_num)
          refine le_trans ?_ h1
          norm_num [abs_of_pos])
      rw [abs_le] at this ⊢
      norm_num [abs_of_pos] at this ⊢
      constructor <;> linarith
    rw [zero_add]
    exact fl_exact hfl hb (le_huge hfl hle)
  have hsmall : fl (1 / 100000000) < 1 / 2 ^ 26 := by
    have := fl_rel hfl (x := 1 / 100000000)
      (by
        have h1 : (2 : ℝ) ^ (-600 : ℤ) ≤ 2 ^ (-30 : ℤ) := zpow_le_zpow_right₀ (by norm_num) (by norm_num)
        refine h1.trans ?_
        norm_num [abs_of_pos])
      (by
        have h1 : (2 : ℝ) ^ 0 ≤ 2 ^ 600 := pow_le_pow_right₀ (by norm_num) (by norm_num)
        refine le_trans ?_ h1
        norm_num [abs_of_pos])
    rw [abs_le] at this
    norm_num [abs_of_pos] at this ⊢
    linarith
  intro h
  have h2 := h.2
  unfold boundCenterFloat boundHalfFloat at h2
  rw [hsum, hdiff, hhalf, hzero, ht] at h2
  linarith

end

/-- There is a rounding. -/
example : ∃ fl, IsRounding fl := exists_rounding

/-- The ranges of `C94_times` and `C94_bound` contain everyday values. -/
example : ∃ fl, IsRounding fl ∧ (∃ n times, computeEvaluationTimesFloat fl 10 (1 / 10) = .ok (n, times) ∧ 1 ≤ n) ∧
    boundContainsFloat fl (-(3 / 10)) (1 / 10) (1 / 30) (fl (1 / 100000000)) := by
  obtain ⟨fl, hfl⟩ := exists_rounding
  have h1 : (2 : ℝ) ^ (-500 : ℤ) ≤ 2 ^ (-4 : ℤ) := zpow_le_zpow_right₀ (by norm_num) (by norm_num)
  have h2 : (2 : ℝ) ^ 7 ≤ 2 ^ 400 := pow_le_pow_right₀ (by norm_num) (by norm_num)
  obtain ⟨n, t, h, hn, -⟩ := C94_times hfl 10 (1 / 10) (h1.trans (by norm_num)) (h1.trans (by norm_num))
    (le_trans (by norm_num) h2) (by norm_num) (h1.trans (by norm_num))
  exact ⟨fl, hfl, ⟨n, t, h, hn⟩, C94_bound hfl _ _ _ (by norm_num) (by norm_num) (by norm_num [abs_le]) (by norm_num [abs_le])⟩

end Rigeo
