import Verif.Spec.Float
import Mathlib.Data.Set.Finite.Lemmas
import Mathlib.Data.Set.Finite.Basic
import Mathlib.Data.Finset.Max
import Mathlib.Algebra.Order.Archimedean.Real.Basic
import Mathlib.Algebra.Order.Field.Power
import Mathlib.Data.Finite.Prod
import Mathlib.Algebra.Order.Archimedean.Basic
import Mathlib.Algebra.Order.Round
import Mathlib.Data.Set.Finite.Lattice
import Mathlib.Order.Interval.Set.Infinite
import Mathlib.Order.Interval.Finset.Basic
import Mathlib.Data.Int.Interval
import Mathlib.Tactic.Linarith
import Mathlib.Tactic.Positivity
import Mathlib.Tactic.Ring
import Mathlib.Tactic.FieldSimp

/-!
# Binary64 numbers and rounding
-/

namespace Rigeo

open Spec

theorem binary64_int (k : ℤ) (hk : |k| < 2 ^ 53) : Binary64 k := ⟨k, 0, hk, by norm_num, by norm_num, by simp⟩

theorem binary64_neg {x : ℝ} (h : Binary64 x) : Binary64 (-x) := by
  obtain ⟨m, e, h1, h2, h3, rfl⟩ := h
  exact ⟨-m, e, by rwa [abs_neg], h2, h3, by push_cast; ring⟩

/-- A binary64 number of size at least `2 ^ k` is a multiple of `2 ^ (k - 52)`. -/
theorem binary64_grid {r : ℝ} (hr : Binary64 r) (k : ℤ) (hk : (2 : ℝ) ^ k ≤ |r|) : ∃ j : ℤ, r = j * (2 : ℝ) ^ (k - 52) := by
  obtain ⟨m, e, hm, -, -, rfl⟩ := hr
  have he : k - 52 ≤ e := by
    by_contra h
    push Not at h
    have h1 : |(m : ℝ) * 2 ^ e| < 2 ^ (53 : ℤ) * 2 ^ e := by
      rw [abs_mul, abs_of_pos (a := (2 : ℝ) ^ e) (by positivity)]
      refine mul_lt_mul_of_pos_right ?_ (by positivity)
      rw [← Int.cast_abs]
      exact_mod_cast hm
    rw [← zpow_add₀ (by norm_num)] at h1
    have h2 : (2 : ℝ) ^ (53 + e) ≤ 2 ^ k := zpow_le_zpow_right₀ (by norm_num) (by omega)
    linarith
  obtain ⟨t, ht⟩ := Int.le.dest he
  refine ⟨m * 2 ^ t, ?_⟩
  rw [← ht, zpow_add₀ (by norm_num)]
  push_cast
  rw [zpow_natCast]
  ring

section
variable {fl : ℝ → ℝ} (hfl : IsRounding fl)
include hfl

theorem fl_exact {x : ℝ} (hx : Binary64 x) (hb : |x| ≤ 2 ^ (1023 : ℤ)) : fl x = x := by
  have := (hfl x hb).2 x hx
  rw [sub_self, abs_zero] at this
  exact sub_eq_zero.mp (abs_eq_zero.mp (le_antisymm this (abs_nonneg _)))

theorem fl_int (k : ℤ) (hk : |k| < 2 ^ 53) : fl k = k := by
  refine fl_exact hfl (binary64_int k hk) ?_
  have h1 : |(k : ℝ)| < 2 ^ 53 := by rw [← Int.cast_abs]; exact_mod_cast hk
  have h2 : (2 : ℝ) ^ (53 : ℤ) ≤ 2 ^ (1023 : ℤ) := zpow_le_zpow_right₀ (by norm_num) (by norm_num)
  exact h1.le.trans ((by norm_cast : (2 : ℝ) ^ 53 = 2 ^ (53 : ℤ)).le.trans h2)

/-- The standard error bound of rounding, with the absolute term for results in the subnormal range. -/
theorem fl_error {x : ℝ} (hb : |x| ≤ 2 ^ (1023 : ℤ)) : |fl x - x| ≤ 2 ^ (-53 : ℤ) * |x| + 2 ^ (-1075 : ℤ) := by
  rcases eq_or_ne x 0 with rfl | hx
  · have : fl 0 = 0 := by simpa using fl_int hfl 0 (by norm_num)
    rw [this]; simp
  obtain ⟨k, hk1, hk2⟩ := exists_mem_Ico_zpow (abs_pos.mpr hx) (by norm_num : (1 : ℝ) < 2)
  have hk : k ≤ 1023 := by
    have h1 : (2 : ℝ) ^ k ≤ 2 ^ (1023 : ℤ) := hk1.trans hb
    exact (zpow_le_zpow_iff_right₀ (by norm_num)).mp h1
  -- a binary64 number within half a unit in the last place
  have key : ∃ y, Binary64 y ∧ |y - x| ≤ 2 ^ (max (k - 52) (-1074) - 1) := by
    set e := max (k - 52) (-1074) with he
    have he1 : k - 52 ≤ e := le_max_left _ _
    have hpos : (0 : ℝ) < 2 ^ e := by positivity
    have hround := abs_sub_round (x / 2 ^ e)
    set m := round (x / 2 ^ e) with hm
    have hdist : |(m : ℝ) * 2 ^ e - x| ≤ 2 ^ (e - 1) := by
      have : (m : ℝ) * 2 ^ e - x = -(x / 2 ^ e - m) * 2 ^ e := by field_simp; ring
      rw [this, abs_mul, abs_neg, abs_of_pos hpos, zpow_sub₀ (by norm_num), zpow_one]
      nlinarith
    have hsize : |x / 2 ^ e| < 2 ^ 53 := by
      rw [abs_div, abs_of_pos hpos, div_lt_iff₀ hpos]
      refine hk2.trans_le ?_
      have : (2 : ℝ) ^ (k + 1) ≤ 2 ^ (53 + e) := zpow_le_zpow_right₀ (by norm_num) (by omega)
      rwa [zpow_add₀ (by norm_num) 53 e, show (2 : ℝ) ^ (53 : ℤ) = 2 ^ 53 by norm_cast] at this
    have hm53 : |m| ≤ 2 ^ 53 := by
      have h1 : |(m : ℝ)| < 2 ^ 53 + 1 := by
        have := abs_sub_abs_le_abs_sub (m : ℝ) (x / 2 ^ e)
        rw [abs_sub_comm] at this
        linarith
      have h2 : |m| < 2 ^ 53 + 1 := by
        have : ((|m| : ℤ) : ℝ) < ((2 ^ 53 + 1 : ℤ) : ℝ) := by rw [Int.cast_abs]; norm_num at h1 ⊢; exact h1
        exact_mod_cast this
      omega
    have he2 : e ≤ 971 := by omega
    rcases hm53.lt_or_eq with hlt | heq
    · exact ⟨m * 2 ^ e, ⟨m, e, hlt, le_max_right _ _, he2, rfl⟩, hdist⟩
    · -- the next power of two
      have he3 : e ≤ 970 := by
        by_contra h
        have h971 : e = 971 := by omega
        have hx52 : |x / 2 ^ e| ≤ 2 ^ 52 := by
          rw [abs_div, abs_of_pos hpos, div_le_iff₀ hpos, h971]
          refine hb.trans (le_of_eq ?_)
          rw [show (2 : ℝ) ^ 52 = 2 ^ (52 : ℤ) by norm_cast, ← zpow_add₀ (by norm_num)]; congr 1
        have h1 : |(m : ℝ)| = 2 ^ 53 := by rw [← Int.cast_abs, heq]; norm_num
        have h2 := abs_sub_abs_le_abs_sub (m : ℝ) (x / 2 ^ e)
        rw [abs_sub_comm (m : ℝ), h1] at h2
        have h3 : (2 : ℝ) ^ 53 = 2 * 2 ^ 52 := by norm_num
        have h4 : (1 : ℝ) ≤ 2 ^ 52 := by norm_num
        linarith
      rcases abs_eq (by norm_num : (0 : ℤ) ≤ 2 ^ 53) |>.mp heq with h | h
      · refine ⟨m * 2 ^ e, ⟨2 ^ 52, e + 1, by norm_num, by omega, by omega, ?_⟩, hdist⟩
        rw [h, zpow_add_one₀ (by norm_num)]; push_cast; ring
      · refine ⟨m * 2 ^ e, ⟨-2 ^ 52, e + 1, by norm_num, by omega, by omega, ?_⟩, hdist⟩
        rw [h, zpow_add_one₀ (by norm_num)]; push_cast; ring
  obtain ⟨y, hy, hd⟩ := key
  refine ((hfl x hb).2 y hy).trans (hd.trans ?_)
  rcases le_total (k - 52) (-1074) with h | h
  · rw [max_eq_right h]
    have : (0 : ℝ) ≤ 2 ^ (-53 : ℤ) * |x| := by positivity
    rw [show (-1074 - 1 : ℤ) = -1075 by norm_num]
    exact le_add_of_nonneg_left this
  · rw [max_eq_left h]
    have : (2 : ℝ) ^ (k - 52 - 1) = 2 ^ (-53 : ℤ) * 2 ^ k := by rw [← zpow_add₀ (by norm_num)]; congr 1; ring
    rw [this]
    have h1 : (0 : ℝ) < 2 ^ (-1075 : ℤ) := by positivity
    have h2 : (0 : ℝ) < 2 ^ (-53 : ℤ) := by positivity
    nlinarith

/-- A binary64 number is the result when no other one of the grid around it is as near. -/
theorem fl_eq_of_near {x w : ℝ} (k : ℤ) (hb : |x| ≤ 2 ^ (1023 : ℤ)) (hw : Binary64 w) (hwk : (2 : ℝ) ^ k + 2 ^ (k - 52) ≤ |w|)
    (hx : |w - x| < 2 ^ (k - 53)) : fl x = w := by
  obtain ⟨h1, h2⟩ := hfl x hb
  have h3 := h2 w hw
  have hhalf : (2 : ℝ) ^ (k - 52) = 2 * 2 ^ (k - 53) := by rw [← zpow_one_add₀ (by norm_num)]; congr 1; ring
  have h4 : |fl x - w| < 2 ^ (k - 52) := by
    have := abs_sub_le (fl x) x w
    rw [abs_sub_comm x w] at this
    linarith
  have h5 : (2 : ℝ) ^ k ≤ |fl x| := by
    have := abs_sub_abs_le_abs_sub w (fl x)
    rw [abs_sub_comm] at this
    linarith
  obtain ⟨i, hi⟩ := binary64_grid h1 k h5
  obtain ⟨j, hj⟩ := binary64_grid hw k (by have : (0 : ℝ) < 2 ^ (k - 52) := by positivity
                                           linarith)
  have hpos : (0 : ℝ) < 2 ^ (k - 52) := by positivity
  rw [hi, hj, ← sub_mul, abs_mul, abs_of_pos hpos] at h4
  have h6 : |(i : ℝ) - j| < 1 := by
    by_contra h
    push Not at h
    nlinarith
  have h7 : |i - j| < 1 := by
    have : ((|i - j| : ℤ) : ℝ) < 1 := by push_cast; exact h6
    exact_mod_cast this
  have : i = j := by
    have := Int.abs_lt_one_iff.mp h7
    omega
  rw [hi, hj, this]

end

/-- A rounding exists: there are finitely many binary64 numbers. -/
theorem exists_rounding : ∃ fl, IsRounding fl := by
  have hfin : {x : ℝ | Binary64 x}.Finite := by
    refine ((Set.toFinite (Set.Ioo (-(2 ^ 53 : ℤ)) (2 ^ 53))).prod (Set.toFinite (Set.Icc (-1074 : ℤ) 971))).image
      (fun p => (p.1 : ℝ) * 2 ^ p.2) |>.subset ?_
    rintro x ⟨m, e, h1, h2, h3, rfl⟩
    exact ⟨(m, e), ⟨abs_lt.mp h1, ⟨h2, h3⟩⟩, rfl⟩
  have hne : {x : ℝ | Binary64 x}.Nonempty := ⟨0, by simpa using binary64_int 0 (by norm_num)⟩
  have := fun x : ℝ => Set.exists_min_image {x : ℝ | Binary64 x} (fun y => |y - x|) hfin hne
  choose fl h1 h2 using this
  exact ⟨fl, fun x _ => ⟨h1 x, fun y hy => h2 x y hy⟩⟩

end Rigeo
