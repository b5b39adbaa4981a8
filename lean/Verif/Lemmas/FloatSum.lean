import Verif.Model.FloatContains
import Verif.Lemmas.Float
import Mathlib.Algebra.Order.BigOperators.Group.List
import Mathlib.Algebra.Order.BigOperators.Group.Finset

/-!
# Rounding errors of sums and dot products computed in any order
-/

namespace Rigeo

open Spec

/-- The standard model of floating-point arithmetic: relative error `ε` plus absolute error `τ` up to the size `M`. -/
def NearFl (fl : ℝ → ℝ) (ε τ M : ℝ) : Prop := ∀ x, |x| ≤ M → |fl x - x| ≤ ε * |x| + τ

variable {fl : ℝ → ℝ} {ε τ M : ℝ}

theorem NearFl.of_rounding (hfl : IsRounding fl) : NearFl fl (2 ^ (-53 : ℤ)) (2 ^ (-1075 : ℤ)) (2 ^ (1023 : ℤ)) :=
  fun _ hx => fl_error hfl hx

theorem pow_le_linear (hε : 0 ≤ ε) (n : ℕ) (h : n * ε ≤ 1 / 2) : (1 + ε) ^ n ≤ 1 + 2 * n * ε := by
  induction n with
  | zero => simp
  | succ k ih =>
    push_cast at h ⊢
    have hk : k * ε ≤ 1 / 2 := by linarith [mul_nonneg (Nat.cast_nonneg k : (0 : ℝ) ≤ k) hε]
    have h1 := ih hk
    have h2 : (1 + ε) ^ (k + 1) ≤ (1 + 2 * k * ε) * (1 + ε) := by
      rw [pow_succ]; exact mul_le_mul_of_nonneg_right h1 (by linarith)
    have h3 : 2 * (k * ε) * ε ≤ 1 * ε := mul_le_mul_of_nonneg_right (by linarith) hε
    nlinarith

/-- One addition of two approximations. -/
theorem near_add (h : NearFl fl ε τ M) (hε : 0 ≤ ε) {a b s t A E : ℝ} (hab : |a + b - (s + t)| ≤ E) (hA : |s + t| ≤ A)
    (hM : A + E ≤ M) : |fl (a + b) - (s + t)| ≤ (1 + ε) * E + ε * A + τ := by
  have h1 : |a + b| ≤ A + E := by
    have := abs_add_le (a + b - (s + t)) (s + t)
    rw [sub_add_cancel] at this; linarith
  have h2 := h _ (h1.trans hM)
  have h3 : |fl (a + b) - (s + t)| ≤ |fl (a + b) - (a + b)| + |a + b - (s + t)| := by
    have := abs_add_le (fl (a + b) - (a + b)) (a + b - (s + t))
    rwa [sub_add_sub_cancel] at this
  have h4 : ε * |a + b| ≤ ε * (A + E) := mul_le_mul_of_nonneg_left h1 hε
  linarith

theorem abs_sum_le (l : List ℝ) : |l.sum| ≤ (l.map abs).sum := by
  induction l with
  | nil => simp
  | cons x l ih => simp only [List.sum_cons, List.map_cons]; exact (abs_add_le _ _).trans (by linarith)

theorem sum_abs_nonneg (l : List ℝ) : 0 ≤ (l.map abs).sum := (abs_nonneg _).trans (abs_sum_le l)

/-- The bound of the combined error of two parts. -/
theorem err_combine (hε : 0 ≤ ε) (hτ : 0 ≤ τ) {n m : ℕ} (hn : 1 ≤ n) (hm : 1 ≤ m) {A B : ℝ} (hA : 0 ≤ A) (hB : 0 ≤ B) :
    ((1 + ε) ^ n - 1) * A + 2 * n * τ * (1 + ε) ^ n - τ + (((1 + ε) ^ m - 1) * B + 2 * m * τ * (1 + ε) ^ m - τ) ≤
      ((1 + ε) ^ (n + m - 1) - 1) * (A + B) + 2 * (n + m) * τ * (1 + ε) ^ (n + m - 1) - 2 * τ := by
  have h1 : (1 + ε) ^ n ≤ (1 + ε) ^ (n + m - 1) := pow_le_pow_right₀ (by linarith) (by omega)
  have h2 : (1 + ε) ^ m ≤ (1 + ε) ^ (n + m - 1) := pow_le_pow_right₀ (by linarith) (by omega)
  generalize (1 + ε) ^ n = P at *
  generalize (1 + ε) ^ m = Q at *
  generalize (1 + ε) ^ (n + m - 1) = X at *
  have e1 := mul_le_mul_of_nonneg_right h1 hA
  have e2 := mul_le_mul_of_nonneg_right h2 hB
  have e3 : (n * τ) * P ≤ (n * τ) * X := mul_le_mul_of_nonneg_left h1 (by positivity)
  have e4 : (m * τ) * Q ≤ (m * τ) * X := mul_le_mul_of_nonneg_left h2 (by positivity)
  nlinarith

theorem one_step (h : NearFl fl ε τ M) (hε : 0 ≤ ε) (hτ : 0 ≤ τ) {a b s t : ℝ} {n m : ℕ} (hn : 1 ≤ n) (hm : 1 ≤ m) {A B : ℝ}
    (hA : |s| ≤ A) (hB : |t| ≤ B) (ha : |a - s| ≤ ((1 + ε) ^ n - 1) * A + 2 * n * τ * (1 + ε) ^ n - τ)
    (hb : |b - t| ≤ ((1 + ε) ^ m - 1) * B + 2 * m * τ * (1 + ε) ^ m - τ)
    (hM : (1 + ε) ^ (n + m) * (A + B + 2 * (n + m) * τ) ≤ M) :
    |fl (a + b) - (s + t)| ≤ ((1 + ε) ^ (n + m) - 1) * (A + B) + 2 * ((n + m : ℕ) : ℝ) * τ * (1 + ε) ^ (n + m) - τ := by
  have hA0 := (abs_nonneg _).trans hA
  have hB0 := (abs_nonneg _).trans hB
  have hc := err_combine hε hτ hn hm hA0 hB0
  have hab : |a + b - (s + t)| ≤ ((1 + ε) ^ (n + m - 1) - 1) * (A + B) + 2 * (n + m) * τ * (1 + ε) ^ (n + m - 1) - 2 * τ := by
    have : a + b - (s + t) = (a - s) + (b - t) := by ring
    rw [this]; exact (abs_add_le _ _).trans (by linarith)
  have hst : |s + t| ≤ A + B := (abs_add_le _ _).trans (by linarith)
  obtain ⟨k, hk⟩ : ∃ k, n + m = k + 1 := ⟨n + m - 1, by omega⟩
  have hcast : (n : ℝ) + m = k + 1 := by exact_mod_cast hk
  rw [show n + m - 1 = k by omega] at hab
  rw [hk] at hM ⊢
  rw [hcast] at hab hM
  push_cast
  have hX : (1 : ℝ) ≤ (1 + ε) ^ k := one_le_pow₀ (by linarith)
  rw [pow_succ] at hM ⊢
  generalize (1 + ε) ^ k = X at *
  generalize A + B = S at *
  have hS : 0 ≤ S := (abs_nonneg _).trans hst
  have hkτ : 0 ≤ ((k : ℝ) + 1) * τ := by positivity
  have hXS : 0 ≤ X * S := by positivity
  have hXτ : 0 ≤ X * (((k : ℝ) + 1) * τ) := by positivity
  have hM' : S + ((X - 1) * S + 2 * (k + 1) * τ * X - 2 * τ) ≤ M := by
    refine le_trans ?_ hM
    have : X * S + 2 * (X * ((k + 1) * τ)) ≤ (X * S + 2 * (X * ((k + 1) * τ))) * (1 + ε) :=
      le_mul_of_one_le_right (by linarith) (by linarith)
    nlinarith
  have := near_add h hε hab hst hM'
  have e1 : 0 ≤ ε * τ := mul_nonneg hε hτ
  nlinarith

/-- The error of a dot product computed in any order. -/
theorem FlDot.error (h : NearFl fl ε τ M) (hε : 0 ≤ ε) (hτ : 0 ≤ τ) {l : List (ℝ × ℝ)} {s : ℝ} (hs : FlDot fl l s)
    (hM : (1 + ε) ^ l.length * ((l.map fun t => |t.1 * t.2|).sum + 2 * l.length * τ) ≤ M) (hl : l ≠ []) :
    |s - (l.map fun t => t.1 * t.2).sum| ≤
      ((1 + ε) ^ l.length - 1) * (l.map fun t => |t.1 * t.2|).sum + 2 * l.length * τ * (1 + ε) ^ l.length - τ := by
  have habs : ∀ l : List (ℝ × ℝ), |(l.map fun t => t.1 * t.2).sum| ≤ (l.map fun t => |t.1 * t.2|).sum := fun l => by
    have := abs_sum_le (l.map fun t => t.1 * t.2)
    rwa [List.map_map] at this
  have hnn : ∀ l : List (ℝ × ℝ), 0 ≤ (l.map fun t => |t.1 * t.2|).sum := fun l => (abs_nonneg _).trans (habs l)
  -- the bound of a part
  have hpart : ∀ (n m : ℕ) (A B : ℝ), 0 ≤ A → 0 ≤ B → (1 + ε) ^ (n + m) * (A + B + 2 * (n + m) * τ) ≤ M →
      (1 + ε) ^ n * (A + 2 * n * τ) ≤ M := fun n m A B hA hB hM => by
    refine le_trans ?_ hM
    have h1 : (1 + ε) ^ n ≤ (1 + ε) ^ (n + m) := pow_le_pow_right₀ (by linarith) (by omega)
    have hm : 0 ≤ (m : ℝ) * τ := by positivity
    exact mul_le_mul h1 (by nlinarith) (by positivity) (by positivity)
  induction hs with
  | nil => exact absurd rfl hl
  | prod x y =>
    simp only [List.length_cons, List.length_nil, List.map_cons, List.map_nil, List.sum_cons, List.sum_nil, add_zero, zero_add,
      pow_one, Nat.cast_one] at hM ⊢
    have hx : |x * y| ≤ M := by
      refine le_trans ?_ hM
      nlinarith [abs_nonneg (x * y), mul_nonneg hε (abs_nonneg (x * y)), mul_nonneg hε hτ]
    have := h _ hx
    nlinarith [mul_nonneg hε hτ]
  | @add l r a b hl' hr' _ _ iha ihb =>
    rw [List.length_append, List.map_append, List.sum_append] at hM
    push_cast at hM
    rw [List.length_append, List.map_append, List.sum_append, List.map_append, List.sum_append]
    refine one_step h hε hτ (List.length_pos_iff.mpr hl') (List.length_pos_iff.mpr hr') (habs l) (habs r)
      (iha (hpart _ _ _ _ (hnn l) (hnn r) hM) hl') (ihb ?_ hr') hM
    refine hpart _ l.length _ _ (hnn r) (hnn l) ?_
    rw [add_comm r.length, add_comm (List.sum _) (List.sum _), add_comm (r.length : ℝ)]; exact hM
  | @fma l a x y hl' _ iha =>
    rw [List.length_append, List.map_append, List.sum_append] at hM
    rw [List.length_append, List.map_append, List.sum_append, List.map_append, List.sum_append]
    simp only [List.length_cons, List.length_nil, List.map_cons, List.map_nil, List.sum_cons, List.sum_nil, add_zero, zero_add] at hM ⊢
    push_cast at hM
    have hM' : (1 + ε) ^ (l.length + 1) * ((l.map fun t => |t.1 * t.2|).sum + |x * y| + 2 * (l.length + (1 : ℕ)) * τ) ≤ M := by
      push_cast; exact hM
    refine one_step h hε hτ (List.length_pos_iff.mpr hl') le_rfl (habs l) le_rfl
      (iha (hpart _ 1 _ _ (hnn l) (abs_nonneg _) hM') hl') ?_ hM'
    rw [sub_self, abs_zero]
    push_cast
    nlinarith [mul_nonneg hε hτ, mul_nonneg hε (abs_nonneg (x * y))]
  | @perm l l' a hp _ ih =>
    have e1 := (hp.map fun t : ℝ × ℝ => |t.1 * t.2|).sum_eq
    have e2 := (hp.map fun t : ℝ × ℝ => t.1 * t.2).sum_eq
    rw [← hp.length_eq, ← e1] at hM ⊢
    rw [← e2]
    exact ih hM (fun h0 => hl (by subst h0; exact hp.nil_eq.symm))

/-- The error of a sum computed in any order. -/
theorem FlSum.error (h : NearFl fl ε τ M) (hε : 0 ≤ ε) (hτ : 0 ≤ τ) {l : List ℝ} {s : ℝ} (hs : FlSum fl l s)
    (hM : (1 + ε) ^ l.length * ((l.map abs).sum + 2 * l.length * τ) ≤ M) (hl : l ≠ []) :
    |s - l.sum| ≤ ((1 + ε) ^ l.length - 1) * (l.map abs).sum + 2 * l.length * τ * (1 + ε) ^ l.length - τ := by
  have hpart : ∀ (n m : ℕ) (A B : ℝ), 0 ≤ A → 0 ≤ B → (1 + ε) ^ (n + m) * (A + B + 2 * (n + m) * τ) ≤ M →
      (1 + ε) ^ n * (A + 2 * n * τ) ≤ M := fun n m A B hA hB hM => by
    refine le_trans ?_ hM
    have h1 : (1 + ε) ^ n ≤ (1 + ε) ^ (n + m) := pow_le_pow_right₀ (by linarith) (by omega)
    have hm : 0 ≤ (m : ℝ) * τ := by positivity
    exact mul_le_mul h1 (by nlinarith) (by positivity) (by positivity)
  induction hs with
  | nil => exact absurd rfl hl
  | single x =>
    simp only [List.length_cons, List.length_nil, List.map_cons, List.map_nil, List.sum_cons, List.sum_nil, add_zero, zero_add,
      pow_one, Nat.cast_one, sub_self, abs_zero] at hM ⊢
    nlinarith [abs_nonneg x, mul_nonneg hε (abs_nonneg x), mul_nonneg hε hτ]
  | @add l r a b hl' hr' _ _ iha ihb =>
    rw [List.length_append, List.map_append, List.sum_append] at hM
    push_cast at hM
    rw [List.length_append, List.map_append, List.sum_append, List.sum_append]
    refine one_step h hε hτ (List.length_pos_iff.mpr hl') (List.length_pos_iff.mpr hr') (abs_sum_le l) (abs_sum_le r)
      (iha (hpart _ _ _ _ (sum_abs_nonneg l) (sum_abs_nonneg r) hM) hl') (ihb ?_ hr') hM
    refine hpart _ l.length _ _ (sum_abs_nonneg r) (sum_abs_nonneg l) ?_
    rw [add_comm r.length, add_comm (List.sum _) (List.sum _), add_comm (r.length : ℝ)]; exact hM
  | @perm l l' a hp _ ih =>
    have e1 := (hp.map (abs : ℝ → ℝ)).sum_eq
    rw [← hp.length_eq, ← e1] at hM ⊢
    rw [← hp.sum_eq]
    exact ih hM (fun h0 => hl (by subst h0; exact hp.nil_eq.symm))

end Rigeo
