import Mathlib.Analysis.Convex.Combination
import Mathlib.Algebra.Order.BigOperators.Ring.Finset
import Verif.Model.FloatPointMasses
import Verif.Props.FloatInertial

/-!
# C122: rounding in the inertial parameters of point masses
-/

namespace Rigeo

open Spec Matrix

local notation "u" => unitRoundoff

section
variable {fl : ℝ → ℝ}

/-- Python's `sum` is one of the ways to add a list. -/
theorem pySumFloat_flSum (l : List ℝ) : FlSum fl l (pySumFloat fl l) := by
  cases l with
  | nil => exact .nil
  | cons x l =>
    suffices h : ∀ (l r : List ℝ) (a : ℝ), r ≠ [] → FlSum fl r a → FlSum fl (r ++ l) (l.foldl (fun a y => fl (a + y)) a) from
      h l [x] x (by simp) (.single x)
    intro l
    induction l with
    | nil => intro r a _ h; simpa using h
    | cons y l ih =>
      intro r a hr h
      have := ih (r ++ [y]) (fl (a + y)) (by simp) (.add hr (by simp) h (.single y))
      simpa using this

theorem u_ge : 1 / 10 ^ 16 ≤ u := by
  unfold unitRoundoff
  norm_num

variable (hfl : IsRounding fl)
include hfl

/-- One product with a mass. -/
theorem mass_term_error {m p T : ℝ} (hm : 0 ≤ m) (hm2 : m ≤ 10 ^ 30) (hT1 : 1 / 10 ^ 60 ≤ T) (hT2 : T ≤ 10 ^ 60) (hp : |p| ≤ T) :
    |fl (m * fl p) - m * p| ≤ 2002 / 1000 * (u * (m * T)) + 1 / 10 ^ 200 := by
  have hu := u_pos
  have hu' : u ≤ 1 / 10 ^ 5 := u_le.trans (by norm_num)
  have hT0 : 0 < T := lt_of_lt_of_le (by norm_num) hT1
  have huT : 1 / 10 ^ 80 ≤ u * T := by
    have : (1 / 10 ^ 16 : ℝ) * (1 / 10 ^ 60) ≤ u * T := mul_le_mul u_ge hT1 (by norm_num) hu.le
    exact le_trans (by norm_num) this
  have huT' : u * T ≤ 1 / 10 ^ 5 * T := mul_le_mul_of_nonneg_right hu' hT0.le
  have h1 := fl_near hfl (x := p) (hp.trans (hT2.trans (by norm_num)))
  have h2 : u * |p| ≤ u * T := mul_le_mul_of_nonneg_left hp hu.le
  have h3 : |fl p - p| ≤ 1001 / 1000 * (u * T) := by
    have : (1 : ℝ) / 10 ^ 200 ≤ 1 / 1000 * (1 / 10 ^ 80) := by norm_num
    linarith
  have h4 : |fl p| ≤ 1001 / 1000 * T := by
    have := abs_sub_abs_le_abs_sub (fl p) p
    linarith
  have hmf : |m * fl p| ≤ m * (1001 / 1000 * T) := by
    rw [abs_mul, abs_of_nonneg hm]
    exact mul_le_mul_of_nonneg_left h4 hm
  have hbig : m * (1001 / 1000 * T) ≤ 10 ^ 150 := by
    have : m * (1001 / 1000 * T) ≤ 10 ^ 30 * (1001 / 1000 * 10 ^ 60) := mul_le_mul hm2 (by linarith) (by positivity) (by norm_num)
    exact this.trans (by norm_num)
  have h5 := fl_near hfl (x := m * fl p) (hmf.trans hbig)
  have h6 : u * |m * fl p| ≤ u * (m * (1001 / 1000 * T)) := mul_le_mul_of_nonneg_left hmf hu.le
  have h7 : |m * fl p - m * p| ≤ m * (1001 / 1000 * (u * T)) := by
    rw [← mul_sub, abs_mul, abs_of_nonneg hm]
    exact mul_le_mul_of_nonneg_left h3 hm
  have h8 := abs_sub_le (fl (m * fl p)) (m * fl p) (m * p)
  have e1 : u * (m * (1001 / 1000 * T)) = 1001 / 1000 * (u * (m * T)) := by ring
  have e2 : m * (1001 / 1000 * (u * T)) = 1001 / 1000 * (u * (m * T)) := by ring
  linarith

/-- One entry of the sum of the matrices. -/
theorem point_entry_error {n : ℕ} {m a b : Fin n → ℝ} {A B : ℝ} (hn : n ≤ 10 ^ 9) (hm : ∀ k, 0 ≤ m k) (ha : ∀ k, |a k| ≤ A)
    (hb : ∀ k, |b k| ≤ B) (hT1 : 1 / 10 ^ 60 ≤ A * B) (hT2 : A * B ≤ 10 ^ 60) (hM1 : 1 / 10 ^ 30 ≤ ∑ k, m k)
    (hM2 : ∑ k, m k ≤ 10 ^ 30) :
    |pySumFloat fl (List.ofFn fun k => fl (m k * fl (a k * b k))) - ∑ k, m k * (a k * b k)| ≤
      3 * (n + 1) * (u * ((∑ k, m k) * (A * B))) := by
  have hu := u_pos
  have hu1 := u_ge
  have hu' : u ≤ 1 / 10 ^ 5 := u_le.trans (by norm_num)
  set M := ∑ k, m k with hM
  set T := A * B with hT
  have hT0 : 0 < T := lt_of_lt_of_le (by norm_num) hT1
  have hM0 : 0 < M := lt_of_lt_of_le (by norm_num) hM1
  have huT : 1 / 10 ^ 80 ≤ u * T := by
    have : (1 / 10 ^ 16 : ℝ) * (1 / 10 ^ 60) ≤ u * T := mul_le_mul hu1 hT1 (by norm_num) hu.le
    exact le_trans (by norm_num) this
  have huMT : 1 / 10 ^ 110 ≤ u * (M * T) := by
    have : (1 / 10 ^ 30 : ℝ) * (1 / 10 ^ 80) ≤ M * (u * T) := mul_le_mul hM1 huT (by norm_num) hM0.le
    have e : M * (u * T) = u * (M * T) := by ring
    rw [e] at this
    exact le_trans (by norm_num) this
  have huT' : u * T ≤ 1 / 10 ^ 5 * T := mul_le_mul_of_nonneg_right hu' hT0.le
  have hmM : ∀ k, m k ≤ M := fun k => Finset.single_le_sum (f := m) (fun j _ => hm j) (Finset.mem_univ k)
  have hn' : (n : ℝ) ≤ 10 ^ 9 := by exact_mod_cast hn
  -- one term
  have hterm : ∀ k, |fl (m k * fl (a k * b k)) - m k * (a k * b k)| ≤ 2002 / 1000 * (u * (m k * T)) + 1 / 10 ^ 200 := by
    intro k
    refine mass_term_error hfl (hm k) ((hmM k).trans hM2) hT1 hT2 ?_
    rw [abs_mul]
    exact mul_le_mul (ha k) (hb k) (abs_nonneg _) ((abs_nonneg _).trans (ha k))
  have hsize : ∀ k, |m k * (a k * b k)| ≤ m k * T := by
    intro k
    rw [abs_mul, abs_of_nonneg (hm k), abs_mul]
    exact mul_le_mul_of_nonneg_left (mul_le_mul (ha k) (hb k) (abs_nonneg _) ((abs_nonneg _).trans (ha k))) (hm k)
  have hsumT : ∑ k, m k * T = M * T := by rw [hM, Finset.sum_mul]
  have htiny : (n : ℝ) * (1 / 10 ^ 200) ≤ 1 / 1000 * (u * (M * T)) := by
    have h1 : (n : ℝ) * (1 / 10 ^ 200) ≤ 10 ^ 9 * (1 / 10 ^ 200) := mul_le_mul_of_nonneg_right hn' (by norm_num)
    have h2 : (10 ^ 9 * (1 / 10 ^ 200) : ℝ) ≤ 1 / 1000 * (1 / 10 ^ 110) := by norm_num
    linarith
  -- the terms together
  have h1 : |∑ k, fl (m k * fl (a k * b k)) - ∑ k, m k * (a k * b k)| ≤ 2003 / 1000 * (u * (M * T)) := by
    rw [← Finset.sum_sub_distrib]
    refine (Finset.abs_sum_le_sum_abs _ _).trans ((Finset.sum_le_sum fun k _ => hterm k).trans ?_)
    rw [Finset.sum_add_distrib, ← Finset.mul_sum, ← Finset.mul_sum, hsumT, Finset.sum_const, Finset.card_univ, Fintype.card_fin,
      nsmul_eq_mul]
    linarith
  have h2 : ∑ k, |fl (m k * fl (a k * b k))| ≤ 1003 / 1000 * (M * T) := by
    have hk : ∀ k, |fl (m k * fl (a k * b k))| ≤ 1001 / 1000 * (m k * T) + 1 / 10 ^ 200 := by
      intro k
      have h3 := abs_sub_abs_le_abs_sub (fl (m k * fl (a k * b k))) (m k * (a k * b k))
      have h4 := hterm k
      have h5 := hsize k
      have h6 : u * (m k * T) ≤ 1 / 10 ^ 5 * (m k * T) := mul_le_mul_of_nonneg_right hu' (mul_nonneg (hm k) hT0.le)
      have h7 : 0 ≤ m k * T := mul_nonneg (hm k) hT0.le
      linarith
    refine (Finset.sum_le_sum fun k _ => hk k).trans ?_
    rw [Finset.sum_add_distrib, ← Finset.mul_sum, hsumT, Finset.sum_const, Finset.card_univ, Fintype.card_fin, nsmul_eq_mul]
    have h6 : u * (M * T) ≤ 1 / 10 ^ 5 * (M * T) := mul_le_mul_of_nonneg_right hu' (by positivity)
    have h7 : 0 < M * T := by positivity
    linarith
  have hMT : M * T ≤ 10 ^ 90 := by
    have : M * T ≤ 10 ^ 30 * 10 ^ 60 := mul_le_mul hM2 hT2 hT0.le (by norm_num)
    exact this.trans (by norm_num)
  have e1 : ((List.ofFn fun k => fl (m k * fl (a k * b k))).map abs).sum = ∑ k, |fl (m k * fl (a k * b k))| := by
    rw [List.map_ofFn, List.sum_ofFn]
    rfl
  have h3 := C105_sum hfl (pySumFloat_flSum (fl := fl) (List.ofFn fun k => fl (m k * fl (a k * b k)))) (by simpa using hn)
    (by rw [e1]; exact h2.trans (by linarith [show (1003 / 1000 * 10 ^ 90 : ℝ) ≤ 10 ^ 100 by norm_num]))
  rw [e1, List.sum_ofFn, List.length_ofFn, show (2 : ℝ) ^ (-53 : ℤ) = u from rfl] at h3
  have h4 : 2 * (n : ℝ) * u * ∑ k, |fl (m k * fl (a k * b k))| ≤ 2 * (n : ℝ) * u * (1003 / 1000 * (M * T)) :=
    mul_le_mul_of_nonneg_left h2 (by positivity)
  have h5 : 2 * (n : ℝ) * u * (1003 / 1000 * (M * T)) = 2006 / 1000 * (n * (u * (M * T))) := by ring
  have h6 : (1 : ℝ) / 10 ^ 190 ≤ 1 / 1000 * (1 / 10 ^ 110) := by norm_num
  have h7 := abs_sub_le (pySumFloat fl (List.ofFn fun k => fl (m k * fl (a k * b k)))) (∑ k, fl (m k * fl (a k * b k)))
    (∑ k, m k * (a k * b k))
  have h8 : 3 * ((n : ℝ) + 1) * (u * (M * T)) = 3 * (n * (u * (M * T))) + 3 * (u * (M * T)) := by ring
  have h9 : 0 ≤ (n : ℝ) * (u * (M * T)) := by positivity
  have h10 : 0 ≤ u * (M * T) := by positivity
  rw [h8]
  linarith

omit hfl in
theorem pimFloat_ofFn {n : ℕ} (m : Fin n → ℝ) (x : Fin n → Fin 3 → ℝ) (i j : Fin 4) :
    IP.pimFloat fl (List.ofFn m) (List.ofFn x) i j =
      pySumFloat fl (List.ofFn fun k => fl (m k * fl (IP.hom (x k) i * IP.hom (x k) j))) := by
  unfold IP.pimFloat
  rw [Matrix.of_apply]
  congr 1
  refine List.ext_getElem (by simp) fun k h1 h2 => ?_
  simp

/-- C122: The parameters that `InertialParameters.from_point_masses` computes for `n` masses, none negative, in a box of half extent
`L` about the origin. The errors are at most `3 (n + 1) u M` for the mass `M`, `8 (n + 1) u L` for the center of mass, and
`3 (n + 1) u M L²` for the second moments; `u = 2⁻⁵³`. -/
theorem C122_errors {n : ℕ} {m : Fin n → ℝ} {x : Fin n → Fin 3 → ℝ} {q : IP ℝ} {M L : ℝ}
    (hq : IP.fromPointMassesFloat fl (List.ofFn m) (List.ofFn x) q) (hn : n ≤ 10 ^ 9) (hm : ∀ k, 0 ≤ m k) (hx : ∀ k i, |x k i| ≤ L)
    (hM : ∑ k, m k = M) (hM1 : 1 / 10 ^ 30 ≤ M) (hM2 : M ≤ 10 ^ 30) (hL1 : 1 / 10 ^ 30 ≤ L) (hL2 : L ≤ 10 ^ 30) :
    |q.mass - M| ≤ 3 * (n + 1) * 2 ^ (-53 : ℤ) * M ∧
    (∀ i, |q.com i - (∑ k, m k * x k i) / M| ≤ 8 * (n + 1) * 2 ^ (-53 : ℤ) * L) ∧
    ∀ i j, |q.H i j - ∑ k, m k * x k i * x k j| ≤ 3 * (n + 1) * 2 ^ (-53 : ℤ) * (M * L ^ 2) := by
  obtain ⟨-, -, -, -, hmass, hcom, hH⟩ := hq
  have hu := u_pos
  have hL0 : 0 < L := lt_of_lt_of_le (by norm_num) hL1
  have hM0 : 0 < M := lt_of_lt_of_le (by norm_num) hM1
  have hn' : (n : ℝ) ≤ 10 ^ 9 := by exact_mod_cast hn
  rw [show (2 : ℝ) ^ (-53 : ℤ) = u from rfl]
  have hlast : ∀ k, IP.hom (x k) (3 : Fin 4) = 1 := fun k => rfl
  have hcast : ∀ k (i : Fin 3), IP.hom (x k) i.castSucc = x k i := fun k i => by simp [IP.hom]
  have hLL1 : 1 / 10 ^ 60 ≤ L * L := by
    have : (1 / 10 ^ 30 : ℝ) * (1 / 10 ^ 30) ≤ L * L := mul_le_mul hL1 hL1 (by norm_num) hL0.le
    exact le_trans (by norm_num) this
  have hLL2 : L * L ≤ 10 ^ 60 := by
    have : L * L ≤ 10 ^ 30 * 10 ^ 30 := mul_le_mul hL2 hL2 hL0.le (by norm_num)
    exact this.trans (by norm_num)
  have E1 : |q.mass - M| ≤ 3 * (n + 1) * u * M := by
    have h := point_entry_error hfl (a := fun k => IP.hom (x k) 3) (b := fun k => IP.hom (x k) 3) (A := 1) (B := 1) hn hm
      (fun k => by rw [hlast, abs_one]) (fun k => by rw [hlast, abs_one]) (by norm_num) (by norm_num) (by rw [hM]; exact hM1)
      (by rw [hM]; exact hM2)
    rw [← pimFloat_ofFn, ← hmass] at h
    simp only [hlast, mul_one, hM] at h
    rw [mul_assoc]
    exact h
  have E2 : ∀ i : Fin 3, |IP.pimFloat fl (List.ofFn m) (List.ofFn x) 3 i.castSucc - ∑ k, m k * x k i| ≤ 3 * (n + 1) * u * (M * L) := by
    intro i
    have h := point_entry_error hfl (a := fun k => IP.hom (x k) 3) (b := fun k => IP.hom (x k) i.castSucc) (A := 1) (B := L) hn hm
      (fun k => by rw [hlast, abs_one]) (fun k => by rw [hcast]; exact hx k i) (by rw [one_mul]; exact le_trans (by norm_num) hL1)
      (by rw [one_mul]; exact hL2.trans (by norm_num)) (by rw [hM]; exact hM1) (by rw [hM]; exact hM2)
    rw [← pimFloat_ofFn] at h
    simp only [hlast, hcast, one_mul, hM] at h
    rw [mul_assoc]
    exact h
  refine ⟨E1, fun i => ?_, fun i j => ?_⟩
  · rw [hcom i, ← hmass]
    have e2 := E2 i
    generalize IP.pimFloat fl (List.ofFn m) (List.ofFn x) 3 i.castSucc = h' at e2 ⊢
    generalize q.mass = m' at E1 ⊢
    set c := (∑ k, m k * x k i) / M with hc
    have hh : ∑ k, m k * x k i = c * M := by rw [hc]; field_simp
    rw [hh] at e2
    have hcL : |c| ≤ L := by
      have h1 : |∑ k, m k * x k i| ≤ M * L := by
        refine (Finset.abs_sum_le_sum_abs _ _).trans ?_
        rw [← hM, Finset.sum_mul]
        refine Finset.sum_le_sum fun k _ => ?_
        rw [abs_mul, abs_of_nonneg (hm k)]
        exact mul_le_mul_of_nonneg_left (hx k i) (hm k)
      rw [hc, abs_div, abs_of_pos hM0, div_le_iff₀ hM0]
      linarith
    set ε := 3 * ((n : ℝ) + 1) * u with hε
    have hε0 : 0 < ε := by positivity
    have hε3 : 3 * u ≤ ε := by
      have : 0 ≤ (n : ℝ) * u := by positivity
      rw [hε]; linarith
    have hε1 : ε ≤ 1 / 10 ^ 5 := by
      have h1 : 3 * ((n : ℝ) + 1) * u ≤ 3 * (10 ^ 9 + 1) * (1 / 10 ^ 15) := by
        refine mul_le_mul (by linarith) (u_le.trans (by norm_num)) hu.le (by norm_num)
      exact h1.trans (by norm_num)
    have hεM : ε * M ≤ 1 / 10 ^ 5 * M := mul_le_mul_of_nonneg_right hε1 hM0.le
    have hm' : 999 / 1000 * M ≤ m' := by
      have := (abs_le.mp E1).1
      linarith
    have hm'0 : 0 < m' := lt_of_lt_of_le (by positivity) hm'
    have h1 : |h' / m' - c| ≤ 21 / 10 * (ε * L) := by
      have e : h' / m' - c = ((h' - c * M) - c * (m' - M)) / m' := by field_simp; ring
      rw [e, abs_div, abs_of_pos hm'0, div_le_iff₀ hm'0]
      have h2 := abs_sub (h' - c * M) (c * (m' - M))
      have h3 : |c * (m' - M)| ≤ L * (ε * M) := by
        rw [abs_mul]
        exact mul_le_mul hcL E1 (abs_nonneg _) hL0.le
      have h4 : 21 / 10 * (ε * L) * (999 / 1000 * M) ≤ 21 / 10 * (ε * L) * m' := mul_le_mul_of_nonneg_left hm' (by positivity)
      have h5 : 0 ≤ ε * (M * L) := by positivity
      have h6 : L * (ε * M) = ε * (M * L) := by ring
      have h7 : 21 / 10 * (ε * L) * (999 / 1000 * M) = 21 / 10 * (999 / 1000) * (ε * (M * L)) := by ring
      linarith
    have hεL : ε * L ≤ 1 / 10 ^ 5 * L := mul_le_mul_of_nonneg_right hε1 hL0.le
    have h2 : |h' / m'| ≤ 1001 / 1000 * L := by
      have := abs_sub_abs_le_abs_sub (h' / m') c
      linarith
    have h3 := fl_near hfl (x := h' / m') (h2.trans (by linarith [show (1001 / 1000 * 10 ^ 30 : ℝ) ≤ 10 ^ 150 by norm_num]))
    have h4 : u * |h' / m'| ≤ u * (1001 / 1000 * L) := mul_le_mul_of_nonneg_left h2 hu.le
    have h5 : 3 * u * L ≤ ε * L := mul_le_mul_of_nonneg_right hε3 hL0.le
    have h6 : (1 : ℝ) / 10 ^ 200 ≤ 1 / 1000 * (u * L) := by
      have : (1 / 10 ^ 16 : ℝ) * (1 / 10 ^ 30) ≤ u * L := mul_le_mul u_ge hL1 (by norm_num) hu.le
      have h : (1 : ℝ) / 10 ^ 200 ≤ 1 / 1000 * (1 / 10 ^ 16 * (1 / 10 ^ 30)) := by norm_num
      linarith
    have h7 := abs_sub_le (fl (h' / m')) (h' / m') c
    have h8 : 8 * ((n : ℝ) + 1) * u * L = 8 / 3 * (ε * L) := by rw [hε]; ring
    have h9 : 0 ≤ ε * L := by positivity
    rw [h8]
    linarith
  · have h := point_entry_error hfl (a := fun k => IP.hom (x k) i.castSucc) (b := fun k => IP.hom (x k) j.castSucc) (A := L) (B := L) hn
      hm (fun k => by rw [hcast]; exact hx k i) (fun k => by rw [hcast]; exact hx k j) hLL1 hLL2 (by rw [hM]; exact hM1)
      (by rw [hM]; exact hM2)
    rw [← pimFloat_ofFn, ← hH] at h
    simp only [hcast, hM, ← mul_assoc] at h
    refine h.trans (le_of_eq ?_)
    ring

omit hfl in
/-- C122: The second moment matrix is exactly symmetric, whatever the masses and points. -/
theorem C122_symmetric {masses : List ℝ} {points : List (Fin 3 → ℝ)} {q : IP ℝ} (hq : IP.fromPointMassesFloat fl masses points q) :
    q.Hᵀ = q.H := by
  obtain ⟨-, -, -, -, -, -, hH⟩ := hq
  ext i j
  rw [Matrix.transpose_apply, hH, hH]
  unfold IP.pimFloat
  simp only [Matrix.of_apply, mul_comm]

omit hfl in
/-- The weighted mean square is at least the square of the weighted mean. -/
theorem mean_sq_le {n : ℕ} {m s : Fin n → ℝ} (hm : ∀ k, 0 ≤ m k) : (∑ k, m k * s k) ^ 2 ≤ (∑ k, m k) * ∑ k, m k * s k ^ 2 :=
  Finset.sum_sq_le_sum_mul_sum_of_sq_le_mul Finset.univ (fun k _ => hm k) (fun k _ => mul_nonneg (hm k) (sq_nonneg _))
    (fun k _ => le_of_eq (by ring))

/-- C122: The second moments about the computed center of mass are positive semidefinite up to `70 (n + 1) u M L²`. -/
theorem C122_consistent {n : ℕ} {m : Fin n → ℝ} {x : Fin n → Fin 3 → ℝ} {q : IP ℝ} {M L : ℝ}
    (hq : IP.fromPointMassesFloat fl (List.ofFn m) (List.ofFn x) q) (hn : n ≤ 10 ^ 9) (hm : ∀ k, 0 ≤ m k) (hx : ∀ k i, |x k i| ≤ L)
    (hM : ∑ k, m k = M) (hM1 : 1 / 10 ^ 30 ≤ M) (hM2 : M ≤ 10 ^ 30) (hL1 : 1 / 10 ^ 30 ≤ L) (hL2 : L ≤ 10 ^ 30) (z : Fin 3 → ℝ) :
    -(70 * (n + 1) * 2 ^ (-53 : ℤ) * (M * L ^ 2)) * ∑ i, z i ^ 2 ≤
      ∑ i, ∑ j, z i * (q.H i j - q.mass * q.com i * q.com j) * z j := by
  obtain ⟨E1, E2, E3⟩ := C122_errors hfl hq hn hm hx hM hM1 hM2 hL1 hL2
  have hu := u_pos
  have hL0 : 0 < L := lt_of_lt_of_le (by norm_num) hL1
  have hM0 : 0 < M := lt_of_lt_of_le (by norm_num) hM1
  have hn' : (n : ℝ) ≤ 10 ^ 9 := by exact_mod_cast hn
  rw [show (2 : ℝ) ^ (-53 : ℤ) = u from rfl] at *
  set c : Fin 3 → ℝ := fun i => (∑ k, m k * x k i) / M with hc
  have hcL : ∀ i, |c i| ≤ L := by
    intro i
    have h1 : |∑ k, m k * x k i| ≤ M * L := by
      refine (Finset.abs_sum_le_sum_abs _ _).trans ?_
      rw [← hM, Finset.sum_mul]
      refine Finset.sum_le_sum fun k _ => ?_
      rw [abs_mul, abs_of_nonneg (hm k)]
      exact mul_le_mul_of_nonneg_left (hx k i) (hm k)
    rw [hc]
    simp only
    rw [abs_div, abs_of_pos hM0, div_le_iff₀ hM0]
    linarith
  set δ := ((n : ℝ) + 1) * u with hδ
  have hδ0 : 0 < δ := by positivity
  have hδ1 : δ ≤ 1 / 10 ^ 5 := by
    have h1 : ((n : ℝ) + 1) * u ≤ (10 ^ 9 + 1) * (1 / 10 ^ 15) :=
      mul_le_mul (by linarith) (u_le.trans (by norm_num)) hu.le (by norm_num)
    exact h1.trans (by norm_num)
  -- the difference of one entry
  have hentry : ∀ i j, |(q.H i j - q.mass * q.com i * q.com j) - (∑ k, m k * x k i * x k j - M * c i * c j)| ≤
      23 * (δ * (M * L ^ 2)) := by
    intro i j
    have f1 : |q.com i - c i| ≤ 8 * δ * L := (E2 i).trans (le_of_eq (by rw [hδ]; ring))
    have f2 : |q.com j - c j| ≤ 8 * δ * L := (E2 j).trans (le_of_eq (by rw [hδ]; ring))
    have f3 : |q.mass - M| ≤ 3 * δ * M := E1.trans (le_of_eq (by rw [hδ]; ring))
    have f4 : |q.H i j - ∑ k, m k * x k i * x k j| ≤ 3 * δ * (M * L ^ 2) := (E3 i j).trans (le_of_eq (by rw [hδ]; ring))
    have hδL : δ * L ≤ 1 / 10 ^ 5 * L := mul_le_mul_of_nonneg_right hδ1 hL0.le
    have hδM : δ * M ≤ 1 / 10 ^ 5 * M := mul_le_mul_of_nonneg_right hδ1 hM0.le
    have f5 : |q.com j| ≤ 1001 / 1000 * L := by
      have h1 := abs_sub_abs_le_abs_sub (q.com j) (c j)
      have h2 := hcL j
      linarith
    have f6 : |q.mass| ≤ 1001 / 1000 * M := by
      have h1 := abs_sub_abs_le_abs_sub q.mass M
      rw [abs_of_pos hM0] at h1
      linarith
    have e : (q.H i j - q.mass * q.com i * q.com j) - (∑ k, m k * x k i * x k j - M * c i * c j) =
        (q.H i j - ∑ k, m k * x k i * x k j) - (q.mass * ((q.com i - c i) * q.com j + c i * (q.com j - c j)) +
          (q.mass - M) * (c i * c j)) := by ring
    rw [e]
    have g1 : |(q.com i - c i) * q.com j| ≤ 8 * δ * L * (1001 / 1000 * L) := by
      rw [abs_mul]
      exact mul_le_mul f1 f5 (abs_nonneg _) (by positivity)
    have g2 : |c i * (q.com j - c j)| ≤ L * (8 * δ * L) := by
      rw [abs_mul]
      exact mul_le_mul (hcL i) f2 (abs_nonneg _) hL0.le
    have g3 : |(q.com i - c i) * q.com j + c i * (q.com j - c j)| ≤ 161 / 10 * (δ * L ^ 2) := by
      have h1 := abs_add_le ((q.com i - c i) * q.com j) (c i * (q.com j - c j))
      have h2 : 0 ≤ δ * L ^ 2 := by positivity
      have h3 : 8 * δ * L * (1001 / 1000 * L) = 8 * 1001 / 1000 * (δ * L ^ 2) := by ring
      have h4 : L * (8 * δ * L) = 8 * (δ * L ^ 2) := by ring
      linarith
    have g4 : |q.mass * ((q.com i - c i) * q.com j + c i * (q.com j - c j))| ≤ 1001 / 1000 * M * (161 / 10 * (δ * L ^ 2)) := by
      rw [abs_mul]
      exact mul_le_mul f6 g3 (abs_nonneg _) (by positivity)
    have g5 : |(q.mass - M) * (c i * c j)| ≤ 3 * δ * M * (L * L) := by
      rw [abs_mul, abs_mul]
      exact mul_le_mul f3 (mul_le_mul (hcL i) (hcL j) (abs_nonneg _) hL0.le) (by positivity) (by positivity)
    have h1 := abs_sub (q.H i j - ∑ k, m k * x k i * x k j)
      (q.mass * ((q.com i - c i) * q.com j + c i * (q.com j - c j)) + (q.mass - M) * (c i * c j))
    have h2 := abs_add_le (q.mass * ((q.com i - c i) * q.com j + c i * (q.com j - c j))) ((q.mass - M) * (c i * c j))
    have h3 : 1001 / 1000 * M * (161 / 10 * (δ * L ^ 2)) = 1001 / 1000 * 161 / 10 * (δ * (M * L ^ 2)) := by ring
    have h4 : 3 * δ * M * (L * L) = 3 * (δ * (M * L ^ 2)) := by ring
    have h5 : 3 * δ * (M * L ^ 2) = 3 * (δ * (M * L ^ 2)) := by ring
    have h6 : 0 ≤ δ * (M * L ^ 2) := by positivity
    linarith
  -- the exact form
  have hexact : 0 ≤ ∑ i, ∑ j, z i * (∑ k, m k * x k i * x k j - M * c i * c j) * z j := by
    have e1 : ∑ i, ∑ j, z i * (∑ k, m k * x k i * x k j - M * c i * c j) * z j =
        ∑ k, m k * (∑ i, z i * x k i) ^ 2 - M * (∑ i, z i * c i) ^ 2 := by
      have a1 : ∀ i j, z i * (∑ k, m k * x k i * x k j - M * c i * c j) * z j =
          ∑ k, z i * (m k * x k i * x k j) * z j - z i * (M * c i * c j) * z j := by
        intro i j
        rw [mul_sub, sub_mul, Finset.mul_sum, Finset.sum_mul]
      simp only [a1, Fin.sum_univ_three]
      have a3 : ∑ k, m k * (z 0 * x k 0 + z 1 * x k 1 + z 2 * x k 2) ^ 2 =
          ∑ k, (z 0 * (m k * x k 0 * x k 0) * z 0 + z 0 * (m k * x k 0 * x k 1) * z 1 + z 0 * (m k * x k 0 * x k 2) * z 2 +
            (z 1 * (m k * x k 1 * x k 0) * z 0 + z 1 * (m k * x k 1 * x k 1) * z 1 + z 1 * (m k * x k 1 * x k 2) * z 2) +
            (z 2 * (m k * x k 2 * x k 0) * z 0 + z 2 * (m k * x k 2 * x k 1) * z 1 + z 2 * (m k * x k 2 * x k 2) * z 2)) :=
        Finset.sum_congr rfl fun k _ => by ring
      rw [a3]
      simp only [Finset.sum_add_distrib]
      ring
    have e2 : ∑ k, m k * (∑ i, z i * x k i) = M * ∑ i, z i * c i := by
      have b1 : ∀ i, M * (z i * c i) = ∑ k, m k * (z i * x k i) := by
        intro i
        have : M * (z i * c i) = z i * ∑ k, m k * x k i := by
          rw [hc]; simp only; field_simp
        rw [this, Finset.mul_sum]
        exact Finset.sum_congr rfl fun k _ => by ring
      rw [Finset.mul_sum]
      simp only [b1, Finset.mul_sum]
      exact Finset.sum_comm
    have e3 := mean_sq_le (s := fun k => ∑ i, z i * x k i) hm
    rw [e2, hM] at e3
    rw [e1]
    have e4 : M * (M * (∑ i, z i * c i) ^ 2) ≤ M * ∑ k, m k * (∑ i, z i * x k i) ^ 2 := by
      rw [mul_pow, pow_two M, mul_assoc] at e3
      exact e3
    exact sub_nonneg.mpr (le_of_mul_le_mul_left e4 hM0)
  set η := 23 * (δ * (M * L ^ 2)) with hη
  have hη0 : 0 ≤ η := by positivity
  have hdiff : ∀ i j, z i * (∑ k, m k * x k i * x k j - M * c i * c j) * z j - η * (|z i| * |z j|) ≤
      z i * (q.H i j - q.mass * q.com i * q.com j) * z j := by
    intro i j
    have h1 := hentry i j
    have h2 : |z i * ((q.H i j - q.mass * q.com i * q.com j) - (∑ k, m k * x k i * x k j - M * c i * c j)) * z j| ≤
        η * (|z i| * |z j|) := by
      rw [abs_mul, abs_mul]
      have := mul_le_mul_of_nonneg_right h1 (mul_nonneg (abs_nonneg (z i)) (abs_nonneg (z j)))
      linarith
    have h3 := (abs_le.mp h2).1
    have h4 : z i * ((q.H i j - q.mass * q.com i * q.com j) - (∑ k, m k * x k i * x k j - M * c i * c j)) * z j =
        z i * (q.H i j - q.mass * q.com i * q.com j) * z j - z i * (∑ k, m k * x k i * x k j - M * c i * c j) * z j := by ring
    linarith
  have hsum := Finset.sum_le_sum fun i (_ : i ∈ Finset.univ) => Finset.sum_le_sum fun j (_ : j ∈ Finset.univ) => hdiff i j
  simp only [Finset.sum_sub_distrib] at hsum
  have hzz : ∑ i, ∑ j, η * (|z i| * |z j|) ≤ 3 * η * ∑ i, z i ^ 2 := by
    have h1 : ∑ i, ∑ j, η * (|z i| * |z j|) = η * (|z 0| + |z 1| + |z 2|) ^ 2 := by
      simp only [Fin.sum_univ_three]
      ring
    have h2 : (|z 0| + |z 1| + |z 2|) ^ 2 ≤ 3 * ∑ i, z i ^ 2 := by
      rw [Fin.sum_univ_three, ← sq_abs (z 0), ← sq_abs (z 1), ← sq_abs (z 2)]
      nlinarith [sq_nonneg (|z 0| - |z 1|), sq_nonneg (|z 1| - |z 2|), sq_nonneg (|z 0| - |z 2|)]
    rw [h1]
    calc _ ≤ η * (3 * ∑ i, z i ^ 2) := mul_le_mul_of_nonneg_left h2 hη0
      _ = _ := by ring
  have hz0 : 0 ≤ ∑ i, z i ^ 2 := Finset.sum_nonneg fun i _ => sq_nonneg (z i)
  have h70 : 70 * ((n : ℝ) + 1) * u * (M * L ^ 2) = 70 / 23 * η := by rw [hη, hδ]; ring
  have hηz : 0 ≤ η * ∑ i, z i ^ 2 := mul_nonneg hη0 hz0
  rw [h70]
  have h71 : -(70 / 23 * η) * ∑ i, z i ^ 2 = -(70 / 23) * (η * ∑ i, z i ^ 2) := by ring
  have h72 : 3 * η * ∑ i, z i ^ 2 = 3 * (η * ∑ i, z i ^ 2) := by ring
  rw [h71]
  linarith

/-- C122: The computed center of mass is within `8 (n + 1) u L` of a point of the convex hull of the points, in every coordinate. -/
theorem C122_hull {n : ℕ} {m : Fin n → ℝ} {x : Fin n → Fin 3 → ℝ} {q : IP ℝ} {M L : ℝ}
    (hq : IP.fromPointMassesFloat fl (List.ofFn m) (List.ofFn x) q) (hn : n ≤ 10 ^ 9) (hm : ∀ k, 0 ≤ m k) (hx : ∀ k i, |x k i| ≤ L)
    (hM : ∑ k, m k = M) (hM1 : 1 / 10 ^ 30 ≤ M) (hM2 : M ≤ 10 ^ 30) (hL1 : 1 / 10 ^ 30 ≤ L) (hL2 : L ≤ 10 ^ 30) :
    ∃ y ∈ convexHull ℝ (Set.range x), ∀ i, |q.com i - y i| ≤ 8 * (n + 1) * 2 ^ (-53 : ℤ) * L := by
  obtain ⟨-, E2, -⟩ := C122_errors hfl hq hn hm hx hM hM1 hM2 hL1 hL2
  have hM0 : 0 < M := lt_of_lt_of_le (by norm_num) hM1
  refine ⟨Finset.univ.centerMass m x, Finset.centerMass_mem_convexHull _ (fun k _ => hm k) (by rw [hM]; exact hM0)
    (fun k _ => Set.mem_range_self k), fun i => ?_⟩
  have h : Finset.univ.centerMass m x i = (∑ k, m k * x k i) / M := by
    unfold Finset.centerMass
    rw [hM, Pi.smul_apply, Finset.sum_apply, smul_eq_mul, div_eq_inv_mul]
    rfl
  rw [h]
  exact E2 i

/-- C122: The margin of `C122_consistent` is needed: the parameters computed for a mass 1 at the float `1 + 2⁻⁵²` on the first axis
have an exact mass and center of mass, but a second moment below that of the mass at its center, since the square is rounded down.
No distribution of mass has these parameters: the pseudo-inertia matrix computed from them is not positive semidefinite. -/
theorem C122_unit_mass : Binary64 (1 + 2 ^ (-52 : ℤ)) ∧
    ∃ q, IP.fromPointMassesFloat fl [1] [![1 + 2 ^ (-52 : ℤ), 0, 0]] q ∧ q.mass = 1 ∧ q.com = ![1 + 2 ^ (-52 : ℤ), 0, 0] ∧
      q.H 0 0 < q.mass * q.com 0 ^ 2 ∧ ¬ PSD (q.JFloat fl) := by
  have ba : Binary64 (1 + 2 ^ (-52 : ℤ)) := ⟨2 ^ 52 + 1, -52, by norm_num, by norm_num, by norm_num, by norm_num⟩
  have bs : Binary64 (1 + 2 ^ (-51 : ℤ)) := ⟨2 ^ 52 + 2, -52, by norm_num, by norm_num, by norm_num, by norm_num⟩
  have fexact : ∀ w : ℝ, Binary64 w → |w| ≤ 10 ^ 150 → fl w = w := by
    intro w hw hb
    have h := (hfl w (le_range hb)).2 w hw
    rw [sub_self, abs_zero] at h
    exact sub_eq_zero.mp (abs_nonpos_iff.mp h)
  have b1 : Binary64 1 := by simpa using binary64_int 1 (by norm_num)
  have b0 : Binary64 0 := by simpa using binary64_int 0 (by norm_num)
  have f1 : fl 1 = 1 := fexact 1 b1 (by norm_num)
  have f0 : fl 0 = 0 := fexact 0 b0 (by norm_num)
  set a : ℝ := 1 + 2 ^ (-52 : ℤ) with ha
  have ha1 : |a| ≤ 10 ^ 150 := by rw [ha]; norm_num
  have fa : fl a = a := fexact a ba ha1
  have fs : fl (1 + 2 ^ (-51 : ℤ)) = 1 + 2 ^ (-51 : ℤ) := fexact _ bs (by norm_num)
  have faa : fl (a * a) = 1 + 2 ^ (-51 : ℤ) := by
    refine fl_eq_of_near hfl 0 (le_range (by rw [ha]; norm_num)) bs ?_ ?_
    · norm_num
    · rw [ha]; norm_num
  have hJ : ∀ i j, IP.pimFloat fl [1] [![a, 0, 0]] i j = fl (1 * fl (IP.hom ![a, 0, 0] i * IP.hom ![a, 0, 0] j)) := fun i j => rfl
  have h3 : (IP.hom ![a, 0, 0] : Fin 4 → ℝ) 3 = 1 := rfl
  have hc : ∀ i : Fin 3, (IP.hom ![a, 0, 0] : Fin 4 → ℝ) i.castSucc = ![a, 0, 0] i := fun i => by simp [IP.hom]
  have hJ33 : IP.pimFloat fl [1] [![a, 0, 0]] 3 3 = 1 := by rw [hJ, h3, mul_one, f1, mul_one, f1]
  have fv : ∀ i : Fin 3, fl ((![a, 0, 0] : Fin 3 → ℝ) i) = (![a, 0, 0] : Fin 3 → ℝ) i := by
    intro i
    fin_cases i
    · exact fa
    · exact f0
    · exact f0
  have hJ3 : ∀ i : Fin 3, IP.pimFloat fl [1] [![a, 0, 0]] 3 i.castSucc = (![a, 0, 0] : Fin 3 → ℝ) i := by
    intro i
    rw [hJ, h3, hc, one_mul, one_mul, fv, fv]
  refine ⟨ba, ⟨1, ![a, 0, 0], Matrix.of fun i j : Fin 3 => IP.pimFloat fl [1] [![a, 0, 0]] i.castSucc j.castSucc⟩,
    ⟨rfl, by simp, by rw [hJ33]; exact zero_le_one, by rw [hJ33]; exact one_ne_zero, hJ33.symm, fun i => ?_, fun i j => rfl⟩, rfl, rfl, ?_⟩
  · rw [hJ33, hJ3, div_one, fv]
  have hH00 : IP.pimFloat fl [1] [![a, 0, 0]] (Fin.castSucc (0 : Fin 3)) (Fin.castSucc (0 : Fin 3)) = 1 + 2 ^ (-51 : ℤ) := by
    rw [hJ, hc, one_mul]
    show fl (fl (a * a)) = _
    rw [faa, fs]
  have hlt : (1 : ℝ) + 2 ^ (-51 : ℤ) < a ^ 2 := by rw [ha]; norm_num
  constructor
  · show IP.pimFloat fl [1] [![a, 0, 0]] (Fin.castSucc (0 : Fin 3)) (Fin.castSucc (0 : Fin 3)) < 1 * a ^ 2
    rw [hH00, one_mul]
    exact hlt
  · rintro ⟨-, h⟩
    have h := h ![1, 0, 0, -a]
    set H : Matrix (Fin 3) (Fin 3) ℝ := Matrix.of fun i j : Fin 3 => IP.pimFloat fl [1] [![a, 0, 0]] i.castSucc j.castSucc with hHdef
    have e00 : (IP.JFloat fl ⟨1, ![a, 0, 0], H⟩) 0 0 = 1 + 2 ^ (-51 : ℤ) := hH00
    have e03 : (IP.JFloat fl ⟨1, ![a, 0, 0], H⟩) 0 3 = a := by
      show fl (1 * a) = a
      rw [one_mul, fa]
    have e30 : (IP.JFloat fl ⟨1, ![a, 0, 0], H⟩) 3 0 = a := by
      show fl (1 * a) = a
      rw [one_mul, fa]
    have e33 : (IP.JFloat fl ⟨1, ![a, 0, 0], H⟩) 3 3 = 1 := rfl
    simp only [Matrix.mulVec, dotProduct, Fin.sum_univ_four, e00, e03, e30, e33, Matrix.cons_val, mul_zero, zero_mul, add_zero, one_mul,
      mul_one] at h
    nlinarith

/-- C122: There is a result for every such system of masses. -/
theorem C122_result {n : ℕ} {m : Fin n → ℝ} {x : Fin n → Fin 3 → ℝ} {M : ℝ} (hn : n ≤ 10 ^ 9) (hm : ∀ k, 0 ≤ m k)
    (hM : ∑ k, m k = M) (hM1 : 1 / 10 ^ 30 ≤ M) (hM2 : M ≤ 10 ^ 30) :
    ∃ q, IP.fromPointMassesFloat fl (List.ofFn m) (List.ofFn x) q := by
  have hu := u_pos
  have hM0 : 0 < M := lt_of_lt_of_le (by norm_num) hM1
  have hn' : (n : ℝ) ≤ 10 ^ 9 := by exact_mod_cast hn
  have hlast : ∀ k, IP.hom (x k) (3 : Fin 4) = 1 := fun k => rfl
  have h := point_entry_error hfl (a := fun k => IP.hom (x k) 3) (b := fun k => IP.hom (x k) 3) (A := 1) (B := 1) hn hm
    (fun k => by rw [hlast, abs_one]) (fun k => by rw [hlast, abs_one]) (by norm_num) (by norm_num) (by rw [hM]; exact hM1)
    (by rw [hM]; exact hM2)
  rw [← pimFloat_ofFn] at h
  simp only [hlast, mul_one, hM] at h
  have h1 : 3 * ((n : ℝ) + 1) * u ≤ 3 * (10 ^ 9 + 1) * (1 / 10 ^ 15) :=
    mul_le_mul (by linarith) (u_le.trans (by norm_num)) hu.le (by norm_num)
  have h2 : 3 * ((n : ℝ) + 1) * u * M ≤ 1 / 10 * M := mul_le_mul_of_nonneg_right (h1.trans (by norm_num)) hM0.le
  have h3 : 0 < IP.pimFloat fl (List.ofFn m) (List.ofFn x) 3 3 := by
    have := (abs_le.mp h).1
    rw [← mul_assoc] at this
    linarith
  have hne : List.ofFn m ≠ [] := by
    intro h0
    have : n = 0 := by simpa using congrArg List.length h0
    subst this
    simp at hM
    linarith
  exact ⟨⟨_, fun i : Fin 3 => fl (IP.pimFloat fl (List.ofFn m) (List.ofFn x) 3 i.castSucc / IP.pimFloat fl (List.ofFn m) (List.ofFn x) 3 3),
    fun i j : Fin 3 => IP.pimFloat fl (List.ofFn m) (List.ofFn x) i.castSucc j.castSucc⟩, by simp, hne, h3.le, h3.ne', rfl, fun _ => rfl,
    fun _ _ => rfl⟩

end

/-! ### The hypotheses can be met -/

/-- Any number of masses 1/3 in a cube. -/
example (n : ℕ) (hn : n + 1 ≤ 10 ^ 9) : ∃ (m : Fin (n + 1) → ℝ) (x : Fin (n + 1) → Fin 3 → ℝ) (M L : ℝ), (∀ k, 0 ≤ m k) ∧
    (∀ k i, |x k i| ≤ L) ∧ ∑ k, m k = M ∧ 1 / 10 ^ 30 ≤ M ∧ M ≤ 10 ^ 30 ∧ 1 / 10 ^ 30 ≤ L ∧ L ≤ 10 ^ 30 := by
  have hn' : ((n + 1 : ℕ) : ℝ) ≤ 10 ^ 9 := by exact_mod_cast hn
  have hn0 : (1 : ℝ) ≤ ((n + 1 : ℕ) : ℝ) := by exact_mod_cast Nat.succ_le_succ (Nat.zero_le n)
  refine ⟨fun _ => 1 / 3, fun k i => if (k : ℕ) % 2 = (i : ℕ) then 1 else -1, ((n + 1 : ℕ) : ℝ) * (1 / 3), 1, fun _ => by norm_num,
    fun k i => ?_, by simp, ?_, ?_, by norm_num, by norm_num⟩
  · dsimp only
    split_ifs <;> simp
  · linarith [show (1 : ℝ) / 10 ^ 30 ≤ 1 / 3 by norm_num]
  · linarith [show (10 ^ 9 * (1 / 3) : ℝ) ≤ 10 ^ 30 by norm_num]

end Rigeo
