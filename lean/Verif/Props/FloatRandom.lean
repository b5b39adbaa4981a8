import Verif.Model.FloatRandom
import Verif.Props.FloatInertial

/-!
# C115: random weights, directions and points of the ball with rounding
-/

namespace Rigeo

open Spec Matrix

local notation "u" => unitRoundoff

section
variable {fl : ℝ → ℝ} (hfl : IsRounding fl)
include hfl

/-- Rounding to nearest is monotone, whatever happens to ties. -/
theorem fl_mono {x y : ℝ} (hxy : x ≤ y) (hx : |x| ≤ 10 ^ 150) (hy : |y| ≤ 10 ^ 150) : fl x ≤ fl y := by
  rcases hxy.eq_or_lt with rfl | hlt
  · exact le_rfl
  by_contra h
  push Not at h
  have h1 := (hfl x (le_range hx)).2 (fl y) (fl_binary64 hfl hy)
  have h2 := (hfl y (le_range hy)).2 (fl x) (fl_binary64 hfl hx)
  have h3 := sq_le_sq.mpr h1
  have h4 := sq_le_sq.mpr h2
  nlinarith

theorem fl_nonneg {x : ℝ} (h0 : 0 ≤ x) (hx : |x| ≤ 10 ^ 150) : 0 ≤ fl x := by
  have := fl_mono hfl h0 (by norm_num) hx
  rwa [fl_zero hfl] at this

/-- A sum of nonnegative floats is at least each of them. -/
theorem flSum_ge {l : List ℝ} {s : ℝ} (hs : FlSum fl l s) (h0 : ∀ x ∈ l, 0 ≤ x ∧ Binary64 x) (hn : l.length ≤ 10 ^ 9)
    (hA : (l.map abs).sum ≤ 10 ^ 100) : Binary64 s ∧ 0 ≤ s ∧ |s| ≤ 10 ^ 140 ∧ ∀ x ∈ l, x ≤ s := by
  have hsize : ∀ {l : List ℝ} {s : ℝ}, FlSum fl l s → l.length ≤ 10 ^ 9 → (l.map abs).sum ≤ 10 ^ 100 → |s| ≤ 10 ^ 120 := by
    intro l s hs hn hA
    have h1 := C105_sum hfl hs hn hA
    have h2 := abs_sum_le l
    have h3 := abs_add_le (s - l.sum) l.sum
    rw [sub_add_cancel] at h3
    have h4 : 2 * (l.length : ℝ) * 2 ^ (-53 : ℤ) * (l.map abs).sum ≤ 2 * 10 ^ 9 * 1 * 10 ^ 100 := by
      have h5 : (l.length : ℝ) ≤ 10 ^ 9 := by exact_mod_cast hn
      have h6 : (2 : ℝ) ^ (-53 : ℤ) ≤ 1 := by norm_num
      have h7 := sum_abs_nonneg l
      gcongr
    have h8 : 2 * 10 ^ 9 * 1 * 10 ^ 100 + 1 / 10 ^ 190 + 10 ^ 100 ≤ (10 : ℝ) ^ 120 := by norm_num
    exact h3.trans ((add_le_add (h1.trans (add_le_add h4 le_rfl)) (h2.trans hA)).trans h8)
  have hmain : Binary64 s ∧ 0 ≤ s ∧ ∀ x ∈ l, x ≤ s := by
    induction hs with
    | nil => exact ⟨by simpa using binary64_int 0 (by norm_num), le_rfl, by simp⟩
    | single x => exact ⟨(h0 x (by simp)).2, (h0 x (by simp)).1, by simp⟩
    | @add l r a b hl hr ha hb iha ihb =>
      rw [List.length_append] at hn
      rw [List.map_append, List.sum_append] at hA
      have hlA : (l.map abs).sum ≤ 10 ^ 100 := by linarith [sum_abs_nonneg r]
      have hrA : (r.map abs).sum ≤ 10 ^ 100 := by linarith [sum_abs_nonneg l]
      obtain ⟨a1, a2, a3⟩ := iha (fun x hx => h0 x (by simp [hx])) (by omega) hlA
      obtain ⟨b1, b2, b3⟩ := ihb (fun x hx => h0 x (by simp [hx])) (by omega) hrA
      have ha4 := hsize ha (by omega) hlA
      have hb4 := hsize hb (by omega) hrA
      have hab : |a + b| ≤ 10 ^ 150 := by
        refine (abs_add_le _ _).trans ?_
        have : (10 : ℝ) ^ 120 + 10 ^ 120 ≤ 10 ^ 150 := by norm_num
        linarith
      have ha5 : |a| ≤ 10 ^ 150 := ha4.trans (by norm_num)
      have hb5 : |b| ≤ 10 ^ 150 := hb4.trans (by norm_num)
      have ha6 : a ≤ fl (a + b) := by
        have := fl_mono hfl (show a ≤ a + b by linarith) ha5 hab
        rwa [fl_same hfl a1 ha5] at this
      have hb6 : b ≤ fl (a + b) := by
        have := fl_mono hfl (show b ≤ a + b by linarith) hb5 hab
        rwa [fl_same hfl b1 hb5] at this
      refine ⟨fl_binary64 hfl hab, a2.trans ha6, fun x hx => ?_⟩
      rcases List.mem_append.mp hx with hx | hx
      · exact (a3 x hx).trans ha6
      · exact (b3 x hx).trans hb6
    | @perm l l' a hp _ ih =>
      obtain ⟨a1, a2, a3⟩ := ih (fun x hx => h0 x (hp.mem_iff.mp hx)) (by rw [hp.length_eq]; exact hn)
        (by rw [(hp.map (abs : ℝ → ℝ)).sum_eq]; exact hA)
      exact ⟨a1, a2, fun x hx => a3 x (hp.mem_iff.mpr hx)⟩
  exact ⟨hmain.1, hmain.2.1, (hsize hs hn hA).trans (by norm_num), hmain.2.2⟩

/-- C115: `random_weight_vectors` with rounding: every weight is between 0 and 1, and the weights sum to one within `(3 n + 3) · 2⁻⁵³`,
in whichever order the draws are added. -/
theorem C115_weights {n : ℕ} {w out : Fin n → ℝ} (h : weightsFloat fl w out) (hn : n ≤ 10 ^ 9) (h0 : ∀ i, 0 ≤ w i)
    (h1 : ∀ i, w i ≤ 1) (hb : ∀ i, Binary64 (w i)) (hS : 1 / 10 ^ 20 ≤ ∑ i, w i) :
    (∀ i, 0 ≤ out i ∧ out i ≤ 1) ∧ |∑ i, out i - 1| ≤ (3 * n + 3) * 2 ^ (-53 : ℤ) := by
  obtain ⟨s, hs, hout⟩ := h
  have hu : (2 : ℝ) ^ (-53 : ℤ) = u := rfl
  have hnr : (n : ℝ) ≤ 10 ^ 9 := by exact_mod_cast hn
  have hsum : (List.ofFn w).sum = ∑ i, w i := List.sum_ofFn
  have habs : ((List.ofFn w).map abs).sum = ∑ i, w i := by
    rw [List.map_ofFn, List.sum_ofFn]
    exact Finset.sum_congr rfl fun i _ => abs_of_nonneg (h0 i)
  have hSn : ∑ i, w i ≤ 10 ^ 9 := by
    refine (Finset.sum_le_sum fun i _ => h1 i).trans ?_
    simpa using hnr
  have hA : ((List.ofFn w).map abs).sum ≤ 10 ^ 100 := by rw [habs]; exact hSn.trans (by norm_num)
  have hlen : (List.ofFn w).length ≤ 10 ^ 9 := by simpa using hn
  have herr := C105_sum hfl hs hlen hA
  rw [hsum, habs, hu, List.length_ofFn] at herr
  obtain ⟨-, hs0, -, hge⟩ := flSum_ge hfl hs (fun x hx => by
    obtain ⟨i, rfl⟩ := List.mem_ofFn.mp hx
    exact ⟨h0 i, hb i⟩) hlen hA
  have hge' : ∀ i, w i ≤ s := fun i => hge _ (List.mem_ofFn.mpr ⟨i, rfl⟩)
  set S := ∑ i, w i with hSdef
  have hSpos : 0 < S := lt_of_lt_of_le (by norm_num) hS
  have hu0 := u_pos
  have hu1 := u_le
  have hu2 : 110 / 10 ^ 18 ≤ u := by unfold unitRoundoff; norm_num
  -- the error of the sum is relative
  have hα : |s - S| ≤ (2 * n + 1) * u * S := by
    have h2 : 110 / 10 ^ 18 * (1 / 10 ^ 20) ≤ u * S := mul_le_mul hu2 hS (by norm_num) hu0.le
    have h3 : 1 / 10 ^ 190 ≤ (110 / 10 ^ 18 * (1 / 10 ^ 20) : ℝ) := by norm_num
    nlinarith
  have hα1 : (2 * n + 1) * u ≤ 1 / 10 ^ 6 := by
    have h2 : (2 * (n : ℝ) + 1) * u ≤ (2 * 10 ^ 9 + 1) * (112 / 10 ^ 18) :=
      mul_le_mul (by linarith) hu1 hu0.le (by norm_num)
    exact h2.trans (by norm_num)
  set α := (2 * (n : ℝ) + 1) * u with hαd
  have hα0 : 0 ≤ α := by positivity
  have hsl : (1 - α) * S ≤ s := by linarith [(abs_le.mp hα).1]
  have hsu : s ≤ (1 + α) * S := by linarith [(abs_le.mp hα).2]
  have hspos : 0 < s := lt_of_lt_of_le (mul_pos (by linarith) hSpos) hsl
  have hq : ∀ i, 0 ≤ w i / s ∧ w i / s ≤ 1 := fun i => ⟨div_nonneg (h0 i) hs0, (div_le_one hspos).mpr (hge' i)⟩
  have hqb : ∀ i, |w i / s| ≤ 10 ^ 150 := fun i => by
    rw [abs_of_nonneg (hq i).1]; exact (hq i).2.trans (by norm_num)
  refine ⟨fun i => ?_, ?_⟩
  · rw [hout]
    refine ⟨fl_nonneg hfl (hq i).1 (hqb i), ?_⟩
    have h2 := fl_mono hfl (hq i).2 (hqb i) (by norm_num)
    have h3 : fl 1 = 1 := by simpa using fl_int hfl 1 (by norm_num)
    rwa [h3] at h2
  · -- the divisions
    have h2 : |∑ i, out i - ∑ i, w i / s| ≤ u * (S / s) + 1 / 10 ^ 190 := by
      rw [← Finset.sum_sub_distrib]
      refine (Finset.abs_sum_le_sum_abs _ _).trans ?_
      have h3 : ∀ i, |out i - w i / s| ≤ u * (w i / s) + 1 / 10 ^ 200 := fun i => by
        have := fl_near hfl (hqb i)
        rw [hout]
        rwa [abs_of_nonneg (hq i).1] at this
      refine (Finset.sum_le_sum fun i _ => h3 i).trans ?_
      rw [Finset.sum_add_distrib, ← Finset.mul_sum, ← Finset.sum_div]
      have h4 : (n : ℝ) * (1 / 10 ^ 200) ≤ 10 ^ 9 * (1 / 10 ^ 200) := mul_le_mul_of_nonneg_right hnr (by norm_num)
      have h5 : (10 : ℝ) ^ 9 * (1 / 10 ^ 200) ≤ 1 / 10 ^ 190 := by norm_num
      simp only [Finset.sum_const, Finset.card_univ, Fintype.card_fin, nsmul_eq_mul]
      linarith
    rw [← Finset.sum_div, ← hSdef] at h2
    have h3 : |S / s - 1| ≤ 11 / 10 * α := by
      have : S / s - 1 = (S - s) / s := by field_simp
      rw [this, abs_div, abs_of_pos hspos, div_le_iff₀ hspos, abs_sub_comm]
      refine hα.trans ?_
      have h4 : 11 / 10 * α * ((1 - α) * S) ≤ 11 / 10 * α * s := mul_le_mul_of_nonneg_left hsl (by positivity)
      refine le_trans ?_ h4
      have h5 : 1 ≤ 11 / 10 * (1 - α) := by linarith
      have h6 : 0 ≤ α * S := by positivity
      nlinarith
    have h4 : S / s ≤ 11 / 10 := by linarith [(abs_le.mp h3).2]
    have h5 : u * (S / s) ≤ u * (11 / 10) := mul_le_mul_of_nonneg_left h4 hu0.le
    have h6 : 1 / 10 ^ 190 ≤ 1 / 10 * (110 / 10 ^ 18 : ℝ) := by norm_num
    have h7 := abs_add_le (∑ i, out i - S / s) (S / s - 1)
    rw [sub_add_sub_cancel] at h7
    have h8 : 11 / 10 * α + u * (11 / 10) + 1 / 10 * u ≤ (3 * n + 3) * u := by
      rw [hαd]
      have : 0 ≤ (n : ℝ) * u := by positivity
      nlinarith
    rw [hu]
    linarith

omit hfl in
/-- A quotient of two close numbers. -/
theorem ratio_near {a T β : ℝ} (h : |a - T| ≤ β * T) (hT : 0 < T) (hβ0 : 0 ≤ β) (hβ : β ≤ 1 / 10 ^ 5) :
    0 < a ∧ |T / a - 1| ≤ 11 / 10 * β := by
  have ha : (1 - β) * T ≤ a := by linarith [(abs_le.mp h).1]
  have hpos : 0 < a := lt_of_lt_of_le (mul_pos (by linarith) hT) ha
  refine ⟨hpos, ?_⟩
  have : T / a - 1 = (T - a) / a := by field_simp
  rw [this, abs_div, abs_of_pos hpos, div_le_iff₀ hpos, abs_sub_comm]
  refine h.trans ?_
  have h4 : 11 / 10 * β * ((1 - β) * T) ≤ 11 / 10 * β * a := mul_le_mul_of_nonneg_left ha (by positivity)
  refine le_trans ?_ h4
  have h5 : 1 ≤ 11 / 10 * (1 - β) := by linarith
  have h6 : 0 ≤ β * T := by positivity
  nlinarith

omit hfl in
/-- The square of a rounded number. -/
theorem sq_step {p y : ℝ} (h1 : |p - y| ≤ u * |y| + 1 / 10 ^ 200) (h2 : |y| ≤ 11 / 10) :
    |p ^ 2 - y ^ 2| ≤ 3 * u * y ^ 2 + 1 / 10 ^ 199 := by
  have hu0 := u_pos
  have husm : u ≤ 1 / 10 ^ 15 := u_le.trans (by norm_num)
  have h3 : p ^ 2 - y ^ 2 = (p - y) * (p - y + 2 * y) := by ring
  have h4 : |p - y + 2 * y| ≤ 21 / 10 * |y| + 1 / 10 ^ 200 := by
    have h5 := abs_add_le (p - y) (2 * y)
    rw [abs_mul, abs_two] at h5
    have h6 : u * |y| ≤ 1 / 10 * |y| := mul_le_mul_of_nonneg_right (by linarith) (abs_nonneg _)
    linarith
  rw [h3, abs_mul]
  refine (mul_le_mul h1 h4 (abs_nonneg _) (by positivity)).trans ?_
  have h7 : u * |y| ≤ 1 / 10 ^ 15 * (11 / 10) := mul_le_mul husm h2 (abs_nonneg _) (by norm_num)
  rw [← sq_abs y]
  have h8 : (u * |y| + 1 / 10 ^ 200) * (21 / 10 * |y| + 1 / 10 ^ 200) =
    21 / 10 * u * |y| ^ 2 + (u * |y| + 21 / 10 * |y| + 1 / 10 ^ 200) * (1 / 10 ^ 200) := by ring
  rw [h8]
  have h9 : u * |y| + 21 / 10 * |y| + 1 / 10 ^ 200 ≤ 10 := by
    have : 1 / 10 ^ 15 * (11 / 10) + 21 / 10 * (11 / 10) + 1 / 10 ^ 200 ≤ (10 : ℝ) := by norm_num
    linarith
  have h10 : (u * |y| + 21 / 10 * |y| + 1 / 10 ^ 200) * (1 / 10 ^ 200) ≤ 10 * (1 / 10 ^ 200) :=
    mul_le_mul_of_nonneg_right h9 (by norm_num)
  have h11 : (10 : ℝ) * (1 / 10 ^ 200) ≤ 1 / 10 ^ 199 := by norm_num
  have h12 : 0 ≤ u * |y| ^ 2 := by positivity
  linarith


/-- The rounded norm of draws `X`. -/
theorem norm_error {d : ℕ} {X : Fin d → ℝ} {q : ℝ} (hq : FlDot fl (List.ofFn fun j => (X j, X j)) q) (hd : d ≤ 10 ^ 9)
    (hlo : 1 / 10 ^ 20 ≤ ∑ i, X i ^ 2) (hhi : ∑ i, X i ^ 2 ≤ 10 ^ 60) :
    |fl √q ^ 2 - ∑ i, X i ^ 2| ≤ (11 / 10 * ((2 * d + 1) * u) + 6 * u) * ∑ i, X i ^ 2 ∧ 0 < fl √q := by
  have hdr : (d : ℝ) ≤ 10 ^ 9 := by exact_mod_cast hd
  have hu0 := u_pos
  have hu1 := u_le
  have hu2 : 110 / 10 ^ 18 ≤ u := by unfold unitRoundoff; norm_num
  set T := ∑ i, X i ^ 2 with hT
  have hTpos : 0 < T := lt_of_lt_of_le (by norm_num) hlo
  have herr : |q - T| ≤ 2 * d * u * T + 1 / 10 ^ 190 := by
    have hA : ((List.ofFn fun j => (X j, X j)).map fun p => |p.1 * p.2|).sum = T := by
      rw [List.map_ofFn, List.sum_ofFn, hT]
      exact Finset.sum_congr rfl fun i _ => by simp [abs_of_nonneg (mul_self_nonneg (X i)), sq]
    have hB : ((List.ofFn fun j => (X j, X j)).map fun p => p.1 * p.2).sum = T := by
      rw [List.map_ofFn, List.sum_ofFn, hT]
      exact Finset.sum_congr rfl fun i _ => by simp [sq]
    have h1 := C105_dot hfl hq (by simpa using hd) (by rw [hA]; exact hhi.trans (by norm_num))
    rw [hA, hB, List.length_ofFn] at h1
    exact h1
  have hα : |q - T| ≤ (2 * d + 1) * u * T := by
    have h2 : 110 / 10 ^ 18 * (1 / 10 ^ 20) ≤ u * T := mul_le_mul hu2 hlo (by norm_num) hu0.le
    have h3 : 1 / 10 ^ 190 ≤ (110 / 10 ^ 18 * (1 / 10 ^ 20) : ℝ) := by norm_num
    nlinarith
  have hα1 : (2 * d + 1) * u ≤ 1 / 10 ^ 6 := by
    have h2 : (2 * (d : ℝ) + 1) * u ≤ (2 * 10 ^ 9 + 1) * (112 / 10 ^ 18) :=
      mul_le_mul (by linarith) hu1 hu0.le (by norm_num)
    exact h2.trans (by norm_num)
  set α := (2 * (d : ℝ) + 1) * u with hαd
  have hα0 : 0 ≤ α := by positivity
  have hql : (1 - α) * T ≤ q := by linarith [(abs_le.mp hα).1]
  have hqu : q ≤ (1 + α) * T := by linarith [(abs_le.mp hα).2]
  have hqpos : 0 < q := lt_of_lt_of_le (mul_pos (by linarith) hTpos) hql
  have hqlo : 1 / 10 ^ 22 ≤ q := by
    have : 1 / 10 ^ 22 ≤ (1 - 1 / 10 ^ 6) * (1 / 10 ^ 20 : ℝ) := by norm_num
    have h2 : (1 - 1 / 10 ^ 6) * (1 / 10 ^ 20 : ℝ) ≤ (1 - α) * T :=
      mul_le_mul (by linarith) hlo (by norm_num) (by linarith)
    linarith
  have hqhi : q ≤ 10 ^ 62 := by
    have h2 : (1 + α) * T ≤ 2 * 10 ^ 60 := mul_le_mul (by linarith) hhi hTpos.le (by norm_num)
    linarith
  -- the root
  set g := √q with hg
  have hg2 : g ^ 2 = q := Real.sq_sqrt hqpos.le
  have hglo : 1 / 10 ^ 11 ≤ g := by
    rw [hg]; apply Real.le_sqrt_of_sq_le; norm_num at hqlo ⊢; exact hqlo
  have hghi : g ≤ 10 ^ 31 := by
    rw [hg]; apply Real.sqrt_le_iff.mpr; refine ⟨by norm_num, ?_⟩; norm_num at hqhi ⊢; exact hqhi
  have hgpos : 0 < g := lt_of_lt_of_le (by norm_num) hglo
  have hr : |fl g - g| ≤ 2 * u * g := by
    have h1 := fl_near hfl (x := g) (by rw [abs_of_pos hgpos]; exact hghi.trans (by norm_num))
    rw [abs_of_pos hgpos] at h1
    have h2 : 110 / 10 ^ 18 * (1 / 10 ^ 11) ≤ u * g := mul_le_mul hu2 hglo (by norm_num) hu0.le
    have h3 : 1 / 10 ^ 200 ≤ (110 / 10 ^ 18 * (1 / 10 ^ 11) : ℝ) := by norm_num
    linarith
  set r := fl g with hrd
  have hrl : (1 - 2 * u) * g ≤ r := by linarith [(abs_le.mp hr).1]
  have hru : r ≤ (1 + 2 * u) * g := by linarith [(abs_le.mp hr).2]
  have husm : u ≤ 1 / 10 ^ 15 := hu1.trans (by norm_num)
  have hrpos : 0 < r := lt_of_lt_of_le (mul_pos (by linarith) hgpos) hrl
  -- the exact quotients
  have hr2l : (1 - 4 * u) * q ≤ r ^ 2 := by
    have h1 : ((1 - 2 * u) * g) ^ 2 ≤ r ^ 2 := pow_le_pow_left₀ (mul_nonneg (by linarith) hgpos.le) hrl 2
    have h2 : ((1 - 2 * u) * g) ^ 2 = (1 - 4 * u) * q + 4 * u ^ 2 * q := by rw [mul_pow, hg2]; ring
    have : 0 ≤ 4 * u ^ 2 * q := by positivity
    linarith
  have hr2u : r ^ 2 ≤ (1 + 5 * u) * q := by
    have h1 : r ^ 2 ≤ ((1 + 2 * u) * g) ^ 2 := pow_le_pow_left₀ hrpos.le hru 2
    have h2 : ((1 + 2 * u) * g) ^ 2 = (1 + 4 * u + 4 * u * u) * q := by rw [mul_pow, hg2]; ring
    have h3 : (1 + 4 * u + 4 * u * u) * q ≤ (1 + 5 * u) * q := by
      apply mul_le_mul_of_nonneg_right _ hqpos.le
      nlinarith
    linarith
  refine ⟨?_, hrpos⟩
  show |r ^ 2 - T| ≤ (11 / 10 * α + 6 * u) * T
  rw [abs_le]
  have hαu : α * u ≤ u := mul_le_of_le_one_left hu0.le (by linarith)
  have hαu0 : 0 ≤ α * u := by positivity
  constructor
  · have h1 : (1 - 4 * u) * ((1 - α) * T) ≤ (1 - 4 * u) * q := mul_le_mul_of_nonneg_left hql (by linarith)
    have h2 : (1 - (11 / 10 * α + 6 * u)) * T ≤ (1 - 4 * u) * (1 - α) * T :=
      mul_le_mul_of_nonneg_right (by nlinarith) hTpos.le
    linarith
  · have h1 : (1 + 5 * u) * q ≤ (1 + 5 * u) * ((1 + α) * T) := mul_le_mul_of_nonneg_left hqu (by linarith)
    have h2 : (1 + 5 * u) * (1 + α) * T ≤ (1 + (11 / 10 * α + 6 * u)) * T := by
      apply mul_le_mul_of_nonneg_right _ hTpos.le
      have : u * α ≤ u * (1 / 10 ^ 6) := mul_le_mul_of_nonneg_left hα1 hu0.le
      nlinarith
    linarith

/-- The squared length of the direction computed from draws `X`. -/
theorem sphere_error {d : ℕ} {X P : Fin d → ℝ} (h : sphereFloat fl X P) (hd : d ≤ 10 ^ 9)
    (hlo : 1 / 10 ^ 20 ≤ ∑ i, X i ^ 2) (hhi : ∑ i, X i ^ 2 ≤ 10 ^ 60) :
    |∑ i, P i ^ 2 - 1| ≤ (5 * d + 25) * u ∧ ∀ i, |P i| ≤ 2 := by
  obtain ⟨q, hq, hP⟩ := h
  obtain ⟨hrT, hrpos⟩ := norm_error hfl hq hd hlo hhi
  have hdr : (d : ℝ) ≤ 10 ^ 9 := by exact_mod_cast hd
  have hu0 := u_pos
  have hu1 := u_le
  have hu2 : 110 / 10 ^ 18 ≤ u := by unfold unitRoundoff; norm_num
  have husm : u ≤ 1 / 10 ^ 15 := hu1.trans (by norm_num)
  have hTpos : 0 < ∑ i, X i ^ 2 := lt_of_lt_of_le (by norm_num) hlo
  have hα1 : (2 * d + 1) * u ≤ 1 / 10 ^ 6 := by
    have h2 : (2 * (d : ℝ) + 1) * u ≤ (2 * 10 ^ 9 + 1) * (112 / 10 ^ 18) :=
      mul_le_mul (by linarith) hu1 hu0.le (by norm_num)
    exact h2.trans (by norm_num)
  have hβ0 : 0 ≤ 11 / 10 * ((2 * (d : ℝ) + 1) * u) + 6 * u := by positivity
  have hβ1 : 11 / 10 * ((2 * (d : ℝ) + 1) * u) + 6 * u ≤ 1 / 10 ^ 5 := by
    have : 11 / 10 * (1 / 10 ^ 6) + 6 * (1 / 10 ^ 15) ≤ (1 / 10 ^ 5 : ℝ) := by norm_num
    linarith
  obtain ⟨-, hy⟩ := ratio_near hrT hTpos hβ0 hβ1
  clear hrT hlo hhi hq
  set T := ∑ i, X i ^ 2 with hT
  set r := fl √q with hr
  have hsq : ∑ i, (X i / r) ^ 2 = T / r ^ 2 := by
    rw [hT, Finset.sum_div]; exact Finset.sum_congr rfl fun i _ => div_pow _ _ _
  have hT2 : T / r ^ 2 ≤ 11 / 10 := by linarith [(abs_le.mp hy).2]
  have hyi : ∀ i, |X i / r| ≤ 11 / 10 := fun i => by
    have h1 : (X i / r) ^ 2 ≤ 11 / 10 := by
      refine le_trans ?_ hT2
      rw [← hsq]
      exact Finset.single_le_sum (f := fun i => (X i / r) ^ 2) (fun i _ => sq_nonneg _) (Finset.mem_univ i)
    rw [← sq_abs] at h1
    nlinarith [abs_nonneg (X i / r)]
  have hPi : ∀ i, |P i - X i / r| ≤ u * |X i / r| + 1 / 10 ^ 200 := fun i => by
    rw [hP]
    exact fl_near hfl ((hyi i).trans (by norm_num))
  have hPb : ∀ i, |P i| ≤ 2 := fun i => by
    have h1 := abs_add_le (P i - X i / r) (X i / r)
    rw [sub_add_cancel] at h1
    have h2 : u * |X i / r| ≤ 1 / 10 ^ 15 * (11 / 10) := mul_le_mul husm (hyi i) (abs_nonneg _) (by norm_num)
    have h3 : 1 / 10 ^ 15 * (11 / 10) + 1 / 10 ^ 200 + 11 / 10 ≤ (2 : ℝ) := by norm_num
    linarith [hPi i, hyi i]
  refine ⟨?_, hPb⟩
  have hstep : ∀ i, |P i ^ 2 - (X i / r) ^ 2| ≤ 3 * u * (X i / r) ^ 2 + 1 / 10 ^ 199 := fun i => sq_step (hPi i) (hyi i)
  have htot : |∑ i, P i ^ 2 - T / r ^ 2| ≤ 3 * u * (T / r ^ 2) + 1 / 10 ^ 190 := by
    rw [← hsq, ← Finset.sum_sub_distrib]
    refine (Finset.abs_sum_le_sum_abs _ _).trans ((Finset.sum_le_sum fun i _ => hstep i).trans ?_)
    rw [Finset.sum_add_distrib, ← Finset.mul_sum]
    have h4 : (d : ℝ) * (1 / 10 ^ 199) ≤ 10 ^ 9 * (1 / 10 ^ 199) := mul_le_mul_of_nonneg_right hdr (by norm_num)
    have h5 : (10 : ℝ) ^ 9 * (1 / 10 ^ 199) ≤ 1 / 10 ^ 190 := by norm_num
    simp only [Finset.sum_const, Finset.card_univ, Fintype.card_fin, nsmul_eq_mul]
    linarith
  have h5 : 3 * u * (T / r ^ 2) ≤ 3 * u * (11 / 10) := mul_le_mul_of_nonneg_left hT2 (by positivity)
  have h6 : 1 / 10 ^ 190 ≤ 1 / 10 * (110 / 10 ^ 18 : ℝ) := by norm_num
  have h7 := abs_add_le (∑ i, P i ^ 2 - T / r ^ 2) (T / r ^ 2 - 1)
  rw [sub_add_sub_cancel] at h7
  have h8 : 11 / 10 * (11 / 10 * ((2 * d + 1) * u) + 6 * u) + 3 * u * (11 / 10) + 1 / 10 * u ≤ (5 * d + 25) * u := by
    have : 0 ≤ (d : ℝ) * u := by positivity
    linarith
  linarith

/-- C115: `random_points_on_hypersphere` with rounding: the squared length of the point is one within `(5 d + 25) · 2⁻⁵³`,
in whichever order the squares are added. -/
theorem C115_sphere {d : ℕ} {X P : Fin d → ℝ} (h : sphereFloat fl X P) (hd : d ≤ 10 ^ 9)
    (hlo : 1 / 10 ^ 20 ≤ ∑ i, X i ^ 2) (hhi : ∑ i, X i ^ 2 ≤ 10 ^ 60) :
    |∑ i, P i ^ 2 - 1| ≤ (5 * d + 25) * 2 ^ (-53 : ℤ) :=
  (sphere_error hfl h hd hlo hhi).1

/-- C115: `random_points_in_ball` with rounding: the point leaves the unit ball by at most `(5 d + 40) · 2⁻⁵³` of its squared length,
if the power of the radius is computed with a relative error of at most two units. -/
theorem C115_ball {d : ℕ} {X P : Fin d → ℝ} {c : ℝ} {pow : ℝ → ℝ → ℝ} (h : ballFloat fl pow X c P) (hd : d ≤ 10 ^ 9)
    (hlo : 1 / 10 ^ 20 ≤ ∑ i, X i ^ 2) (hhi : ∑ i, X i ^ 2 ≤ 10 ^ 60) (hc0 : 0 ≤ c) (hc1 : c ≤ 1)
    (hpow : ∀ x y, 0 ≤ x → x ≤ 1 → 0 ≤ y → y ≤ 1 → |pow x y - x ^ y| ≤ 2 * 2 ^ (-53 : ℤ) * x ^ y) :
    ∑ i, P i ^ 2 ≤ 1 + (5 * d + 40) * 2 ^ (-53 : ℤ) := by
  obtain ⟨s, hs, hP⟩ := h
  obtain ⟨he, hsb⟩ := sphere_error hfl hs hd hlo hhi
  have hdr : (d : ℝ) ≤ 10 ^ 9 := by exact_mod_cast hd
  have hu0 := u_pos
  have hu1 := u_le
  have hu2 : 110 / 10 ^ 18 ≤ u := by unfold unitRoundoff; norm_num
  have husm : u ≤ 1 / 10 ^ 15 := hu1.trans (by norm_num)
  have hdd : 0 ≤ 1 / (d : ℝ) ∧ 1 / (d : ℝ) ≤ 1 := by
    rcases Nat.eq_zero_or_pos d with rfl | hd0
    · norm_num
    · have : (1 : ℝ) ≤ d := by exact_mod_cast hd0
      exact ⟨by positivity, (div_le_one (by linarith)).mpr this⟩
  have hdb : |1 / (d : ℝ)| ≤ 10 ^ 150 := by rw [abs_of_nonneg hdd.1]; exact hdd.2.trans (by norm_num)
  have hf0 : 0 ≤ fl (1 / (d : ℝ)) := fl_nonneg hfl hdd.1 hdb
  have hf1 : fl (1 / (d : ℝ)) ≤ 1 := by
    have h2 := fl_mono hfl hdd.2 hdb (by norm_num)
    have h3 : fl 1 = 1 := by simpa using fl_int hfl 1 (by norm_num)
    rwa [h3] at h2
  have hρ := hpow c _ hc0 hc1 hf0 hf1
  have hx1 : c ^ fl (1 / (d : ℝ)) ≤ 1 := Real.rpow_le_one hc0 hc1 hf0
  have hx0 : 0 ≤ c ^ fl (1 / (d : ℝ)) := Real.rpow_nonneg hc0 _
  have hu : (2 : ℝ) ^ (-53 : ℤ) = u := rfl
  rw [hu] at hρ ⊢
  set ρ := pow c (fl (1 / (d : ℝ))) with hρd
  set x := c ^ fl (1 / (d : ℝ))
  have hρ1 : |ρ| ≤ 1 + 2 * u := by
    have h1 := abs_add_le (ρ - x) x
    rw [sub_add_cancel, abs_of_nonneg hx0] at h1
    have h2 : 2 * u * x ≤ 2 * u * 1 := mul_le_mul_of_nonneg_left hx1 (by positivity)
    linarith
  have hPi : ∀ i, P i ^ 2 ≤ (1 + 8 * u) * s i ^ 2 + 1 / 10 ^ 199 := fun i => by
    have h1 : |ρ * s i| ≤ (1 + 2 * u) * |s i| := by
      rw [abs_mul]; exact mul_le_mul_of_nonneg_right hρ1 (abs_nonneg _)
    have h2 : |s i| ≤ 2 := hsb i
    have h3 : (1 + 2 * u) * |s i| ≤ 2 * 2 := mul_le_mul (by linarith) h2 (abs_nonneg _) (by norm_num)
    have h4 := fl_near hfl (x := ρ * s i) ((h1.trans h3).trans (by norm_num))
    rw [← hP i] at h4
    have h5 : |P i| ≤ (1 + 39 / 10 * u) * |s i| + 1 / 10 ^ 200 := by
      have h6 := abs_add_le (P i - ρ * s i) (ρ * s i)
      rw [sub_add_cancel] at h6
      have h7 : u * |ρ * s i| ≤ u * ((1 + 2 * u) * |s i|) := mul_le_mul_of_nonneg_left h1 hu0.le
      have h8 : u * (2 * u) * |s i| ≤ u * (1 / 10) * |s i| :=
        mul_le_mul_of_nonneg_right (mul_le_mul_of_nonneg_left (by linarith) hu0.le) (abs_nonneg _)
      have h9 : 0 ≤ u * |s i| := by positivity
      nlinarith
    rw [← sq_abs (P i), ← sq_abs (s i)]
    refine (pow_le_pow_left₀ (abs_nonneg _) h5 2).trans ?_
    set t := |s i|
    have ht0 : 0 ≤ t := abs_nonneg _
    have h8 : ((1 + 39 / 10 * u) * t + 1 / 10 ^ 200) ^ 2 =
      (1 + 78 / 10 * u + 1521 / 100 * u * u) * t ^ 2 + (2 * ((1 + 39 / 10 * u) * t) + 1 / 10 ^ 200) * (1 / 10 ^ 200) := by ring
    rw [h8]
    have h9 : 2 * ((1 + 39 / 10 * u) * t) + 1 / 10 ^ 200 ≤ 10 := by
      have : (1 + 39 / 10 * u) * t ≤ 2 * 2 := mul_le_mul (by linarith) h2 ht0 (by norm_num)
      have : 2 * (2 * 2) + 1 / 10 ^ 200 ≤ (10 : ℝ) := by norm_num
      linarith
    have h10 : (2 * ((1 + 39 / 10 * u) * t) + 1 / 10 ^ 200) * (1 / 10 ^ 200) ≤ 10 * (1 / 10 ^ 200) :=
      mul_le_mul_of_nonneg_right h9 (by norm_num)
    have h11 : (10 : ℝ) * (1 / 10 ^ 200) ≤ 1 / 10 ^ 199 := by norm_num
    have h12 : (1 + 78 / 10 * u + 1521 / 100 * u * u) * t ^ 2 ≤ (1 + 8 * u) * t ^ 2 := by
      apply mul_le_mul_of_nonneg_right _ (sq_nonneg _)
      have : u * u ≤ u * (1 / 10 ^ 15) := mul_le_mul_of_nonneg_left husm hu0.le
      nlinarith
    linarith
  refine (Finset.sum_le_sum fun i _ => hPi i).trans ?_
  rw [Finset.sum_add_distrib, ← Finset.mul_sum]
  have h4 : (d : ℝ) * (1 / 10 ^ 199) ≤ 10 ^ 9 * (1 / 10 ^ 199) := mul_le_mul_of_nonneg_right hdr (by norm_num)
  have h5 : (10 : ℝ) ^ 9 * (1 / 10 ^ 199) ≤ 1 / 10 * (110 / 10 ^ 18) := by norm_num
  simp only [Finset.sum_const, Finset.card_univ, Fintype.card_fin, nsmul_eq_mul]
  have h6 : ∑ i, s i ^ 2 ≤ 1 + (5 * d + 25) * u := by linarith [(abs_le.mp he).2]
  have h7 : (1 + 8 * u) * ∑ i, s i ^ 2 ≤ (1 + 8 * u) * (1 + (5 * d + 25) * u) := mul_le_mul_of_nonneg_left h6 (by positivity)
  have h8 : (5 * (d : ℝ) + 25) * u ≤ 1 / 10 := by
    have : (5 * (d : ℝ) + 25) * u ≤ (5 * 10 ^ 9 + 25) * (112 / 10 ^ 18) :=
      mul_le_mul (by linarith) hu1 hu0.le (by norm_num)
    exact this.trans (by norm_num)
  have h9 : 8 * u * ((5 * d + 25) * u) ≤ 8 * u * (1 / 10) := mul_le_mul_of_nonneg_left h8 (by positivity)
  nlinarith

/-- Dot products of multiples of 1/32 that stay small are exact in every order. -/
theorem flDot_grid {l : List (ℝ × ℝ)} {a : ℝ} (h : FlDot fl l a) (hz : ∀ p ∈ l, ∃ z : ℤ, p.1 * p.2 = z / 1024)
    (hs : (l.map fun p => |p.1 * p.2|).sum ≤ 100) : (∃ z : ℤ, a = z / 1024) ∧ a = (l.map fun p => p.1 * p.2).sum ∧
      |a| ≤ (l.map fun p => |p.1 * p.2|).sum := by
  have hex : ∀ z : ℤ, |(z : ℝ) / 1024| ≤ 100 → fl ((z : ℝ) / 1024) = z / 1024 := fun z hz => by
    have hz' : |(z : ℝ)| ≤ 102400 := by
      rw [abs_div] at hz
      norm_num at hz
      rw [div_le_iff₀ (by norm_num)] at hz
      linarith
    refine fl_same hfl ⟨z, -10, ?_, by norm_num, by norm_num, by norm_num; ring⟩ (hz.trans (by norm_num))
    have : |z| ≤ 102400 := by exact_mod_cast hz'
    exact this.trans_lt (by norm_num)
  have hnn : ∀ l : List (ℝ × ℝ), 0 ≤ (l.map fun p => |p.1 * p.2|).sum := fun l =>
    List.sum_nonneg fun x hx => by
      obtain ⟨p, -, rfl⟩ := List.mem_map.mp hx
      exact abs_nonneg _
  induction h with
  | nil => exact ⟨⟨0, by simp⟩, by simp, by simp⟩
  | prod x y =>
    obtain ⟨z, h1⟩ := hz (x, y) (by simp)
    simp only [List.map_cons, List.map_nil, List.sum_cons, List.sum_nil, add_zero] at h1 hs ⊢
    rw [h1] at hs ⊢
    rw [hex z hs]
    exact ⟨⟨z, rfl⟩, rfl, le_rfl⟩
  | @add l r a b hl hr ha hb iha ihb =>
    rw [List.map_append, List.sum_append] at hs ⊢
    obtain ⟨⟨z, a1⟩, a2, a3⟩ := iha (fun p hp => hz p (by simp [hp])) (by linarith [hnn r])
    obtain ⟨⟨w, b1⟩, b2, b3⟩ := ihb (fun p hp => hz p (by simp [hp])) (by linarith [hnn l])
    have h1 : a + b = ((z + w : ℤ) : ℝ) / 1024 := by rw [a1, b1]; push_cast; ring
    have h2 : |a + b| ≤ (l.map fun p => |p.1 * p.2|).sum + (r.map fun p => |p.1 * p.2|).sum :=
      (abs_add_le _ _).trans (add_le_add a3 b3)
    have h3 : fl (a + b) = a + b := by
      rw [h1]; apply hex; rw [← h1]; linarith
    rw [h3, List.map_append, List.sum_append, ← a2, ← b2]
    exact ⟨⟨_, h1⟩, rfl, h2⟩
  | @fma l a x y hl ha iha =>
    rw [List.map_append, List.sum_append] at hs ⊢
    simp only [List.map_cons, List.map_nil, List.sum_cons, List.sum_nil, add_zero] at hs ⊢
    obtain ⟨⟨z, a1⟩, a2, a3⟩ := iha (fun p hp => hz p (by simp [hp])) (by linarith [abs_nonneg (x * y)])
    obtain ⟨w, b1⟩ := hz (x, y) (by simp)
    simp only at b1
    have h1 : a + x * y = ((z + w : ℤ) : ℝ) / 1024 := by rw [a1, b1]; push_cast; ring
    have h2 : |a + x * y| ≤ (l.map fun p => |p.1 * p.2|).sum + |x * y| := (abs_add_le _ _).trans (add_le_add a3 le_rfl)
    have h3 : fl (a + x * y) = a + x * y := by
      rw [h1]; apply hex; rw [← h1]; linarith
    rw [h3, List.map_append, List.sum_append]
    simp only [List.map_cons, List.map_nil, List.sum_cons, List.sum_nil, add_zero]
    exact ⟨⟨_, h1⟩, by rw [a2], h2⟩
  | @perm l l' a hp _ ih =>
    rw [← (hp.map _).sum_eq] at hs
    obtain ⟨a1, a2, a3⟩ := ih (fun p h => hz p (hp.mem_iff.mp h)) hs
    rw [← (hp.map _).sum_eq, ← (hp.map (fun p : ℝ × ℝ => |p.1 * p.2|)).sum_eq]
    exact ⟨a1, a2, a3⟩

omit hfl in
/-- Three draws. -/
noncomputable def outsideDraws : Fin 3 → ℝ := ![11 / 32, 21 / 32, 22 / 32]

omit hfl in
/-- The floats of the direction of the draws. -/
noncomputable def outsidePoint : Fin 3 → ℝ :=
  ![6126982060591681 / 18014398509481984, 1462120719004833 / 2251799813685248, 6126982060591681 / 9007199254740992]

theorem outside_point {P : Fin 3 → ℝ} (h : sphereFloat fl outsideDraws P) : P = outsidePoint := by
  obtain ⟨q, hq, hP⟩ := h
  have hl : (List.ofFn fun j => (outsideDraws j, outsideDraws j)) =
      [((11 / 32 : ℝ), (11 / 32 : ℝ)), (21 / 32, 21 / 32), (22 / 32, 22 / 32)] := by
    simp [List.ofFn_succ, outsideDraws]
  rw [hl] at hq
  have hq' : q = 1046 / 1024 := by
    rw [(flDot_grid hfl hq (by
      intro p hp
      simp only [List.mem_cons, List.not_mem_nil, or_false] at hp
      rcases hp with rfl | rfl | rfl
      · exact ⟨121, by norm_num⟩
      · exact ⟨441, by norm_num⟩
      · exact ⟨484, by norm_num⟩) (by norm_num [abs_of_pos])).2.1]
    norm_num
  have hr1 : (2275860523927165 / 2251799813685248 : ℝ) - 31 / 32 * 2 ^ (-53 : ℤ) ≤ √(1046 / 1024) := Real.le_sqrt_of_sq_le (by norm_num)
  have hr2 : √(1046 / 1024) ≤ (2275860523927165 / 2251799813685248 : ℝ) + 31 / 32 * 2 ^ (-53 : ℤ) :=
    Real.sqrt_le_iff.mpr ⟨by norm_num, by norm_num⟩
  have hr : fl √(1046 / 1024) = 2275860523927165 / 2251799813685248 := by
    refine fl_eq_of_near hfl 0 (le_range ?_) ⟨2275860523927165, -51, ?_, by norm_num, by norm_num, ?_⟩ ?_ ?_
    · rw [abs_of_nonneg (Real.sqrt_nonneg _)]
      refine hr2.trans (by norm_num)
    · norm_num
    · norm_num
    · norm_num
    · rw [abs_lt]
      norm_num at hr1 hr2 ⊢
      constructor <;> linarith
  rw [hq', hr] at hP
  funext i
  rw [hP i]
  fin_cases i
  · change fl (11 / 32 / _) = 6126982060591681 / 18014398509481984
    refine fl_eq_of_near hfl (-2) (le_range ?_) ⟨6126982060591681, -54, ?_, by norm_num, by norm_num, ?_⟩ ?_ ?_ <;>
      norm_num [abs_of_pos, abs_lt]
  · change fl (21 / 32 / _) = 1462120719004833 / 2251799813685248
    refine fl_eq_of_near hfl (-1) (le_range ?_) ⟨1462120719004833, -51, ?_, by norm_num, by norm_num, ?_⟩ ?_ ?_ <;>
      norm_num [abs_of_pos, abs_lt]
  · change fl (22 / 32 / _) = 6126982060591681 / 9007199254740992
    refine fl_eq_of_near hfl (-1) (le_range ?_) ⟨6126982060591681, -53, ?_, by norm_num, by norm_num, ?_⟩ ?_ ?_ <;>
      norm_num [abs_of_pos, abs_lt]

/-- C115: The point can lie outside the unit sphere: the draws 11/32, 21/32, 22/32 give one of squared length above `1 + 3 · 2⁻⁵³`. -/
theorem C115_sphere_outside {P : Fin 3 → ℝ} (h : sphereFloat fl outsideDraws P) :
    1 + 3 * 2 ^ (-53 : ℤ) < ∑ i, P i ^ 2 := by
  rw [outside_point hfl h, Fin.sum_univ_three]
  simp only [outsidePoint, Matrix.cons_val]
  norm_num

/-- C115: The point of `random_points_in_ball` can lie outside the unit ball, even if the power is correctly rounded: with the draws of
`C115_sphere_outside` and the largest uniform draw `1 - 2⁻⁵³`. -/
theorem C115_ball_outside {P : Fin 3 → ℝ} (h : ballFloat fl (fun x y => fl (x ^ y)) outsideDraws (1 - 2 ^ (-53 : ℤ)) P) :
    1 + 3 * 2 ^ (-53 : ℤ) < ∑ i, P i ^ 2 := by
  obtain ⟨s, hs, hP⟩ := h
  have hs' := outside_point hfl hs
  have h13 : fl (1 / ((3 : ℕ) : ℝ)) ≤ 2 / 5 := by
    have h1 := fl_near hfl (x := 1 / ((3 : ℕ) : ℝ)) (by norm_num [abs_of_pos])
    have h2 := u_le
    rw [abs_of_pos (by norm_num : (0 : ℝ) < 1 / ((3 : ℕ) : ℝ))] at h1
    have h3 := (abs_le.mp h1).2
    norm_num at h3 h2 ⊢
    linarith
  have h130 : 0 ≤ fl (1 / ((3 : ℕ) : ℝ)) := fl_nonneg hfl (by norm_num) (by norm_num [abs_of_pos])
  set y := fl (1 / ((3 : ℕ) : ℝ)) with hy
  have hc0 : (0 : ℝ) < 1 - 2 ^ (-53 : ℤ) := by norm_num
  have hc1 : (1 : ℝ) - 2 ^ (-53 : ℤ) ≤ 1 := by norm_num
  have hpow1 : (1 - 2 ^ (-53 : ℤ) : ℝ) ^ y ≤ 1 := Real.rpow_le_one hc0.le hc1 h130
  have hpow2 : 1 - 9 / 10 * 2 ^ (-54 : ℤ) ≤ (1 - 2 ^ (-53 : ℤ) : ℝ) ^ y := by
    refine le_trans ?_ (Real.rpow_le_rpow_of_exponent_ge hc0 hc1 h13)
    have h5 : ((1 - 2 ^ (-53 : ℤ) : ℝ) ^ (2 / 5 : ℝ)) ^ 5 = (1 - 2 ^ (-53 : ℤ)) ^ 2 := by
      rw [← Real.rpow_natCast, ← Real.rpow_mul hc0.le]
      norm_num
    refine le_of_pow_le_pow_left₀ (n := 5) (by norm_num) (Real.rpow_nonneg hc0.le _) ?_
    rw [h5]
    norm_num
  have hone : fl ((1 - 2 ^ (-53 : ℤ) : ℝ) ^ y) = 1 := by
    refine fl_eq_of_near hfl (-1) (le_range ?_) (by simpa using binary64_int 1 (by norm_num)) (by norm_num) ?_
    · rw [abs_of_nonneg (Real.rpow_nonneg hc0.le _)]
      exact hpow1.trans (by norm_num)
    · rw [abs_of_nonneg (by linarith)]
      have : 9 / 10 * (2 : ℝ) ^ (-54 : ℤ) < 2 ^ (-1 - 53 : ℤ) := by norm_num
      exact lt_of_le_of_lt (by linarith) this
  have hPs : P = s := by
    obtain ⟨q, -, hsq⟩ := hs
    funext i
    rw [hP i]
    simp only
    rw [hone, one_mul]
    have hb : |s i| ≤ 10 ^ 150 := by
      rw [hs']
      fin_cases i <;> norm_num [outsidePoint, abs_of_pos]
    refine fl_same hfl ?_ hb
    rw [hs']
    fin_cases i
    · exact ⟨6126982060591681, -54, by norm_num, by norm_num, by norm_num, by norm_num [outsidePoint]⟩
    · exact ⟨1462120719004833, -51, by norm_num, by norm_num, by norm_num, by norm_num [outsidePoint]⟩
    · exact ⟨6126982060591681, -53, by norm_num, by norm_num, by norm_num, by norm_num [outsidePoint]⟩
  rw [hPs]
  exact C115_sphere_outside hfl hs

end

section
variable (fl : ℝ → ℝ)

/-- Every list of floats has a sum. -/
theorem flSum_total (l : List ℝ) : ∃ s, FlSum fl l s := by
  induction l with
  | nil => exact ⟨0, .nil⟩
  | cons x l ih =>
    rcases eq_or_ne l [] with rfl | hl
    · exact ⟨x, .single x⟩
    · obtain ⟨s, hs⟩ := ih
      exact ⟨_, .add (l := [x]) (by simp) hl (.single x) hs⟩

theorem flDot_total (l : List (ℝ × ℝ)) : ∃ s, FlDot fl l s := by
  induction l with
  | nil => exact ⟨0, .nil⟩
  | cons x l ih =>
    rcases eq_or_ne l [] with rfl | hl
    · exact ⟨_, .prod x.1 x.2⟩
    · obtain ⟨s, hs⟩ := ih
      exact ⟨_, .add (l := [x]) (by simp) hl (.prod x.1 x.2) hs⟩

/-- C115: The functions have a result for all draws. -/
theorem C115_result {d : ℕ} (pow : ℝ → ℝ → ℝ) (X w : Fin d → ℝ) (c : ℝ) :
    (∃ out, weightsFloat fl w out) ∧ (∃ P, sphereFloat fl X P) ∧ ∃ P, ballFloat fl pow X c P := by
  obtain ⟨s, hs⟩ := flSum_total fl (List.ofFn w)
  obtain ⟨q, hq⟩ := flDot_total fl (List.ofFn fun j => (X j, X j))
  exact ⟨⟨_, s, hs, fun _ => rfl⟩, ⟨_, q, hq, fun _ => rfl⟩, ⟨_, _, ⟨q, hq, fun _ => rfl⟩, fun _ => rfl⟩⟩

end

/-- The hypotheses of C115 hold for three draws of weights and the draws of `C115_ball_outside`. -/
example : ∃ fl, IsRounding fl ∧ (∃ out, weightsFloat fl ![1 / 2, 1 / 4, 3 / 4] out) ∧ (∀ i, Binary64 ((![1 / 2, 1 / 4, 3 / 4] : Fin 3 → ℝ) i)) ∧
    1 / 10 ^ 20 ≤ ∑ i, (![1 / 2, 1 / 4, 3 / 4] : Fin 3 → ℝ) i ∧
    (∃ P, ballFloat fl (fun x y => x ^ y) outsideDraws (1 - 2 ^ (-53 : ℤ)) P) ∧
    1 / 10 ^ 20 ≤ ∑ i, outsideDraws i ^ 2 ∧ ∑ i, outsideDraws i ^ 2 ≤ 10 ^ 60 := by
  obtain ⟨fl, hfl⟩ := exists_rounding
  refine ⟨fl, hfl, (C115_result fl (fun x y => x ^ y) (fun _ => 0) _ 0).1, fun i => ?_, ?_,
    (C115_result fl (fun x y => x ^ y) _ (fun _ => 0) _).2.2, ?_, ?_⟩
  · fin_cases i
    · exact ⟨1, -1, by norm_num, by norm_num, by norm_num, by norm_num⟩
    · exact ⟨1, -2, by norm_num, by norm_num, by norm_num, by norm_num⟩
    · exact ⟨3, -2, by norm_num, by norm_num, by norm_num, by norm_num⟩
  · rw [Fin.sum_univ_three]; simp only [Matrix.cons_val]; norm_num
  · rw [Fin.sum_univ_three]; simp only [outsideDraws, Matrix.cons_val]; norm_num
  · rw [Fin.sum_univ_three]; simp only [outsideDraws, Matrix.cons_val]; norm_num

/-- The bound on the power function holds for the exact power. -/
example : ∀ x y : ℝ, 0 ≤ x → x ≤ 1 → 0 ≤ y → y ≤ 1 → |(fun x y : ℝ => x ^ y) x y - x ^ y| ≤ 2 * 2 ^ (-53 : ℤ) * x ^ y := by
  intro x y hx _ _ _
  simp only [sub_self, abs_zero]
  exact mul_nonneg (by norm_num) (Real.rpow_nonneg hx _)

end Rigeo
