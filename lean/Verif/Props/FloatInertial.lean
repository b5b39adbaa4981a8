import Verif.Model.FloatInertial
import Verif.Props.FloatContains
import Verif.Lemmas.PSD
import Mathlib.LinearAlgebra.Matrix.PosDef
import Mathlib.Tactic.FinCases

/-!
# C114: the parameter vector and back, and sums of parameters, with rounding
-/

namespace Rigeo

open Spec Matrix

local notation "u" => unitRoundoff

section
variable {fl : ℝ → ℝ}

theorem flSum_one {l : List ℝ} {s : ℝ} (h : FlSum fl l s) : ∀ x, l = [x] → s = x := by
  induction h with
  | nil => intro x hx; simp at hx
  | single y => intro x hx; simpa using hx
  | @add l r a b hl hr _ _ _ _ =>
    intro x hx
    have := congrArg List.length hx
    rw [List.length_append] at this
    have h1 := List.length_pos_iff.mpr hl
    have h2 := List.length_pos_iff.mpr hr
    simp at this; omega
  | perm hp _ ih => intro x hx; subst hx; exact ih x (List.perm_singleton.mp hp)

theorem flSum_two {l : List ℝ} {s : ℝ} (h : FlSum fl l s) (h2 : l.length = 2) :
    ∃ x y, [x, y].Perm l ∧ s = fl (x + y) := by
  induction h with
  | nil => simp at h2
  | single y => simp at h2
  | @add l r a b hl hr ha hb _ _ =>
    rw [List.length_append] at h2
    have h1 := List.length_pos_iff.mpr hl
    have h3 := List.length_pos_iff.mpr hr
    obtain ⟨x, rfl⟩ := List.length_eq_one_iff.mp (show l.length = 1 by omega)
    obtain ⟨y, rfl⟩ := List.length_eq_one_iff.mp (show r.length = 1 by omega)
    exact ⟨x, y, .refl _, by rw [flSum_one ha x rfl, flSum_one hb y rfl]⟩
  | perm hp _ ih =>
    obtain ⟨x, y, hxy, rfl⟩ := ih (hp.length_eq.trans h2)
    exact ⟨x, y, hxy.trans hp, rfl⟩

/-- The orders in which three numbers can be added. -/
theorem flSum_three {l : List ℝ} {s : ℝ} (h : FlSum fl l s) (h3 : l.length = 3) :
    ∃ x y z, [x, y, z].Perm l ∧ s = fl (fl (x + y) + z) := by
  induction h with
  | nil => simp at h3
  | single y => simp at h3
  | @add l r a b hl hr ha hb _ _ =>
    rw [List.length_append] at h3
    have h1 := List.length_pos_iff.mpr hl
    have h2 := List.length_pos_iff.mpr hr
    rcases (show l.length = 2 ∧ r.length = 1 ∨ l.length = 1 ∧ r.length = 2 by omega) with ⟨e1, e2⟩ | ⟨e1, e2⟩
    · obtain ⟨x, y, hxy, rfl⟩ := flSum_two ha e1
      obtain ⟨z, rfl⟩ := List.length_eq_one_iff.mp e2
      exact ⟨x, y, z, hxy.append_right [z], by rw [flSum_one hb z rfl]⟩
    · obtain ⟨x, y, hxy, rfl⟩ := flSum_two hb e2
      obtain ⟨z, rfl⟩ := List.length_eq_one_iff.mp e1
      exact ⟨x, y, z, (List.perm_append_comm (l₁ := [x, y]) (l₂ := [z])).trans (hxy.append_left [z]),
        by rw [flSum_one ha z rfl, add_comm]⟩
  | perm hp _ ih =>
    obtain ⟨x, y, z, hxy, rfl⟩ := ih (hp.length_eq.trans h3)
    exact ⟨x, y, z, hxy.trans hp, rfl⟩

end

section
variable {fl : ℝ → ℝ} (hfl : IsRounding fl)
include hfl

set_option exponentiation.threshold 2000 in
omit hfl in
theorem le_range {x : ℝ} (h : |x| ≤ 10 ^ 150) : |x| ≤ 2 ^ (1023 : ℤ) := h.trans (by norm_num)

theorem fl_binary64 {x : ℝ} (h : |x| ≤ 10 ^ 150) : Binary64 (fl x) := (hfl x (le_range h)).1

theorem fl_same {x : ℝ} (hx : Binary64 x) (h : |x| ≤ 10 ^ 150) : fl x = x := fl_exact hfl hx (le_range h)

theorem fl_zero : fl 0 = 0 := by simpa using fl_int hfl 0 (by norm_num)

/-- One rounding of an approximation. -/
theorem fl_step {S x y e a τ : ℝ} (hS0 : 0 ≤ S) (hS : S ≤ 10 ^ 100) (hxy : |x - y| ≤ e * (u * S) + τ) (hy : |y| ≤ a * S)
    (he0 : 0 ≤ e) (he : e ≤ 1000) (ha : a ≤ 10) (hτ0 : 0 ≤ τ) (hτ : τ ≤ 1) :
    |fl x - y| ≤ (e + a + 1 / 100) * (u * S) + 2 * τ + 1 / 10 ^ 200 ∧ |fl x| ≤ 10 ^ 150 ∧ |x| ≤ 10 ^ 150 := by
  have hu := u_pos
  have hu' : u ≤ 1 / 10 ^ 5 := u_le.trans (by norm_num)
  have hE : 0 ≤ u * S := by positivity
  have h1 : |x| ≤ a * S + e * (u * S) + τ := by
    have := abs_add_le (x - y) y
    rw [sub_add_cancel] at this; linarith
  have h2 : e * (u * (u * S)) ≤ 1 / 100 * (u * S) := by
    have : e * u ≤ 1000 * (1 / 10 ^ 5) := mul_le_mul he hu' hu.le (by norm_num)
    have h3 := mul_le_mul_of_nonneg_right this hE
    linarith
  have h3 : u * |x| ≤ u * (a * S + e * (u * S) + τ) := mul_le_mul_of_nonneg_left h1 hu.le
  have h4 : u * τ ≤ τ := by nlinarith
  have hES : u * S ≤ 10 ^ 95 := by
    have : u * S ≤ 1 / 10 ^ 5 * 10 ^ 100 := mul_le_mul hu' hS hS0 (by norm_num)
    exact this.trans (by norm_num)
  have h5 : |x| ≤ 10 ^ 102 := by
    have h6 : a * S ≤ 10 * 10 ^ 100 := by nlinarith
    have h7 : e * (u * S) ≤ 1000 * 10 ^ 95 := mul_le_mul he hES hE (by norm_num)
    have h8 : (10 : ℝ) * 10 ^ 100 + 1000 * 10 ^ 95 + 1 ≤ 10 ^ 102 := by norm_num
    linarith
  have h6 : |x| ≤ 10 ^ 150 := h5.trans (by norm_num)
  have h7 := fl_near hfl h6
  have h8 := abs_add_le (fl x - x) (x - y)
  rw [sub_add_sub_cancel] at h8
  refine ⟨by nlinarith, ?_, h6⟩
  have h9 := abs_add_le (fl x - x) x
  rw [sub_add_cancel] at h9
  have h10 : u * |x| ≤ 1 * 10 ^ 102 := mul_le_mul (hu'.trans (by norm_num)) h5 (abs_nonneg _) (by norm_num)
  have h11 : (1 : ℝ) * 10 ^ 102 + 1 / 10 ^ 200 + 10 ^ 102 ≤ 10 ^ 150 := by norm_num
  linarith

/-- The trace with rounding. -/
theorem trace_error {A : Matrix (Fin 3) (Fin 3) ℝ} {t B : ℝ} (ht : traceFloat fl A t) (hB : ∑ i, |A i i| ≤ B) (hB' : B ≤ 10 ^ 100) :
    |t - A.trace| ≤ 6 * (u * B) + 1 / 10 ^ 190 ∧ Binary64 t := by
  have hsum : ([A 0 0, A 1 1, A 2 2].map abs).sum = ∑ i, |A i i| := by simp [Fin.sum_univ_three, add_assoc]
  constructor
  · have h1 := C105_sum hfl ht (by norm_num) (by rw [hsum]; exact hB.trans hB')
    have h2 : [A 0 0, A 1 1, A 2 2].sum = A.trace := by simp [Matrix.trace, Fin.sum_univ_three, add_assoc]
    rw [hsum, h2] at h1
    have h3 : u * ∑ i, |A i i| ≤ u * B := mul_le_mul_of_nonneg_left hB u_pos.le
    have h4 : (2 : ℝ) ^ (-53 : ℤ) = u := rfl
    rw [h4] at h1
    simp only [List.length_cons, List.length_nil] at h1
    push_cast at h1
    linarith
  · obtain ⟨x, y, z, hp, rfl⟩ := flSum_three ht rfl
    have hs : |x| + |y| + |z| ≤ 10 ^ 100 := by
      have := (hp.map (abs : ℝ → ℝ)).sum_eq
      rw [hsum] at this
      simp only [List.map_cons, List.map_nil, List.sum_cons, List.sum_nil] at this
      linarith
    have h1 : |x + y| ≤ 10 ^ 100 := (abs_add_le _ _).trans (by linarith [abs_nonneg z])
    have h2 := fl_near hfl (h1.trans (by norm_num))
    have h3 : |fl (x + y)| ≤ 2 * 10 ^ 100 + 1 := by
      have h4 := abs_add_le (fl (x + y) - (x + y)) (x + y)
      rw [sub_add_cancel] at h4
      have h5 : u * |x + y| ≤ 1 * 10 ^ 100 := mul_le_mul (u_le.trans (by norm_num)) h1 (abs_nonneg _) (by norm_num)
      have h6 : (1 : ℝ) / 10 ^ 200 ≤ 1 := by norm_num
      linarith
    refine fl_binary64 hfl ((abs_add_le _ _).trans ?_)
    have : (2 : ℝ) * 10 ^ 100 + 1 + 10 ^ 100 ≤ 10 ^ 150 := by norm_num
    linarith [abs_nonneg x, abs_nonneg y]

/-- `H2I` with rounding: the entries off the diagonal are exact. -/
theorem h2i_error {H I : Matrix (Fin 3) (Fin 3) ℝ} (h : H2IFloat fl H I) {S : ℝ} (hS : ∑ i, |H i i| ≤ S) (hS' : S ≤ 10 ^ 90) :
    (∀ i j, i ≠ j → Binary64 (H i j) → |H i j| ≤ 10 ^ 90 → I i j = -H i j) ∧
    ∀ i, |I i i - (H.trace - H i i)| ≤ 71 / 10 * (u * S) + 1 / 10 ^ 189 := by
  obtain ⟨t, ht, hI⟩ := h
  obtain ⟨h1, h2⟩ := trace_error hfl ht hS (hS'.trans (by norm_num))
  have hS0 : 0 ≤ S := (Finset.sum_nonneg fun i _ => abs_nonneg (H i i)).trans hS
  refine ⟨fun i j hij hb hH => ?_, fun i => ?_⟩
  · rw [hI, Matrix.one_apply_ne hij, mul_zero, fl_zero hfl, zero_sub]
    exact fl_same hfl (binary64_neg hb) (by rw [abs_neg]; exact hH.trans (by norm_num))
  · have htr : |H.trace - H i i| ≤ 1 * S := by
      have h3 : H.trace = H 0 0 + H 1 1 + H 2 2 := by simp [Matrix.trace, Fin.sum_univ_three]
      rw [Fin.sum_univ_three] at hS
      rw [h3, one_mul]
      fin_cases i
      · refine le_trans (le_of_eq (congrArg abs (show _ = H 1 1 + H 2 2 by simp; ring))) ((abs_add_le _ _).trans ?_)
        linarith [abs_nonneg (H 0 0)]
      · refine le_trans (le_of_eq (congrArg abs (show _ = H 0 0 + H 2 2 by simp; ring))) ((abs_add_le _ _).trans ?_)
        linarith [abs_nonneg (H 1 1)]
      · refine le_trans (le_of_eq (congrArg abs (show _ = H 0 0 + H 1 1 by simp))) ((abs_add_le _ _).trans ?_)
        linarith [abs_nonneg (H 2 2)]
    have htb : |t| ≤ 10 ^ 150 := by
      have h4 : |H.trace| ≤ S := by
        refine (Finset.abs_sum_le_sum_abs _ _).trans hS
      have h5 := abs_add_le (t - H.trace) H.trace
      rw [sub_add_cancel] at h5
      have h6 : u * S ≤ 1 * 10 ^ 90 := mul_le_mul (u_le.trans (by norm_num)) hS' hS0 (by norm_num)
      have h7 : 6 * (1 * 10 ^ 90) + 1 / 10 ^ 190 + 10 ^ 90 ≤ (10 ^ 150 : ℝ) := by norm_num
      linarith
    rw [hI, Matrix.one_apply_eq, mul_one, fl_same hfl h2 htb]
    have h8 := (fl_step hfl (S := S) (x := t - H i i) (y := H.trace - H i i) (e := 6) (a := 1) (τ := 1 / 10 ^ 190) hS0
      (hS'.trans (by norm_num)) (by rwa [sub_sub_sub_cancel_right]) htr (by norm_num) (by norm_num) (by norm_num) (by norm_num)
      (by norm_num)).1
    have h9 : 2 * (1 / 10 ^ 190) + 1 / 10 ^ 200 ≤ (1 / 10 ^ 189 : ℝ) := by norm_num
    have h10 : 0 ≤ u * S := mul_nonneg u_pos.le hS0
    linarith

/-- `I2H` with rounding of an inertia matrix with errors. -/
theorem i2h_error {H I H' : Matrix (Fin 3) (Fin 3) ℝ} (h : I2HFloat fl I H') {S : ℝ} (hS : ∑ i, |H i i| ≤ S) (hS' : S ≤ 10 ^ 90)
    (hI : ∀ i, |I i i - (H.trace - H i i)| ≤ 71 / 10 * (u * S) + 1 / 10 ^ 189) :
    (∀ i j, i ≠ j → Binary64 (I i j) → |I i j| ≤ 10 ^ 90 → H' i j = -I i j) ∧
    ∀ i, |H' i i - H i i| ≤ 30 * (u * S) + 1 / 10 ^ 180 := by
  obtain ⟨t, ht, hH⟩ := h
  have hS0 : 0 ≤ S := (Finset.sum_nonneg fun i _ => abs_nonneg (H i i)).trans hS
  have hE0 : 0 ≤ u * S := mul_nonneg u_pos.le hS0
  have hES : u * S ≤ 1 / 10 ^ 5 * S := mul_le_mul_of_nonneg_right (u_le.trans (by norm_num)) hS0
  have htrH : H.trace = H 0 0 + H 1 1 + H 2 2 := by simp [Matrix.trace, Fin.sum_univ_three]
  have htrI : I.trace = I 0 0 + I 1 1 + I 2 2 := by simp [Matrix.trace, Fin.sum_univ_three]
  have hsum : |H 0 0| + |H 1 1| + |H 2 2| ≤ S := by rwa [Fin.sum_univ_three] at hS
  have d0 := hI 0
  have d1 := hI 1
  have d2 := hI 2
  rw [htrH] at d0 d1 d2
  have hIS : ∑ i, |I i i| ≤ 21 / 10 * S + 1 / 10 ^ 188 := by
    rw [Fin.sum_univ_three]
    have a0 : |I 0 0| ≤ |H 1 1| + |H 2 2| + (71 / 10 * (u * S) + 1 / 10 ^ 189) := by
      rw [abs_le] at d0 ⊢
      constructor <;> linarith [neg_abs_le (H 1 1), neg_abs_le (H 2 2), le_abs_self (H 1 1), le_abs_self (H 2 2)]
    have a1 : |I 1 1| ≤ |H 0 0| + |H 2 2| + (71 / 10 * (u * S) + 1 / 10 ^ 189) := by
      rw [abs_le] at d1 ⊢
      constructor <;> linarith [neg_abs_le (H 0 0), neg_abs_le (H 2 2), le_abs_self (H 0 0), le_abs_self (H 2 2)]
    have a2 : |I 2 2| ≤ |H 0 0| + |H 1 1| + (71 / 10 * (u * S) + 1 / 10 ^ 189) := by
      rw [abs_le] at d2 ⊢
      constructor <;> linarith [neg_abs_le (H 0 0), neg_abs_le (H 1 1), le_abs_self (H 0 0), le_abs_self (H 1 1)]
    have h9 : 3 * (1 / 10 ^ 189) ≤ (1 / 10 ^ 188 : ℝ) := by norm_num
    linarith
  have hB : 21 / 10 * S + 1 / 10 ^ 188 ≤ (10 ^ 100 : ℝ) := by
    have : 21 / 10 * 10 ^ 90 + 1 / 10 ^ 188 ≤ (10 ^ 100 : ℝ) := by norm_num
    linarith
  obtain ⟨h1, h2⟩ := trace_error hfl ht hIS hB
  -- the trace
  have h3 : |t - 2 * H.trace| ≤ 34 * (u * S) + 1 / 10 ^ 187 := by
    have h4 : u * (21 / 10 * S + 1 / 10 ^ 188) ≤ 21 / 10 * (u * S) + 1 / 10 ^ 188 := by
      have : u * (1 / 10 ^ 188) ≤ 1 * (1 / 10 ^ 188) := mul_le_mul_of_nonneg_right (u_le.trans (by norm_num)) (by norm_num)
      linarith
    have h5 : 6 * (1 / 10 ^ 188) + 1 / 10 ^ 190 + 3 * (1 / 10 ^ 189) ≤ (1 / 10 ^ 187 : ℝ) := by norm_num
    rw [htrI] at h1
    rw [htrH]
    rw [abs_le] at h1 d0 d1 d2 ⊢
    constructor <;> linarith
  have htrS : |H.trace| ≤ 1 * S := by
    rw [one_mul]; exact (Finset.abs_sum_le_sum_abs _ _).trans hS
  obtain ⟨h6, h7, h7'⟩ := fl_step hfl (S := S) (x := 1 / 2 * t) (y := H.trace) (e := 17) (a := 1) (τ := 1 / 10 ^ 187) hS0
    (hS'.trans (by norm_num)) (by
      have : 1 / 2 * t - H.trace = 1 / 2 * (t - 2 * H.trace) := by ring
      rw [this, abs_mul, abs_of_pos (by norm_num : (0 : ℝ) < 1 / 2)]
      have h8 : (0 : ℝ) < 1 / 10 ^ 187 := by norm_num
      linarith) htrS (by norm_num) (by norm_num) (by norm_num) (by norm_num) (by norm_num)
  refine ⟨fun i j hij hb hb' => ?_, fun i => ?_⟩
  · rw [hH, Matrix.one_apply_ne hij, mul_zero, fl_zero hfl, zero_sub]
    exact fl_same hfl (binary64_neg hb) (by rw [abs_neg]; exact hb'.trans (by norm_num))
  · rw [hH, Matrix.one_apply_eq, mul_one, fl_same hfl (fl_binary64 hfl h7') h7]
    have hi : |H i i| ≤ 1 * S := by
      rw [one_mul]
      exact (Finset.single_le_sum (f := fun i => |H i i|) (fun _ _ => abs_nonneg _) (Finset.mem_univ i)).trans hS
    have h8 := (fl_step hfl (S := S) (x := fl (1 / 2 * t) - I i i) (y := H i i) (e := 26) (a := 1) (τ := 1 / 10 ^ 185) hS0
      (hS'.trans (by norm_num)) (by
        have h9 := hI i
        have h10 : 2 * (1 / 10 ^ 187) + 1 / 10 ^ 200 + 1 / 10 ^ 189 ≤ (1 / 10 ^ 185 : ℝ) := by norm_num
        rw [abs_le] at h9 h6 ⊢
        constructor <;> linarith) hi (by norm_num) (by norm_num) (by norm_num) (by norm_num) (by norm_num)).1
    have h11 : 2 * (1 / 10 ^ 185) + 1 / 10 ^ 200 ≤ (1 / 10 ^ 180 : ℝ) := by norm_num
    linarith

/-- C114: In binary64 the second moments of `InertialParameters.from_vec(p.vec)` differ from those of `p` on the diagonal only, and
there by at most `30 · 2⁻⁵³` times the sum of the diagonal entries, in whichever order the traces are summed. -/
theorem C114_second_moments {p q : IP ℝ} {θ : Fin 10 → ℝ} (hv : p.vecFloat fl θ) (hq : IP.fromVecFloat fl θ q) (hsym : p.Hᵀ = p.H)
    (hb : ∀ i j, Binary64 (p.H i j)) (hs : ∀ i j, |p.H i j| ≤ 10 ^ 80) :
    (∀ i j, i ≠ j → q.H i j = p.H i j) ∧
    ∀ i, |q.H i i - p.H i i| ≤ 30 * 2 ^ (-53 : ℤ) * ∑ k, |p.H k k| + 1 / 10 ^ 180 := by
  obtain ⟨I, hI, rfl⟩ := hv
  obtain ⟨-, -, -, -, h⟩ := hq
  have hS' : ∑ i, |p.H i i| ≤ 10 ^ 90 := by
    rw [Fin.sum_univ_three]
    have : 3 * 10 ^ 80 ≤ (10 ^ 90 : ℝ) := by norm_num
    linarith [hs 0 0, hs 1 1, hs 2 2]
  obtain ⟨h1, h2⟩ := h2i_error hfl hI le_rfl hS'
  have hoff : ∀ i j, i ≠ j → I i j = -p.H i j := fun i j hij => h1 i j hij (hb i j) ((hs i j).trans (by norm_num))
  have hsy : ∀ i j, p.H j i = p.H i j := fun i j => by conv_rhs => rw [← hsym, Matrix.transpose_apply]
  -- the matrix that `from_vec` assembles is `I`
  have hIm : (!![I 0 0, I 0 1, I 0 2; I 0 1, I 1 1, I 1 2; I 0 2, I 1 2, I 2 2] : Matrix (Fin 3) (Fin 3) ℝ) = I := by
    have e1 : I 1 0 = I 0 1 := by rw [hoff 1 0 (by decide), hoff 0 1 (by decide), hsy]
    have e2 : I 2 0 = I 0 2 := by rw [hoff 2 0 (by decide), hoff 0 2 (by decide), hsy]
    have e3 : I 2 1 = I 1 2 := by rw [hoff 2 1 (by decide), hoff 1 2 (by decide), hsy]
    ext i j
    fin_cases i <;> fin_cases j <;> simp [e1, e2, e3]
  have h' : I2HFloat fl I q.H := by
    rw [← hIm]; exact h
  obtain ⟨h3, h4⟩ := i2h_error hfl h' le_rfl hS' h2
  refine ⟨fun i j hij => ?_, fun i => ?_⟩
  · rw [h3 i j hij (by rw [hoff i j hij]; exact binary64_neg (hb i j))
      (by rw [hoff i j hij, abs_neg]; exact (hs i j).trans (by norm_num)), hoff i j hij, neg_neg]
  · refine (h4 i).trans (le_of_eq ?_)
    rw [show (2 : ℝ) ^ (-53 : ℤ) = u from rfl]; ring

/-- A product with the mass, a division by it, and a product again. -/
theorem mass_error {m c : ℝ} (hm1 : 1 / 10 ^ 30 ≤ m) (hm2 : m ≤ 10 ^ 30) (hc : |c| ≤ 10 ^ 30) :
    |fl (fl (m * c) / m) - c| ≤ 3 * (u * |c|) + 1 / 10 ^ 160 ∧
    |fl (m * fl (fl (m * c) / m)) - m * c| ≤ 5 * (u * (m * |c|)) + 1 / 10 ^ 120 := by
  have hu := u_pos
  have hu' : u ≤ 1 / 10 ^ 5 := u_le.trans (by norm_num)
  have hm : 0 < m := lt_of_lt_of_le (by norm_num) hm1
  have hc0 := abs_nonneg c
  have hmc : |m * c| = m * |c| := by rw [abs_mul, abs_of_pos hm]
  have hmcB : m * |c| ≤ 10 ^ 60 := by
    have : m * |c| ≤ 10 ^ 30 * 10 ^ 30 := mul_le_mul hm2 hc hc0 (by norm_num)
    exact this.trans (by norm_num)
  have hmc0 : 0 ≤ m * |c| := mul_nonneg hm.le hc0
  have hinv : 1 / m ≤ 10 ^ 30 := by
    rw [div_le_iff₀ hm]
    have : (10 : ℝ) ^ 30 * (1 / 10 ^ 30) ≤ 10 ^ 30 * m := mul_le_mul_of_nonneg_left hm1 (by norm_num)
    have h : (10 : ℝ) ^ 30 * (1 / 10 ^ 30) = 1 := by norm_num
    linarith
  -- the first moment
  have h1 := fl_near hfl (x := m * c) (by rw [hmc]; exact hmcB.trans (by norm_num))
  rw [hmc] at h1
  generalize fl (m * c) = h at h1 ⊢
  have h2 : |h / m - c| ≤ u * |c| + 1 / 10 ^ 170 := by
    have e : h / m - c = (h - m * c) * (1 / m) := by field_simp
    rw [e, abs_mul, abs_of_pos (by positivity : 0 < 1 / m)]
    have h3 : |h - m * c| * (1 / m) ≤ (u * (m * |c|) + 1 / 10 ^ 200) * (1 / m) :=
      mul_le_mul_of_nonneg_right h1 (by positivity)
    have h4 : (u * (m * |c|) + 1 / 10 ^ 200) * (1 / m) = u * |c| + 1 / 10 ^ 200 * (1 / m) := by field_simp
    have h5 : 1 / 10 ^ 200 * (1 / m) ≤ 1 / 10 ^ 200 * 10 ^ 30 := mul_le_mul_of_nonneg_left hinv (by norm_num)
    have h6 : (1 : ℝ) / 10 ^ 200 * 10 ^ 30 = 1 / 10 ^ 170 := by norm_num
    linarith
  obtain ⟨h3, h4, -⟩ := fl_step hfl (S := |c|) (x := h / m) (y := c) (e := 1) (a := 1) (τ := 1 / 10 ^ 170) hc0
    (hc.trans (by norm_num)) (by rw [one_mul]; exact h2) (by rw [one_mul]) (by norm_num) (by norm_num) (by norm_num) (by norm_num)
    (by norm_num)
  have hE : 0 ≤ u * |c| := by positivity
  have hτ : 2 * (1 / 10 ^ 170) + 1 / 10 ^ 200 ≤ (1 / 10 ^ 160 : ℝ) := by norm_num
  have h5 : |fl (h / m) - c| ≤ (2 + 1 / 100) * (u * |c|) + 1 / 10 ^ 160 := by linarith
  refine ⟨by linarith, ?_⟩
  have h6 : |m * fl (h / m) - m * c| ≤ (2 + 1 / 100) * (u * (m * |c|)) + 1 / 10 ^ 130 := by
    rw [← mul_sub, abs_mul, abs_of_pos hm]
    have h7 := mul_le_mul_of_nonneg_left h5 hm.le
    have h8 : m * (1 / 10 ^ 160) ≤ 10 ^ 30 * (1 / 10 ^ 160) := mul_le_mul_of_nonneg_right hm2 (by norm_num)
    have h9 : (10 : ℝ) ^ 30 * (1 / 10 ^ 160) = 1 / 10 ^ 130 := by norm_num
    have h10 : m * ((2 + 1 / 100) * (u * |c|) + 1 / 10 ^ 160) = (2 + 1 / 100) * (u * (m * |c|)) + m * (1 / 10 ^ 160) := by ring
    linarith
  have h7 := (fl_step hfl (S := m * |c|) (x := m * fl (h / m)) (y := m * c) (e := 2 + 1 / 100) (a := 1) (τ := 1 / 10 ^ 130) hmc0
    (hmcB.trans (by norm_num)) h6 (by rw [one_mul, hmc]) (by norm_num) (by norm_num) (by norm_num) (by norm_num)
    (by norm_num)).1
  have hτ' : 2 * (1 / 10 ^ 130) + 1 / 10 ^ 200 ≤ (1 / 10 ^ 120 : ℝ) := by norm_num
  have hE' : 0 ≤ u * (m * |c|) := by positivity
  linarith

/-- C114: The mass is exact, the center of mass of `InertialParameters.from_vec(p.vec)` is within a relative error of `3 · 2⁻⁵³`, and
the first moments computed from it are within a relative error of `5 · 2⁻⁵³`, apart from underflow. -/
theorem C114_center_of_mass {p q : IP ℝ} {θ : Fin 10 → ℝ} (hv : p.vecFloat fl θ) (hq : IP.fromVecFloat fl θ q)
    (hm1 : 1 / 10 ^ 30 ≤ p.mass) (hm2 : p.mass ≤ 10 ^ 30) (hc : ∀ i, |p.com i| ≤ 10 ^ 30) :
    q.mass = p.mass ∧ ∀ i, |q.com i - p.com i| ≤ 3 * 2 ^ (-53 : ℤ) * |p.com i| + 1 / 10 ^ 160 ∧
      |q.JFloat fl i.castSucc 3 - p.mass * p.com i| ≤ 5 * 2 ^ (-53 : ℤ) * (p.mass * |p.com i|) + 1 / 10 ^ 120 := by
  obtain ⟨I, -, rfl⟩ := hv
  obtain ⟨-, -, hm, hcom, -⟩ := hq
  have hm' : q.mass = p.mass := hm
  have hcom' : ∀ i, q.com i = fl (fl (p.mass * p.com i) / p.mass) := fun i => by
    rw [hcom i]
    fin_cases i <;> rfl
  refine ⟨hm', fun i => ?_⟩
  obtain ⟨h1, h2⟩ := mass_error hfl hm1 hm2 (hc i)
  have hu : (2 : ℝ) ^ (-53 : ℤ) = u := rfl
  have hJ : q.JFloat fl i.castSucc 3 = fl (p.mass * fl (fl (p.mass * p.com i) / p.mass)) := by
    have h3 : q.JFloat fl i.castSucc 3 = q.hFloat fl i := by
      fin_cases i <;> rfl
    rw [h3, IP.hFloat, hm', hcom']
  rw [hu, hJ, hcom']
  exact ⟨h1.trans (le_of_eq (by ring)), h2.trans (le_of_eq (by ring))⟩

omit hfl in
theorem diag_change {d e y z : ℝ} (h : |d - e| ≤ y) : (e - y) * z ^ 2 ≤ d * z ^ 2 :=
  mul_le_mul_of_nonneg_right (by linarith [(abs_le.mp h).1]) (sq_nonneg _)

omit hfl in
theorem prod_change {d e y z s : ℝ} (h : |d - e| ≤ y) : 2 * s * (e * z) - y * (z ^ 2 + s ^ 2) ≤ 2 * s * (d * z) := by
  have h5 : |(d - e) * (2 * s * z)| ≤ y * (z ^ 2 + s ^ 2) := by
    rw [abs_mul]
    refine mul_le_mul h ?_ (abs_nonneg _) ((abs_nonneg _).trans h)
    rw [abs_le]
    constructor <;> nlinarith [sq_nonneg (s + z), sq_nonneg (s - z)]
  have := (abs_le.mp h5).1
  linarith

/-- C114: Parameters whose pseudo-inertia matrix has no eigenvalue below `10⁻¹⁴` times the sum of its entries on the diagonal and of
the first moments stay consistent when they are converted to a vector and back. -/
theorem C114_consistent {p q : IP ℝ} {θ : Fin 10 → ℝ} (hv : p.vecFloat fl θ) (hq : IP.fromVecFloat fl θ q) (hsym : p.Hᵀ = p.H)
    (hb : ∀ i j, Binary64 (p.H i j)) (hs : ∀ i j, |p.H i j| ≤ 10 ^ 80)
    (hm1 : 1 / 10 ^ 30 ≤ p.mass) (hm2 : p.mass ≤ 10 ^ 30) (hc : ∀ i, |p.com i| ≤ 10 ^ 30)
    (hmargin : ∀ v : Fin 4 → ℝ,
      (1 / 10 ^ 14 * (∑ k, |p.H k k| + ∑ k, p.mass * |p.com k|) + 1 / 10 ^ 100) * (v ⬝ᵥ v) ≤ v ⬝ᵥ (p.J *ᵥ v)) :
    Spec.PSD (q.JFloat fl) := by
  obtain ⟨h1, h2⟩ := C114_second_moments hfl hv hq hsym hb hs
  obtain ⟨h3, h4⟩ := C114_center_of_mass hfl hv hq hm1 hm2 hc
  have hHsym : q.Hᵀ = q.H := by
    ext i j
    rw [Matrix.transpose_apply]
    by_cases hij : i = j
    · rw [hij]
    · rw [h1 j i (Ne.symm hij), h1 i j hij]
      conv_rhs => rw [← hsym, Matrix.transpose_apply]
  refine ⟨by unfold IP.JFloat; rw [bordered_transpose, hHsym], fun v => ?_⟩
  obtain ⟨x, t, rfl⟩ : ∃ (x : Fin 3 → ℝ) (t : ℝ), v = Fin.snoc (α := fun _ => ℝ) x t :=
    ⟨Fin.init v, v (Fin.last 3), (Fin.snoc_init_self v).symm⟩
  have hmar := hmargin (Fin.snoc (α := fun _ => ℝ) x t)
  unfold IP.JFloat IP.J at *
  rw [bordered_quad] at hmar ⊢
  have hh : ∀ i : Fin 3, |q.hFloat fl i - p.mass * p.com i| ≤ 5 * 2 ^ (-53 : ℤ) * (p.mass * |p.com i|) + 1 / 10 ^ 120 := fun i => by
    have := (h4 i).2
    have h5 : bordered q.H (q.hFloat fl) (q.hFloat fl) q.mass i.castSucc 3 = q.hFloat fl i := by
      fin_cases i <;> rfl
    rwa [h5] at this
  have hu : (2 : ℝ) ^ (-53 : ℤ) ≤ 112 / 10 ^ 18 := u_le
  have hu0 : (0 : ℝ) < (2 : ℝ) ^ (-53 : ℤ) := by positivity
  generalize (2 : ℝ) ^ (-53 : ℤ) = w at *
  rw [snoc_dotProduct] at hmar
  set S := ∑ k, |p.H k k| with hS
  have hS0 : 0 ≤ S := Finset.sum_nonneg fun k _ => abs_nonneg _
  have hm0 : 0 < p.mass := lt_of_lt_of_le (by norm_num) hm1
  -- the changes of the entries
  have hM0 : ∀ i, 0 ≤ p.mass * |p.com i| := fun i => mul_nonneg hm0.le (abs_nonneg _)
  have hD : 30 * w * S + 1 / 10 ^ 180 ≤ 1 / 2 / 10 ^ 14 * S + 1 / 10 ^ 110 := by
    have : w * S ≤ 112 / 10 ^ 18 * S := mul_le_mul_of_nonneg_right hu hS0
    have h' : (1 : ℝ) / 10 ^ 180 ≤ 1 / 10 ^ 110 := by norm_num
    norm_num at this h' ⊢
    linarith
  have hE : ∀ i, |q.hFloat fl i - p.mass * p.com i| ≤ 1 / 2 / 10 ^ 14 * (p.mass * |p.com i|) + 1 / 10 ^ 110 := fun i => by
    have : w * (p.mass * |p.com i|) ≤ 112 / 10 ^ 18 * (p.mass * |p.com i|) := mul_le_mul_of_nonneg_right hu (hM0 i)
    have h' : (1 : ℝ) / 10 ^ 120 ≤ 1 / 10 ^ 110 := by norm_num
    have h6 := hh i
    have h7 := hM0 i
    norm_num at this h' h6 ⊢
    linarith
  have k00 := (h2 0).trans hD
  have k11 := (h2 1).trans hD
  have k22 := (h2 2).trans hD
  have e0 := hE 0
  have e1 := hE 1
  have e2 := hE 2
  have o01 := h1 0 1 (by decide)
  have o02 := h1 0 2 (by decide)
  have o10 := h1 1 0 (by decide)
  have o12 := h1 1 2 (by decide)
  have o20 := h1 2 0 (by decide)
  have o21 := h1 2 1 (by decide)
  simp only [dotProduct, Matrix.mulVec, Fin.sum_univ_three, IP.h, Pi.smul_apply, smul_eq_mul] at hmar ⊢
  rw [h3, o01, o02, o10, o12, o20, o21]
  have m0 := hM0 0
  have m1 := hM0 1
  have m2 := hM0 2
  have q0 := diag_change (z := x 0) k00
  have q1 := diag_change (z := x 1) k11
  have q2 := diag_change (z := x 2) k22
  have r0 := prod_change (z := x 0) (s := t) e0
  have r1 := prod_change (z := x 1) (s := t) e1
  have r2 := prod_change (z := x 2) (s := t) e2
  generalize p.mass * |p.com 0| = M0 at *
  generalize p.mass * |p.com 1| = M1 at *
  generalize p.mass * |p.com 2| = M2 at *
  have z0 := sq_nonneg (x 0)
  have z1 := sq_nonneg (x 1)
  have z2 := sq_nonneg (x 2)
  have zt := sq_nonneg t
  have hbound : (1 / 2 / 10 ^ 14 * S + 1 / 10 ^ 110) * ((x 0) ^ 2 + (x 1) ^ 2 + (x 2) ^ 2) +
      (1 / 2 / 10 ^ 14 * M0 + 1 / 10 ^ 110) * ((x 0) ^ 2 + t ^ 2) +
      (1 / 2 / 10 ^ 14 * M1 + 1 / 10 ^ 110) * ((x 1) ^ 2 + t ^ 2) +
      (1 / 2 / 10 ^ 14 * M2 + 1 / 10 ^ 110) * ((x 2) ^ 2 + t ^ 2) ≤
      (1 / 10 ^ 14 * (S + (M0 + M1 + M2)) + 1 / 10 ^ 100) * ((x 0) ^ 2 + (x 1) ^ 2 + (x 2) ^ 2 + t ^ 2) := by
    have n1 : (1 / 2 / 10 ^ 14 * S + 1 / 10 ^ 110) * ((x 0) ^ 2 + (x 1) ^ 2 + (x 2) ^ 2) ≤
      (1 / 2 / 10 ^ 14 * S + 1 / 10 ^ 110) * ((x 0) ^ 2 + (x 1) ^ 2 + (x 2) ^ 2 + t ^ 2) :=
      mul_le_mul_of_nonneg_left (by linarith) (by positivity)
    have n2 : (1 / 2 / 10 ^ 14 * M0 + 1 / 10 ^ 110) * ((x 0) ^ 2 + t ^ 2) ≤
      (1 / 2 / 10 ^ 14 * M0 + 1 / 10 ^ 110) * ((x 0) ^ 2 + (x 1) ^ 2 + (x 2) ^ 2 + t ^ 2) :=
      mul_le_mul_of_nonneg_left (by linarith) (by positivity)
    have n3 : (1 / 2 / 10 ^ 14 * M1 + 1 / 10 ^ 110) * ((x 1) ^ 2 + t ^ 2) ≤
      (1 / 2 / 10 ^ 14 * M1 + 1 / 10 ^ 110) * ((x 0) ^ 2 + (x 1) ^ 2 + (x 2) ^ 2 + t ^ 2) :=
      mul_le_mul_of_nonneg_left (by linarith) (by positivity)
    have n4 : (1 / 2 / 10 ^ 14 * M2 + 1 / 10 ^ 110) * ((x 2) ^ 2 + t ^ 2) ≤
      (1 / 2 / 10 ^ 14 * M2 + 1 / 10 ^ 110) * ((x 0) ^ 2 + (x 1) ^ 2 + (x 2) ^ 2 + t ^ 2) :=
      mul_le_mul_of_nonneg_left (by linarith) (by positivity)
    have n5 : (1 / 2 / 10 ^ 14 * (S + (M0 + M1 + M2)) + 4 * (1 / 10 ^ 110)) * ((x 0) ^ 2 + (x 1) ^ 2 + (x 2) ^ 2 + t ^ 2) ≤
        (1 / 10 ^ 14 * (S + (M0 + M1 + M2)) + 1 / 10 ^ 100) * ((x 0) ^ 2 + (x 1) ^ 2 + (x 2) ^ 2 + t ^ 2) := by
      refine mul_le_mul_of_nonneg_right ?_ (by positivity)
      have : 4 * (1 / 10 ^ 110) ≤ (1 / 10 ^ 100 : ℝ) := by norm_num
      have h8 : 0 ≤ S + (M0 + M1 + M2) := by linarith
      have h9 : (1 : ℝ) / 2 / 10 ^ 14 * (S + (M0 + M1 + M2)) ≤ 1 / 10 ^ 14 * (S + (M0 + M1 + M2)) :=
        mul_le_mul_of_nonneg_right (by norm_num) h8
      linarith
    linarith
  clear k00 k11 k22 e0 e1 e2 hD hE hh hmargin h1 h2 h4 o01 o02 o10 o12 o20 o21
  linarith

omit hfl in
theorem flSum_exists (x y z : ℝ) : FlSum fl [x, y, z] (fl (fl (x + y) + z)) :=
  .add (l := [x, y]) (by simp) (by simp) (.add (l := [x]) (by simp) (by simp) (.single x) (.single y)) (.single z)

omit hfl in
/-- C114: For every positive mass the round trip has a result. -/
theorem C114_result (p : IP ℝ) (hm : 0 < p.mass) : ∃ θ q, p.vecFloat fl θ ∧ IP.fromVecFloat fl θ q := by
  have h2i : ∀ H, ∃ I, H2IFloat fl H I := fun H =>
    ⟨Matrix.of fun i j => fl (fl (fl (fl (H 0 0 + H 1 1) + H 2 2) * (1 : Matrix (Fin 3) (Fin 3) ℝ) i j) - H i j), _,
      flSum_exists _ _ _, fun _ _ => rfl⟩
  have i2h : ∀ I, ∃ H, I2HFloat fl I H := fun I =>
    ⟨Matrix.of fun i j => fl (fl (fl (1 / 2 * fl (fl (I 0 0 + I 1 1) + I 2 2)) * (1 : Matrix (Fin 3) (Fin 3) ℝ) i j) - I i j), _,
      flSum_exists _ _ _, fun _ _ => rfl⟩
  obtain ⟨I, hI⟩ := h2i p.H
  have hfrom : ∀ θ : Fin 10 → ℝ, 0 < θ 0 → ∃ q, IP.fromVecFloat fl θ q := fun θ hθ => by
    obtain ⟨H, hH⟩ := i2h !![θ 4, θ 5, θ 6; θ 5, θ 7, θ 8; θ 6, θ 8, θ 9]
    exact ⟨⟨θ 0, fun i => fl ((![θ 1, θ 2, θ 3] : Fin 3 → ℝ) i / θ 0), H⟩, hθ.le, hθ.ne', rfl, fun _ => rfl, hH⟩
  obtain ⟨q, hq⟩ := hfrom ![p.mass, p.hFloat fl 0, p.hFloat fl 1, p.hFloat fl 2, I 0 0, I 0 1, I 0 2, I 1 1, I 1 2, I 2 2] hm
  exact ⟨_, q, ⟨I, hI, rfl⟩, hq⟩

/-- A small number is lost in a sum. -/
theorem fl_absorb {x ε : ℝ} (hx : x = 1 ∨ x = 2) (hε : |ε| ≤ 2 ^ (-60 : ℤ)) : fl (x + ε) = x := by
  have h60 : (2 : ℝ) ^ (-60 : ℤ) ≤ 1 / 10 ^ 18 := by norm_num
  have hb : |x + ε| ≤ 10 ^ 150 := by
    refine (abs_add_le _ _).trans ?_
    have h := hε.trans h60
    rcases hx with rfl | rfl <;> norm_num at h ⊢ <;> linarith
  have hd : |x - (x + ε)| = |ε| := by rw [sub_add_cancel_left, abs_neg]
  rcases hx with rfl | rfl
  · refine fl_eq_of_near hfl (-1) (le_range hb) (by simpa using binary64_int 1 (by norm_num)) (by norm_num) ?_
    rw [hd]; exact hε.trans_lt (by norm_num)
  · refine fl_eq_of_near hfl 0 (le_range hb) (by simpa using binary64_int 2 (by norm_num)) (by norm_num) ?_
    rw [hd]; exact hε.trans_lt (by norm_num)

omit hfl in
/-- A thin plate near the origin. -/
noncomputable def thinPlate : IP ℝ := ⟨1, ![0, 0, 2 ^ (-31 : ℤ)], Matrix.diagonal ![1, 1, 2 ^ (-60 : ℤ)]⟩

/-- C114: The margin of `C114_consistent` is needed: the parameters of a plate of mass 1, with second moments 1, 1 and `2⁻⁶⁰` and its
center of mass `2⁻³¹` above the origin, are floats with a positive definite pseudo-inertia matrix, which is computed without error.
`from_vec(p.vec)` makes them inconsistent, in whichever order the traces are summed. -/
theorem C114_thin_plate : (∀ i j, Binary64 (thinPlate.H i j)) ∧ (∀ i, Binary64 (thinPlate.com i)) ∧
    thinPlate.JFloat fl = thinPlate.J ∧ (∀ v : Fin 4 → ℝ, v ≠ 0 → 0 < v ⬝ᵥ (thinPlate.J *ᵥ v)) ∧
    ∀ θ q, thinPlate.vecFloat fl θ → IP.fromVecFloat fl θ q →
      q.H 2 2 = 0 ∧ q.com 2 = 2 ^ (-31 : ℤ) ∧ ¬ Spec.PSD (q.JFloat fl) := by
  have b1 : Binary64 1 := by simpa using binary64_int 1 (by norm_num)
  have b0 : Binary64 0 := by simpa using binary64_int 0 (by norm_num)
  have b31 : Binary64 ((2 : ℝ) ^ (-31 : ℤ)) := ⟨1, -31, by norm_num, by norm_num, by norm_num, by simp⟩
  have b60 : Binary64 ((2 : ℝ) ^ (-60 : ℤ)) := ⟨1, -60, by norm_num, by norm_num, by norm_num, by simp⟩
  have f31 : fl ((2 : ℝ) ^ (-31 : ℤ)) = 2 ^ (-31 : ℤ) := fl_same hfl b31 (by norm_num)
  have f1 : fl 1 = 1 := fl_same hfl b1 (by norm_num)
  have f2 : fl 2 = 2 := by simpa using fl_int hfl 2 (by norm_num)
  have f3 : fl 3 = 3 := by simpa using fl_int hfl 3 (by norm_num)
  have f4 : fl 4 = 4 := by simpa using fl_int hfl 4 (by norm_num)
  have f0 := fl_zero hfl
  have hh : thinPlate.hFloat fl = ![0, 0, 2 ^ (-31 : ℤ)] := by
    funext i
    fin_cases i <;> simp only [IP.hFloat, thinPlate, one_mul] <;> simp [f0]
    simpa using f31
  have hJ : thinPlate.JFloat fl = thinPlate.J := by
    unfold IP.JFloat IP.J
    rw [hh]
    have : thinPlate.h = ![0, 0, 2 ^ (-31 : ℤ)] := by simp [IP.h, thinPlate]
    rw [this]
  refine ⟨fun i j => ?_, fun i => ?_, hJ, fun v hv => ?_, ?_⟩
  · by_cases h : i = j
    · subst h
      change Binary64 (Matrix.diagonal _ i i)
      rw [Matrix.diagonal_apply_eq]
      fin_cases i
      · exact b1
      · exact b1
      · exact b60
    · change Binary64 (Matrix.diagonal _ i j)
      rw [Matrix.diagonal_apply_ne _ h]
      exact b0
  · fin_cases i
    · exact b0
    · exact b0
    · exact b31
  · obtain ⟨x, t, rfl⟩ : ∃ (x : Fin 3 → ℝ) (t : ℝ), v = Fin.snoc (α := fun _ => ℝ) x t :=
      ⟨Fin.init v, v (Fin.last 3), (Fin.snoc_init_self v).symm⟩
    unfold IP.J
    rw [bordered_quad]
    have hq : x ⬝ᵥ (thinPlate.H *ᵥ x) + 2 * t * (thinPlate.h ⬝ᵥ x) + thinPlate.mass * t ^ 2 =
        x 0 ^ 2 + x 1 ^ 2 + 3 * (2 ^ (-31 : ℤ) * x 2) ^ 2 + (t + 2 ^ (-31 : ℤ) * x 2) ^ 2 := by
      simp only [thinPlate, IP.h, dotProduct, Matrix.mulVec_diagonal, Fin.sum_univ_three]
      simp
      norm_num
      ring
    rw [hq]
    by_contra hle
    have s0 := sq_nonneg (x 0)
    have s1 := sq_nonneg (x 1)
    have s2 := sq_nonneg (2 ^ (-31 : ℤ) * x 2)
    have s3 := sq_nonneg (t + 2 ^ (-31 : ℤ) * x 2)
    have e0 : x 0 = 0 := pow_eq_zero_iff (two_ne_zero) |>.mp (by linarith)
    have e1 : x 1 = 0 := pow_eq_zero_iff (two_ne_zero) |>.mp (by linarith)
    have e2 : 2 ^ (-31 : ℤ) * x 2 = 0 := pow_eq_zero_iff (two_ne_zero) |>.mp (by linarith)
    have e3 : t + 2 ^ (-31 : ℤ) * x 2 = 0 := pow_eq_zero_iff (two_ne_zero) |>.mp (by linarith)
    rw [e2, add_zero] at e3
    have e2' : x 2 = 0 := (mul_eq_zero.mp e2).resolve_left (by positivity)
    apply hv
    funext i
    refine Fin.lastCases ?_ (fun j => ?_) i
    · rw [Fin.snoc_last]; exact e3
    · rw [Fin.snoc_castSucc]
      fin_cases j
      · exact e0
      · exact e1
      · exact e2'
  · rintro θ q ⟨I, ⟨t, ht, hI⟩, rfl⟩ ⟨-, -, hm, hcom, t', ht', hH⟩
    -- the trace
    have htr : t = 2 := by
      obtain ⟨x, y, z, hp, rfl⟩ := flSum_three ht rfl
      have hset : [thinPlate.H 0 0, thinPlate.H 1 1, thinPlate.H 2 2] = [1, 1, 2 ^ (-60 : ℤ)] := by
        simp [thinPlate]
      rw [hset] at hp
      have hmem : ∀ w ∈ [x, y, z], w = 1 ∨ w = 2 ^ (-60 : ℤ) := fun w hw => by simpa using hp.mem_iff.mp hw
      have hsum := hp.sum_eq
      simp only [List.sum_cons, List.sum_nil, add_zero] at hsum
      have hab : |(2 : ℝ) ^ (-60 : ℤ)| ≤ 2 ^ (-60 : ℤ) := by rw [abs_of_pos (by positivity)]
      have a1 := fl_absorb hfl (Or.inl rfl : (1 : ℝ) = 1 ∨ (1 : ℝ) = 2) hab
      have a2 := fl_absorb hfl (Or.inr rfl : (2 : ℝ) = 1 ∨ (2 : ℝ) = 2) hab
      have a1' : fl (2 ^ (-60 : ℤ) + 1) = 1 := by rw [add_comm]; exact a1
      have two : (1 : ℝ) + 1 = 2 := by norm_num
      have hlt : (2 : ℝ) ^ (-60 : ℤ) < 1 / 4 := by norm_num
      have hgt : (0 : ℝ) < 2 ^ (-60 : ℤ) := by positivity
      generalize (2 : ℝ) ^ (-60 : ℤ) = ε at *
      rcases hmem x (by simp) with rfl | rfl <;> rcases hmem y (by simp) with rfl | rfl <;>
        rcases hmem z (by simp) with rfl | rfl <;> first
        | (exfalso; linarith)
        | simp only [two, f2, a1, a2, a1']
    have hI0 : I 0 0 = 1 := by
      rw [hI, htr, Matrix.one_apply_eq, mul_one, f2]
      have : (2 : ℝ) - thinPlate.H 0 0 = 1 := by simp [thinPlate]; norm_num
      rw [this, f1]
    have hI1 : I 1 1 = 1 := by
      rw [hI, htr, Matrix.one_apply_eq, mul_one, f2]
      have : (2 : ℝ) - thinPlate.H 1 1 = 1 := by simp [thinPlate]; norm_num
      rw [this, f1]
    have hI2 : I 2 2 = 2 := by
      rw [hI, htr, Matrix.one_apply_eq, mul_one, f2]
      have : (2 : ℝ) - thinPlate.H 2 2 = 2 + -2 ^ (-60 : ℤ) := by simp [thinPlate]; ring
      rw [this]
      exact fl_absorb hfl (Or.inr rfl) (by rw [abs_neg, abs_of_pos (by positivity)])
    have htr' : t' = 4 := by
      obtain ⟨x, y, z, hp, rfl⟩ := flSum_three ht' rfl
      have hp' : [x, y, z].Perm [1, 1, 2] := by
        have h1 : [I 0 0, I 1 1, I 2 2] = [1, 1, 2] := by rw [hI0, hI1, hI2]
        rw [← h1]
        exact hp
      have hmem : ∀ w ∈ [x, y, z], w = 1 ∨ w = 2 := fun w hw => by simpa using hp'.mem_iff.mp hw
      have hsum := hp'.sum_eq
      simp only [List.sum_cons, List.sum_nil, add_zero] at hsum
      rcases hmem x (by simp) with rfl | rfl <;> rcases hmem y (by simp) with rfl | rfl <;>
        rcases hmem z (by simp) with rfl | rfl <;> first
        | (exfalso; linarith)
        | norm_num [f2, f3, f4]
    have hq2 : q.H 2 2 = 0 := by
      have h1 : (!![I 0 0, I 0 1, I 0 2; I 0 1, I 1 1, I 1 2; I 0 2, I 1 2, I 2 2] : Matrix (Fin 3) (Fin 3) ℝ) 2 2 = 2 := hI2
      have h2 := hH 2 2
      rw [htr', Matrix.one_apply_eq, mul_one] at h2
      rw [h2]
      norm_num only [f2]
      have h3 : (2 : ℝ) - (!![I 0 0, I 0 1, I 0 2; I 0 1, I 1 1, I 1 2; I 0 2, I 1 2, I 2 2] : Matrix (Fin 3) (Fin 3) ℝ) 2 2 = 0 := by
        rw [h1, sub_self]
      exact (congrArg fl h3).trans f0
    have hqm : q.mass = 1 := hm
    have hqc : q.com 2 = 2 ^ (-31 : ℤ) := by
      have h1 := hcom 2
      have h2 : (thinPlate.hFloat fl 2) / thinPlate.mass = 2 ^ (-31 : ℤ) := by rw [hh]; simp [thinPlate]
      exact h1.trans ((congrArg fl h2).trans f31)
    refine ⟨hq2, hqc, fun hpsd => ?_⟩
    have h1 := hpsd.2 (Fin.snoc (α := fun _ => ℝ) (![0, 0, -1] : Fin 3 → ℝ) (2 ^ (-31 : ℤ)))
    unfold IP.JFloat at h1
    rw [bordered_quad] at h1
    have h2 : q.hFloat fl 2 = 2 ^ (-31 : ℤ) := by
      unfold IP.hFloat
      rw [hqm, hqc, one_mul, f31]
    simp only [dotProduct, Matrix.mulVec, Fin.sum_univ_three] at h1
    simp [hq2, h2, hqm] at h1
    norm_num at h1

/-- C114: The sum of two sets of parameters with rounding: the second moments and the mass have a relative error of `2⁻⁵³`, and the
first moments, which are divided by the mass and multiplied with it again, one of `5 · 2⁻⁵³` of the sum of the sizes. -/
theorem C114_add {p q s : IP ℝ} (h : IP.addFloat fl p q s) (hp : 0 ≤ p.mass) (hq : 0 ≤ q.mass) (hp' : p.mass ≤ 10 ^ 30)
    (hq' : q.mass ≤ 10 ^ 30) (hpq : 1 / 10 ^ 30 ≤ p.mass + q.mass) (hc : ∀ i, |p.com i| ≤ 10 ^ 30) (hc' : ∀ i, |q.com i| ≤ 10 ^ 30)
    (hs : ∀ i j, |p.H i j| ≤ 10 ^ 80) (hs' : ∀ i j, |q.H i j| ≤ 10 ^ 80) :
    |s.mass - (p.mass + q.mass)| ≤ 2 ^ (-53 : ℤ) * (p.mass + q.mass) + 1 / 10 ^ 200 ∧
    (∀ i j, |s.H i j - (p.H i j + q.H i j)| ≤ 2 ^ (-53 : ℤ) * |p.H i j + q.H i j| + 1 / 10 ^ 200) ∧
    ∀ i, |s.JFloat fl i.castSucc 3 - (p.mass * p.com i + q.mass * q.com i)| ≤
      5 * 2 ^ (-53 : ℤ) * (p.mass * |p.com i| + q.mass * |q.com i|) + 1 / 10 ^ 120 := by
  obtain ⟨hM0, hm, hcom, hH⟩ := h
  have hu : (2 : ℝ) ^ (-53 : ℤ) = u := rfl
  rw [hu]
  have hsum0 : 0 ≤ p.mass + q.mass := add_nonneg hp hq
  have hmass := fl_near hfl (x := p.mass + q.mass) (by
    rw [abs_of_nonneg hsum0]
    have : (10 : ℝ) ^ 30 + 10 ^ 30 ≤ 10 ^ 150 := by norm_num
    linarith)
  rw [abs_of_nonneg hsum0] at hmass
  refine ⟨by rw [hm]; exact hmass, fun i j => ?_, fun i => ?_⟩
  · rw [hH]
    refine fl_near hfl ((abs_add_le _ _).trans ?_)
    have : (10 : ℝ) ^ 80 + 10 ^ 80 ≤ 10 ^ 150 := by norm_num
    linarith [hs i j, hs' i j]
  · have hJ : s.JFloat fl i.castSucc 3 = s.hFloat fl i := by
      fin_cases i <;> rfl
    rw [hJ, IP.hFloat, hcom, hm]
    have hMB : fl (p.mass + q.mass) ≤ 10 ^ 32 := by
      have h1 := (abs_le.mp hmass).2
      have h2 : u * (p.mass + q.mass) ≤ 1 * (p.mass + q.mass) := mul_le_mul_of_nonneg_right (u_le.trans (by norm_num)) hsum0
      have h3 : (10 : ℝ) ^ 30 * 4 + 1 / 10 ^ 200 ≤ 10 ^ 32 := by norm_num
      linarith
    have hML : 1 / 10 ^ 31 ≤ fl (p.mass + q.mass) := by
      have h1 := (abs_le.mp hmass).1
      have h2 : u * (p.mass + q.mass) ≤ 1 / 10 * (p.mass + q.mass) := mul_le_mul_of_nonneg_right (u_le.trans (by norm_num)) hsum0
      have h3 : (1 : ℝ) / 10 ^ 31 + 1 / 10 ^ 200 ≤ 9 / 10 * (1 / 10 ^ 30) := by norm_num
      linarith
    generalize fl (p.mass + q.mass) = M at *
    set A := p.mass * |p.com i| with hA
    set B := q.mass * |q.com i| with hB
    have hA0 : 0 ≤ A := mul_nonneg hp (abs_nonneg _)
    have hB0 : 0 ≤ B := mul_nonneg hq (abs_nonneg _)
    have hAB : A ≤ 10 ^ 60 := by
      have : A ≤ 10 ^ 30 * 10 ^ 30 := mul_le_mul hp' (hc i) (abs_nonneg _) (by norm_num)
      exact this.trans (by norm_num)
    have hBB : B ≤ 10 ^ 60 := by
      have : B ≤ 10 ^ 30 * 10 ^ 30 := mul_le_mul hq' (hc' i) (abs_nonneg _) (by norm_num)
      exact this.trans (by norm_num)
    have hS0 : 0 ≤ A + B := add_nonneg hA0 hB0
    have hS : A + B ≤ 10 ^ 61 := by
      have : (10 : ℝ) ^ 60 + 10 ^ 60 ≤ 10 ^ 61 := by norm_num
      linarith
    have aA : |p.mass * p.com i| = A := by rw [abs_mul, abs_of_nonneg hp]
    have aB : |q.mass * q.com i| = B := by rw [abs_mul, abs_of_nonneg hq]
    have h1 := fl_near hfl (x := p.mass * p.com i) (by rw [aA]; exact hAB.trans (by norm_num))
    have h2 := fl_near hfl (x := q.mass * q.com i) (by rw [aB]; exact hBB.trans (by norm_num))
    rw [aA] at h1
    rw [aB] at h2
    have hy : |p.mass * p.com i + q.mass * q.com i| ≤ 1 * (A + B) := by
      rw [one_mul, ← aA, ← aB]; exact abs_add_le _ _
    obtain ⟨h3, -, -⟩ := fl_step hfl (S := A + B) (x := p.hFloat fl i + q.hFloat fl i) (y := p.mass * p.com i + q.mass * q.com i)
      (e := 1) (a := 1) (τ := 1 / 10 ^ 190) hS0 (hS.trans (by norm_num)) (by
        unfold IP.hFloat
        have h4 : 1 / 10 ^ 200 + 1 / 10 ^ 200 ≤ (1 / 10 ^ 190 : ℝ) := by norm_num
        rw [abs_le] at h1 h2 ⊢
        constructor <;> linarith) hy (by norm_num) (by norm_num) (by norm_num) (by norm_num) (by norm_num)
    generalize p.mass * p.com i + q.mass * q.com i = y at *
    generalize fl (p.hFloat fl i + q.hFloat fl i) = x at *
    have hE : 0 ≤ u * (A + B) := mul_nonneg u_pos.le hS0
    have hES : u * (A + B) ≤ 1 / 10 ^ 5 * (A + B) := mul_le_mul_of_nonneg_right (u_le.trans (by norm_num)) hS0
    have hx : |x| ≤ 11 / 10 * (A + B) + 1 / 10 ^ 185 := by
      have h5 := abs_add_le (x - y) y
      rw [sub_add_cancel] at h5
      have h6 : 2 * (1 / 10 ^ 190) + 1 / 10 ^ 200 ≤ (1 / 10 ^ 185 : ℝ) := by norm_num
      linarith
    -- the division
    have hbig : |x / M| ≤ 10 ^ 150 := by
      rw [abs_div, abs_of_pos hM0, div_le_iff₀ hM0]
      have h5 : (10 : ℝ) ^ 150 * (1 / 10 ^ 31) ≤ 10 ^ 150 * M := mul_le_mul_of_nonneg_left hML (by norm_num)
      have h6 : 11 / 10 * 10 ^ 61 + 1 / 10 ^ 185 ≤ (10 : ℝ) ^ 150 * (1 / 10 ^ 31) := by norm_num
      linarith
    · have h5 := fl_near hfl hbig
      have h6 : |M * fl (x / M) - x| ≤ u * |x| + 1 / 10 ^ 168 := by
        have e : M * fl (x / M) - x = M * (fl (x / M) - x / M) := by field_simp
        rw [e, abs_mul, abs_of_pos hM0]
        have h7 := mul_le_mul_of_nonneg_left h5 hM0.le
        have h8 : M * (u * |x / M| + 1 / 10 ^ 200) = u * |x| + M * (1 / 10 ^ 200) := by
          rw [abs_div, abs_of_pos hM0]; field_simp
        have h9 : M * (1 / 10 ^ 200) ≤ 10 ^ 32 * (1 / 10 ^ 200) := mul_le_mul_of_nonneg_right hMB (by norm_num)
        have h10 : (10 : ℝ) ^ 32 * (1 / 10 ^ 200) = 1 / 10 ^ 168 := by norm_num
        linarith
      have h7 : u * |x| ≤ 11 / 10 * (u * (A + B)) + 1 / 10 ^ 185 := by
        have h8 := mul_le_mul_of_nonneg_left hx u_pos.le
        have h9 : u * (1 / 10 ^ 185) ≤ 1 * (1 / 10 ^ 185) := mul_le_mul_of_nonneg_right (u_le.trans (by norm_num)) (by norm_num)
        linarith
      have h8 := (fl_step hfl (S := A + B) (x := M * fl (x / M)) (y := y) (e := 32 / 10) (a := 1) (τ := 1 / 10 ^ 160) hS0
        (hS.trans (by norm_num)) (by
          have h9 : 2 * (1 / 10 ^ 190) + 1 / 10 ^ 200 + 1 / 10 ^ 168 + 1 / 10 ^ 185 ≤ (1 / 10 ^ 160 : ℝ) := by norm_num
          rw [abs_le] at h3 h6 ⊢
          constructor <;> linarith) hy (by norm_num) (by norm_num) (by norm_num) (by norm_num) (by norm_num)).1
      have h10 : 2 * (1 / 10 ^ 160) + 1 / 10 ^ 200 ≤ (1 / 10 ^ 120 : ℝ) := by norm_num
      linarith

end

/-- The hypotheses of the theorems on the round trip are met by a body of mass 1 with second moments 1 and center of mass `(0, 0, 1/2)`. -/
example : ∃ (fl : ℝ → ℝ) (p : IP ℝ) (θ : Fin 10 → ℝ) (q : IP ℝ), IsRounding fl ∧ p.vecFloat fl θ ∧ IP.fromVecFloat fl θ q ∧
    p.Hᵀ = p.H ∧ (∀ i j, Binary64 (p.H i j)) ∧ (∀ i j, |p.H i j| ≤ 10 ^ 80) ∧ 1 / 10 ^ 30 ≤ p.mass ∧ p.mass ≤ 10 ^ 30 ∧
    (∀ i, |p.com i| ≤ 10 ^ 30) ∧ ∀ v : Fin 4 → ℝ,
      (1 / 10 ^ 14 * (∑ k, |p.H k k| + ∑ k, p.mass * |p.com k|) + 1 / 10 ^ 100) * (v ⬝ᵥ v) ≤ v ⬝ᵥ (p.J *ᵥ v) := by
  obtain ⟨fl, hfl⟩ := exists_rounding
  have b1 : Binary64 1 := by simpa using binary64_int 1 (by norm_num)
  have b0 : Binary64 0 := by simpa using binary64_int 0 (by norm_num)
  set p : IP ℝ := ⟨1, ![0, 0, 1 / 2], Matrix.diagonal ![1, 1, 1]⟩ with hp
  obtain ⟨θ, q, h1, h2⟩ := C114_result (fl := fl) p (by norm_num)
  refine ⟨fl, p, θ, q, hfl, h1, h2, by simp [hp], fun i j => ?_, fun i j => ?_, by norm_num, by norm_num, fun i => ?_, fun v => ?_⟩
  · fin_cases i <;> fin_cases j <;> simp [hp, b0, b1]
  · fin_cases i <;> fin_cases j <;> simp [hp] <;> norm_num
  · fin_cases i <;> simp [hp] <;> norm_num
  · obtain ⟨x, t, rfl⟩ : ∃ (x : Fin 3 → ℝ) (t : ℝ), v = Fin.snoc (α := fun _ => ℝ) x t :=
      ⟨Fin.init v, v (Fin.last 3), (Fin.snoc_init_self v).symm⟩
    unfold IP.J
    rw [bordered_quad, snoc_dotProduct]
    simp only [hp, IP.h, dotProduct, Matrix.mulVec_diagonal, Fin.sum_univ_three]
    simp
    norm_num
    nlinarith [sq_nonneg (x 0), sq_nonneg (x 1), sq_nonneg (x 2), sq_nonneg t, sq_nonneg (x 2 + t)]

/-- Two equal point masses meet the hypotheses of `C114_add`. -/
example : ∃ (fl : ℝ → ℝ) (p s : IP ℝ), IsRounding fl ∧ IP.addFloat fl p p s ∧ 0 ≤ p.mass ∧ p.mass ≤ 10 ^ 30 ∧
    1 / 10 ^ 30 ≤ p.mass + p.mass ∧ (∀ i, |p.com i| ≤ 10 ^ 30) ∧ ∀ i j, |p.H i j| ≤ 10 ^ 80 := by
  obtain ⟨fl, hfl⟩ := exists_rounding
  have f2 : fl (1 + 1) = 2 := by
    have : fl 2 = 2 := by simpa using fl_int hfl 2 (by norm_num)
    norm_num [this]
  refine ⟨fl, ⟨1, fun _ => 1, fun _ _ => 1⟩, ⟨_, fun i => _, fun i j => _⟩, hfl,
    ⟨by change 0 < fl (1 + 1); rw [f2]; norm_num, rfl, fun _ => rfl, fun _ _ => rfl⟩, by norm_num, by norm_num, by norm_num,
    fun i => ?_, fun i j => ?_⟩ <;> norm_num

end Rigeo
