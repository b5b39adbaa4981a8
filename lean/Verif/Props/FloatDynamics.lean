import Verif.Model.FloatDynamics
import Verif.Props.Dynamics
import Verif.Props.FloatInertial
import Verif.Props.FloatRealize

/-!
# C124: rounding in body wrenches and regressors
-/

namespace Rigeo

open Spec Matrix

local notation "u" => unitRoundoff

/-! ### Entries of block matrices -/

theorem hcat_rel {r : ℝ → ℝ → Prop} {m a b : ℕ} {A A' : Matrix (Fin m) (Fin a) ℝ} {B B' : Matrix (Fin m) (Fin b) ℝ}
    (hA : ∀ i j, r (A i j) (A' i j)) (hB : ∀ i j, r (B i j) (B' i j)) (i : Fin m) (j : Fin (a + b)) :
    r (hcat A B i j) (hcat A' B' i j) := by
  refine Fin.addCases (fun j => ?_) (fun j => ?_) j
  · simpa [hcat] using hA i j
  · simpa [hcat] using hB i j

theorem vcat_rel {r : ℝ → ℝ → Prop} {m a b : ℕ} {A A' : Matrix (Fin a) (Fin m) ℝ} {B B' : Matrix (Fin b) (Fin m) ℝ}
    (hA : ∀ i j, r (A i j) (A' i j)) (hB : ∀ i j, r (B i j) (B' i j)) (i : Fin (a + b)) (j : Fin m) :
    r (vcat A B i j) (vcat A' B' i j) := by
  refine Fin.addCases (fun i => ?_) (fun i => ?_) i
  · simpa [vcat] using hA i j
  · simpa [vcat] using hB i j

theorem hcat_all {P : ℝ → Prop} {m a b : ℕ} {A : Matrix (Fin m) (Fin a) ℝ} {B : Matrix (Fin m) (Fin b) ℝ} (hA : ∀ i j, P (A i j))
    (hB : ∀ i j, P (B i j)) (i : Fin m) (j : Fin (a + b)) : P (hcat A B i j) :=
  hcat_rel (r := fun x _ => P x) (A' := A) (B' := B) hA hB i j

theorem vcat_all {P : ℝ → Prop} {m a b : ℕ} {A : Matrix (Fin a) (Fin m) ℝ} {B : Matrix (Fin b) (Fin m) ℝ} (hA : ∀ i j, P (A i j))
    (hB : ∀ i j, P (B i j)) (i : Fin (a + b)) (j : Fin m) : P (vcat A B i j) :=
  vcat_rel (r := fun x _ => P x) (A' := A) (B' := B) hA hB i j

theorem skew3_rel {r : ℝ → ℝ → Prop} (h0 : r 0 0) (hneg : ∀ x y, r x y → r (-x) (-y)) {v w : Fin 3 → ℝ} (h : ∀ i, r (v i) (w i))
    (i j : Fin 3) : r (skew3 v i j) (skew3 w i j) := by
  fin_cases i <;> fin_cases j
  exacts [h0, hneg _ _ (h 2), h 1, h 2, h0, hneg _ _ (h 0), hneg _ _ (h 1), h 0, h0]

theorem lift3_rel {r : ℝ → ℝ → Prop} (h0 : r 0 0) {v w : Fin 3 → ℝ} (h : ∀ i, r (v i) (w i)) (i : Fin 3) (j : Fin 6) :
    r (lift3 v i j) (lift3 w i j) := by
  fin_cases i <;> fin_cases j
  exacts [h 0, h 1, h 2, h0, h0, h0, h0, h 0, h0, h 1, h 2, h0, h0, h0, h 0, h0, h 1, h 2]

theorem SV.linear_le {V : SV ℝ} {v : ℝ} (h : ∀ i, |V.vec i| ≤ v) (i : Fin 3) : |V.linear i| ≤ v := by
  fin_cases i
  exacts [h 3, h 4, h 5]

theorem SV.angular_le {V : SV ℝ} {v : ℝ} (h : ∀ i, |V.vec i| ≤ v) (i : Fin 3) : |V.angular i| ≤ v := by
  fin_cases i
  exacts [h 0, h 1, h 2]

theorem adjoint_le {V : SV ℝ} {v : ℝ} (h : ∀ i, |V.vec i| ≤ v) (i j : Fin 6) : |V.adjoint i j| ≤ v := by
  have hv : 0 ≤ v := (abs_nonneg _).trans (h 0)
  have hs : ∀ {w : Fin 3 → ℝ}, (∀ i, |w i| ≤ v) → ∀ i j, |skew3 w i j| ≤ v := fun hw =>
    skew3_rel (r := fun x _ => |x| ≤ v) (by simpa using hv) (fun x _ hx => by simpa using hx) (w := 0) hw
  exact vcat_all (P := fun x => |x| ≤ v) (hcat_all (P := fun x => |x| ≤ v) (hs (SV.angular_le h)) (fun i j => by simpa using hv))
    (hcat_all (P := fun x => |x| ≤ v) (hs (SV.linear_le h)) (hs (SV.angular_le h))) i j

theorem lift6_le {V : SV ℝ} {v : ℝ} (h : ∀ i, |V.vec i| ≤ v) (i : Fin 6) (j : Fin 10) : |lift6 V i j| ≤ v := by
  have hv : 0 ≤ v := (abs_nonneg _).trans (h 0)
  have hs : ∀ {w : Fin 3 → ℝ}, (∀ i, |w i| ≤ v) → ∀ i j, |skew3 w i j| ≤ v := fun hw =>
    skew3_rel (r := fun x _ => |x| ≤ v) (by simpa using hv) (fun x _ hx => by simpa using hx) (w := 0) hw
  exact vcat_all (P := fun x => |x| ≤ v)
    (hcat_all (P := fun x => |x| ≤ v) (hcat_all (P := fun x => |x| ≤ v) (fun i j => by simpa using hv)
      (fun i j => by simpa using hs (SV.linear_le h) i j))
      (lift3_rel (r := fun x _ => |x| ≤ v) (by simpa using hv) (w := 0) (SV.angular_le h)))
    (hcat_all (P := fun x => |x| ≤ v) (hcat_all (P := fun x => |x| ≤ v) (fun i j => SV.linear_le h i) (hs (SV.angular_le h)))
      (fun i j => by simpa using hv)) i j

section
variable {fl : ℝ → ℝ} (hfl : IsRounding fl)
include hfl

/-- A computed dot product of approximations of up to ten terms -/
theorem dot_approx_ten {n : ℕ} (hn0 : 1 ≤ n) (hn : n ≤ 10) {a a' x x' : Fin n → ℝ} {s A X ε δ : ℝ}
    (hs : FlDot fl (List.ofFn fun k => (a' k, x' k)) s) (ha : ∀ k, |a' k - a k| ≤ ε * u * A) (hA : ∀ k, |a k| ≤ A)
    (hx : ∀ k, |x' k - x k| ≤ δ * u * X) (hX : ∀ k, |x k| ≤ X) (hε : ε ≤ 10 ^ 6) (hε0 : 0 ≤ ε) (hδ : δ ≤ 10 ^ 6) (hδ0 : 0 ≤ δ)
    (hlo : 1 / 10 ^ 80 ≤ A * X) (hhi : A * X ≤ 10 ^ 80) :
    |s - ∑ k, a k * x k| ≤ n * (ε + δ + 22) * u * (A * X) ∧ |∑ k, a k * x k| ≤ n * (A * X) := by
  have hu0 := u_pos
  have hu2 : 110 / 10 ^ 18 ≤ u := by unfold unitRoundoff; norm_num
  set P := A * X with hP
  have hP0 : 0 < P := lt_of_lt_of_le (by norm_num) hlo
  have hn1 : (1 : ℝ) ≤ n := by exact_mod_cast hn0
  have hn4 : (n : ℝ) ≤ 10 := by exact_mod_cast hn
  have hp := fun k => prod_approx (ha k) (hA k) (hx k) (hX k) hε hε0 hδ hδ0
  have hAb : ((List.ofFn fun k => (a' k, x' k)).map fun p => |p.1 * p.2|).sum = ∑ k, |a' k * x' k| := by
    rw [List.map_ofFn, List.sum_ofFn]; rfl
  have hB : ((List.ofFn fun k => (a' k, x' k)).map fun p => p.1 * p.2).sum = ∑ k, a' k * x' k := by
    rw [List.map_ofFn, List.sum_ofFn]; rfl
  have hsum : ∑ k, |a' k * x' k| ≤ n * (101 / 100 * P) := by
    refine (Finset.sum_le_sum fun k _ => (hp k).2).trans (le_of_eq ?_)
    simp only [Finset.sum_const, Finset.card_univ, Fintype.card_fin, nsmul_eq_mul]
    ring
  have hsum' : ∑ k, |a' k * x' k| ≤ 10 * (101 / 100 * 10 ^ 80) := by
    refine hsum.trans (mul_le_mul hn4 (mul_le_mul_of_nonneg_left hhi (by norm_num)) (by positivity) (by norm_num))
  have h1 := C105_dot hfl hs (by simp; omega) (by rw [hAb]; exact hsum'.trans (by norm_num))
  rw [hAb, hB, List.length_ofFn] at h1
  have h2 : |∑ k, a' k * x' k - ∑ k, a k * x k| ≤ n * ((ε + δ + 1 / 100) * u * P) := by
    rw [← Finset.sum_sub_distrib]
    refine (Finset.abs_sum_le_sum_abs _ _).trans ((Finset.sum_le_sum fun k _ => (hp k).1).trans (le_of_eq ?_))
    simp only [Finset.sum_const, Finset.card_univ, Fintype.card_fin, nsmul_eq_mul, hP]
  have h3 := abs_add_le (s - ∑ k, a' k * x' k) (∑ k, a' k * x' k - ∑ k, a k * x k)
  rw [sub_add_sub_cancel] at h3
  have hu : (2 : ℝ) ^ (-53 : ℤ) = u := rfl
  rw [hu] at h1
  have h4 : 2 * (n : ℝ) * u * ∑ k, |a' k * x' k| ≤ 2 * n * u * (10 * (101 / 100 * P)) := by
    refine mul_le_mul_of_nonneg_left (hsum.trans ?_) (by positivity)
    exact mul_le_mul_of_nonneg_right hn4 (by positivity)
  have h5 : (1 : ℝ) / 10 ^ 190 ≤ n * (1 / 100 * u * P) := by
    have h6 : 110 / 10 ^ 18 * (1 / 10 ^ 80) ≤ u * P := mul_le_mul hu2 hlo (by norm_num) hu0.le
    have h7 : (1 : ℝ) / 10 ^ 190 ≤ 1 / 100 * (110 / 10 ^ 18 * (1 / 10 ^ 80)) := by norm_num
    have h8 : 1 / 100 * u * P ≤ n * (1 / 100 * u * P) := le_mul_of_one_le_left (by positivity) hn1
    linarith
  have h9 : 0 ≤ n * u * P := by positivity
  have h10 : n * (ε + δ + 22) * u * P = n * ((ε + δ + 1 / 100) * u * P) + (22 - 1 / 100) * (n * u * P) := by ring
  have h11 : 2 * n * u * (10 * (101 / 100 * P)) = 2020 / 100 * (n * u * P) := by ring
  have h12 : n * (1 / 100 * u * P) = 1 / 100 * (n * u * P) := by ring
  constructor
  · rw [h10]
    rw [h11] at h4
    rw [h12] at h5
    linarith
  · refine (Finset.abs_sum_le_sum_abs _ _).trans ?_
    have : ∀ k, |a k * x k| ≤ P := fun k => by
      rw [abs_mul]
      exact mul_le_mul (hA k) (hX k) (abs_nonneg _) ((abs_nonneg _).trans (hA k))
    refine (Finset.sum_le_sum fun k _ => this k).trans (le_of_eq ?_)
    simp only [Finset.sum_const, Finset.card_univ, Fintype.card_fin, nsmul_eq_mul]

/-- A computed difference of approximations -/
theorem sub_approx {x x' y y' X Y e f P : ℝ} (hx : |x' - x| ≤ e * u * P) (hX : |x| ≤ X * P) (hy : |y' - y| ≤ f * u * P) (hY : |y| ≤ Y * P)
    (he0 : 0 ≤ e) (he : e ≤ 10 ^ 6) (hf0 : 0 ≤ f) (hf : f ≤ 10 ^ 6) (hX0 : 0 ≤ X) (hX1 : X ≤ 10 ^ 3) (hY0 : 0 ≤ Y) (hY1 : Y ≤ 10 ^ 3)
    (hP1 : 1 / 10 ^ 60 ≤ P) (hP2 : P ≤ 10 ^ 60) : |fl (x' - y') - (x - y)| ≤ (e + f + X + Y + 1) * u * P := by
  have hu := u_pos
  have hu1 := u_le
  have hP0 : 0 < P := lt_of_lt_of_le (by norm_num) hP1
  have hd : |(x' - y') - (x - y)| ≤ (e + f) * u * P := by
    have h1 := abs_sub (x' - x) (y' - y)
    have h2 : (x' - y') - (x - y) = (x' - x) - (y' - y) := by ring
    rw [h2]
    have h3 : (e + f) * u * P = e * u * P + f * u * P := by ring
    linarith
  have heu : (e + f) * u ≤ 1 / 10 := by
    have : (e + f) * u ≤ (10 ^ 6 + 10 ^ 6) * (112 / 10 ^ 18) := mul_le_mul (by linarith) hu1 hu.le (by norm_num)
    exact this.trans (by norm_num)
  have h1 : |x' - y'| ≤ (X + Y + (e + f) * u) * P := by
    have h2 := abs_sub_abs_le_abs_sub (x' - y') (x - y)
    have h3 := abs_sub x y
    have h4 : (X + Y + (e + f) * u) * P = X * P + Y * P + (e + f) * u * P := by ring
    linarith
  have h1' : |x' - y'| ≤ (X + Y + 1 / 10) * P := h1.trans (mul_le_mul_of_nonneg_right (by linarith) hP0.le)
  have h2 := fl_near hfl (x := x' - y') (h1'.trans (by
    have : (X + Y + 1 / 10) * P ≤ (10 ^ 3 + 10 ^ 3 + 1 / 10) * 10 ^ 60 := mul_le_mul (by linarith) hP2 hP0.le (by norm_num)
    exact this.trans (by norm_num)))
  have h3 : u * |x' - y'| ≤ u * ((X + Y + 1 / 10) * P) := mul_le_mul_of_nonneg_left h1' hu.le
  have h4 : (1 : ℝ) / 10 ^ 200 ≤ 1 / 10 * (u * P) := by
    have h5 : (1 / 10 ^ 16 : ℝ) * (1 / 10 ^ 60) ≤ u * P :=
      mul_le_mul (by unfold unitRoundoff; norm_num) hP1 (by norm_num) hu.le
    have : (1 : ℝ) / 10 ^ 200 ≤ 1 / 10 * (1 / 10 ^ 16 * (1 / 10 ^ 60)) := by norm_num
    linarith
  have h5 := abs_sub_le (fl (x' - y')) (x' - y') (x - y)
  have h6 : 0 ≤ u * P := by positivity
  have h7 : (e + f + X + Y + 1) * u * P = (e + f) * u * P + (X + Y) * (u * P) + u * P := by ring
  have h8 : u * ((X + Y + 1 / 10) * P) = (X + Y) * (u * P) + 1 / 10 * (u * P) := by ring
  rw [h7]
  linarith

/-- The sizes of the parameters of a body: floats of at most `B` -/
def IP.Sized (p : IP ℝ) (B : ℝ) : Prop :=
  Binary64 p.mass ∧ (∀ i j, Binary64 (p.H i j)) ∧ |p.mass| ≤ B ∧ (∀ i, |p.mass * p.com i| ≤ B) ∧ ∀ i j, |p.H i j| ≤ B

/-- The inertia matrix -/
theorem inertia_approx {p : IP ℝ} {B : ℝ} (hp : p.Sized B) (hB1 : 1 / 10 ^ 10 ≤ B) (hB2 : B ≤ 10 ^ 10) {I : Matrix (Fin 3) (Fin 3) ℝ}
    (hI : H2IFloat fl p.H I) (i j : Fin 3) : |I i j - p.I i j| ≤ 11 * u * (2 * B) ∧ |p.I i j| ≤ 2 * B := by
  obtain ⟨-, hb, -, -, hH⟩ := hp
  have hu := u_pos
  have hB0 : 0 < B := lt_of_lt_of_le (by norm_num) hB1
  have huB : 1 / 10 ^ 30 ≤ u * B := by
    have h5 : (1 / 10 ^ 16 : ℝ) * (1 / 10 ^ 10) ≤ u * B := mul_le_mul (by unfold unitRoundoff; norm_num) hB1 (by norm_num) hu.le
    exact le_trans (by norm_num) h5
  have hsum : ∑ i, |p.H i i| ≤ 3 * B := by
    rw [Fin.sum_univ_three]
    linarith [hH 0 0, hH 1 1, hH 2 2]
  obtain ⟨h1, h2⟩ := h2i_error hfl hI hsum (by linarith [show (3 * 10 ^ 10 : ℝ) ≤ 10 ^ 90 by norm_num])
  have hIe : ∀ i j, p.I i j = p.H.trace * (1 : Matrix (Fin 3) (Fin 3) ℝ) i j - p.H i j := fun i j => by
    simp [IP.I, H2I]
  by_cases hij : i = j
  · subst hij
    have e : p.I i i = p.H.trace - p.H i i := by rw [hIe, Matrix.one_apply_eq, mul_one]
    rw [e]
    constructor
    · have := h2 i
      have h3 : (1 : ℝ) / 10 ^ 189 ≤ 1 / 100 * (1 / 10 ^ 30) := by norm_num
      linarith
    · have h3 : p.H.trace = p.H 0 0 + p.H 1 1 + p.H 2 2 := by simp [Matrix.trace, Fin.sum_univ_three]
      rw [h3]
      have b0 := abs_le.mp (hH 0 0)
      have b1 := abs_le.mp (hH 1 1)
      have b2 := abs_le.mp (hH 2 2)
      rw [abs_le]
      fin_cases i <;> simp only [Fin.zero_eta, Fin.mk_one, Fin.reduceFinMk] <;> constructor <;> linarith
  · have e : p.I i j = -p.H i j := by rw [hIe, Matrix.one_apply_ne hij, mul_zero, zero_sub]
    rw [h1 i j hij (hb i j) ((hH i j).trans (hB2.trans (by norm_num))), e, sub_self, abs_zero, abs_neg]
    exact ⟨by positivity, by linarith [hH i j]⟩

/-- The first moments -/
theorem first_approx {p : IP ℝ} {B : ℝ} (hp : p.Sized B) (hB1 : 1 / 10 ^ 10 ≤ B) (hB2 : B ≤ 10 ^ 10) (i : Fin 3) :
    |p.hFloat fl i - p.h i| ≤ 11 * u * (2 * B) ∧ |p.h i| ≤ 2 * B := by
  obtain ⟨-, -, -, hh, -⟩ := hp
  have hu := u_pos
  have hB0 : 0 < B := lt_of_lt_of_le (by norm_num) hB1
  have huB : 1 / 10 ^ 30 ≤ u * B := by
    have h5 : (1 / 10 ^ 16 : ℝ) * (1 / 10 ^ 10) ≤ u * B := mul_le_mul (by unfold unitRoundoff; norm_num) hB1 (by norm_num) hu.le
    exact le_trans (by norm_num) h5
  have e : p.h i = p.mass * p.com i := by simp [IP.h]
  have h1 := fl_near hfl (x := p.mass * p.com i) ((hh i).trans (hB2.trans (by norm_num)))
  have h2 : u * |p.mass * p.com i| ≤ u * B := mul_le_mul_of_nonneg_left (hh i) hu.le
  have h3 : (1 : ℝ) / 10 ^ 200 ≤ 1 / 100 * (1 / 10 ^ 30) := by norm_num
  rw [e]
  refine ⟨?_, by linarith [hh i]⟩
  show |fl (p.mass * p.com i) - p.mass * p.com i| ≤ _
  linarith

/-- The mass matrix -/
theorem mass_matrix_approx {p : IP ℝ} {B : ℝ} (hp : p.Sized B) (hB1 : 1 / 10 ^ 10 ≤ B) (hB2 : B ≤ 10 ^ 10) {M : Matrix (Fin 6) (Fin 6) ℝ}
    (hM : p.MFloat fl M) (i j : Fin 6) : |M i j - p.M i j| ≤ 11 * u * (2 * B) ∧ |p.M i j| ≤ 2 * B := by
  obtain ⟨I, hI, rfl⟩ := hM
  have hu := u_pos
  have hB0 : 0 < B := lt_of_lt_of_le (by norm_num) hB1
  let r : ℝ → ℝ → Prop := fun x y => |x - y| ≤ 11 * u * (2 * B) ∧ |y| ≤ 2 * B
  have r0 : r 0 0 := by simp only [r, sub_self, abs_zero]; exact ⟨by positivity, by positivity⟩
  have rneg : ∀ x y, r x y → r (-x) (-y) := by
    intro x y ⟨h1, h2⟩
    exact ⟨by rw [neg_sub_neg, abs_sub_comm]; exact h1, by rw [abs_neg]; exact h2⟩
  have hS := skew3_rel r0 rneg (v := p.hFloat fl) (w := p.h) (first_approx hfl hp hB1 hB2)
  have hm : ∀ i j, r (fl (p.mass * (1 : Matrix (Fin 3) (Fin 3) ℝ) i j)) ((p.mass • (1 : Matrix (Fin 3) (Fin 3) ℝ)) i j) := by
    intro i j
    rw [Matrix.smul_apply, smul_eq_mul]
    by_cases hij : i = j
    · subst hij
      rw [Matrix.one_apply_eq, mul_one, fl_same hfl hp.1 (hp.2.2.1.trans (hB2.trans (by norm_num)))]
      refine ⟨by rw [sub_self, abs_zero]; positivity, ?_⟩
      linarith [hp.2.2.1]
    · rw [Matrix.one_apply_ne hij, mul_zero, fl_zero hfl]
      exact r0
  exact vcat_rel (r := r) (hcat_rel (r := r) (inertia_approx hfl hp hB1 hB2 hI) hS)
    (hcat_rel (r := r) (fun i j => by rw [Matrix.neg_apply, Matrix.neg_apply]; exact rneg _ _ (hS i j)) hm) i j

/-- C124: The wrench that `InertialParameters.body_wrench` computes: every component is within `4500 u B (a + v²)` of the exact one.
`B`, `a` and `v` bound the parameters, accelerations and velocities; `u = 2⁻⁵³`. -/
theorem C124_body_wrench {p : IP ℝ} {V A : SV ℝ} {w : Fin 6 → ℝ} (hw : p.bodyWrenchFloat fl V A w) {B a v : ℝ} (hp : p.Sized B)
    (hV : ∀ i, |V.vec i| ≤ v) (hA : ∀ i, |A.vec i| ≤ a) (hB1 : 1 / 10 ^ 10 ≤ B) (hB2 : B ≤ 10 ^ 10) (ha1 : 1 / 10 ^ 10 ≤ a)
    (ha2 : a ≤ 10 ^ 10) (hv1 : 1 / 10 ^ 10 ≤ v) (hv2 : v ≤ 10 ^ 10) (i : Fin 6) :
    |w i - (p.bodyWrench V A).vec i| ≤ 4500 * 2 ^ (-53 : ℤ) * (B * (a + v ^ 2)) := by
  obtain ⟨M, N, x, y, hM, hx, hN, hy, hw⟩ := hw
  rw [show (2 : ℝ) ^ (-53 : ℤ) = u from rfl]
  have hu := u_pos
  have hB0 : 0 < B := lt_of_lt_of_le (by norm_num) hB1
  have ha0 : 0 < a := lt_of_lt_of_le (by norm_num) ha1
  have hv0 : 0 < v := lt_of_lt_of_le (by norm_num) hv1
  have hBa1 : 1 / 10 ^ 20 ≤ B * a := by
    have : (1 / 10 ^ 10 : ℝ) * (1 / 10 ^ 10) ≤ B * a := mul_le_mul hB1 ha1 (by norm_num) hB0.le
    exact le_trans (by norm_num) this
  have hBa2 : B * a ≤ 10 ^ 20 := by
    have : B * a ≤ 10 ^ 10 * 10 ^ 10 := mul_le_mul hB2 ha2 ha0.le (by norm_num)
    exact this.trans (by norm_num)
  have hBv1 : 1 / 10 ^ 20 ≤ B * v := by
    have : (1 / 10 ^ 10 : ℝ) * (1 / 10 ^ 10) ≤ B * v := mul_le_mul hB1 hv1 (by norm_num) hB0.le
    exact le_trans (by norm_num) this
  have hBv2 : B * v ≤ 10 ^ 20 := by
    have : B * v ≤ 10 ^ 10 * 10 ^ 10 := mul_le_mul hB2 hv2 hv0.le (by norm_num)
    exact this.trans (by norm_num)
  have hBvv1 : 1 / 10 ^ 30 ≤ B * v * v := by
    have : (1 / 10 ^ 20 : ℝ) * (1 / 10 ^ 10) ≤ B * v * v := mul_le_mul hBv1 hv1 (by norm_num) (by positivity)
    exact le_trans (by norm_num) this
  have hBvv2 : B * v * v ≤ 10 ^ 30 := by
    have : B * v * v ≤ 10 ^ 20 * 10 ^ 10 := mul_le_mul hBv2 hv2 hv0.le (by norm_num)
    exact this.trans (by norm_num)
  have hQ : B * (a + v ^ 2) = B * a + B * v * v := by ring
  have hMA := fun i j => mass_matrix_approx hfl hp hB1 hB2 hM i j
  obtain ⟨x1, x2⟩ := dot_approx_ten hfl (by norm_num) (by norm_num) (a := p.M i) (x := A.vec) (A := 2 * B) (X := a) (ε := 11) (δ := 0) (hx i)
    (fun k => (hMA i k).1) (fun k => (hMA i k).2) (fun k => by simp) hA (by norm_num) (by norm_num) (by norm_num) (by norm_num)
    (by linarith [show (1 : ℝ) / 10 ^ 80 ≤ 1 / 10 ^ 20 by norm_num]) (by linarith [show (2 * 10 ^ 20 : ℝ) ≤ 10 ^ 80 by norm_num])
  have hNA := fun k => dot_approx_ten hfl (by norm_num) (by norm_num) (a := V.adjointᵀ i) (x := fun j => p.M j k) (A := v) (X := 2 * B)
    (ε := 0) (δ := 11) (hN i k) (fun j => by simp) (fun j => adjoint_le hV j i) (fun j => (hMA j k).1) (fun j => (hMA j k).2)
    (by norm_num) (by norm_num) (by norm_num) (by norm_num) (by linarith [show (1 : ℝ) / 10 ^ 80 ≤ 1 / 10 ^ 20 by norm_num])
    (by linarith [show (2 * 10 ^ 20 : ℝ) ≤ 10 ^ 80 by norm_num])
  obtain ⟨y1, y2⟩ := dot_approx_ten hfl (by norm_num) (by norm_num) (a := fun k => ∑ j, V.adjointᵀ i j * p.M j k) (x := V.vec)
    (A := 6 * (v * (2 * B))) (X := v) (ε := 33) (δ := 0) (hy i) (fun k => ((hNA k).1).trans (le_of_eq (by push_cast; ring)))
    (fun k => ((hNA k).2).trans (le_of_eq (by push_cast; ring))) (fun k => by simp) hV (by norm_num) (by norm_num) (by norm_num)
    (by norm_num) (by linarith [show (1 : ℝ) / 10 ^ 80 ≤ 1 / 10 ^ 30 by norm_num])
    (by linarith [show (12 * 10 ^ 30 : ℝ) ≤ 10 ^ 80 by norm_num])
  have e : (p.bodyWrench V A).vec i = ∑ k, p.M i k * A.vec k - ∑ k, (∑ j, V.adjointᵀ i j * p.M j k) * V.vec k := by
    unfold IP.bodyWrench
    rw [SV.fromVec_vec]
    rfl
  rw [e, hw i]
  set P := B * (a + v ^ 2) with hP
  have p1 : B * a ≤ P := by rw [hQ]; linarith
  have p2 : B * v * v ≤ P := by rw [hQ]; linarith
  have q1 : u * (B * a) ≤ u * P := mul_le_mul_of_nonneg_left p1 hu.le
  have q2 : u * (B * v * v) ≤ u * P := mul_le_mul_of_nonneg_left p2 hu.le
  push_cast at x1 x2 y1 y2
  have := sub_approx hfl (e := 396) (f := 3960) (X := 12) (Y := 72) (P := P) (x1.trans (by linarith)) (x2.trans (by linarith))
    (y1.trans (by linarith)) (y2.trans (by linarith)) (by norm_num) (by norm_num) (by norm_num) (by norm_num) (by norm_num) (by norm_num)
    (by norm_num) (by norm_num) (by linarith [show (1 : ℝ) / 10 ^ 60 ≤ 1 / 10 ^ 20 by norm_num])
    (by rw [hQ]; linarith [show (10 ^ 20 + 10 ^ 30 : ℝ) ≤ 10 ^ 60 by norm_num])
  have h0 : 0 ≤ u * P := by positivity
  linarith

/-- C124: The wrench `RigidBody.regressor(V, A) @ params.vec`: every component is within `7500 u B (a + v²)` of the exact body
wrench. -/
theorem C124_regressor {p : IP ℝ} {V A : SV ℝ} {w : Fin 6 → ℝ} (hw : regressedWrenchFloat fl p V A w) {B a v : ℝ} (hp : p.Sized B)
    (hH : p.Hᵀ = p.H) (hV : ∀ i, |V.vec i| ≤ v) (hA : ∀ i, |A.vec i| ≤ a) (hB1 : 1 / 10 ^ 10 ≤ B) (hB2 : B ≤ 10 ^ 10)
    (ha1 : 1 / 10 ^ 10 ≤ a) (ha2 : a ≤ 10 ^ 10) (hv1 : 1 / 10 ^ 10 ≤ v) (hv2 : v ≤ 10 ^ 10) (i : Fin 6) :
    |w i - (p.bodyWrench V A).vec i| ≤ 7500 * 2 ^ (-53 : ℤ) * (B * (a + v ^ 2)) := by
  obtain ⟨Y, θ, ⟨N, hN, hY⟩, ⟨I, hI, rfl⟩, hw⟩ := hw
  rw [show (2 : ℝ) ^ (-53 : ℤ) = u from rfl, ← C04_regressor p hH]
  have hu := u_pos
  have hB0 : 0 < B := lt_of_lt_of_le (by norm_num) hB1
  have ha0 : 0 < a := lt_of_lt_of_le (by norm_num) ha1
  have hv0 : 0 < v := lt_of_lt_of_le (by norm_num) hv1
  have hvv1 : 1 / 10 ^ 20 ≤ v * v := by
    have : (1 / 10 ^ 10 : ℝ) * (1 / 10 ^ 10) ≤ v * v := mul_le_mul hv1 hv1 (by norm_num) hv0.le
    exact le_trans (by norm_num) this
  have hvv2 : v * v ≤ 10 ^ 20 := by
    have : v * v ≤ 10 ^ 10 * 10 ^ 10 := mul_le_mul hv2 hv2 hv0.le (by norm_num)
    exact this.trans (by norm_num)
  have hQ : a + v ^ 2 = a + v * v := by ring
  set Q := a + v ^ 2 with hQd
  have hQ1 : 1 / 10 ^ 10 ≤ Q := by linarith
  have hQ2 : Q ≤ 10 ^ 21 := by linarith [show (10 ^ 10 + 10 ^ 20 : ℝ) ≤ 10 ^ 21 by norm_num]
  have hQ0 : 0 < Q := lt_of_lt_of_le (by norm_num) hQ1
  have hBQ1 : 1 / 10 ^ 20 ≤ B * Q := by
    have : (1 / 10 ^ 10 : ℝ) * (1 / 10 ^ 10) ≤ B * Q := mul_le_mul hB1 hQ1 (by norm_num) hB0.le
    exact le_trans (by norm_num) this
  have hBQ2 : B * Q ≤ 10 ^ 31 := by
    have : B * Q ≤ 10 ^ 10 * 10 ^ 21 := mul_le_mul hB2 hQ2 hQ0.le (by norm_num)
    exact this.trans (by norm_num)
  have q1 : u * (v * v) ≤ u * Q := mul_le_mul_of_nonneg_left (by linarith) hu.le
  have hYk : ∀ k, |Y i k - regressor V A i k| ≤ 20 * u * (7 * Q) ∧ |regressor V A i k| ≤ 7 * Q := by
    intro k
    obtain ⟨n1, n2⟩ := dot_approx_ten hfl (by norm_num) (by norm_num) (a := V.adjointᵀ i) (x := fun j => lift6 V j k) (A := v) (X := v)
      (ε := 0) (δ := 0) (hN i k) (fun j => by simp) (fun j => adjoint_le hV j i) (fun j => by simp) (fun j => lift6_le hV j k)
      (by norm_num) (by norm_num) (by norm_num) (by norm_num) (by linarith [show (1 : ℝ) / 10 ^ 80 ≤ 1 / 10 ^ 20 by norm_num])
      (by linarith [show (10 ^ 20 : ℝ) ≤ 10 ^ 80 by norm_num])
    push_cast at n1 n2
    have e : regressor V A i k = lift6 A i k - ∑ j, V.adjointᵀ i j * lift6 V j k := rfl
    have hL := lift6_le hA i k
    rw [e, hY i k]
    constructor
    · have := sub_approx hfl (x := lift6 A i k) (x' := lift6 A i k) (e := 0) (f := 132) (X := 1) (Y := 6) (P := Q) (by simp)
        (by rw [one_mul]; linarith) (n1.trans (by linarith)) (n2.trans (by linarith)) (by norm_num) (by norm_num) (by norm_num) (by norm_num)
        (by norm_num) (by norm_num) (by norm_num) (by norm_num) (by linarith [show (1 : ℝ) / 10 ^ 60 ≤ 1 / 10 ^ 10 by norm_num])
        (by linarith [show (10 ^ 21 : ℝ) ≤ 10 ^ 60 by norm_num])
      exact this.trans (le_of_eq (by ring))
    · have := abs_sub (lift6 A i k) (∑ j, V.adjointᵀ i j * lift6 V j k)
      linarith
  have hθ : ∀ k, |(![p.mass, p.hFloat fl 0, p.hFloat fl 1, p.hFloat fl 2, I 0 0, I 0 1, I 0 2, I 1 1, I 1 2, I 2 2] : Fin 10 → ℝ) k - p.vec k| ≤
      11 * u * (2 * B) ∧ |p.vec k| ≤ 2 * B := by
    have f := first_approx hfl hp hB1 hB2
    have g := inertia_approx hfl hp hB1 hB2 hI
    have m : |p.mass - p.mass| ≤ 11 * u * (2 * B) ∧ |p.mass| ≤ 2 * B := by
      refine ⟨by rw [sub_self, abs_zero]; positivity, ?_⟩
      linarith [hp.2.2.1]
    intro k
    fin_cases k
    exacts [m, f 0, f 1, f 2, g 0 0, g 0 1, g 0 2, g 1 1, g 1 2, g 2 2]
  obtain ⟨w1, -⟩ := dot_approx_ten hfl (by norm_num) (by norm_num) (a := regressor V A i) (x := p.vec) (A := 7 * Q) (X := 2 * B) (ε := 20)
    (δ := 11) (hw i) (fun k => (hYk k).1) (fun k => (hYk k).2) (fun k => (hθ k).1) (fun k => (hθ k).2) (by norm_num) (by norm_num)
    (by norm_num) (by norm_num) (by linarith [show (1 : ℝ) / 10 ^ 80 ≤ 1 / 10 ^ 20 by norm_num])
    (by linarith [show (14 * 10 ^ 31 : ℝ) ≤ 10 ^ 80 by norm_num])
  push_cast at w1
  have h0 : 0 ≤ u * (B * Q) := by positivity
  refine le_trans w1 ?_
  have h1 : 10 * (20 + 11 + 22) * u * (7 * Q * (2 * B)) = 7420 * (u * (B * Q)) := by ring
  rw [h1]
  linarith

/-- C124: The two computed wrenches agree up to rounding. -/
theorem C124_agree {p : IP ℝ} {V A : SV ℝ} {w w' : Fin 6 → ℝ} (hw : p.bodyWrenchFloat fl V A w) (hw' : regressedWrenchFloat fl p V A w')
    {B a v : ℝ} (hp : p.Sized B) (hH : p.Hᵀ = p.H) (hV : ∀ i, |V.vec i| ≤ v) (hA : ∀ i, |A.vec i| ≤ a) (hB1 : 1 / 10 ^ 10 ≤ B)
    (hB2 : B ≤ 10 ^ 10) (ha1 : 1 / 10 ^ 10 ≤ a) (ha2 : a ≤ 10 ^ 10) (hv1 : 1 / 10 ^ 10 ≤ v) (hv2 : v ≤ 10 ^ 10) (i : Fin 6) :
    |w i - w' i| ≤ 12000 * 2 ^ (-53 : ℤ) * (B * (a + v ^ 2)) := by
  have h1 := C124_body_wrench hfl hw hp hV hA hB1 hB2 ha1 ha2 hv1 hv2 i
  have h2 := C124_regressor hfl hw' hp hH hV hA hB1 hB2 ha1 ha2 hv1 hv2 i
  have h3 := abs_sub_le (w i) ((p.bodyWrench V A).vec i) (w' i)
  rw [abs_sub_comm ((p.bodyWrench V A).vec i) (w' i)] at h3
  linarith

omit hfl in
/-- C124: There are results for all parameters, velocities and accelerations. -/
theorem C124_result (p : IP ℝ) (V A : SV ℝ) : (∃ w, p.bodyWrenchFloat fl V A w) ∧ ∃ w, regressedWrenchFloat fl p V A w := by
  have h2i : ∃ I, H2IFloat fl p.H I := by
    obtain ⟨t, ht⟩ := FlSum.exists (fl := fl) [p.H 0 0, p.H 1 1, p.H 2 2]
    exact ⟨Matrix.of fun i j => fl (fl (t * (1 : Matrix (Fin 3) (Fin 3) ℝ) i j) - p.H i j), t, ht, fun _ _ => rfl⟩
  obtain ⟨I, hI⟩ := h2i
  constructor
  · have hM : ∃ M, p.MFloat fl M := ⟨_, I, hI, rfl⟩
    obtain ⟨M, hM⟩ := hM
    obtain ⟨N, hN⟩ := matMulFloat.exists fl V.adjointᵀ M
    choose x hx using fun i => FlDot.exists (fl := fl) (List.ofFn fun j => (M i j, A.vec j))
    choose y hy using fun i => FlDot.exists (fl := fl) (List.ofFn fun j => (N i j, V.vec j))
    exact ⟨fun i => fl (x i - y i), M, N, x, y, hM, hx, hN, hy, fun _ => rfl⟩
  · obtain ⟨N, hN⟩ := matMulFloat.exists fl V.adjointᵀ (lift6 V)
    let Y : Matrix (Fin 6) (Fin 10) ℝ := Matrix.of fun i j => fl (lift6 A i j - N i j)
    let θ : Fin 10 → ℝ := ![p.mass, p.hFloat fl 0, p.hFloat fl 1, p.hFloat fl 2, I 0 0, I 0 1, I 0 2, I 1 1, I 1 2, I 2 2]
    choose w hw using fun i => FlDot.exists (fl := fl) (List.ofFn fun k => (Y i k, θ k))
    exact ⟨w, Y, θ, ⟨N, hN, fun _ _ => rfl⟩, ⟨I, hI, rfl⟩, hw⟩

end

/-! ### The hypotheses can be met -/

/-- A body of mass 2, turning and accelerating -/
example : ∃ (p : IP ℝ) (V A : SV ℝ), p.Sized 5 ∧ p.Hᵀ = p.H ∧ (∀ i, |V.vec i| ≤ 3) ∧ (∀ i, |A.vec i| ≤ 10) ∧ p.mass = 2 ∧ V.vec 0 = 3 ∧
    A.vec 5 = -10 := by
  have b : ∀ k : ℤ, |k| < 100 → Binary64 (k : ℝ) := fun k hk => binary64_int k (hk.trans (by norm_num))
  have b0 : Binary64 0 := by simpa using b 0 (by norm_num)
  have b1 : Binary64 1 := by simpa using b 1 (by norm_num)
  have b2 : Binary64 2 := by simpa using b 2 (by norm_num)
  have b5 : Binary64 5 := by simpa using b 5 (by norm_num)
  refine ⟨⟨2, ![1, 1, 0], !![5, 1, 0; 1, 5, 0; 0, 0, 5]⟩, ⟨![3, -1, 2, 0, 1, 1]⟩, ⟨![0, 1, 2, 0, 4, -10]⟩, ⟨b2, ?_, ?_, ?_, ?_⟩, ?_, ?_, ?_,
    rfl, rfl, rfl⟩
  · intro i j
    fin_cases i <;> fin_cases j
    exacts [b5, b1, b0, b1, b5, b0, b0, b0, b5]
  · norm_num
  · intro i
    fin_cases i <;> simp <;> norm_num
  · intro i j
    fin_cases i <;> fin_cases j <;> simp
  · ext i j
    fin_cases i <;> fin_cases j <;> rfl
  · intro i
    fin_cases i <;> simp <;> norm_num
  · intro i
    fin_cases i <;> simp <;> norm_num

end Rigeo
