import Mathlib.LinearAlgebra.Lagrange
import Mathlib.Algebra.Polynomial.Bivariate
import Mathlib.Algebra.Order.BigOperators.Ring.Finset
import Mathlib.Algebra.MvPolynomial.Degrees
import Mathlib.Algebra.MvPolynomial.Eval
import Mathlib.Tactic.Linarith
import Mathlib.Tactic.Positivity
import Mathlib.Tactic.LinearCombination

/-!
# A functional at a corner

The functional on polynomials in two variables that integrates over the two half-lines and the quadrant near
the corner `(0, 0)` and subtracts the coefficient of `u v`. It is non-negative on weighted squares of polynomials
of degree at most `d` but negative on `u v`.
-/

namespace Rigeo.Corner

open Polynomial Finset

variable {K : Type} [Field K] [LinearOrder K] [IsStrictOrderedRing K]

/-- A coefficient of a polynomial of degree at most `d` is bounded by its values at `d + 1` nodes. -/
theorem coeff_sq_le {d : ℕ} (x : Fin (d + 1) → K) (hx : Function.Injective x) (i : ℕ) :
    ∃ c : K, 0 ≤ c ∧ ∀ p : K[X], p.natDegree ≤ d → p.coeff i ^ 2 ≤ c * ∑ k, p.eval (x k) ^ 2 := by
  refine ⟨∑ k, ((Lagrange.basis univ x k).coeff i) ^ 2, sum_nonneg fun _ _ => sq_nonneg _, fun p hp => ?_⟩
  have h1 : p = Lagrange.interpolate univ x fun k => p.eval (x k) := by
    refine Lagrange.eq_interpolate (s := univ) (v := x) hx.injOn ?_
    rw [card_univ, Fintype.card_fin]
    exact (degree_le_of_natDegree_le hp).trans_lt (by exact_mod_cast Nat.lt_succ_self d)
  have h2 : p.coeff i = ∑ k, (Lagrange.basis univ x k).coeff i * p.eval (x k) := by
    conv_lhs => rw [h1]
    rw [Lagrange.interpolate_apply, finsetSum_coeff]
    exact sum_congr rfl fun k _ => by rw [coeff_C_mul, mul_comm]
  rw [h2]
  exact sum_mul_sq_le_sq_mul_sq _ _ _

/-- Degree at most `d` in each variable. -/
def Deg (d : ℕ) (Q : K[X][X]) : Prop := Q.natDegree ≤ d ∧ ∀ j, (Q.coeff j).natDegree ≤ d

/-- The value at `X = u`, `Y = v`. -/
noncomputable abbrev val (Q : K[X][X]) (u v : K) : K := (Q.map (evalRingHom u)).eval v

theorem val_mul (P Q : K[X][X]) (u v : K) : val (P * Q) u v = val P u v * val Q u v := by
  simp [val, Polynomial.map_mul]

/-- The coefficient of `X ^ i * Y ^ j`. -/
noncomputable abbrev co (Q : K[X][X]) (i j : ℕ) : K := (Q.coeff j).coeff i

theorem val_zero_right (Q : K[X][X]) (u : K) : val Q u 0 = (Q.coeff 0).eval u := by
  rw [val, ← coeff_zero_eq_eval_zero, coeff_map]; rfl

theorem val_zero_left (Q : K[X][X]) (i : ℕ) : (Q.map (evalRingHom 0)).coeff i = co Q 0 i := by
  rw [coeff_map, co, coeff_zero_eq_eval_zero]; rfl

theorem bounds {d : ℕ} (x : Fin (d + 1) → K) (hx : Function.Injective x) :
    ∃ c : K, 0 < c ∧ ∀ Q : K[X][X], Deg d Q →
      (co Q 0 0 ^ 2 ≤ c * ∑ k, val Q (x k) 0 ^ 2 ∧ co Q 1 0 ^ 2 ≤ c * ∑ k, val Q (x k) 0 ^ 2) ∧
      (co Q 0 0 ^ 2 ≤ c * ∑ k, val Q 0 (x k) ^ 2 ∧ co Q 0 1 ^ 2 ≤ c * ∑ k, val Q 0 (x k) ^ 2) ∧
      (co Q 1 0 ^ 2 ≤ c * ∑ k, ∑ l, val Q (x k) (x l) ^ 2 ∧ co Q 0 1 ^ 2 ≤ c * ∑ k, ∑ l, val Q (x k) (x l) ^ 2 ∧
        co Q 1 1 ^ 2 ≤ c * ∑ k, ∑ l, val Q (x k) (x l) ^ 2) := by
  obtain ⟨c0, p0, h0⟩ := coeff_sq_le x hx 0
  obtain ⟨c1, p1, h1⟩ := coeff_sq_le x hx 1
  have two : ∀ (Q : K[X][X]), Deg d Q → ∀ (i j : ℕ) (a b : K), 0 ≤ a → 0 ≤ b →
      (∀ p : K[X], p.natDegree ≤ d → p.coeff i ^ 2 ≤ a * ∑ k, p.eval (x k) ^ 2) →
      (∀ p : K[X], p.natDegree ≤ d → p.coeff j ^ 2 ≤ b * ∑ k, p.eval (x k) ^ 2) →
      co Q i j ^ 2 ≤ a * b * ∑ k, ∑ l, val Q (x k) (x l) ^ 2 := by
    intro Q hQ i j a b ha hb hi hj
    have t1 := hi (Q.coeff j) (hQ.2 j)
    have t2 : ∀ k, (Q.coeff j).eval (x k) ^ 2 ≤ b * ∑ l, val Q (x k) (x l) ^ 2 := by
      intro k
      have := hj (Q.map (evalRingHom (x k))) (natDegree_map_le.trans hQ.1)
      rwa [coeff_map] at this
    calc co Q i j ^ 2 ≤ a * ∑ k, (Q.coeff j).eval (x k) ^ 2 := t1
      _ ≤ a * ∑ k, b * ∑ l, val Q (x k) (x l) ^ 2 := mul_le_mul_of_nonneg_left (sum_le_sum fun k _ => t2 k) ha
      _ = _ := by rw [← mul_sum, mul_assoc]
  set c := c0 + c1 + c1 * c0 + c0 * c1 + c1 * c1 + 1 with hc
  have q1 := mul_nonneg p1 p0; have q2 := mul_nonneg p0 p1; have q3 := mul_nonneg p1 p1
  refine ⟨c, by positivity, fun Q hQ => ?_⟩
  have up : ∀ {a b s : K}, b ≤ a * s → a ≤ c → 0 ≤ s → b ≤ c * s := fun h h1 h2 =>
    h.trans (mul_le_mul_of_nonneg_right h1 h2)
  have n1 : 0 ≤ ∑ k, val Q (x k) 0 ^ 2 := sum_nonneg fun _ _ => sq_nonneg _
  have n2 : 0 ≤ ∑ k, val Q 0 (x k) ^ 2 := sum_nonneg fun _ _ => sq_nonneg _
  have n3 : 0 ≤ ∑ k, ∑ l, val Q (x k) (x l) ^ 2 := sum_nonneg fun _ _ => sum_nonneg fun _ _ => sq_nonneg _
  have a1 : ∑ k, (Q.coeff 0).eval (x k) ^ 2 = ∑ k, val Q (x k) 0 ^ 2 :=
    sum_congr rfl fun k _ => by rw [val_zero_right]
  refine ⟨⟨?_, ?_⟩, ⟨?_, ?_⟩, ?_, ?_, ?_⟩
  · exact up (a1 ▸ h0 (Q.coeff 0) (hQ.2 0)) (by linarith) n1
  · exact up (a1 ▸ h1 (Q.coeff 0) (hQ.2 0)) (by linarith) n1
  · have := h0 (Q.map (evalRingHom 0)) (natDegree_map_le.trans hQ.1)
    rw [val_zero_left] at this
    exact up this (by linarith) n2
  · have := h1 (Q.map (evalRingHom 0)) (natDegree_map_le.trans hQ.1)
    rw [val_zero_left] at this
    exact up this (by linarith) n2
  · exact up (two Q hQ 1 0 c1 c0 p1 p0 h1 h0) (by linarith) n3
  · exact up (two Q hQ 0 1 c0 c1 p0 p1 h0 h1) (by linarith) n3
  · exact up (two Q hQ 1 1 c1 c1 p1 p1 h1 h1) (by linarith) n3

theorem co_mul_00 (P Q : K[X][X]) : co (P * Q) 0 0 = co P 0 0 * co Q 0 0 := by
  simp [co, mul_coeff_zero]

theorem co_mul_10 (P Q : K[X][X]) : co (P * Q) 1 0 = co P 1 0 * co Q 0 0 + co P 0 0 * co Q 1 0 := by
  simp only [co, mul_coeff_zero, mul_coeff_one]; ring

theorem co_mul_01 (P Q : K[X][X]) : co (P * Q) 0 1 = co P 0 1 * co Q 0 0 + co P 0 0 * co Q 0 1 := by
  simp only [co, mul_coeff_one, coeff_add, mul_coeff_zero]; ring

theorem co_mul_11 (P Q : K[X][X]) : co (P * Q) 1 1 =
    co P 1 1 * co Q 0 0 + co P 0 1 * co Q 1 0 + co P 1 0 * co Q 0 1 + co P 0 0 * co Q 1 1 := by
  simp only [co, mul_coeff_one, coeff_add]; ring

/-- The functional. -/
noncomputable def functional {d : ℕ} (x : Fin (d + 1) → K) (N ε : K) : K[X][X] →+ K where
  toFun Q := N * (∑ k, val Q (x k) 0 + ∑ k, val Q 0 (x k)) + ε * ∑ k, ∑ l, val Q (x k) (x l) - co Q 1 1
  map_zero' := by simp [val, co]
  map_add' P Q := by
    simp only [val, co, Polynomial.map_add, eval_add, sum_add_distrib, coeff_add]; ring

theorem functional_apply {d : ℕ} (x : Fin (d + 1) → K) (N ε : K) (Q : K[X][X]) :
    functional x N ε Q =
      N * (∑ k, val Q (x k) 0 + ∑ k, val Q 0 (x k)) + ε * ∑ k, ∑ l, val Q (x k) (x l) - co Q 1 1 := rfl

theorem two_mul_le {a b t : K} (ht : 0 < t) : 2 * (a * b) ≤ t * b ^ 2 + t⁻¹ * a ^ 2 := by
  have h : 0 ≤ t * (b - t⁻¹ * a) ^ 2 := by positivity
  have : t * (b - t⁻¹ * a) ^ 2 = t * b ^ 2 + t⁻¹ * a ^ 2 - 2 * (a * b) := by field_simp; ring
  linarith

theorem two_mul_abs (s p q : K) : 2 * (s * (p * q)) ≤ |s| * (p ^ 2 + q ^ 2) := by
  have h1 : s * (2 * (p * q)) ≤ |s| * |2 * (p * q)| := by rw [← abs_mul]; exact le_abs_self _
  have h2 : |2 * (p * q)| ≤ p ^ 2 + q ^ 2 := abs_le.mpr ⟨by nlinarith [sq_nonneg (p + q)], by nlinarith [sq_nonneg (p - q)]⟩
  have := mul_le_mul_of_nonneg_left h2 (abs_nonneg s)
  linarith

theorem sum_ge {ι : Type} [Fintype ι] (γ : K) (g q : ι → K) (hg : ∀ i, γ ≤ g i) :
    γ * ∑ i, q i ^ 2 ≤ ∑ i, g i * q i ^ 2 := by
  rw [mul_sum]
  exact sum_le_sum fun i _ => mul_le_mul_of_nonneg_right (hg i) (sq_nonneg _)

/-- A lower bound of finitely many positive numbers. -/
theorem exists_lower {ι : Type} [Fintype ι] (g : ι → K) (hg : ∀ i, 0 < g i) : ∃ γ, 0 < γ ∧ ∀ i, γ ≤ g i := by
  rcases isEmpty_or_nonempty ι with h | h
  · exact ⟨1, one_pos, fun i => (h.false i).elim⟩
  · obtain ⟨i, hi⟩ := Finite.exists_min g
    exact ⟨g i, hg i, hi⟩

/-- The weight is positive at all points of the functional. -/
def Pos {d : ℕ} (x : Fin (d + 1) → K) (G : K[X][X]) : Prop :=
  (∀ k, 0 < val G (x k) 0) ∧ (∀ k, 0 < val G 0 (x k)) ∧ ∀ k l, 0 < val G (x k) (x l)

theorem functional_pos {d : ℕ} (x : Fin (d + 1) → K) (hx : Function.Injective x) {ε : K} (hε : 0 < ε)
    (G : K[X][X]) (hG : Pos x G) :
    ∃ N₀ : K, ∀ N, N₀ ≤ N → ∀ Q, Deg d Q → 0 ≤ functional x N ε (G * Q ^ 2) := by
  obtain ⟨c, hc, hb⟩ := bounds x hx
  obtain ⟨γ1, hγ1, h1⟩ := exists_lower (fun k => val G (x k) 0) hG.1
  obtain ⟨γ2, hγ2, h2⟩ := exists_lower (fun k => val G 0 (x k)) hG.2.1
  obtain ⟨γ3, hγ3, h3⟩ := exists_lower (fun i : Fin (d + 1) × Fin (d + 1) => val G (x i.1) (x i.2)) fun i => hG.2.2 i.1 i.2
  set g0 := co G 0 0
  set gu := co G 1 0
  set gv := co G 0 1
  set gw := co G 1 1
  -- the weight of `e ^ 2`
  set t := ε * γ3 / c with ht
  have htp : 0 < t := by positivity
  set A := |gw| + t⁻¹ * g0 ^ 2 + |gu| + |gv| with hA
  set B := |g0| + |gu| + |gv| with hB
  have hA0 : 0 ≤ A := by positivity
  have hB0 : 0 ≤ B := by positivity
  refine ⟨c * (A + B) / γ1 + c * B / γ2, fun N hN Q hQ => ?_⟩
  obtain ⟨⟨b1, b2⟩, ⟨b3, b4⟩, b5, b6, b7⟩ := hb Q hQ
  set S1 := ∑ k, val Q (x k) 0 ^ 2
  set S2 := ∑ k, val Q 0 (x k) ^ 2
  set S3 := ∑ k, ∑ l, val Q (x k) (x l) ^ 2
  set a := co Q 0 0
  set b := co Q 1 0
  set e := co Q 0 1
  set f := co Q 1 1
  have n1 : 0 ≤ S1 := sum_nonneg fun _ _ => sq_nonneg _
  have n2 : 0 ≤ S2 := sum_nonneg fun _ _ => sq_nonneg _
  have hu : co (G * Q ^ 2) 1 1 = gw * a ^ 2 + 2 * (gv * (a * b)) + 2 * (gu * (a * e)) + 2 * (g0 * (b * e)) + 2 * (g0 * a * f) := by
    rw [sq, co_mul_11, co_mul_11, co_mul_10, co_mul_01, co_mul_00]; ring
  have v1 : γ1 * S1 ≤ ∑ k, val (G * Q ^ 2) (x k) 0 := by
    refine (sum_ge γ1 _ (fun k => val Q (x k) 0) h1).trans (le_of_eq (sum_congr rfl fun k _ => ?_))
    rw [sq, sq, val_mul, val_mul]
  have v2 : γ2 * S2 ≤ ∑ k, val (G * Q ^ 2) 0 (x k) := by
    refine (sum_ge γ2 _ (fun k => val Q 0 (x k)) h2).trans (le_of_eq (sum_congr rfl fun k _ => ?_))
    rw [sq, sq, val_mul, val_mul]
  have v3 : γ3 * S3 ≤ ∑ k, ∑ l, val (G * Q ^ 2) (x k) (x l) := by
    have := sum_ge γ3 _ (fun i : Fin (d + 1) × Fin (d + 1) => val Q (x i.1) (x i.2)) h3
    rw [Fintype.sum_prod_type, Fintype.sum_prod_type] at this
    refine this.trans (le_of_eq (sum_congr rfl fun k _ => sum_congr rfl fun l _ => ?_))
    rw [sq, sq, val_mul, val_mul]
  have hc1 : 0 ≤ c * (A + B) / γ1 := by positivity
  have hc2 : 0 ≤ c * B / γ2 := by positivity
  have hN0 : 0 ≤ N := le_trans (add_nonneg hc1 hc2) hN
  have w1 : c * (A + B) * S1 ≤ N * ∑ k, val (G * Q ^ 2) (x k) 0 := by
    refine le_trans ?_ (mul_le_mul_of_nonneg_left v1 hN0)
    have : c * (A + B) / γ1 * (γ1 * S1) ≤ N * (γ1 * S1) := mul_le_mul_of_nonneg_right (by linarith) (by positivity)
    refine le_trans (le_of_eq ?_) this
    field_simp
  have w2 : c * B * S2 ≤ N * ∑ k, val (G * Q ^ 2) 0 (x k) := by
    refine le_trans ?_ (mul_le_mul_of_nonneg_left v2 hN0)
    have : c * B / γ2 * (γ2 * S2) ≤ N * (γ2 * S2) := mul_le_mul_of_nonneg_right (by linarith) (by positivity)
    refine le_trans (le_of_eq ?_) this
    field_simp
  have w3 : t * f ^ 2 ≤ ε * ∑ k, ∑ l, val (G * Q ^ 2) (x k) (x l) := by
    refine le_trans ?_ (mul_le_mul_of_nonneg_left v3 hε.le)
    refine (mul_le_mul_of_nonneg_left b7 htp.le).trans (le_of_eq ?_)
    rw [ht]; field_simp
  have y1 : gw * a ^ 2 ≤ |gw| * a ^ 2 := mul_le_mul_of_nonneg_right (le_abs_self _) (sq_nonneg _)
  have y2 := two_mul_abs gv a b
  have y3 := two_mul_abs gu a e
  have y4 := two_mul_abs g0 b e
  have y5 := two_mul_le (a := g0 * a) (b := f) htp
  have x1 : A * a ^ 2 = |gw| * a ^ 2 + t⁻¹ * (g0 * a) ^ 2 + |gu| * a ^ 2 + |gv| * a ^ 2 := by rw [hA]; ring
  have x2 : B * b ^ 2 = |g0| * b ^ 2 + |gu| * b ^ 2 + |gv| * b ^ 2 := by rw [hB]; ring
  have x3 : B * e ^ 2 = |g0| * e ^ 2 + |gu| * e ^ 2 + |gv| * e ^ 2 := by rw [hB]; ring
  have p1 : 0 ≤ |gu| * b ^ 2 := by positivity
  have p2 : 0 ≤ |gv| * e ^ 2 := by positivity
  have z1 := mul_le_mul_of_nonneg_left b1 hA0
  have z2 := mul_le_mul_of_nonneg_left b2 hB0
  have z3 := mul_le_mul_of_nonneg_left b4 hB0
  rw [functional_apply, hu]
  generalize ∑ k, val (G * Q ^ 2) (x k) 0 = V1 at *
  generalize ∑ k, val (G * Q ^ 2) 0 (x k) = V2 at *
  generalize ∑ k, ∑ l, val (G * Q ^ 2) (x k) (x l) = V3 at *
  clear_value A B S1 S2 S3 a b e f g0 gu gv gw t
  clear hu hb v1 v2 v3 b1 b2 b3 b4 b5 b6 b7 h1 h2 h3
  linarith

/-- The weight `X * G`. -/
theorem functional_pos_left {d : ℕ} (x : Fin (d + 1) → K) (hx : Function.Injective x) (hx0 : ∀ k, 0 < x k) {ε : K}
    (hε : 0 < ε) (G : K[X][X]) (hG : Pos x G) :
    ∃ N₀ : K, ∀ N, N₀ ≤ N → ∀ Q, Deg d Q → 0 ≤ functional x N ε (C X * G * Q ^ 2) := by
  obtain ⟨c, hc, hb⟩ := bounds x hx
  obtain ⟨γ1, hγ1, h1⟩ := exists_lower (fun k => x k * val G (x k) 0) fun k => mul_pos (hx0 k) (hG.1 k)
  obtain ⟨γ3, hγ3, h3⟩ := exists_lower (fun i : Fin (d + 1) × Fin (d + 1) => x i.1 * val G (x i.1) (x i.2)) fun i =>
    mul_pos (hx0 i.1) (hG.2.2 i.1 i.2)
  set g0 := co G 0 0
  set gv := co G 0 1
  set t := ε * γ3 / c with ht
  have htp : 0 < t := by positivity
  set A := |gv| + t⁻¹ * g0 ^ 2 with hA
  have hA0 : 0 ≤ A := by positivity
  refine ⟨c * A / γ1, fun N hN Q hQ => ?_⟩
  obtain ⟨⟨b1, -⟩, -, -, b6, -⟩ := hb Q hQ
  set S1 := ∑ k, val Q (x k) 0 ^ 2
  set S3 := ∑ k, ∑ l, val Q (x k) (x l) ^ 2
  set a := co Q 0 0
  set e := co Q 0 1
  have n1 : 0 ≤ S1 := sum_nonneg fun _ _ => sq_nonneg _
  have hu : co (C X * G * Q ^ 2) 1 1 = gv * a ^ 2 + 2 * (g0 * a * e) := by
    have : co (C X * G * Q ^ 2) 1 1 = co (G * Q ^ 2) 0 1 := by rw [mul_assoc, co, coeff_C_mul, coeff_X_mul]
    rw [this, sq, co_mul_01, co_mul_01, co_mul_00]; ring
  have hv : ∀ u v, val (C X * G * Q ^ 2) u v = u * val G u v * val Q u v ^ 2 := by
    intro u v; rw [sq, sq, val_mul, val_mul, val_mul]; congr 2; simp [val]
  have v1 : γ1 * S1 ≤ ∑ k, val (C X * G * Q ^ 2) (x k) 0 :=
    (sum_ge γ1 _ (fun k => val Q (x k) 0) h1).trans (le_of_eq (sum_congr rfl fun k _ => by rw [hv]))
  have v2 : ∑ k, val (C X * G * Q ^ 2) 0 (x k) = 0 := sum_eq_zero fun k _ => by rw [hv]; ring
  have v3 : γ3 * S3 ≤ ∑ k, ∑ l, val (C X * G * Q ^ 2) (x k) (x l) := by
    have := sum_ge γ3 _ (fun i : Fin (d + 1) × Fin (d + 1) => val Q (x i.1) (x i.2)) h3
    rw [Fintype.sum_prod_type, Fintype.sum_prod_type] at this
    exact this.trans (le_of_eq (sum_congr rfl fun k _ => sum_congr rfl fun l _ => by rw [hv]))
  have hc1 : 0 ≤ c * A / γ1 := by positivity
  have hN0 : 0 ≤ N := hc1.trans hN
  have w1 : c * A * S1 ≤ N * ∑ k, val (C X * G * Q ^ 2) (x k) 0 := by
    refine le_trans ?_ (mul_le_mul_of_nonneg_left v1 hN0)
    have : c * A / γ1 * (γ1 * S1) ≤ N * (γ1 * S1) := mul_le_mul_of_nonneg_right (by linarith) (by positivity)
    refine le_trans (le_of_eq ?_) this
    field_simp
  have w3 : t * e ^ 2 ≤ ε * ∑ k, ∑ l, val (C X * G * Q ^ 2) (x k) (x l) := by
    refine le_trans ?_ (mul_le_mul_of_nonneg_left v3 hε.le)
    refine (mul_le_mul_of_nonneg_left b6 htp.le).trans (le_of_eq ?_)
    rw [ht]; field_simp
  have y1 : gv * a ^ 2 ≤ |gv| * a ^ 2 := mul_le_mul_of_nonneg_right (le_abs_self _) (sq_nonneg _)
  have y5 := two_mul_le (a := g0 * a) (b := e) htp
  have z1 : A * a ^ 2 ≤ A * (c * S1) := mul_le_mul_of_nonneg_left b1 hA0
  rw [functional_apply, hu, v2]
  have x1 : A * a ^ 2 = |gv| * a ^ 2 + t⁻¹ * (g0 * a) ^ 2 := by rw [hA]; ring
  nlinarith [w1, w3, z1, y1, y5]

/-- The weight `Y * G`. -/
theorem functional_pos_right {d : ℕ} (x : Fin (d + 1) → K) (hx : Function.Injective x) (hx0 : ∀ k, 0 < x k) {ε : K}
    (hε : 0 < ε) (G : K[X][X]) (hG : Pos x G) :
    ∃ N₀ : K, ∀ N, N₀ ≤ N → ∀ Q, Deg d Q → 0 ≤ functional x N ε (X * G * Q ^ 2) := by
  obtain ⟨c, hc, hb⟩ := bounds x hx
  obtain ⟨γ1, hγ1, h1⟩ := exists_lower (fun k => x k * val G 0 (x k)) fun k => mul_pos (hx0 k) (hG.2.1 k)
  obtain ⟨γ3, hγ3, h3⟩ := exists_lower (fun i : Fin (d + 1) × Fin (d + 1) => x i.2 * val G (x i.1) (x i.2)) fun i =>
    mul_pos (hx0 i.2) (hG.2.2 i.1 i.2)
  set g0 := co G 0 0
  set gv := co G 1 0
  set t := ε * γ3 / c with ht
  have htp : 0 < t := by positivity
  set A := |gv| + t⁻¹ * g0 ^ 2 with hA
  have hA0 : 0 ≤ A := by positivity
  refine ⟨c * A / γ1, fun N hN Q hQ => ?_⟩
  obtain ⟨-, ⟨b1, -⟩, b6, -, -⟩ := hb Q hQ
  set S1 := ∑ k, val Q 0 (x k) ^ 2
  set S3 := ∑ k, ∑ l, val Q (x k) (x l) ^ 2
  set a := co Q 0 0
  set e := co Q 1 0
  have n1 : 0 ≤ S1 := sum_nonneg fun _ _ => sq_nonneg _
  have hu : co (X * G * Q ^ 2) 1 1 = gv * a ^ 2 + 2 * (g0 * a * e) := by
    have : co (X * G * Q ^ 2) 1 1 = co (G * Q ^ 2) 1 0 := by rw [mul_assoc, co, coeff_X_mul]
    rw [this, sq, co_mul_10, co_mul_10, co_mul_00]; ring
  have hv : ∀ u v, val (X * G * Q ^ 2) u v = v * val G u v * val Q u v ^ 2 := by
    intro u v; rw [sq, sq, val_mul, val_mul, val_mul]; congr 2; simp [val]
  have v1 : γ1 * S1 ≤ ∑ k, val (X * G * Q ^ 2) 0 (x k) :=
    (sum_ge γ1 _ (fun k => val Q 0 (x k)) h1).trans (le_of_eq (sum_congr rfl fun k _ => by rw [hv]))
  have v2 : ∑ k, val (X * G * Q ^ 2) (x k) 0 = 0 := sum_eq_zero fun k _ => by rw [hv]; ring
  have v3 : γ3 * S3 ≤ ∑ k, ∑ l, val (X * G * Q ^ 2) (x k) (x l) := by
    have := sum_ge γ3 _ (fun i : Fin (d + 1) × Fin (d + 1) => val Q (x i.1) (x i.2)) h3
    rw [Fintype.sum_prod_type, Fintype.sum_prod_type] at this
    exact this.trans (le_of_eq (sum_congr rfl fun k _ => sum_congr rfl fun l _ => by rw [hv]))
  have hc1 : 0 ≤ c * A / γ1 := by positivity
  have hN0 : 0 ≤ N := hc1.trans hN
  have w1 : c * A * S1 ≤ N * ∑ k, val (X * G * Q ^ 2) 0 (x k) := by
    refine le_trans ?_ (mul_le_mul_of_nonneg_left v1 hN0)
    have : c * A / γ1 * (γ1 * S1) ≤ N * (γ1 * S1) := mul_le_mul_of_nonneg_right (by linarith) (by positivity)
    refine le_trans (le_of_eq ?_) this
    field_simp
  have w3 : t * e ^ 2 ≤ ε * ∑ k, ∑ l, val (X * G * Q ^ 2) (x k) (x l) := by
    refine le_trans ?_ (mul_le_mul_of_nonneg_left v3 hε.le)
    refine (mul_le_mul_of_nonneg_left b6 htp.le).trans (le_of_eq ?_)
    rw [ht]; field_simp
  have y1 : gv * a ^ 2 ≤ |gv| * a ^ 2 := mul_le_mul_of_nonneg_right (le_abs_self _) (sq_nonneg _)
  have y5 := two_mul_le (a := g0 * a) (b := e) htp
  have z1 : A * a ^ 2 ≤ A * (c * S1) := mul_le_mul_of_nonneg_left b1 hA0
  rw [functional_apply, hu, v2]
  have x1 : A * a ^ 2 = |gv| * a ^ 2 + t⁻¹ * (g0 * a) ^ 2 := by rw [hA]; ring
  nlinarith [w1, w3, z1, y1, y5]

/-- The value of the functional on `X * Y`. -/
theorem functional_XY {d : ℕ} (x : Fin (d + 1) → K) (N ε : K) :
    functional x N ε (C X * X) = ε * (∑ k, x k) ^ 2 - 1 := by
  have hv : ∀ u v : K, val (C X * X) u v = u * v := by intro u v; rw [val_mul]; simp [val]
  rw [functional_apply]
  simp only [hv, mul_zero, zero_mul, sum_const_zero, add_zero, zero_add, sq, sum_mul_sum]
  rw [co, coeff_C_mul, coeff_X_one, mul_one, coeff_X_one]

/-- The value of the functional on `1`. -/
theorem functional_one {d : ℕ} (x : Fin (d + 1) → K) (N ε : K) :
    functional x N ε 1 = 2 * N * (d + 1) + ε * (d + 1) ^ 2 := by
  have hv : ∀ u v : K, val (1 : K[X][X]) u v = 1 := by intro u v; simp [val]
  rw [functional_apply]
  simp only [hv, sum_const, card_univ, Fintype.card_fin, nsmul_eq_mul, mul_one]
  rw [co, coeff_one]
  simp
  ring

theorem functional_C {d : ℕ} (x : Fin (d + 1) → K) (N ε a : K) (Q : K[X][X]) :
    functional x N ε (C (C a) * Q) = a * functional x N ε Q := by
  have hv : ∀ u v : K, val (C (C a) * Q) u v = a * val Q u v := by intro u v; rw [val_mul]; simp [val]
  rw [functional_apply, functional_apply]
  simp only [hv, ← mul_sum]
  rw [co, coeff_C_mul, coeff_C_mul]
  ring

/-- Distinct positive nodes that are at most `δ`. -/
theorem exists_nodes (d : ℕ) {δ : K} (hδ : 0 < δ) :
    ∃ x : Fin (d + 1) → K, Function.Injective x ∧ (∀ k, 0 < x k) ∧ ∀ k, x k ≤ δ := by
  refine ⟨fun k => δ * ((k : ℕ) + 1) / (d + 1), fun k l h => ?_, fun k => by positivity, fun k => ?_⟩
  · have h1 : (0 : K) < d + 1 := by positivity
    have h2 := (div_left_inj' h1.ne').mp h
    have h3 := add_right_cancel (mul_left_cancel₀ hδ.ne' h2)
    exact Fin.ext (by exact_mod_cast h3)
  · rw [div_le_iff₀ (by positivity)]
    refine mul_le_mul_of_nonneg_left ?_ hδ.le
    have : ((k : ℕ) : K) ≤ d := by exact_mod_cast Nat.lt_succ_iff.mp k.2
    linarith

/-- The affine weight `a + b X + c Y`. -/
noncomputable def aff (a b c : K) : K[X][X] := C (C a) + C (C b * X) + C (C c) * X

theorem val_aff (a b c u v : K) : val (aff a b c) u v = a + b * u + c * v := by
  simp [val, aff]

theorem aff_pos (a b c : K) (ha : 0 < a) : ∃ δ, 0 < δ ∧ ∀ (d : ℕ) (x : Fin (d + 1) → K),
    (∀ k, 0 < x k) → (∀ k, x k ≤ δ) → Pos x (aff a b c) := by
  have hs : 0 < |b| + |c| + 1 := by positivity
  refine ⟨a / (2 * (|b| + |c| + 1)), by positivity, fun d x h0 h1 => ?_⟩
  have key : ∀ u v, 0 ≤ u → u ≤ a / (2 * (|b| + |c| + 1)) → 0 ≤ v → v ≤ a / (2 * (|b| + |c| + 1)) →
      0 < val (aff a b c) u v := by
    intro u v hu hu' hv hv'
    rw [val_aff]
    set δ := a / (2 * (|b| + |c| + 1)) with hδ
    have hd : (|b| + |c| + 1) * δ = a / 2 := by rw [hδ]; field_simp
    have hδ0 : 0 < δ := by positivity
    have h1 : -(|b| * δ) ≤ b * u := by
      have := mul_le_mul_of_nonneg_left hu' (abs_nonneg b)
      have := mul_le_mul_of_nonneg_right (neg_abs_le b) hu
      linarith
    have h2 : -(|c| * δ) ≤ c * v := by
      have := mul_le_mul_of_nonneg_left hv' (abs_nonneg c)
      have := mul_le_mul_of_nonneg_right (neg_abs_le c) hv
      linarith
    nlinarith
  have hδ0 : 0 ≤ a / (2 * (|b| + |c| + 1)) := by positivity
  exact ⟨fun k => key _ _ (h0 k).le (h1 k) le_rfl hδ0, fun k => key _ _ le_rfl hδ0 (h0 k).le (h1 k),
    fun k l => key _ _ (h0 k).le (h1 k) (h0 l).le (h1 l)⟩

/-- The kinds of weights that the functional can handle: affine functions that are positive at the corner, and
their products with `X` or `Y`. -/
def Weight (G : K[X][X]) : Prop :=
  ∃ a b c : K, 0 < a ∧ (G = aff a b c ∨ G = C X * aff a b c ∨ G = X * aff a b c)

/-- For every degree and every finite list of weights there is a functional that is non-negative on the weighted
squares and negative on `X * Y`. -/
theorem exists_functional (d : ℕ) (Gs : List K[X][X]) (hG : ∀ G ∈ Gs, Weight G) :
    ∃ L : K[X][X] →+ K, (∀ (a : K) Q, L (C (C a) * Q) = a * L Q) ∧ L 1 = 1 ∧ L (C X * X) < 0 ∧
      ∀ G ∈ Gs, ∀ Q, Deg d Q → 0 ≤ L (G * Q ^ 2) := by
  have h1 : ∃ δ : K, 0 < δ ∧ ∀ G ∈ Gs, ∃ H, (G = H ∨ G = C X * H ∨ G = X * H) ∧ ∀ x : Fin (d + 1) → K,
      (∀ k, 0 < x k) → (∀ k, x k ≤ δ) → Pos x H := by
    induction Gs with
    | nil => exact ⟨1, one_pos, by simp⟩
    | cons G Gs ih =>
      obtain ⟨δ, h0, h⟩ := ih fun G' hG' => hG G' (List.mem_cons_of_mem _ hG')
      obtain ⟨a, b, c, ha, e⟩ := hG G List.mem_cons_self
      obtain ⟨δ', h0', h'⟩ := aff_pos a b c ha
      refine ⟨min δ δ', lt_min h0 h0', fun G' hG' => ?_⟩
      rcases List.mem_cons.mp hG' with rfl | hG'
      · exact ⟨_, e, fun x hx hx' => h' d x hx fun k => (hx' k).trans (min_le_right _ _)⟩
      · obtain ⟨H, e, hH⟩ := h G' hG'
        exact ⟨H, e, fun x hx hx' => hH x hx fun k => (hx' k).trans (min_le_left _ _)⟩
  obtain ⟨δ, hδ, h⟩ := h1
  obtain ⟨x, hx, hx0, hxδ⟩ := exists_nodes d hδ
  have hS : 0 < ∑ k, x k := sum_pos (fun k _ => hx0 k) univ_nonempty
  set ε := ((∑ k, x k) ^ 2)⁻¹ / 2 with hε
  have hε0 : 0 < ε := by positivity
  have h2 : ∃ N₀ : K, ∀ N, N₀ ≤ N → ∀ G ∈ Gs, ∀ Q, Deg d Q → 0 ≤ functional x N ε (G * Q ^ 2) := by
    clear hG
    induction Gs with
    | nil => exact ⟨0, by simp⟩
    | cons G Gs ih =>
      obtain ⟨N₀, hN⟩ := ih fun G' hG' => h G' (List.mem_cons_of_mem _ hG')
      obtain ⟨H, e, hH⟩ := h G List.mem_cons_self
      have hp := hH x hx0 hxδ
      have : ∃ N₁ : K, ∀ N, N₁ ≤ N → ∀ Q, Deg d Q → 0 ≤ functional x N ε (G * Q ^ 2) := by
        rcases e with rfl | rfl | rfl
        · exact functional_pos x hx hε0 _ hp
        · exact functional_pos_left x hx hx0 hε0 _ hp
        · exact functional_pos_right x hx hx0 hε0 _ hp
      obtain ⟨N₁, hN₁⟩ := this
      refine ⟨max N₀ N₁, fun N hN' G' hG' => ?_⟩
      rcases List.mem_cons.mp hG' with rfl | hG'
      · exact hN₁ N ((le_max_right _ _).trans hN')
      · exact hN N ((le_max_left _ _).trans hN') G' hG'
  obtain ⟨N₀, hN⟩ := h2
  set F := functional x (max N₀ 0) ε with hF
  have h1 : 0 < F 1 := by
    rw [hF, functional_one]
    have : 0 ≤ max N₀ 0 := le_max_right _ _
    positivity
  have h2 : F (C X * X) < 0 := by
    rw [hF, functional_XY]
    have : ε * (∑ k, x k) ^ 2 = 1 / 2 := by rw [hε]; field_simp
    rw [this]; norm_num
  refine ⟨(AddMonoidHom.mulLeft (F 1)⁻¹).comp F, fun a Q => ?_, ?_, ?_, fun G hG' Q hQ => ?_⟩
  · simp only [AddMonoidHom.comp_apply, AddMonoidHom.coe_mulLeft, hF, functional_C]; ring
  · simp only [AddMonoidHom.comp_apply, AddMonoidHom.coe_mulLeft]; exact inv_mul_cancel₀ h1.ne'
  · simp only [AddMonoidHom.comp_apply, AddMonoidHom.coe_mulLeft]
    exact mul_neg_of_pos_of_neg (inv_pos.mpr h1) h2
  · simp only [AddMonoidHom.comp_apply, AddMonoidHom.coe_mulLeft]
    exact mul_nonneg (inv_pos.mpr h1).le (hN _ (le_max_left _ _) G hG' Q hQ)

end Rigeo.Corner
