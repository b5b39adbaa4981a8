import Mathlib.Analysis.Convex.Cone.Extension
import Mathlib.Analysis.Convex.KreinMilman
import Mathlib.Algebra.MvPolynomial.Eval
import Mathlib.Algebra.Polynomial.AlgebraMap
import Mathlib.Algebra.Polynomial.Eval.Coeff
import Mathlib.Topology.Order.MonotoneConvergence
import Mathlib.Algebra.MvPolynomial.CommRing

/-!
# Positive polynomials on a compact set

Putinar's theorem: if the quadratic module generated by some polynomials is archimedean, then it contains every
polynomial that is positive where the generators are non-negative. The proof looks at the states (functionals that are
non-negative on the module): the extreme ones are evaluations at points.
-/

namespace Rigeo.Putinar

open MvPolynomial

variable {n : ℕ}

/-- The sums of products `g q²`, where `g` is 1 or one of the generators. -/
noncomputable def qmod (gs : Set (MvPolynomial (Fin n) ℝ)) : AddSubmonoid (MvPolynomial (Fin n) ℝ) :=
  AddSubmonoid.closure {p | ∃ g, (g = 1 ∨ g ∈ gs) ∧ ∃ q, p = g * q ^ 2}

variable {gs : Set (MvPolynomial (Fin n) ℝ)}

theorem gen_mem {g : MvPolynomial (Fin n) ℝ} (hg : g = 1 ∨ g ∈ gs) (q) : g * q ^ 2 ∈ qmod gs :=
  AddSubmonoid.subset_closure ⟨g, hg, q, rfl⟩

theorem mem_of_mem {g : MvPolynomial (Fin n) ℝ} (hg : g ∈ gs) : g ∈ qmod gs := by
  simpa using gen_mem (Or.inr hg) 1

theorem sq_mem (q : MvPolynomial (Fin n) ℝ) : q ^ 2 ∈ qmod gs := by
  simpa using gen_mem (gs := gs) (Or.inl rfl) q

theorem mul_sq_mem {p : MvPolynomial (Fin n) ℝ} (hp : p ∈ qmod gs) (q) : p * q ^ 2 ∈ qmod gs := by
  induction hp using AddSubmonoid.closure_induction with
  | mem x hx =>
    obtain ⟨g, hg, r, rfl⟩ := hx
    rw [mul_assoc, ← mul_pow]
    exact gen_mem hg _
  | zero => rw [zero_mul]; exact zero_mem _
  | add x y _ _ hx hy => rw [add_mul]; exact add_mem hx hy

theorem C_mul_mem {a : ℝ} (ha : 0 ≤ a) {p : MvPolynomial (Fin n) ℝ} (hp : p ∈ qmod gs) : C a * p ∈ qmod gs := by
  have h := mul_sq_mem hp (C (Real.sqrt a))
  rwa [← C_pow, Real.sq_sqrt ha, mul_comm] at h

theorem C_mem {a : ℝ} (ha : 0 ≤ a) : (C a : MvPolynomial (Fin n) ℝ) ∈ qmod gs := by
  have h := C_mul_mem (gs := gs) ha (sq_mem 1)
  simpa using h

/-- A polynomial with bounds. -/
def Bdd (gs : Set (MvPolynomial (Fin n) ℝ)) (p : MvPolynomial (Fin n) ℝ) : Prop :=
  ∃ N : ℝ, 0 < N ∧ C N - p ∈ qmod gs ∧ C N + p ∈ qmod gs

theorem bdd_C (a : ℝ) : Bdd gs (C a) := by
  refine ⟨|a| + 1, by positivity, ?_, ?_⟩
  · rw [← C_sub]; exact C_mem (by linarith [le_abs_self a])
  · rw [← C_add]; exact C_mem (by linarith [neg_abs_le a])

theorem Bdd.add {p q : MvPolynomial (Fin n) ℝ} (hp : Bdd gs p) (hq : Bdd gs q) : Bdd gs (p + q) := by
  obtain ⟨N, h0, h1, h2⟩ := hp
  obtain ⟨N', h0', h1', h2'⟩ := hq
  refine ⟨N + N', by positivity, ?_, ?_⟩
  · rw [C_add, show C N + C N' - (p + q) = (C N - p) + (C N' - q) by ring]; exact add_mem h1 h1'
  · rw [C_add, show C N + C N' + (p + q) = (C N + p) + (C N' + q) by ring]; exact add_mem h2 h2'

theorem Bdd.neg {p : MvPolynomial (Fin n) ℝ} (hp : Bdd gs p) : Bdd gs (-p) := by
  obtain ⟨N, h0, h1, h2⟩ := hp
  exact ⟨N, h0, by rwa [sub_neg_eq_add], by rwa [← sub_eq_add_neg]⟩

theorem Bdd.scale {p : MvPolynomial (Fin n) ℝ} (hp : Bdd gs p) (a : ℝ) : Bdd gs (C a * p) := by
  obtain ⟨N, h0, h1, h2⟩ := hp
  have key : ∀ a : ℝ, 0 ≤ a → Bdd gs (C a * p) := by
    intro a ha
    have e1 := C_mul_mem ha h1
    have e2 := C_mul_mem ha h2
    refine ⟨a * N + 1, by positivity, ?_, ?_⟩
    · rw [C_add, C_mul, show C a * C N + C 1 - C a * p = C a * (C N - p) + C 1 by ring]
      exact add_mem e1 (C_mem zero_le_one)
    · rw [C_add, C_mul, show C a * C N + C 1 + C a * p = C a * (C N + p) + C 1 by ring]
      exact add_mem e2 (C_mem zero_le_one)
  rcases le_total 0 a with ha | ha
  · exact key a ha
  · have := (key (-a) (by linarith)).neg
    rwa [C_neg, neg_mul, neg_neg] at this

/-- `N² - p²` is in the module if `N - p` and `N + p` are. -/
theorem sq_sub_sq_mem {p : MvPolynomial (Fin n) ℝ} {N : ℝ} (h0 : 0 < N) (h1 : C N - p ∈ qmod gs) (h2 : C N + p ∈ qmod gs) :
    C (N ^ 2) - p ^ 2 ∈ qmod gs := by
  have h := C_mul_mem (a := (2 * N)⁻¹) (by positivity) (add_mem (mul_sq_mem h1 (C N + p)) (mul_sq_mem h2 (C N - p)))
  convert h using 1
  have e : C (2 * N)⁻¹ * (2 * C N) = (1 : MvPolynomial (Fin n) ℝ) := by
    rw [show (2 : MvPolynomial (Fin n) ℝ) = C 2 from rfl, ← C_mul, ← C_mul, inv_mul_cancel₀ (by positivity), C_1]
  rw [C_pow]
  linear_combination (-(C N ^ 2 - p ^ 2)) * e

theorem bdd_of_sq {p : MvPolynomial (Fin n) ℝ} {N : ℝ} (h : C N - p ^ 2 ∈ qmod gs) : Bdd gs p := by
  have h2 : (2 : MvPolynomial (Fin n) ℝ) = C 2 := rfl
  have e : (C (1 / 2) * 2 : MvPolynomial (Fin n) ℝ) = 1 := by rw [h2, ← C_mul]; norm_num
  have k1 := C_mul_mem (a := 1 / 2) (by norm_num) (add_mem h (sq_mem (1 - p)))
  have k2 := C_mul_mem (a := 1 / 2) (by norm_num) (add_mem h (sq_mem (1 + p)))
  have up : ∀ q : MvPolynomial (Fin n) ℝ, C (1 / 2 * (N + 1)) + q ∈ qmod gs → C (|1 / 2 * (N + 1)| + 1) + q ∈ qmod gs := by
    intro q hq
    rw [show C (|1 / 2 * (N + 1)| + 1) + q = C (|1 / 2 * (N + 1)| + 1 - 1 / 2 * (N + 1)) + (C (1 / 2 * (N + 1)) + q) by
      rw [C_sub]; ring]
    exact add_mem (C_mem (by linarith [le_abs_self (1 / 2 * (N + 1))])) hq
  refine ⟨|1 / 2 * (N + 1)| + 1, by positivity, ?_, ?_⟩
  · rw [sub_eq_add_neg]
    refine up _ ?_
    convert k1 using 1
    rw [C_mul, C_add, C_1]
    linear_combination p * e
  · refine up _ ?_
    convert k2 using 1
    rw [C_mul, C_add, C_1]
    linear_combination (-p) * e

theorem Bdd.sq {p : MvPolynomial (Fin n) ℝ} (hp : Bdd gs p) : Bdd gs (p ^ 2) := by
  obtain ⟨N, h0, h1, h2⟩ := hp
  refine ⟨N ^ 2, by positivity, sq_sub_sq_mem h0 h1 h2, add_mem (C_mem (by positivity)) (sq_mem p)⟩

theorem Bdd.mul {p q : MvPolynomial (Fin n) ℝ} (hp : Bdd gs p) (hq : Bdd gs q) : Bdd gs (p * q) := by
  have h2 : (4 : MvPolynomial (Fin n) ℝ) = C 4 := rfl
  have e : (C (1 / 4) * 4 : MvPolynomial (Fin n) ℝ) = 1 := by rw [h2, ← C_mul]; norm_num
  have h := ((hp.add hq).sq.add (hp.add hq.neg).sq.neg).scale (1 / 4)
  convert h using 1
  linear_combination (-(p * q)) * e

/-- All polynomials have bounds if the variables have. -/
theorem bdd_all (h : ∀ i, Bdd gs (X i)) (p : MvPolynomial (Fin n) ℝ) : Bdd gs p := by
  induction p using MvPolynomial.induction_on with
  | C a => exact bdd_C a
  | add p q hp hq => exact hp.add hq
  | mul_X p i hp => exact hp.mul (h i)

/-- Polynomials in one variable with non-negative coefficients. -/
def NN (h : Polynomial ℝ) : Prop := ∀ k, 0 ≤ h.coeff k

theorem NN.add {f g : Polynomial ℝ} (hf : NN f) (hg : NN g) : NN (f + g) := fun k => by
  rw [Polynomial.coeff_add]; exact add_nonneg (hf k) (hg k)

theorem NN.mul {f g : Polynomial ℝ} (hf : NN f) (hg : NN g) : NN (f * g) := fun k => by
  rw [Polynomial.coeff_mul]; exact Finset.sum_nonneg fun i _ => mul_nonneg (hf _) (hg _)

/-- Polynomials that approximate `1 - √(1 - t)`. -/
noncomputable def U : ℕ → Polynomial ℝ
  | 0 => 0
  | k + 1 => .C (1 / 2) * (.X + U k ^ 2)

theorem nn_half : NN (.C (1 / 2)) := fun k => by
  rw [Polynomial.coeff_C]; split_ifs <;> norm_num

theorem nn_X : NN .X := fun k => by
  rw [Polynomial.coeff_X]; split_ifs <;> norm_num

theorem nn_U (k : ℕ) : NN (U k) := by
  induction k with
  | zero => intro j; simp [U]
  | succ k ih => rw [U, sq]; exact nn_half.mul (nn_X.add (ih.mul ih))

theorem nn_U_sub (k : ℕ) : NN (U (k + 1) - U k) := by
  induction k with
  | zero =>
    have : U 1 - U 0 = .C (1 / 2) * .X := by simp [U]
    rw [this]; exact nn_half.mul nn_X
  | succ k ih =>
    have : U (k + 1 + 1) - U (k + 1) = .C (1 / 2) * ((U (k + 1) - U k) * (U (k + 1) + U k)) := by
      rw [U, show U (k + 1) = .C (1 / 2) * (.X + U k ^ 2) from rfl]
      ring
    rw [this]
    exact nn_half.mul (ih.mul ((nn_U _).add (nn_U _)))

theorem U_eval {c : ℝ} (h0 : 0 ≤ c) (h1 : c ≤ 1) (k : ℕ) : 0 ≤ (U k).eval c ∧ (U k).eval c ≤ 1 := by
  induction k with
  | zero => simp [U]
  | succ k ih =>
    rw [U]
    simp only [Polynomial.eval_mul, Polynomial.eval_C, Polynomial.eval_add, Polynomial.eval_X, Polynomial.eval_pow]
    obtain ⟨a, b⟩ := ih
    constructor
    · positivity
    · nlinarith

theorem nn_eval {h : Polynomial ℝ} (hh : NN h) {c : ℝ} (h0 : 0 ≤ c) : 0 ≤ h.eval c := by
  rw [Polynomial.eval_eq_sum_range]
  exact Finset.sum_nonneg fun k _ => mul_nonneg (hh k) (pow_nonneg h0 k)

theorem U_diff_tendsto {c : ℝ} (h0 : 0 ≤ c) (h1 : c ≤ 1) :
    Filter.Tendsto (fun k => (U (k + 1) - U k).eval c) Filter.atTop (nhds 0) := by
  have hm : Monotone fun k => (U k).eval c := by
    refine monotone_nat_of_le_succ fun k => ?_
    have := nn_eval (nn_U_sub k) h0
    rw [Polynomial.eval_sub] at this
    linarith
  have hb : BddAbove (Set.range fun k => (U k).eval c) := ⟨1, by
    rintro _ ⟨k, rfl⟩; exact (U_eval h0 h1 k).2⟩
  have t := tendsto_atTop_ciSup hm hb
  have t' := (Filter.tendsto_add_atTop_iff_nat 1).mpr t
  have := t'.sub t
  rw [sub_self] at this
  simpa [Polynomial.eval_sub] using this

/-- A functional that is non-negative on the module stays so after multiplication with `1 - p²`, if `p²` is less
than 1. -/
theorem one_sub_sq_nonneg (hb : ∀ p, Bdd gs p) (L : MvPolynomial (Fin n) ℝ →ₗ[ℝ] ℝ) (hL : ∀ p ∈ qmod gs, 0 ≤ L p)
    {p : MvPolynomial (Fin n) ℝ} {c : ℝ} (h0 : 0 ≤ c) (h1 : c ≤ 1) (hp : C c - p ^ 2 ∈ qmod gs)
    {m : MvPolynomial (Fin n) ℝ} (hm : m ∈ qmod gs) : 0 ≤ L ((1 - p ^ 2) * m) := by
  have LC : ∀ (a : ℝ) (q : MvPolynomial (Fin n) ℝ), L (C a * q) = a * L q := fun a q => by
    rw [C_mul', map_smul, smul_eq_mul]
  induction hm using AddSubmonoid.closure_induction with
  | zero => simp
  | add x y _ _ hx hy => rw [mul_add, map_add]; exact add_nonneg hx hy
  | mem m hm =>
    obtain ⟨g, hg, r, rfl⟩ := hm
    obtain ⟨N, hN, hN1, -⟩ := hb g
    set A := N * L (r ^ 2) with hA
    have hA0 : 0 ≤ A := mul_nonneg hN.le (hL _ (sq_mem r))
    have hpow : ∀ k, L ((p ^ 2) ^ k * r ^ 2) ≤ c ^ k * L (r ^ 2) := by
      intro k
      induction k with
      | zero => simp
      | succ k ih =>
        have := hL _ (mul_sq_mem hp (p ^ k * r))
        have e : (C c - p ^ 2) * (p ^ k * r) ^ 2 = C c * ((p ^ 2) ^ k * r ^ 2) - (p ^ 2) ^ (k + 1) * r ^ 2 := by
          rw [mul_pow, ← pow_mul, ← pow_mul, ← pow_mul]; ring
        rw [e, map_sub, LC] at this
        have := mul_le_mul_of_nonneg_left ih h0
        rw [pow_succ c]
        linarith
    have hle : ∀ k, L ((p ^ 2) ^ k * (g * r ^ 2)) ≤ A * c ^ k := by
      intro k
      have := hL _ (mul_sq_mem hN1 (p ^ k * r))
      have e : (C N - g) * (p ^ k * r) ^ 2 = C N * ((p ^ 2) ^ k * r ^ 2) - (p ^ 2) ^ k * (g * r ^ 2) := by
        rw [mul_pow, ← pow_mul, ← pow_mul]; ring
      rw [e, map_sub, LC] at this
      have := mul_le_mul_of_nonneg_left (hpow k) hN.le
      rw [hA]
      linarith
    have hpoly : ∀ h : Polynomial ℝ, NN h → L (Polynomial.aeval (p ^ 2) h * (g * r ^ 2)) ≤ A * h.eval c := by
      intro h hh
      rw [Polynomial.aeval_eq_sum_range, Polynomial.eval_eq_sum_range, Finset.sum_mul, map_sum, Finset.mul_sum]
      refine Finset.sum_le_sum fun k _ => ?_
      rw [smul_mul_assoc, map_smul, smul_eq_mul]
      have := mul_le_mul_of_nonneg_left (hle k) (hh k)
      linarith
    have key : ∀ k, -(2 * (A * (U (k + 1) - U k).eval c)) ≤ L ((1 - p ^ 2) * (g * r ^ 2)) := by
      intro k
      have h1 := hL _ (mul_sq_mem (gen_mem hg r) (1 - Polynomial.aeval (p ^ 2) (U k)))
      have h2 := hpoly _ (nn_U_sub k)
      have e2 : (2 : MvPolynomial (Fin n) ℝ) * C (1 / 2) = 1 := by
        rw [show (2 : MvPolynomial (Fin n) ℝ) = C 2 from rfl, ← C_mul]; norm_num
      have e : g * r ^ 2 * (1 - Polynomial.aeval (p ^ 2) (U k)) ^ 2 =
          (1 - p ^ 2) * (g * r ^ 2) + C 2 * (Polynomial.aeval (p ^ 2) (U (k + 1) - U k) * (g * r ^ 2)) := by
        rw [map_sub, show U (k + 1) = .C (1 / 2) * (.X + U k ^ 2) from rfl, map_mul, map_add, map_pow,
          Polynomial.aeval_X, Polynomial.aeval_C, show (C 2 : MvPolynomial (Fin n) ℝ) = 2 from rfl,
          MvPolynomial.algebraMap_eq]
        linear_combination (-(p ^ 2 + (Polynomial.aeval (p ^ 2) (U k)) ^ 2) * (g * r ^ 2)) * e2
      rw [e, map_add, LC] at h1
      linarith
    have t := ((U_diff_tendsto h0 h1).const_mul A).const_mul 2 |>.neg
    simp only [mul_zero, neg_zero] at t
    exact le_of_tendsto' t key

/-- The states: functionals that are non-negative on the module and 1 on 1. -/
def states (gs : Set (MvPolynomial (Fin n) ℝ)) : Set (MvPolynomial (Fin n) ℝ → ℝ) :=
  {φ | (∀ p q, φ (p + q) = φ p + φ q) ∧ (∀ (a : ℝ) p, φ (C a * p) = a * φ p) ∧ (∀ p ∈ qmod gs, 0 ≤ φ p) ∧ φ 1 = 1}

theorem states_compact (hb : ∀ p, Bdd gs p) : IsCompact (states gs) := by
  choose N h0 h1 h2 using hb
  refine IsCompact.of_isClosed_subset (isCompact_univ_pi fun p => isCompact_Icc (a := -N p) (b := N p)) ?_ ?_
  · have c : ∀ p : MvPolynomial (Fin n) ℝ, Continuous fun φ : MvPolynomial (Fin n) ℝ → ℝ => φ p := continuous_apply
    have e : states gs = (⋂ p, ⋂ q, {φ | φ (p + q) = φ p + φ q}) ∩ ((⋂ a : ℝ, ⋂ p, {φ | φ (C a * p) = a * φ p}) ∩
        ((⋂ p ∈ qmod gs, {φ | 0 ≤ φ p}) ∩ {φ | φ 1 = 1})) := by
      ext φ
      simp [states]
    rw [e]
    refine IsClosed.inter ?_ (IsClosed.inter ?_ (IsClosed.inter ?_ ?_))
    · exact isClosed_iInter fun p => isClosed_iInter fun q => isClosed_eq (c _) ((c _).add (c _))
    · exact isClosed_iInter fun a => isClosed_iInter fun p => isClosed_eq (c _) (continuous_const.mul (c _))
    · exact isClosed_iInter fun p => isClosed_iInter fun _ => isClosed_le continuous_const (c _)
    · exact isClosed_eq (c _) continuous_const
  · rintro φ ⟨ha, hs, hp, h⟩ p -
    have hC : ∀ a : ℝ, φ (C a) = a := fun a => by have := hs a 1; rwa [mul_one, h, mul_one] at this
    have e1 := hp _ (h1 p)
    have e2 := hp _ (h2 p)
    rw [sub_eq_add_neg, ha, hC, show -p = C (-1) * p by rw [C_neg, C_1]; ring, hs] at e1
    rw [ha, hC] at e2
    exact ⟨by linarith, by linarith⟩

theorem state_eq_eval (hb : ∀ p, Bdd gs p) {φ : MvPolynomial (Fin n) ℝ → ℝ} (hφ : φ ∈ (states gs).extremePoints ℝ) :
    ∃ x : Fin n → ℝ, (∀ p, φ p = eval x p) ∧ ∀ g ∈ gs, 0 ≤ eval x g := by
  obtain ⟨⟨ha, hs, hp, h1⟩, hext⟩ := hφ
  have h0 : φ 0 = 0 := by have := hs 0 0; rwa [mul_zero, zero_mul] at this
  let L : MvPolynomial (Fin n) ℝ →ₗ[ℝ] ℝ :=
    { toFun := φ, map_add' := ha, map_smul' := fun a p => by rw [← C_mul', hs]; rfl }
  have hneg : ∀ p, φ (-p) = -φ p := fun p => map_neg L p
  have hsub : ∀ p q, φ (p - q) = φ p - φ q := fun p q => map_sub L p q
  -- the square of a small polynomial
  have small : ∀ (p : MvPolynomial (Fin n) ℝ) (c : ℝ), 0 ≤ c → c < 1 → C c - p ^ 2 ∈ qmod gs → ∀ q, φ (p ^ 2 * q) = φ (p ^ 2) * φ q := by
    intro p c c0 c1 hc q
    have l0 : 0 ≤ φ (p ^ 2) := hp _ (sq_mem p)
    have l1 : φ (p ^ 2) < 1 := by
      have := hp _ hc
      have hC : φ (C c) = c := by have := hs c 1; rwa [mul_one, h1, mul_one] at this
      rw [hsub, hC] at this
      linarith
    rcases l0.eq_or_lt with hl | hl
    · obtain ⟨N, N0, N1, N2⟩ := hb q
      have e1 := hp _ (mul_sq_mem N1 p)
      have e2 := hp _ (mul_sq_mem N2 p)
      rw [sub_mul, hsub, hs, ← hl] at e1
      rw [add_mul, ha, hs, ← hl] at e2
      rw [mul_comm (p ^ 2), ← hl, zero_mul]
      linarith
    · set t := φ (p ^ 2) with ht
      have m1 : (fun r => t⁻¹ * φ (p ^ 2 * r)) ∈ states gs := by
        refine ⟨fun r s => ?_, fun a r => ?_, fun r hr => ?_, ?_⟩ <;> dsimp only
        · rw [mul_add, ha, mul_add]
        · rw [mul_left_comm, hs]; ring
        · rw [mul_comm (p ^ 2)]
          exact mul_nonneg (inv_pos.mpr hl).le (hp _ (mul_sq_mem hr p))
        · rw [mul_one, ← ht, inv_mul_cancel₀ hl.ne']
      have m2 : (fun r => (1 - t)⁻¹ * φ ((1 - p ^ 2) * r)) ∈ states gs := by
        refine ⟨fun r s => ?_, fun a r => ?_, fun r hr => ?_, ?_⟩ <;> dsimp only
        · rw [mul_add, ha, mul_add]
        · rw [mul_left_comm, hs]; ring
        · exact mul_nonneg (inv_pos.mpr (sub_pos.mpr l1)).le (one_sub_sq_nonneg hb L hp c0 c1.le hc hr)
        · rw [mul_one, hsub, h1, ← ht, inv_mul_cancel₀ (sub_pos.mpr l1).ne']
      have := hext m1 m2 ⟨t, 1 - t, hl, sub_pos.mpr l1, by ring, by
        funext r
        simp only [Pi.add_apply, Pi.smul_apply, smul_eq_mul]
        rw [mul_inv_cancel_left₀ hl.ne', mul_inv_cancel_left₀ (sub_pos.mpr l1).ne', sub_mul, hsub, one_mul]
        ring⟩
      have := congrFun this q
      rw [← this, mul_inv_cancel_left₀ hl.ne']
  have sq : ∀ p q, φ (p ^ 2 * q) = φ (p ^ 2) * φ q := by
    intro p q
    obtain ⟨N, N0, N1, N2⟩ := hb p
    have hN := C_mul_mem (a := ((2 * N) ^ 2)⁻¹) (by positivity) (sq_sub_sq_mem N0 N1 N2)
    have hs1 := small (C (2 * N)⁻¹ * p) (1 / 4) (by norm_num) (by norm_num) (by
      convert hN using 1
      rw [mul_sub, ← C_mul, mul_pow, ← C_pow, inv_pow]
      congr 2
      field_simp
      norm_num) q
    have hN' : ((2 * N)⁻¹) ^ 2 ≠ 0 := by positivity
    rw [mul_pow, ← C_pow, mul_assoc, hs, hs, mul_assoc] at hs1
    exact mul_left_cancel₀ hN' hs1
  have mul : ∀ p q, φ (p * q) = φ p * φ q := by
    intro p q
    have a1 := sq (p + 1) q
    have a2 := sq p q
    have e1 : (p + 1) ^ 2 * q = p ^ 2 * q + (C 2 * (p * q) + q) := by
      rw [show (C 2 : MvPolynomial (Fin n) ℝ) = 2 from rfl]; ring
    have e2 : (p + 1) ^ 2 = p ^ 2 + (C 2 * p + 1) := by
      rw [show (C 2 : MvPolynomial (Fin n) ℝ) = 2 from rfl]; ring
    rw [e1, e2, ha, ha, ha, ha, hs, hs, a2, h1] at a1
    linarith
  let F : MvPolynomial (Fin n) ℝ →ₐ[ℝ] ℝ :=
    { toFun := φ, map_one' := h1, map_mul' := mul, map_zero' := h0, map_add' := ha
      commutes' := fun a => by
        have := hs a 1
        rw [mul_one, h1, mul_one] at this
        exact this }
  refine ⟨fun i => φ (X i), fun p => ?_, fun g hg => ?_⟩
  · have : F = aeval fun i => φ (X i) := algHom_ext fun i => by rw [aeval_X]; rfl
    have := DFunLike.congr_fun this p
    rw [← coe_aeval_eq_eval]
    exact this
  · have : F = aeval fun i => φ (X i) := algHom_ext fun i => by rw [aeval_X]; rfl
    have := DFunLike.congr_fun this g
    rw [← coe_aeval_eq_eval]
    exact this ▸ hp g (mem_of_mem hg)

/-- Every state is bounded below on `f` by a value of `f` on the set. -/
theorem exists_eval_le (hb : ∀ p, Bdd gs p) {φ : MvPolynomial (Fin n) ℝ → ℝ} (hφ : φ ∈ states gs)
    (f : MvPolynomial (Fin n) ℝ) : ∃ x : Fin n → ℝ, (∀ g ∈ gs, 0 ≤ eval x g) ∧ eval x f ≤ φ f := by
  let l : StrongDual ℝ (MvPolynomial (Fin n) ℝ → ℝ) := -ContinuousLinearMap.proj f
  have hexp : IsExposed ℝ (states gs) (l.toExposed (states gs)) := ContinuousLinearMap.toExposed.isExposed
  have hcomp := states_compact hb
  obtain ⟨ψ, hψ, hmax⟩ := hcomp.exists_isMaxOn ⟨φ, hφ⟩ l.continuous.continuousOn
  have hne : (l.toExposed (states gs)).Nonempty := ⟨ψ, hψ, fun y hy => hmax hy⟩
  obtain ⟨χ, hχ⟩ := (hexp.isCompact hcomp).extremePoints_nonempty hne
  obtain ⟨x, hx, hg⟩ := state_eq_eval hb (hexp.isExtreme.extremePoints_subset_extremePoints hχ)
  refine ⟨x, hg, ?_⟩
  have := hχ.1.2 φ hφ
  have : -φ f ≤ -χ f := this
  rw [← hx f]
  linarith

/-- Putinar's theorem. -/
theorem positivstellensatz (hb : ∀ p, Bdd gs p) (f : MvPolynomial (Fin n) ℝ)
    (hf : ∀ x : Fin n → ℝ, (∀ g ∈ gs, 0 ≤ eval x g) → 0 < eval x f) : f ∈ qmod gs := by
  by_contra hne
  let s : PointedCone ℝ (MvPolynomial (Fin n) ℝ) :=
    { carrier := {p | ∃ m ∈ qmod gs, ∃ t : ℝ, 0 ≤ t ∧ p = m - C t * f}
      add_mem' := by
        rintro p q ⟨m, hm, t, ht, rfl⟩ ⟨m', hm', t', ht', rfl⟩
        exact ⟨m + m', add_mem hm hm', t + t', add_nonneg ht ht', by rw [C_add]; ring⟩
      zero_mem' := ⟨0, zero_mem _, 0, le_rfl, by simp⟩
      smul_mem' := by
        rintro ⟨a, ha⟩ p ⟨m, hm, t, ht, rfl⟩
        refine ⟨C a * m, C_mul_mem ha hm, a * t, mul_nonneg ha ht, ?_⟩
        show a • (m - C t * f) = _
        rw [← C_mul', C_mul]; ring }
  have hs1 : (-1 : MvPolynomial (Fin n) ℝ) ∉ s := by
    rintro ⟨m, hm, t, ht, e⟩
    apply hne
    rcases ht.eq_or_lt with rfl | ht
    · obtain ⟨N, N0, N1, N2⟩ := hb f
      have : (-1 : MvPolynomial (Fin n) ℝ) = m := by rw [e]; simp
      have h1 := C_mul_mem N0.le hm
      rw [← this] at h1
      have := add_mem h1 N2
      convert this using 1
      ring
    · have h1 := C_mul_mem (inv_pos.mpr ht).le (add_mem hm (sq_mem 1))
      convert h1 using 1
      have e2 : (C t⁻¹ * C t : MvPolynomial (Fin n) ℝ) = 1 := by rw [← C_mul, inv_mul_cancel₀ ht.ne', C_1]
      linear_combination (-f) * e2 + C t⁻¹ * e
  have h1ne : (1 : MvPolynomial (Fin n) ℝ) ≠ 0 := one_ne_zero
  let f0 : MvPolynomial (Fin n) ℝ →ₗ.[ℝ] ℝ := LinearPMap.mkSpanSingleton 1 (1 : ℝ) h1ne
  have hmem : ∀ a : ℝ, (C a : MvPolynomial (Fin n) ℝ) ∈ f0.domain := fun a =>
    Submodule.mem_span_singleton.mpr ⟨a, by rw [← C_mul', mul_one]⟩
  have hval : ∀ (a : ℝ) (h : (C a : MvPolynomial (Fin n) ℝ) ∈ f0.domain), f0 ⟨C a, h⟩ = a := by
    intro a h
    have e : (C a : MvPolynomial (Fin n) ℝ) = a • 1 := by rw [← C_mul', mul_one]
    have h' : a • (1 : MvPolynomial (Fin n) ℝ) ∈ f0.domain := e ▸ h
    have := LinearPMap.mkSpanSingleton'_apply (σ := RingHom.id ℝ) (1 : MvPolynomial (Fin n) ℝ) (1 : ℝ)
      (fun c hc => by simpa using hc) a h'
    rw [show (⟨C a, h⟩ : f0.domain) = ⟨a • 1, h'⟩ from Subtype.ext e]
    rw [RingHom.id_apply, smul_eq_mul, mul_one] at this
    exact this
  obtain ⟨g, hg1, hg2⟩ := riesz_extension s f0 (by
    rintro ⟨x, hx⟩ hxs
    obtain ⟨a, rfl⟩ := Submodule.mem_span_singleton.mp hx
    have e : a • (1 : MvPolynomial (Fin n) ℝ) = C a := by rw [← C_mul', mul_one]
    have h' : (C a : MvPolynomial (Fin n) ℝ) ∈ f0.domain := hmem a
    rw [show (⟨a • 1, hx⟩ : f0.domain) = ⟨C a, h'⟩ from Subtype.ext e, hval]
    by_contra hlt
    push Not at hlt
    apply hs1
    have := s.smul_mem (inv_pos.mpr (neg_pos.mpr hlt)).le hxs
    convert this using 1
    rw [smul_smul, inv_neg, neg_mul, inv_mul_cancel₀ hlt.ne, neg_smul, one_smul]) (by
    intro y
    obtain ⟨N, N0, N1, N2⟩ := hb y
    exact ⟨⟨C N, hmem N⟩, C N + y, N2, 0, le_rfl, by simp⟩)
  have hL1 : g 1 = 1 := by
    have := hg1 ⟨C 1, hmem 1⟩
    rw [hval] at this
    exact this
  have hst : (g : MvPolynomial (Fin n) ℝ → ℝ) ∈ states gs := by
    refine ⟨map_add g, fun a p => by rw [C_mul', map_smul, smul_eq_mul], fun p hp => ?_, hL1⟩
    exact hg2 p ⟨p, hp, 0, le_rfl, by simp⟩
  obtain ⟨x, hx, hle⟩ := exists_eval_le hb hst f
  have h1 := hf x hx
  have h2 := hg2 (-f) ⟨0, zero_mem _, 1, zero_le_one, by simp⟩
  rw [map_neg] at h2
  linarith

end Rigeo.Putinar
