import Verif.Lemmas.Putinar
import Verif.Lemmas.Cdd
import Verif.Props.Exactness
import Mathlib.Analysis.LocallyConvex.Separation
import Mathlib.Topology.MetricSpace.Sequences

/-!
# The moment relaxations converge (C87)

`moment_sdp_constraints` of a polyhedron, box or cylinder is exact at no order (C85, C86). This file shows that the
sequence of relaxations nevertheless converges to the set of realizable parameters: parameters accepted at every
order are realizable, parameters accepted at a high order are uniformly close to realizable parameters of the same
mass, and optimal values of linear objectives converge. The same holds for bodies made of several shapes.

The proof uses Putinar's Positivstellensatz for Archimedean quadratic modules (`Lemmas/Putinar.lean`) and the
separation of a point from the convex hull of the compact set of matrices of point masses.
-/

namespace Rigeo

open Matrix MvPolynomial Putinar

/-! ### Functionals of pseudo-moments -/

section Abstract

variable {n : ℕ}

/-- The polynomials with the listed terms. -/
def termSet (gs : List (List ((Fin n → ℕ) × ℝ))) : Set (MvPolynomial (Fin n) ℝ) := {p | ∃ g ∈ gs, p = ofTerms g}

/-- There are pseudo-moments of order `d` with the given moments up to order 2. -/
def Feas (gs : List (List ((Fin n → ℕ) × ℝ))) (d : ℕ) (m : ℝ) (h : Fin n → ℝ) (H : Fin n → Fin n → ℝ) : Prop :=
  ∃ y : (Fin n → ℕ) → ℝ, y 0 = m ∧ (∀ i, y (Pi.single i 1) = h i) ∧ (∀ i j, y (Pi.single i 1 + Pi.single j 1) = H i j) ∧
    Spec.LocalizedPSD d [(0, 1)] y ∧ ∀ g ∈ gs, Spec.LocalizedPSD (d - 1) g y

variable {gs : List (List ((Fin n → ℕ) × ℝ))}

theorem ofTerms_one : ofTerms ([(0, 1)] : List ((Fin n → ℕ) × ℝ)) = 1 := by
  have h0 : Finsupp.equivFunOnFinite.symm (0 : Fin n → ℕ) = 0 := by ext; simp
  simp only [ofTerms, List.map_cons, List.map_nil, List.sum_cons, List.sum_nil, add_zero, h0]; rfl

/-- Pseudo-moments of high order are non-negative on every member of the quadratic module. -/
theorem qmod_pairing {f : MvPolynomial (Fin n) ℝ} (hf : f ∈ qmod (termSet gs)) : ∃ d₀ : ℕ, 1 ≤ d₀ ∧ ∀ d, d₀ ≤ d →
    ∀ y : (Fin n → ℕ) → ℝ, Spec.LocalizedPSD d [(0, 1)] y → (∀ g ∈ gs, Spec.LocalizedPSD (d - 1) g y) →
      0 ≤ pairing y f := by
  induction hf using AddSubmonoid.closure_induction with
  | zero => exact ⟨1, le_rfl, fun d _ y _ _ => by rw [map_zero]⟩
  | add p q _ _ hp hq =>
    obtain ⟨a, a1, ha⟩ := hp
    obtain ⟨b, b1, hb⟩ := hq
    refine ⟨max a b, le_max_of_le_left a1, fun d hd y h1 h2 => ?_⟩
    rw [map_add]
    exact add_nonneg (ha d (le_of_max_le_left hd) y h1 h2) (hb d (le_of_max_le_right hd) y h1 h2)
  | mem p hp =>
    obtain ⟨g, hg, q, rfl⟩ := hp
    refine ⟨q.totalDegree + 1, by omega, fun d hd y h1 h2 => ?_⟩
    rcases hg with rfl | ⟨t, ht, rfl⟩
    · have := LocalizedPSD.pairing_nonneg h1 q (by omega)
      rwa [ofTerms_one] at this
    · exact LocalizedPSD.pairing_nonneg (h2 t ht) q (by omega)

/-- A point with its products of coordinates. -/
def lift (p : Fin n → ℝ) : (Fin n → ℝ) × (Fin n → Fin n → ℝ) := (p, fun i j => p i * p j)

theorem functional_eq (l : StrongDual ℝ ((Fin n → ℝ) × (Fin n → Fin n → ℝ))) (h : Fin n → ℝ) (H : Fin n → Fin n → ℝ) :
    l (h, H) = ∑ i, l (Pi.single i 1, 0) * h i + ∑ i, ∑ j, l (0, Pi.single i (Pi.single j 1)) * H i j := by
  have e : (h, H) = ∑ i, h i • ((Pi.single i 1, 0) : (Fin n → ℝ) × (Fin n → Fin n → ℝ)) +
      ∑ i, ∑ j, H i j • ((0, Pi.single i (Pi.single j 1)) : (Fin n → ℝ) × (Fin n → Fin n → ℝ)) := by
    refine Prod.ext ?_ ?_
    · ext k
      simp [Prod.fst_sum, Finset.sum_apply, Pi.single_apply]
    · ext k k'
      simp only [Prod.snd_add, Prod.snd_sum, Prod.smul_snd, Pi.add_apply, smul_zero, Finset.sum_const_zero, zero_add,
        Finset.sum_apply, Pi.smul_apply, smul_eq_mul]
      have e2 : ∀ i j : Fin n, (Pi.single i (Pi.single j (1 : ℝ)) : Fin n → Fin n → ℝ) k k' =
          if i = k then (if j = k' then 1 else 0) else 0 := by
        intro i j
        by_cases hi : i = k
        · subst hi
          rw [Pi.single_eq_same, if_pos rfl, Pi.single_apply]
          simp only [eq_comm]
        · rw [Pi.single_eq_of_ne (Ne.symm hi), if_neg hi]; rfl
      simp only [e2, mul_ite, mul_one, mul_zero, Finset.sum_ite_eq', Finset.mem_univ, if_true]
      rw [Finset.sum_comm]
      simp
  conv_lhs => rw [e]
  simp only [map_add, map_sum, map_smul, smul_eq_mul]
  congr 1
  · exact Finset.sum_congr rfl fun i _ => mul_comm _ _
  · exact Finset.sum_congr rfl fun i _ => Finset.sum_congr rfl fun j _ => mul_comm _ _

/-- The quadratic polynomial of a functional. -/
noncomputable def quad (l : StrongDual ℝ ((Fin n → ℝ) × (Fin n → Fin n → ℝ))) : MvPolynomial (Fin n) ℝ :=
  ∑ i, C (l (Pi.single i 1, 0)) * X i + ∑ i, ∑ j, C (l (0, Pi.single i (Pi.single j 1))) * (X i * X j)

theorem eval_quad (l : StrongDual ℝ ((Fin n → ℝ) × (Fin n → Fin n → ℝ))) (x : Fin n → ℝ) :
    eval x (quad l) = l (lift x) := by
  rw [lift, functional_eq]
  simp [quad]

theorem pairing_C (y : (Fin n → ℕ) → ℝ) (a : ℝ) : pairing y (C a) = a * y 0 := by
  have := pairing_monomial y 0 a
  rwa [Finsupp.coe_zero] at this

theorem pairing_X (y : (Fin n → ℕ) → ℝ) (a : ℝ) (i : Fin n) : pairing y (C a * X i) = a * y (Pi.single i 1) := by
  have := pairing_monomial y (Finsupp.single i 1) a
  rw [Finsupp.single_eq_pi_single] at this
  rw [← this, X, C_mul_monomial, mul_one]

theorem pairing_XX (y : (Fin n → ℕ) → ℝ) (a : ℝ) (i j : Fin n) :
    pairing y (C a * (X i * X j)) = a * y (Pi.single i 1 + Pi.single j 1) := by
  have := pairing_monomial y (Finsupp.single i 1 + Finsupp.single j 1) a
  rw [Finsupp.coe_add, Finsupp.single_eq_pi_single, Finsupp.single_eq_pi_single] at this
  rw [← this, X, X, monomial_mul, C_mul_monomial, mul_one, mul_one]

theorem pairing_quad {y : (Fin n → ℕ) → ℝ} {h : Fin n → ℝ} {H : Fin n → Fin n → ℝ} (h1 : ∀ i, y (Pi.single i 1) = h i)
    (h2 : ∀ i j, y (Pi.single i 1 + Pi.single j 1) = H i j) (l : StrongDual ℝ ((Fin n → ℝ) × (Fin n → Fin n → ℝ))) :
    pairing y (quad l) = l (h, H) := by
  rw [functional_eq, quad]
  simp only [map_add, map_sum, pairing_X, pairing_XX, h1, h2]

/-- The set where all polynomials are non-negative. -/
def nonnegSet (gs : List (List ((Fin n → ℕ) × ℝ))) : Set (Fin n → ℝ) := {x | ∀ g ∈ gs, 0 ≤ eval x (ofTerms g)}

/-- Lower bounds of a functional on the set carry over to the pseudo-moments of high order. -/
theorem feas_lower (hb : ∀ p, Bdd (termSet gs) p) (l : StrongDual ℝ ((Fin n → ℝ) × (Fin n → Fin n → ℝ))) (β δ : ℝ)
    (hβ : ∀ x ∈ nonnegSet gs, β ≤ l (lift x)) (hδ : 0 < δ) : ∃ d₀ : ℕ, 1 ≤ d₀ ∧ ∀ d, d₀ ≤ d → ∀ m h H,
      Feas gs d m h H → (β - δ) * m ≤ l (h, H) := by
  have hf : quad l - C (β - δ) ∈ qmod (termSet gs) := by
    refine positivstellensatz hb _ fun x hx => ?_
    have := hβ x fun g hg => hx _ ⟨g, hg, rfl⟩
    rw [map_sub, eval_quad, eval_C]
    linarith
  obtain ⟨d₀, h1, h2⟩ := qmod_pairing hf
  refine ⟨d₀, h1, fun d hd m h H ⟨y, y0, y1, y2, y3, y4⟩ => ?_⟩
  have := h2 d hd y y3 y4
  rw [map_sub, pairing_quad y1 y2, pairing_C, y0] at this
  linarith

/-- The pseudo-moments of high order are bounded. -/
theorem feas_bound (hb : ∀ p, Bdd (termSet gs) p) : ∃ (N : ℝ) (d₀ : ℕ), 0 ≤ N ∧ 1 ≤ d₀ ∧ ∀ d, d₀ ≤ d → ∀ m h H,
    Feas gs d m h H → (∀ i, |h i| ≤ N * m) ∧ ∀ i j, |H i j| ≤ N * m := by
  have key : ∀ p : MvPolynomial (Fin n) ℝ, ∃ (N : ℝ) (d₀ : ℕ), 0 ≤ N ∧ 1 ≤ d₀ ∧ ∀ d, d₀ ≤ d → ∀ y : (Fin n → ℕ) → ℝ,
      Spec.LocalizedPSD d [(0, 1)] y → (∀ g ∈ gs, Spec.LocalizedPSD (d - 1) g y) → |pairing y p| ≤ N * y 0 := by
    intro p
    obtain ⟨N, N0, N1, N2⟩ := hb p
    obtain ⟨a, a1, ha⟩ := qmod_pairing N1
    obtain ⟨b, b1, hb⟩ := qmod_pairing N2
    refine ⟨N, max a b, N0.le, le_max_of_le_left a1, fun d hd y h1 h2 => ?_⟩
    have e1 := ha d (le_of_max_le_left hd) y h1 h2
    have e2 := hb d (le_of_max_le_right hd) y h1 h2
    rw [map_sub, pairing_C] at e1
    rw [map_add, pairing_C] at e2
    exact abs_le.mpr ⟨by linarith, by linarith⟩
  choose N d₀ hN hd₀ h using key
  obtain ⟨N1, hN1⟩ := Finite.exists_le fun i : Fin n => N (C 1 * X i)
  obtain ⟨N2, hN2⟩ := Finite.exists_le fun ij : Fin n × Fin n => N (C 1 * (X ij.1 * X ij.2))
  obtain ⟨D1, hD1⟩ := Finite.exists_le fun i : Fin n => d₀ (C 1 * X i)
  obtain ⟨D2, hD2⟩ := Finite.exists_le fun ij : Fin n × Fin n => d₀ (C 1 * (X ij.1 * X ij.2))
  refine ⟨|N1| + |N2|, 1 + D1 + D2, by positivity, by omega, fun d hd m f H ⟨y, y0, y1, y2, y3, y4⟩ => ?_⟩
  have hm : 0 ≤ m := by
    have := LocalizedPSD.at_zero y3
    simpa [y0] using this
  constructor
  · intro i
    have hi := hD1 i
    have e := h (C 1 * X i) d (by omega) y y3 y4
    rw [pairing_X, one_mul, y1, y0] at e
    exact e.trans (mul_le_mul_of_nonneg_right (by linarith [hN1 i, le_abs_self N1, abs_nonneg N2]) hm)
  · intro i j
    have hij : d₀ (C 1 * (X i * X j)) ≤ D2 := hD2 (i, j)
    have e := h (C 1 * (X i * X j)) d (by omega) y y3 y4
    rw [pairing_XX, one_mul, y2, y0] at e
    exact e.trans (mul_le_mul_of_nonneg_right (by linarith [hN2 (i, j), le_abs_self N2, abs_nonneg N1]) hm)

theorem continuous_lift : Continuous (lift (n := n)) := by
  refine continuous_id.prodMk ?_
  fun_prop

theorem realizable_of_hull {S : Set (Fin n → ℝ)} {z : (Fin n → ℝ) × (Fin n → Fin n → ℝ)}
    (hz : z ∈ convexHull ℝ (lift '' S)) : Spec.Realizable S 1 z.1 (Matrix.of z.2) := by
  have hsub : convexHull ℝ (lift '' S) ⊆ {x | Spec.Realizable S 1 x.1 (Matrix.of x.2)} := by
    refine convexHull_min ?_ ?_
    · rintro _ ⟨p, hp, rfl⟩
      have := Spec.Realizable.point (zero_le_one (α := ℝ)) hp
      rw [one_smul, one_smul] at this
      have e : Matrix.of (lift p).2 = outer p p := by
        ext i j
        rw [outer_apply]
        rfl
      show Spec.Realizable S 1 (lift p).1 (Matrix.of (lift p).2)
      rw [e]
      exact this
    · intro x hx y hy a b ha hb hab
      have := (Spec.Realizable.smul hx ha).add (Spec.Realizable.smul hy hb)
      rw [mul_one, mul_one, hab] at this
      exact this
  exact hsub hz

theorem hull_of_lower {S : Set (Fin n → ℝ)} (hS : IsCompact S) {z : (Fin n → ℝ) × (Fin n → Fin n → ℝ)}
    (hz : ∀ (l : StrongDual ℝ ((Fin n → ℝ) × (Fin n → Fin n → ℝ))) (u : ℝ), (∀ x ∈ S, u ≤ l (lift x)) → u ≤ l z) :
    z ∈ convexHull ℝ (lift '' S) := by
  by_contra hne
  obtain ⟨l, u, h1, h2⟩ := geometric_hahn_banach_point_closed (convex_convexHull ℝ _)
    (isCompact_convexHull_of_compact (hS.image continuous_lift)).isClosed hne
  have := hz l u fun x hx => (h2 _ (subset_convexHull ℝ _ ⟨x, hx, rfl⟩)).le
  linarith

/-- Moments that are feasible at all orders are those of point masses. -/
theorem feas_all (hb : ∀ p, Bdd (termSet gs) p) (hS : IsCompact (nonnegSet gs)) {m : ℝ} {h : Fin n → ℝ}
    {H : Fin n → Fin n → ℝ} (hf : ∀ d, 1 ≤ d → Feas gs d m h H) : Spec.Realizable (nonnegSet gs) m h (Matrix.of H) := by
  have hm : 0 ≤ m := by
    obtain ⟨y, y0, -, -, y3, -⟩ := hf 1 le_rfl
    have := LocalizedPSD.at_zero y3
    simpa [y0] using this
  rcases hm.eq_or_lt with rfl | hm
  · obtain ⟨N, d₀, -, h1, h2⟩ := feas_bound hb
    obtain ⟨b1, b2⟩ := h2 d₀ le_rfl _ _ _ (hf d₀ h1)
    have e1 : h = 0 := by ext i; simpa using b1 i
    have e2 : Matrix.of H = 0 := by ext i j; simpa using b2 i j
    rw [e1, e2]
    exact Spec.Realizable.zero _
  · have hz : m⁻¹ • ((h, H) : (Fin n → ℝ) × (Fin n → Fin n → ℝ)) ∈ convexHull ℝ (lift '' nonnegSet gs) := by
      refine hull_of_lower hS fun l u hu => ?_
      rw [map_smul, smul_eq_mul]
      refine le_of_forall_pos_le_add fun δ hδ => ?_
      obtain ⟨d₀, h1, h2⟩ := feas_lower hb l u δ hu hδ
      have := h2 d₀ le_rfl _ _ _ (hf d₀ h1)
      have := mul_le_mul_of_nonneg_left this (inv_pos.mpr hm).le
      rw [mul_left_comm, inv_mul_cancel₀ hm.ne', mul_one] at this
      linarith
    have := (realizable_of_hull hz).smul hm.le
    convert this using 1
    · rw [mul_one]
    · simp [smul_smul, mul_inv_cancel₀ hm.ne']
    · ext i j
      simp [mul_inv_cancel_left₀ hm.ne']

/-- Moments of mass one that are feasible at a high order are close to those of point masses. -/
theorem feas_close (hb : ∀ p, Bdd (termSet gs) p) (hS : IsCompact (nonnegSet gs)) (δ : ℝ) (hδ : 0 < δ) :
    ∃ d₀ : ℕ, 1 ≤ d₀ ∧ ∀ d, d₀ ≤ d → ∀ h H, Feas gs d 1 h H → ∃ h' H', Spec.Realizable (nonnegSet gs) 1 h' (Matrix.of H') ∧
      (∀ i, |h i - h' i| ≤ δ) ∧ ∀ i j, |H i j - H' i j| ≤ δ := by
  by_contra hne
  push Not at hne
  have hne' : ∀ k : ℕ, ∃ d, k + 1 ≤ d ∧ ∃ z : (Fin n → ℝ) × (Fin n → Fin n → ℝ), Feas gs d 1 z.1 z.2 ∧
      ∀ w ∈ convexHull ℝ (lift '' nonnegSet gs), δ < dist z w := by
    intro k
    obtain ⟨d, hd, h, H, h1, h2⟩ := hne (k + 1) (by omega)
    refine ⟨d, hd, (h, H), h1, fun w hw => ?_⟩
    by_contra hle
    push Not at hle
    have d1 : dist h w.1 ≤ δ := (le_max_left _ _).trans hle
    have d2 : dist H w.2 ≤ δ := (le_max_right _ _).trans hle
    obtain ⟨i, j, hij⟩ := h2 w.1 w.2 (realizable_of_hull hw) (fun i => (dist_le_pi_dist h w.1 i).trans d1)
    exact absurd (((dist_le_pi_dist (H i) (w.2 i) j).trans (dist_le_pi_dist H w.2 i)).trans d2) (not_le.mpr hij)
  choose d hd z hz hfar using hne'
  obtain ⟨N, d₁, hN, -, hbd⟩ := feas_bound hb
  have hball : ∀ k, z (k + d₁) ∈ Metric.closedBall (0 : (Fin n → ℝ) × (Fin n → Fin n → ℝ)) N := by
    intro k
    obtain ⟨b1, b2⟩ := hbd (d (k + d₁)) (by have := hd (k + d₁); omega) _ _ _ (hz (k + d₁))
    rw [mem_closedBall_zero_iff, Prod.norm_def]
    refine max_le ((pi_norm_le_iff_of_nonneg hN).mpr fun i => ?_) ((pi_norm_le_iff_of_nonneg hN).mpr fun i =>
      (pi_norm_le_iff_of_nonneg hN).mpr fun j => ?_)
    · have := b1 i; rwa [mul_one] at this
    · have := b2 i j; rwa [mul_one] at this
  obtain ⟨a, -, φ, hφ, hlim⟩ := tendsto_subseq_of_bounded Metric.isBounded_closedBall hball
  have ha : a ∈ convexHull ℝ (lift '' nonnegSet gs) := by
    refine hull_of_lower hS fun l u hu => ?_
    refine le_of_forall_pos_le_add fun ε hε => ?_
    obtain ⟨d₀, h1, h2⟩ := feas_lower hb l u ε hu hε
    have ht := (l.continuous.tendsto a).comp hlim
    have hev : ∀ᶠ k in Filter.atTop, u - ε ≤ (l ∘ (fun k => z (k + d₁)) ∘ φ) k := by
      filter_upwards [Filter.eventually_ge_atTop d₀] with k hk
      have h3 : k ≤ φ k := hφ.id_le k
      have := h2 (d (φ k + d₁)) (by have := hd (φ k + d₁); omega) _ _ _ (hz (φ k + d₁))
      rw [mul_one] at this
      exact this
    have := ge_of_tendsto ht hev
    linarith
  have h0 := (tendsto_iff_dist_tendsto_zero.mp hlim)
  have := ge_of_tendsto h0 (Filter.Eventually.of_forall fun k => (hfar (φ k + d₁) a ha).le)
  linarith

theorem Feas.scale {d : ℕ} {m : ℝ} {h : Fin n → ℝ} {H : Fin n → Fin n → ℝ} (hf : Feas gs d m h H) {a : ℝ} (ha : 0 ≤ a) :
    Feas gs d (a * m) (fun i => a * h i) fun i j => a * H i j := by
  obtain ⟨y, y0, y1, y2, y3, y4⟩ := hf
  have key : ∀ (k : ℕ) (g : List ((Fin n → ℕ) × ℝ)), Spec.LocalizedPSD k g y → Spec.LocalizedPSD k g fun α => a * y α := by
    intro k g hg q
    have := mul_nonneg ha (hg q)
    rw [Finset.mul_sum] at this
    simp only [Finset.mul_sum] at this
    refine le_of_le_of_eq this (Finset.sum_congr rfl fun α _ => Finset.sum_congr rfl fun β _ => ?_)
    have e : (g.map fun t => t.2 * (a * y (t.1 + (α + β)))) = g.map fun t => a * (t.2 * y (t.1 + (α + β))) :=
      List.map_congr_left fun t _ => by ring
    rw [e, List.sum_map_mul_left]
    ring
  exact ⟨fun α => a * y α, by simp only [y0], fun i => by simp only [y1], fun i j => by simp only [y2], key _ _ y3, fun g hg => key _ _ (y4 g hg)⟩

theorem Feas.mass_nonneg {d : ℕ} {m : ℝ} {h : Fin n → ℝ} {H : Fin n → Fin n → ℝ} (hf : Feas gs d m h H) : 0 ≤ m := by
  obtain ⟨y, y0, -, -, y3, -⟩ := hf
  have := LocalizedPSD.at_zero y3
  simpa [y0] using this

/-- Moments that are feasible at a high order are close to those of point masses. -/
theorem feas_close' (hb : ∀ p, Bdd (termSet gs) p) (hS : IsCompact (nonnegSet gs)) (δ : ℝ) (hδ : 0 < δ) :
    ∃ d₀ : ℕ, 1 ≤ d₀ ∧ ∀ d, d₀ ≤ d → ∀ m h H, Feas gs d m h H → ∃ h' H', Spec.Realizable (nonnegSet gs) m h' (Matrix.of H') ∧
      (∀ i, |h i - h' i| ≤ δ * m) ∧ ∀ i j, |H i j - H' i j| ≤ δ * m := by
  obtain ⟨N, d₁, -, h11, h1⟩ := feas_bound hb
  obtain ⟨d₂, -, h2⟩ := feas_close hb hS δ hδ
  refine ⟨max d₁ d₂, le_max_of_le_left h11, fun d hd m h H hf => ?_⟩
  rcases hf.mass_nonneg.eq_or_lt with rfl | hm
  · obtain ⟨b1, b2⟩ := h1 d (le_of_max_le_left hd) _ _ _ hf
    refine ⟨0, 0, Spec.Realizable.zero _, fun i => ?_, fun i j => ?_⟩
    · have := b1 i; simpa using this
    · have := b2 i j; simpa using this
  · have hf' := hf.scale (inv_pos.mpr hm).le
    rw [inv_mul_cancel₀ hm.ne'] at hf'
    obtain ⟨h', H', k1, k2, k3⟩ := h2 d (le_of_max_le_right hd) _ _ hf'
    refine ⟨m • h', m • H', ?_, fun i => ?_, fun i j => ?_⟩
    · have := k1.smul hm.le
      rwa [mul_one] at this
    · have := mul_le_mul_of_nonneg_left (k2 i) hm.le
      rw [← abs_of_pos hm, ← abs_mul, abs_of_pos hm, mul_sub, mul_inv_cancel_left₀ hm.ne'] at this
      rw [mul_comm δ]
      exact this
    · have := mul_le_mul_of_nonneg_left (k3 i j) hm.le
      rw [← abs_of_pos hm, ← abs_mul, abs_of_pos hm, mul_sub, mul_inv_cancel_left₀ hm.ne'] at this
      rw [mul_comm δ]
      exact this

/-- The moments of point masses of total mass one lie in the convex hull. -/
theorem hull_of_realizable {S : Set (Fin n → ℝ)} (hS : IsCompact S) {h : Fin n → ℝ} {H : Matrix (Fin n) (Fin n) ℝ}
    (hr : Spec.Realizable S 1 h H) : (h, fun i j => H i j) ∈ convexHull ℝ (lift '' S) := by
  refine hull_of_lower hS fun l u hu => ?_
  have := Spec.Realizable.induct (P := fun m f H => u * m ≤ l (f, fun i j => H i j)) ?_ ?_ ?_ hr
  · rwa [mul_one] at this
  · rw [mul_zero]
    exact (map_zero l).ge
  · intro m f H m' f' H' h1 h2
    have e : ((f + f', fun i j => (H + H') i j) : (Fin n → ℝ) × (Fin n → Fin n → ℝ)) =
        (f, fun i j => H i j) + (f', fun i j => H' i j) := rfl
    rw [e, map_add, mul_add]
    exact add_le_add h1 h2
  · intro a p ha hp
    have e : ((a • p, fun i j => (a • outer p p) i j) : (Fin n → ℝ) × (Fin n → Fin n → ℝ)) = a • lift p := by
      refine Prod.ext rfl ?_
      ext i j
      show (a • outer p p) i j = a * (p i * p j)
      rw [Matrix.smul_apply, outer_apply, smul_eq_mul]
    rw [e, map_smul, smul_eq_mul, mul_comm u]
    exact mul_le_mul_of_nonneg_left (hu p hp) ha

/-- For a compact set the limits of realizable moments are realizable. -/
theorem realizable_closed {S : Set (Fin n → ℝ)} (hS : IsCompact S) {m : ℝ} {h : Fin n → ℝ} {H : Matrix (Fin n) (Fin n) ℝ}
    (hc : ∀ δ : ℝ, 0 < δ → ∃ h' H', Spec.Realizable S m h' H' ∧ (∀ i, |h i - h' i| ≤ δ * m) ∧ ∀ i j, |H i j - H' i j| ≤ δ * m) :
    Spec.Realizable S m h H := by
  have hm : 0 ≤ m := by
    obtain ⟨_, _, h1, -⟩ := hc 1 one_pos
    exact h1.mass_nonneg
  rcases hm.eq_or_lt with rfl | hm
  · obtain ⟨h', H', h1, h2, h3⟩ := hc 1 one_pos
    have e1 : h = h' := by ext i; have := h2 i; rw [mul_zero] at this; exact sub_eq_zero.mp (abs_nonpos_iff.mp this)
    have e2 : H = H' := by ext i j; have := h3 i j; rw [mul_zero] at this; exact sub_eq_zero.mp (abs_nonpos_iff.mp this)
    rw [e1, e2]; exact h1
  · have hz : (m⁻¹ • h, fun i j => m⁻¹ * H i j) ∈ convexHull ℝ (lift '' S) := by
      have hcl := (isCompact_convexHull_of_compact (hS.image continuous_lift)).isClosed
      rw [← hcl.closure_eq, Metric.mem_closure_iff]
      intro ε hε
      obtain ⟨h', H', h1, h2, h3⟩ := hc (ε / 2) (by positivity)
      have h4 := h1.smul (inv_pos.mpr hm).le
      rw [inv_mul_cancel₀ hm.ne'] at h4
      refine ⟨_, hull_of_realizable hS h4, lt_of_le_of_lt (max_le ?_ ?_) (half_lt_self hε)⟩
      · refine (dist_pi_le_iff (by positivity)).mpr fun i => ?_
        rw [Real.dist_eq]
        simp only [Pi.smul_apply, smul_eq_mul]
        rw [← mul_sub, abs_mul, abs_of_pos (inv_pos.mpr hm)]
        have := mul_le_mul_of_nonneg_left (h2 i) (inv_pos.mpr hm).le
        rwa [mul_left_comm, inv_mul_cancel₀ hm.ne', mul_one] at this
      · refine (dist_pi_le_iff (by positivity)).mpr fun i => (dist_pi_le_iff (by positivity)).mpr fun j => ?_
        rw [Real.dist_eq]
        show |m⁻¹ * H i j - m⁻¹ * H' i j| ≤ ε / 2
        rw [← mul_sub, abs_mul, abs_of_pos (inv_pos.mpr hm)]
        have := mul_le_mul_of_nonneg_left (h3 i j) (inv_pos.mpr hm).le
        rwa [mul_left_comm, inv_mul_cancel₀ hm.ne', mul_one] at this
    have := (realizable_of_hull hz).smul hm.le
    convert this using 1
    · rw [mul_one]
    · simp [smul_smul, mul_inv_cancel₀ hm.ne']
    · ext i j
      simp [mul_inv_cancel_left₀ hm.ne']

end Abstract

/-! ### Matrices -/

/-- Matrices that satisfy constraints of a high order are close to those of bodies in the set. -/
def ConvergesTo (c : ℕ → Matrix (Fin 4) (Fin 4) ℝ → Prop) (S : Set (Fin 3 → ℝ)) : Prop :=
  ∀ δ : ℝ, 0 < δ → ∃ d₀ : ℕ, 1 ≤ d₀ ∧ ∀ d, d₀ ≤ d → ∀ J : Matrix (Fin 4) (Fin 4) ℝ, Jᵀ = J → c d J →
    ∃ J' : Matrix (Fin 4) (Fin 4) ℝ, J'ᵀ = J' ∧ RealJ S J' ∧ J' 3 3 = J 3 3 ∧ ∀ i j, |J i j - J' i j| ≤ δ * J 3 3

theorem ConvergesTo.mono {c c' : ℕ → Matrix (Fin 4) (Fin 4) ℝ → Prop} {S : Set (Fin 3 → ℝ)} (h : ConvergesTo c S)
    (hc : ∀ d J, 1 ≤ d → c' d J → c d J) : ConvergesTo c' S := by
  intro δ hδ
  obtain ⟨d₀, h1, h2⟩ := h δ hδ
  exact ⟨d₀, h1, fun d hd J hJ hc' => h2 d hd J hJ (hc d J (h1.trans hd) hc')⟩

theorem RealJ.mass_nonneg {S : Set (Fin 3 → ℝ)} {J : Matrix (Fin 4) (Fin 4) ℝ} (h : RealJ S J) : 0 ≤ J 3 3 :=
  Spec.Realizable.mass_nonneg h

/-- What holds at all orders holds in the limit. -/
theorem ConvergesTo.all {c : ℕ → Matrix (Fin 4) (Fin 4) ℝ → Prop} {S : Set (Fin 3 → ℝ)} (h : ConvergesTo c S)
    (hS : IsCompact S) {J : Matrix (Fin 4) (Fin 4) ℝ} (hJ : Jᵀ = J) (hc : ∀ d, 1 ≤ d → c d J) : RealJ S J := by
  refine realizable_closed hS fun δ hδ => ?_
  obtain ⟨d₀, h1, h2⟩ := h δ hδ
  obtain ⟨J', -, k2, k3, k4⟩ := h2 d₀ le_rfl J hJ (hc d₀ h1)
  unfold RealJ at k2
  rw [k3] at k2
  exact ⟨_, _, k2, fun i => k4 _ _, fun i j => k4 _ _⟩

/-- Lower bounds of an objective converge. -/
theorem ConvergesTo.objective {c : ℕ → Matrix (Fin 4) (Fin 4) ℝ → Prop} {S : Set (Fin 3 → ℝ)} (h : ConvergesTo c S)
    (D : Matrix (Fin 4) (Fin 4) ℝ) (β δ : ℝ) (hδ : 0 < δ)
    (hβ : ∀ J : Matrix (Fin 4) (Fin 4) ℝ, Jᵀ = J → RealJ S J → J 3 3 = 1 → β ≤ (D * J).trace) :
    ∃ d₀ : ℕ, 1 ≤ d₀ ∧ ∀ d, d₀ ≤ d → ∀ J : Matrix (Fin 4) (Fin 4) ℝ, Jᵀ = J → c d J → (β - δ) * J 3 3 ≤ (D * J).trace := by
  set M := ∑ i, ∑ j, |D i j| with hM
  have hM0 : 0 ≤ M := Finset.sum_nonneg fun i _ => Finset.sum_nonneg fun j _ => abs_nonneg _
  obtain ⟨d₀, h1, h2⟩ := h (δ / (M + 1)) (by positivity)
  refine ⟨d₀, h1, fun d hd J hJ hc => ?_⟩
  obtain ⟨J', k1, k2, k3, k4⟩ := h2 d hd J hJ hc
  have hm : 0 ≤ J 3 3 := k3 ▸ k2.mass_nonneg
  have e1 : β * J 3 3 ≤ (D * J').trace := by
    have hb := Spec.Realizable.induct (P := fun m f H => β * m ≤ (D * bordered H f f m).trace) ?_ ?_ ?_ k2
    · have e : (fun i : Fin 3 => J' i.castSucc 3) = fun i => J' (Fin.last 3) i.castSucc := by
        ext i
        exact congrFun (congrFun k1 (Fin.last 3)) i.castSucc
      rw [k3] at hb
      refine hb.trans_eq (congrArg (fun X => (D * X).trace) ?_)
      rw [← k3]
      refine Eq.trans ?_ (bordered_self J')
      rw [← e]
      rfl
    · simp [bordered_zero]
    · intro m f H m' f' H' h1 h2
      rw [← bordered_add, Matrix.mul_add, trace_add, mul_add]
      exact add_le_add h1 h2
    · intro a p ha hp
      have e : (1 : ℝ) • outer (IP.hom p) (IP.hom p) = bordered (outer p p) p p 1 := by
        rw [one_smul, IP.hom, outer_snoc]; simp
      have h0 := RealJ.point (zero_le_one (α := ℝ)) hp
      rw [e] at h0
      have h1 := hβ _ (by
        rw [bordered_transpose]
        congr 1
        ext i j
        rw [transpose_apply, outer_apply, outer_apply, mul_comm]) h0 (bordered_ll _ _ _ _)
      have e' : bordered (a • outer p p) (a • p) (a • p) a = a • bordered (outer p p) p p 1 := by
        rw [bordered_smul, mul_one]
      rw [e', Matrix.mul_smul, trace_smul, smul_eq_mul, mul_comm β]
      exact mul_le_mul_of_nonneg_left h1 ha
  have e2 : |(D * J).trace - (D * J').trace| ≤ δ * J 3 3 := by
    rw [← trace_sub, ← Matrix.mul_sub]
    have h1 : (D * (J - J')).trace = ∑ i, ∑ j, D i j * (J j i - J' j i) := by
      simp only [Matrix.trace, diag_apply, Matrix.mul_apply, Matrix.sub_apply]
    have h2 : |(D * (J - J')).trace| ≤ M * (δ / (M + 1) * J 3 3) := by
      rw [h1, hM, Finset.sum_mul]
      refine (Finset.abs_sum_le_sum_abs _ _).trans (Finset.sum_le_sum fun i _ => ?_)
      rw [Finset.sum_mul]
      refine (Finset.abs_sum_le_sum_abs _ _).trans (Finset.sum_le_sum fun j _ => ?_)
      rw [abs_mul]
      exact mul_le_mul_of_nonneg_left (k4 j i) (abs_nonneg _)
    refine h2.trans ?_
    rw [← mul_assoc]
    refine mul_le_mul_of_nonneg_right ?_ hm
    rw [mul_div_assoc', div_le_iff₀ (by positivity)]
    nlinarith
  linarith [(abs_le.mp e2).1]

theorem converges_of_feas {gs : List (List ((Fin 3 → ℕ) × ℝ))} (hb : ∀ p, Bdd (termSet gs) p) (hS : IsCompact (nonnegSet gs)) :
    ConvergesTo (fun d J => Feas gs d (J 3 3) (fun i => J i.castSucc 3) fun i j => J i.castSucc j.castSucc) (nonnegSet gs) := by
  intro δ hδ
  obtain ⟨d₀, h1, h2⟩ := feas_close' hb hS δ hδ
  refine ⟨d₀, h1, fun d hd J hJ hf => ?_⟩
  obtain ⟨h', H', k1, k2, k3⟩ := h2 d hd _ _ _ hf
  have hs : ∀ i : Fin 3, J (Fin.last 3) i.castSucc = J i.castSucc 3 := fun i => congrFun (congrFun hJ i.castSucc) (Fin.last 3)
  refine ⟨bordered (Matrix.of H') h' h' (J 3 3), ?_, ?_, bordered_ll _ _ _ _, fun i j => ?_⟩
  · rw [bordered_transpose, k1.symm]
  · unfold RealJ
    convert k1 using 1
    · exact bordered_ll _ _ _ _
    · ext i; exact bordered_cl _ _ _ _ i
    · ext i j; exact bordered_cc _ _ _ _ i j
  · induction i using Fin.lastCases with
    | last =>
      induction j using Fin.lastCases with
      | last =>
        rw [bordered_ll, show J (Fin.last 3) (Fin.last 3) = J 3 3 from rfl, sub_self, abs_zero]
        exact mul_nonneg hδ.le hf.mass_nonneg
      | cast j => rw [bordered_lc, hs]; exact k2 j
    | cast i =>
      induction j using Fin.lastCases with
      | last => rw [bordered_cl]; exact k2 i
      | cast j => rw [bordered_cc]; exact k3 i j

/-- The matrix of a moved body. -/
theorem RealJ.transform {S : Set (Fin 3 → ℝ)} {J : Matrix (Fin 4) (Fin 4) ℝ} (hJ : Jᵀ = J) (h : RealJ S J)
    (R : Matrix (Fin 3) (Fin 3) ℝ) (t : Fin 3 → ℝ) :
    RealJ (Spec.moved R t S) (transformMatrix R t * J * (transformMatrix R t)ᵀ) := by
  have h' := Spec.Realizable.moved h R t
  have hs : (fun i : Fin 3 => J (Fin.last 3) i.castSucc) = fun i => J i.castSucc 3 := by
    ext i; exact congrFun (congrFun hJ i.castSucc) (Fin.last 3)
  have e := bordered_self J
  rw [hs] at e
  set H : Matrix (Fin 3) (Fin 3) ℝ := Matrix.of fun i j => J i.castSucc j.castSucc with hH
  set f : Fin 3 → ℝ := fun i => J i.castSucc 3 with hf
  have e' : transformMatrix R t * J * (transformMatrix R t)ᵀ =
      bordered (R * H * Rᵀ + outer (R *ᵥ f) t + outer t (R *ᵥ f) + J 3 3 • outer t t) (R *ᵥ f + J 3 3 • t)
        (R *ᵥ f + J 3 3 • t) (J 3 3) := by
    conv_lhs => rw [← e]
    rw [transformMatrix, bordered_mul, bordered_transpose, bordered_mul]
    simp only [zero_vecMul, zero_dotProduct, one_smul, one_mul, mul_one, zero_add, mulVec_zero, transpose_zero]
    have ev : f ᵥ* Rᵀ = R *ᵥ f := vecMul_transpose R f
    have eo : vecMulVec t f * Rᵀ = outer t (R *ᵥ f) := by
      rw [vecMulVec_mul, ev]; rfl
    show bordered ((R * H + vecMulVec t f) * Rᵀ + vecMulVec (R *ᵥ f + J 3 3 • t) t) (R *ᵥ f + J 3 3 • t)
      (f ᵥ* Rᵀ + J 3 3 • t) (f ⬝ᵥ 0 + J 3 3) = _
    rw [ev, dotProduct_zero, zero_add, Matrix.add_mul, eo]
    congr 1
    ext i j
    simp only [Matrix.add_apply, vecMulVec_apply, outer_apply, Pi.add_apply, Pi.smul_apply, Matrix.smul_apply, smul_eq_mul]
    ring
  rw [e']
  unfold RealJ
  convert h' using 1
  · exact bordered_ll _ _ _ _
  · ext i; exact bordered_cl _ _ _ _ i
  · ext i j; exact bordered_cc _ _ _ _ i j

theorem transformMatrix_last (R : Matrix (Fin 3) (Fin 3) ℝ) (t : Fin 3 → ℝ) (J : Matrix (Fin 4) (Fin 4) ℝ) :
    (transformMatrix R t * J * (transformMatrix R t)ᵀ) 3 3 = J 3 3 := by
  conv_lhs => rw [← bordered_self J]
  rw [transformMatrix, bordered_mul, bordered_transpose, bordered_mul]
  refine (bordered_ll _ _ _ _).trans ?_
  simp

/-- Convergence in the local frame gives convergence in the world frame. -/
theorem ConvergesTo.transform {c : ℕ → Matrix (Fin 4) (Fin 4) ℝ → Prop} {S : Set (Fin 3 → ℝ)} (h : ConvergesTo c S)
    {R : Matrix (Fin 3) (Fin 3) ℝ} (hR : Spec.Orthogonal R) (t : Fin 3 → ℝ) :
    ConvergesTo (fun d J => c d (transformMatrixInv R t * J * (transformMatrixInv R t)ᵀ)) (Spec.moved R t S) := by
  intro δ hδ
  set T := transformMatrix R t with hT
  set Ti := transformMatrixInv R t with hTi
  have hTT : T * Ti = 1 := (C06_transformMatrixInv R t hR).2
  obtain ⟨M, hM⟩ := Finite.exists_le fun ij : Fin 4 × Fin 4 => |T ij.1 ij.2|
  have hM0 : 0 ≤ M := (abs_nonneg _).trans (hM (0, 0))
  obtain ⟨d₀, h1, h2⟩ := h (δ / (16 * M ^ 2 + 1)) (by positivity)
  refine ⟨d₀, h1, fun d hd J hJ hc => ?_⟩
  have hs : (Ti * J * Tiᵀ)ᵀ = Ti * J * Tiᵀ := by
    rw [transpose_mul, transpose_mul, transpose_transpose, hJ, Matrix.mul_assoc]
  obtain ⟨J', k1, k2, k3, k4⟩ := h2 d hd _ hs hc
  have hm : (Ti * J * Tiᵀ) 3 3 = J 3 3 := by rw [hTi]; exact transformMatrix_last _ _ _
  rw [hm] at k3 k4
  have hm0 : 0 ≤ J 3 3 := k3 ▸ k2.mass_nonneg
  have hback : T * (Ti * J * Tiᵀ) * Tᵀ = J := by
    calc T * (Ti * J * Tiᵀ) * Tᵀ = (T * Ti) * J * (T * Ti)ᵀ := by
          rw [transpose_mul]; simp only [Matrix.mul_assoc]
      _ = _ := by rw [hTT, transpose_one, Matrix.one_mul, Matrix.mul_one]
  refine ⟨T * J' * Tᵀ, ?_, k2.transform k1 R t, ?_, fun i j => ?_⟩
  · rw [transpose_mul, transpose_mul, transpose_transpose, k1, Matrix.mul_assoc]
  · rw [hT, transformMatrix_last, k3]
  · have e : J i j - (T * J' * Tᵀ) i j = ∑ l, ∑ k, T i k * ((Ti * J * Tiᵀ) k l - J' k l) * T j l := by
      conv_lhs => rw [← hback]
      rw [← Matrix.sub_apply, ← Matrix.sub_mul, ← Matrix.mul_sub, Matrix.mul_apply]
      refine Finset.sum_congr rfl fun l _ => ?_
      rw [Matrix.mul_apply, Finset.sum_mul]
      rfl
    have hle : ∀ k l, |T i k * ((Ti * J * Tiᵀ) k l - J' k l) * T j l| ≤ M * (δ / (16 * M ^ 2 + 1) * J 3 3) * M := by
      intro k l
      rw [abs_mul, abs_mul]
      have a1 : |T i k| ≤ M := hM (i, k)
      have a2 : |T j l| ≤ M := hM (j, l)
      exact mul_le_mul (mul_le_mul a1 (k4 k l) (abs_nonneg _) hM0) a2 (abs_nonneg _)
        (mul_nonneg hM0 (mul_nonneg (by positivity) hm0))
    rw [e]
    calc |∑ l, ∑ k, T i k * ((Ti * J * Tiᵀ) k l - J' k l) * T j l|
        ≤ ∑ l : Fin 4, ∑ k : Fin 4, M * (δ / (16 * M ^ 2 + 1) * J 3 3) * M :=
          (Finset.abs_sum_le_sum_abs _ _).trans (Finset.sum_le_sum fun l _ =>
            (Finset.abs_sum_le_sum_abs _ _).trans (Finset.sum_le_sum fun k _ => hle k l))
      _ = (16 * M ^ 2 * (δ / (16 * M ^ 2 + 1))) * J 3 3 := by
          simp only [Finset.sum_const, Finset.card_univ, Fintype.card_fin, nsmul_eq_mul]
          push_cast
          ring
      _ ≤ δ * J 3 3 := by
          refine mul_le_mul_of_nonneg_right ?_ hm0
          rw [mul_div_assoc', div_le_iff₀ (by positivity)]
          nlinarith

/-! ### Polyhedra -/

theorem farkas {K : Type} [Field K] [LinearOrder K] [IsStrictOrderedRing K] {n : ℕ} (G : List (Fin n → K)) (x : Fin n → K)
    (h : ∀ a : Fin n → K, (∀ g ∈ G, 0 ≤ a ⬝ᵥ g) → 0 ≤ a ⬝ᵥ x) : x ∈ Spec.coneHull G := by
  obtain ⟨A, hA⟩ := weyl G
  exact (hA x).mpr fun a ha => h a fun g hg => (hA g).mp (coneHull_mem hg) a ha

theorem eval_lin (v : Fin 4 → ℝ) (x : Fin 3 → ℝ) : eval x (lin v) = (∑ i : Fin 3, v i.castSucc * x i) + v (Fin.last 3) := by
  simp [lin]

/-- The terms of the faces of a polyhedron. -/
noncomputable def faceTerms (fs : List ((Fin 3 → ℝ) × ℝ)) : List (List ((Fin 3 → ℕ) × ℝ)) := fs.map fun f => Spec.affineTerms f.1 f.2

theorem nonnegSet_faceTerms (fs : List ((Fin 3 → ℝ) × ℝ)) : nonnegSet (faceTerms fs) = Spec.halfspaces fs := by
  ext x
  simp only [nonnegSet, faceTerms, List.mem_map, forall_exists_index, and_imp, forall_apply_eq_imp_iff₂,
    Spec.halfspaces, Set.mem_ofPred_eq]
  refine forall₂_congr fun f _ => ?_
  rw [ofTerms_affine, eval_lin]
  simp only [Fin.snoc_castSucc, Fin.snoc_last, Pi.neg_apply, neg_mul, Finset.sum_neg_distrib]
  rw [← dotProduct]
  constructor <;> intro h <;> linarith

theorem lin_mem_qmod (fs : List ((Fin 3 → ℝ) × ℝ)) {v : Fin 4 → ℝ}
    (hv : v ∈ Spec.coneHull (Pi.single (Fin.last 3) 1 :: fs.map fun f => Fin.snoc (α := fun _ => ℝ) (-f.1) f.2)) :
    lin v ∈ qmod (termSet (faceTerms fs)) := by
  refine (coneHull_min (T := {v | lin v ∈ qmod (termSet (faceTerms fs))}) ?_ ?_ ?_ ?_ hv :)
  · have : lin (0 : Fin 4 → ℝ) = 0 := by simp [lin]
    show lin (0 : Fin 4 → ℝ) ∈ qmod (termSet (faceTerms fs))
    rw [this]
    exact zero_mem _
  · intro x hx y hy
    show lin (x + y) ∈ qmod (termSet (faceTerms fs))
    rw [lin_add]
    exact add_mem hx hy
  · intro c hc x hx
    show lin (c • x) ∈ qmod (termSet (faceTerms fs))
    rw [lin_smul]
    exact C_mul_mem hc hx
  · intro g hg
    rcases List.mem_cons.mp hg with rfl | hg
    · show lin _ ∈ qmod (termSet (faceTerms fs))
      rw [lin_single]
      have := sq_mem (gs := termSet (faceTerms fs)) 1
      rwa [one_pow] at this
    · obtain ⟨f, hf, rfl⟩ := List.mem_map.mp hg
      show lin _ ∈ qmod (termSet (faceTerms fs))
      rw [← ofTerms_affine]
      exact mem_of_mem ⟨_, List.mem_map.mpr ⟨f, hf, rfl⟩, rfl⟩

/-- All polynomials are bounded on a bounded polyhedron, with certificates. -/
theorem poly_bdd (fs : List ((Fin 3 → ℝ) × ℝ)) (hB : Spec.Bounded (Spec.halfspaces fs)) (p : MvPolynomial (Fin 3) ℝ) :
    Bdd (termSet (faceTerms fs)) p := by
  obtain ⟨B, hB⟩ := hB
  have dual : ∀ a : Fin 4 → ℝ,
      (∀ g ∈ (Pi.single (Fin.last 3) 1 :: fs.map fun f => Fin.snoc (α := fun _ => ℝ) (-f.1) f.2 : List (Fin 4 → ℝ)), 0 ≤ a ⬝ᵥ g) →
      0 ≤ a (Fin.last 3) ∧ ∀ f ∈ fs, f.1 ⬝ᵥ (fun i : Fin 3 => a i.castSucc) ≤ f.2 * a (Fin.last 3) := by
    intro a ha
    refine ⟨by simpa using ha _ List.mem_cons_self, fun f hf => ?_⟩
    have := ha _ (List.mem_cons_of_mem _ (List.mem_map.mpr ⟨f, hf, rfl⟩))
    rw [dotProduct, Fin.sum_univ_castSucc] at this
    simp only [Fin.snoc_castSucc, Fin.snoc_last, Pi.neg_apply, mul_neg, Finset.sum_neg_distrib] at this
    rw [dotProduct]
    simp only [mul_comm (f.1 _)]
    linarith
  have scaled : ∀ a : Fin 4 → ℝ, 0 < a (Fin.last 3) →
      (∀ f ∈ fs, f.1 ⬝ᵥ (fun i : Fin 3 => a i.castSucc) ≤ f.2 * a (Fin.last 3)) →
      (a (Fin.last 3))⁻¹ • (fun i : Fin 3 => a i.castSucc) ∈ Spec.halfspaces fs := by
    intro a ha h f hf
    rw [dotProduct_smul, smul_eq_mul, inv_mul_le_iff₀ ha, mul_comm]
    exact h f hf
  rcases (Spec.halfspaces fs).eq_empty_or_nonempty with he | ⟨x₀, hx₀⟩
  · have hneg : (-1 : MvPolynomial (Fin 3) ℝ) ∈ qmod (termSet (faceTerms fs)) := by
      have := lin_mem_qmod fs (v := -Pi.single (Fin.last 3) 1) (farkas _ _ fun a ha => by
        obtain ⟨h0, h1⟩ := dual a ha
        rcases h0.eq_or_lt with h0 | h0
        · rw [dotProduct_neg, dotProduct_single, ← h0, zero_mul, neg_zero]
        · exact absurd (scaled a h0 h1) (by rw [he]; exact Set.notMem_empty _))
      rwa [show (-Pi.single (Fin.last 3) 1 : Fin 4 → ℝ) = (-1 : ℝ) • Pi.single (Fin.last 3) 1 by simp, lin_smul, lin_single,
        mul_one, C_neg, C_1] at this
    have hall : ∀ q : MvPolynomial (Fin 3) ℝ, q ∈ qmod (termSet (faceTerms fs)) := by
      intro q
      have h1 := C_mul_mem (a := 1 / 4) (by norm_num) (add_mem (sq_mem (gs := termSet (faceTerms fs)) (q + 1))
        (mul_sq_mem hneg (q - 1)))
      convert h1 using 1
      have e4 : (C (1 / 4) * 4 : MvPolynomial (Fin 3) ℝ) = 1 := by
        rw [show (4 : MvPolynomial (Fin 3) ℝ) = C 4 from rfl, ← C_mul]; norm_num
      linear_combination (-q) * e4
    exact ⟨1, one_pos, hall _, hall _⟩
  · have hB0 : 0 ≤ B := (abs_nonneg _).trans (hB x₀ hx₀ 0)
    have key : ∀ v : Fin 4 → ℝ, (∀ x ∈ Spec.halfspaces fs, 0 ≤ (∑ i : Fin 3, x i * v i.castSucc) + v (Fin.last 3)) →
        lin v ∈ qmod (termSet (faceTerms fs)) := by
      intro v hv
      refine lin_mem_qmod fs (farkas _ _ fun a ha => ?_)
      obtain ⟨h0, h1⟩ := dual a ha
      rw [dotProduct, Fin.sum_univ_castSucc]
      rcases h0.eq_or_lt with h0 | h0
      · have hz : (fun i : Fin 3 => a i.castSucc) = 0 := by
          ext i
          have hray : ∀ s : ℝ, 0 ≤ s → |x₀ i + s * a i.castSucc| ≤ B := by
            intro s hs
            refine hB (x₀ + s • fun i : Fin 3 => a i.castSucc) (fun f hf => ?_) i
            rw [dotProduct_add, dotProduct_smul, smul_eq_mul]
            have e1 := hx₀ f hf
            have e2 := h1 f hf
            rw [← h0, mul_zero] at e2
            nlinarith [mul_nonneg hs (neg_nonneg.mpr e2)]
          by_contra hne
          have hne' : a i.castSucc ≠ 0 := hne
          have h3 := hray ((2 * B + 1) / |a i.castSucc|) (by positivity)
          have h4 := hB x₀ hx₀ i
          have h5 : |(2 * B + 1) / |a i.castSucc| * a i.castSucc| = 2 * B + 1 := by
            rw [abs_mul, abs_div, abs_abs, div_mul_cancel₀ _ (abs_ne_zero.mpr hne'), abs_of_pos (by linarith)]
          have h6 := abs_sub_abs_le_abs_sub ((2 * B + 1) / |a i.castSucc| * a i.castSucc) (-(x₀ i))
          rw [abs_neg, sub_neg_eq_add, add_comm _ (x₀ i), h5] at h6
          linarith
        have hz' : ∀ i : Fin 3, a i.castSucc = 0 := fun i => congrFun hz i
        simp only [hz', ← h0, zero_mul, Finset.sum_const_zero, add_zero, le_refl]
      · have := hv _ (scaled a h0 h1)
        simp only [Pi.smul_apply, smul_eq_mul] at this
        have := mul_nonneg h0.le this
        rw [mul_add, Finset.mul_sum] at this
        simp only [mul_assoc, mul_inv_cancel_left₀ h0.ne'] at this
        exact this
    refine bdd_all (fun i => ⟨B + 1, by positivity, ?_, ?_⟩) p
    · have := key (Fin.snoc (α := fun _ => ℝ) (-Pi.single i 1) (B + 1)) fun x hx => by
        have := (abs_le.mp (hB x hx i)).2
        simp only [Fin.snoc_castSucc, Fin.snoc_last, Pi.neg_apply, Pi.single_apply, mul_ite, mul_neg, mul_one, mul_zero,
          Finset.sum_ite_eq', Finset.sum_neg_distrib, Finset.mem_univ, if_true]
        linarith
      convert this using 1
      simp only [lin, Fin.snoc_castSucc, Fin.snoc_last, Pi.neg_apply, Pi.single_apply, C_neg, neg_mul, Finset.sum_neg_distrib,
        apply_ite C, C_0, C_1, ite_mul, zero_mul, one_mul, Finset.sum_ite_eq', Finset.mem_univ, if_true]
      ring
    · have := key (Fin.snoc (α := fun _ => ℝ) (Pi.single i 1) (B + 1)) fun x hx => by
        have := (abs_le.mp (hB x hx i)).1
        simp only [Fin.snoc_castSucc, Fin.snoc_last, Pi.neg_apply, Pi.single_apply, mul_ite, mul_neg, mul_one, mul_zero,
          Finset.sum_ite_eq', Finset.sum_neg_distrib, Finset.mem_univ, if_true]
        linarith
      convert this using 1
      simp only [lin, Fin.snoc_castSucc, Fin.snoc_last, Pi.neg_apply, Pi.single_apply, C_neg, neg_mul, Finset.sum_neg_distrib,
        apply_ite C, C_0, C_1, ite_mul, zero_mul, one_mul, Finset.sum_ite_eq', Finset.mem_univ, if_true]
      ring

theorem halfspaces_compact {n : ℕ} (fs : List ((Fin n → ℝ) × ℝ)) (hB : Spec.Bounded (Spec.halfspaces fs)) :
    IsCompact (Spec.halfspaces fs) := by
  obtain ⟨B, hB⟩ := hB
  refine IsCompact.of_isClosed_subset (isCompact_univ_pi fun _ : Fin n => isCompact_Icc (a := -B) (b := B)) ?_ ?_
  · have e : Spec.halfspaces fs = ⋂ f ∈ fs, {x | f.1 ⬝ᵥ x ≤ f.2} := by ext x; simp [Spec.halfspaces]
    rw [e]
    exact isClosed_biInter fun f _ => isClosed_le (by unfold dotProduct; fun_prop) continuous_const
  · intro x hx i _
    exact abs_le.mp (hB x hx i)

theorem LocalizedPSD_mono {n d d' : ℕ} (h : d' ≤ d) {g : List ((Fin n → ℕ) × ℝ)} {y : (Fin n → ℕ) → ℝ}
    (hl : Spec.LocalizedPSD d g y) : Spec.LocalizedPSD d' g y :=
  LocalizedPSD.of_pairing fun q hq => LocalizedPSD.pairing_nonneg hl q (hq.trans h)

theorem poly_converges (P : Poly ℝ 3) (hP : ∀ f ∈ P.faceForm.faces, f ≠ (0, 0))
    (hB : Spec.Bounded (Spec.halfspaces P.faceForm.faces)) (eps : ℝ) (heps : 0 ≤ eps) :
    ConvergesTo (fun d J => Py.Holds (P.momentSdpConstraints (.mat J) eps d)) (Spec.halfspaces P.faceForm.faces) := by
  have h := converges_of_feas (poly_bdd _ hB) (by rw [nonnegSet_faceTerms]; exact halfspaces_compact _ hB)
  rw [nonnegSet_faceTerms] at h
  refine h.mono fun d J hd hc => ?_
  obtain ⟨a, ha, -⟩ := C19_mat J eps heps
  unfold Poly.momentSdpConstraints at hc
  rw [ha] at hc
  have hwf : ∀ p ∈ P.polys, p.WF ∧ ∃ D, p.degree = .ok D ∧ D ≤ 2 * d := by
    intro p hp
    obtain ⟨f, hf, rfl⟩ := List.mem_map.mp hp
    obtain ⟨D, hD, hD'⟩ := affine_degree f.1 f.2 (hP f hf)
    exact ⟨(C21_affine f.1 f.2 0).1, D, hD, by omega⟩
  obtain ⟨y, y0, y1, y2, y3, y4⟩ := (momentSdp_iff hd _ hwf _).mp hc
  refine ⟨y, y0, y1, y2, y3, fun g hg => ?_⟩
  obtain ⟨f, hf, rfl⟩ := List.mem_map.mp hg
  obtain ⟨D, hD, hD'⟩ := affine_degree f.1 f.2 (hP f hf)
  have := y4 _ (List.mem_map.mpr ⟨f, hf, rfl⟩) D hD
  rw [affine_coefficients, LocalizedPSD_filter] at this
  exact LocalizedPSD_mono (by omega) this

/-! ### Cylinders -/

/-- The terms of the polynomials of a cylinder in its own frame. -/
noncomputable def cylTerms (c : Cylinder ℝ) : List (List ((Fin 3 → ℕ) × ℝ)) :=
  [[(![0, 0, 1], 1), (![0, 0, 0], (1 / 2) * c.length)], [(![0, 0, 1], -1), (![0, 0, 0], (1 / 2) * c.length)],
    [(![2, 0, 0], -1), (![0, 2, 0], -1), (![0, 0, 0], c.radius ^ 2)]]

theorem mono_eq (a b c : ℕ) (r : ℝ) : (monomial (Finsupp.equivFunOnFinite.symm ![a, b, c]) r : MvPolynomial (Fin 3) ℝ) =
    C r * (X 0 ^ a * X 1 ^ b * X 2 ^ c) := by
  rw [monomial_eq, Finsupp.prod_fintype _ _ (fun _ => pow_zero _), Fin.prod_univ_three]
  rfl

theorem cylTerms_eq (c : Cylinder ℝ) : termSet (cylTerms c) = {X 2 + C ((1 / 2) * c.length), -X 2 + C ((1 / 2) * c.length),
    -X 0 ^ 2 - X 1 ^ 2 + C (c.radius ^ 2)} := by
  ext p
  simp only [termSet, cylTerms, List.mem_cons, List.not_mem_nil, or_false, exists_eq_or_imp, exists_eq_left, ofTerms,
    List.map_cons, List.map_nil, List.sum_cons, List.sum_nil, mono_eq, Set.mem_insert_iff, Set.mem_singleton_iff,
    Set.mem_ofPred_eq, pow_zero, pow_one, C_neg, C_1, mul_one, one_mul, add_zero, neg_mul]
  rw [show (-X 0 ^ 2 + (-X 1 ^ 2 + C (c.radius ^ 2)) : MvPolynomial (Fin 3) ℝ) = -X 0 ^ 2 - X 1 ^ 2 + C (c.radius ^ 2) by ring]

theorem cyl_bdd (c : Cylinder ℝ) (p : MvPolynomial (Fin 3) ℝ) : Bdd (termSet (cylTerms c)) p := by
  have h1 : X 2 + C ((1 / 2) * c.length) ∈ qmod (termSet (cylTerms c)) := mem_of_mem (by rw [cylTerms_eq]; simp)
  have h2 : -X 2 + C ((1 / 2) * c.length) ∈ qmod (termSet (cylTerms c)) := mem_of_mem (by rw [cylTerms_eq]; simp)
  have h3 : -X 0 ^ 2 - X 1 ^ 2 + C (c.radius ^ 2) ∈ qmod (termSet (cylTerms c)) := mem_of_mem (by rw [cylTerms_eq]; simp)
  refine bdd_all (fun i => ?_) p
  fin_cases i
  · refine bdd_of_sq (N := c.radius ^ 2) ?_
    convert add_mem h3 (sq_mem (X 1)) using 1
    show C (c.radius ^ 2) - X 0 ^ 2 = _
    ring
  · refine bdd_of_sq (N := c.radius ^ 2) ?_
    convert add_mem h3 (sq_mem (X 0)) using 1
    show C (c.radius ^ 2) - X 1 ^ 2 = _
    ring
  · refine ⟨|(1 / 2) * c.length| + 1, by positivity, ?_, ?_⟩
    · convert add_mem h2 (C_mem (a := |(1 / 2) * c.length| + 1 - (1 / 2) * c.length)
        (by linarith [le_abs_self ((1 / 2) * c.length)])) using 1
      show C (|(1 / 2) * c.length| + 1) - X 2 = _
      rw [C_sub]
      ring
    · convert add_mem h1 (C_mem (a := |(1 / 2) * c.length| + 1 - (1 / 2) * c.length)
        (by linarith [le_abs_self ((1 / 2) * c.length)])) using 1
      show C (|(1 / 2) * c.length| + 1) + X 2 = _
      rw [C_sub]
      ring

theorem nonnegSet_cylTerms (c : Cylinder ℝ) : nonnegSet (cylTerms c) = Spec.cylinder c.length c.radius 1 0 := by
  have e : nonnegSet (cylTerms c) = {x | ∀ g ∈ termSet (cylTerms c), 0 ≤ eval x g} := by
    ext x
    simp only [nonnegSet, termSet, Set.mem_ofPred_eq, forall_exists_index, and_imp]
    exact ⟨fun h g t ht hg => hg ▸ h t ht, fun h t ht => h _ t ht rfl⟩
  ext x
  rw [e, cylTerms_eq, Spec_cylinder_iff Spec.Orthogonal.one]
  simp only [Set.mem_ofPred_eq, Set.mem_insert_iff, Set.mem_singleton_iff, forall_eq_or_imp, forall_eq, map_add, map_neg,
    map_sub, map_pow, eval_X, eval_C, transpose_one, one_mulVec, sub_zero, abs_le]
  constructor
  · rintro ⟨h1, h2, h3⟩; exact ⟨⟨by linarith, by linarith⟩, by linarith⟩
  · rintro ⟨⟨h1, h2⟩, h3⟩; exact ⟨by linarith, by linarith, by linarith⟩

theorem moved_cylinder (L r : ℝ) (R : Matrix (Fin 3) (Fin 3) ℝ) (t : Fin 3 → ℝ) :
    Spec.moved R t (Spec.cylinder L r 1 0) = Spec.cylinder L r R t := by
  ext x
  simp only [Spec.moved, Spec.cylinder, Set.mem_image, Set.mem_ofPred_eq]
  constructor
  · rintro ⟨_, ⟨y, h1, h2, rfl⟩, rfl⟩
    exact ⟨y, h1, h2, by simp [Spec.rigid]⟩
  · rintro ⟨y, h1, h2, rfl⟩
    exact ⟨y, ⟨y, h1, h2, by simp [Spec.rigid]⟩, rfl⟩

theorem cylinder_compact' (L r : ℝ) {R : Matrix (Fin 3) (Fin 3) ℝ} (hR : Spec.Orthogonal R) (c : Fin 3 → ℝ) :
    IsCompact (Spec.cylinder L r R c) := by
  have e : Spec.cylinder L r R c = Spec.cylinder L |r| R c := by simp only [Spec.cylinder, sq_abs]
  rcases le_or_gt 0 L with hL | hL
  · rw [e]; exact cylinder_compact L |r| hL (abs_nonneg r) hR c
  · have : Spec.cylinder L r R c = ∅ := by
      ext x
      simp only [Spec.cylinder, Set.mem_ofPred_eq, Set.mem_empty_iff_false, iff_false, not_exists, not_and]
      intro y hy
      linarith [abs_nonneg (y 2)]
    rw [this]
    exact isCompact_empty

theorem box_compact' (h : Fin 3 → ℝ) {R : Matrix (Fin 3) (Fin 3) ℝ} (hR : Spec.Orthogonal R) (c : Fin 3 → ℝ) :
    IsCompact (Spec.box h R c) := by
  by_cases hh : ∀ i, 0 ≤ h i
  · exact AnyShape.compact (s := .box ⟨h, R, c⟩) ⟨hR, hh⟩
  · push Not at hh
    obtain ⟨i, hi⟩ := hh
    have : Spec.box h R c = ∅ := by
      ext x
      simp only [Spec.box, Set.mem_ofPred_eq, Set.mem_empty_iff_false, iff_false, not_exists, not_and]
      intro y hy
      linarith [abs_nonneg (y i), hy i]
    rw [this]
    exact isCompact_empty

theorem Spec_bounded_of_compact {n : ℕ} {S : Set (Fin n → ℝ)} (hS : IsCompact S) : Spec.Bounded S := by
  obtain ⟨B, hB⟩ := hS.isBounded.exists_norm_le
  exact ⟨B, fun x hx i => (norm_le_pi_norm x i).trans (hB x hx)⟩

theorem cylinder_converges (c : Cylinder ℝ) (hR : Spec.Orthogonal c.rotation) (eps : ℝ) (heps : 0 ≤ eps) : ConvergesTo (fun d J => Py.Holds (c.momentSdpConstraints (.mat J) eps d))
      (Spec.cylinder c.length c.radius c.rotation c.center) := by
  have h := converges_of_feas (cyl_bdd c) (by
    rw [nonnegSet_cylTerms]; exact cylinder_compact' _ _ Spec.Orthogonal.one 0)
  rw [nonnegSet_cylTerms] at h
  have h := h.transform hR c.center
  rw [moved_cylinder] at h
  refine h.mono fun d J hd hc => ?_
  obtain ⟨a, ha, -⟩ := C19_mat J eps heps
  unfold Cylinder.momentSdpConstraints at hc
  rw [ha] at hc
  obtain ⟨y, y0, y1, y2, y3, y4⟩ := (momentSdp_iff hd _ (fun f hf => by
    obtain ⟨h1, D, h2, h3⟩ := poly0s_wf c f hf
    exact ⟨h1, D, h2, by omega⟩) _).mp hc
  refine ⟨y, y0, y1, y2, y3, ?_⟩
  have key : ∀ g, Polynomial.init g ∈ c.poly0s → (g.map Prod.fst).Nodup →
      Spec.LocalizedPSD (d - 1) g y := by
    intro g hg hn
    obtain ⟨-, D, h2, h3⟩ := poly0s_wf c _ hg
    have := y4 _ hg D h2
    rw [init_coefficients _ hn, LocalizedPSD_filter] at this
    exact LocalizedPSD_mono (by omega) this
  intro g hg
  simp only [cylTerms, List.mem_cons, List.not_mem_nil, or_false] at hg
  rcases hg with rfl | rfl | rfl
  · exact key _ (by simp [Cylinder.poly0s]) (by simp)
  · exact key _ (by simp [Cylinder.poly0s]) (by simp)
  · exact key _ (by simp [Cylinder.poly0s]) (by simp)

/-! ### Shapes and bodies -/

theorem box_bounded' (b : Box ℝ) (hR : Spec.Orthogonal b.rotation) : Spec.Bounded (Spec.halfspaces b.toPoly.faceForm.faces) := by
  rw [box_halfspaces b hR]
  exact Spec_bounded_of_compact (box_compact' _ hR _)

theorem shape_compact {s : AnyShape ℝ} (hs : s.Usable)
    (hb : ∀ P, s = .poly P → Spec.Bounded (Spec.halfspaces P.faceForm.faces)) : IsCompact (Spec.region s) := by
  cases s with
  | ellipsoid e =>
    exact AnyShape.compact (s := .ellipsoid e) ⟨hs.1, fun i => by
      rcases hs.2 i with h | h
      · exact h.ge
      · exact le_trans (by norm_num) h.le⟩
  | box b => exact box_compact' _ hs _
  | poly P => exact halfspaces_compact _ (hb P rfl)
  | cylinder c => exact cylinder_compact' _ _ hs _
  | capsule c => exact hs.elim

theorem shape_converges {s : AnyShape ℝ} (hs : s.Usable)
    (hb : ∀ P, s = .poly P → Spec.Bounded (Spec.halfspaces P.faceForm.faces)) (eps : ℝ) (heps : 0 ≤ eps) :
    ConvergesTo (fun d J => Py.Holds (s.momentConstraints (.mat J) eps d)) (Spec.region s) := by
  cases s with
  | ellipsoid e =>
    intro δ hδ
    refine ⟨1, le_rfl, fun d hd J hJ ⟨c, hc, hcc⟩ => ?_⟩
    obtain ⟨c', hc', h'⟩ := C51_mat e hs.1 hs.2 J eps heps false
    change e.momentConstraints (.mat J) eps = .ok c at hc
    rw [hc] at hc'
    obtain rfl := Except.ok.inj hc'
    have hr := (h'.mp hcc).2
    exact ⟨J, hJ, hr, rfl, fun i j => by
      rw [sub_self, abs_zero]; exact mul_nonneg hδ.le hr.mass_nonneg⟩
  | box b =>
    have := poly_converges b.toPoly (box_rows_ne b hs) (box_bounded' b hs) eps heps
    rw [box_halfspaces b hs] at this
    exact this
  | poly P => exact poly_converges P hs (hb P rfl) eps heps
  | cylinder c => exact cylinder_converges c hs eps heps
  | capsule c => exact hs.elim

theorem RealJ.mono {S T : Set (Fin 3 → ℝ)} {J : Matrix (Fin 4) (Fin 4) ℝ} (h : RealJ S J) (hST : S ⊆ T) : RealJ T J :=
  Spec.Realizable.mono h hST

theorem multi_converges (shapes : List (AnyShape ℝ)) (hs : ∀ s ∈ shapes, s.Usable)
    (hb : ∀ P, .poly P ∈ shapes → Spec.Bounded (Spec.halfspaces P.faceForm.faces)) :
    ConvergesTo (fun d J => MultiFeasible shapes d J) (Spec.bodyRegion shapes) := by
  intro δ hδ
  have key : ∀ (T : Set (Fin 3 → ℝ)) (shapes : List (AnyShape ℝ)), (∀ s ∈ shapes, s.Usable) →
      (∀ P, .poly P ∈ shapes → Spec.Bounded (Spec.halfspaces P.faceForm.faces)) → (∀ s ∈ shapes, Spec.region s ⊆ T) →
      ∃ d₀ : ℕ, 1 ≤ d₀ ∧ ∀ d, d₀ ≤ d → ∀ Js : List (Matrix (Fin 4) (Fin 4) ℝ), Js.length = shapes.length →
        (∀ J ∈ Js, Jᵀ = J) → (∀ sJ ∈ shapes.zip Js, Py.Holds (sJ.1.momentConstraints (.mat sJ.2) 0 d)) →
        ∃ J' : Matrix (Fin 4) (Fin 4) ℝ, J'ᵀ = J' ∧ RealJ T J' ∧ J' 3 3 = Js.sum 3 3 ∧
          ∀ i j, |Js.sum i j - J' i j| ≤ δ * Js.sum 3 3 := by
    intro T shapes
    induction shapes with
    | nil =>
      intro _ _ _
      refine ⟨1, le_rfl, fun d _ Js hl _ _ => ⟨0, transpose_zero, RealJ.zero _, ?_, fun i j => ?_⟩⟩
      · rw [List.length_eq_zero_iff.mp hl]; rfl
      · rw [List.length_eq_zero_iff.mp hl]; simp
    | cons s shapes ih =>
      intro hs hb hT
      obtain ⟨d₁, a1, h1⟩ := ih (fun s h => hs s (by simp [h])) (fun P h => hb P (by simp [h]))
        (fun s h => hT s (by simp [h]))
      obtain ⟨d₂, -, h2⟩ := shape_converges (hs s (by simp)) (fun P h => hb P (by simp [h])) 0 le_rfl δ hδ
      refine ⟨max d₁ d₂, le_max_of_le_left a1, fun d hd Js hl hJs hc => ?_⟩
      match Js, hl with
      | J :: Js, hl =>
      obtain ⟨A, k1, k2, k3, k4⟩ := h1 d (le_of_max_le_left hd) Js (by simpa using hl) (fun J h => hJs J (by simp [h]))
        fun sJ hsJ => hc sJ (by simp [hsJ])
      obtain ⟨B, l1, l2, l3, l4⟩ := h2 d (le_of_max_le_right hd) J (hJs J (by simp)) (hc (s, J) (by simp))
      refine ⟨B + A, by rw [transpose_add, k1, l1], (l2.mono (hT s (by simp))).add k2, ?_, fun i j => ?_⟩
      · rw [List.sum_cons, Matrix.add_apply, Matrix.add_apply, k3, l3]
      · rw [List.sum_cons, Matrix.add_apply, Matrix.add_apply, Matrix.add_apply, mul_add]
        calc |J i j + Js.sum i j - (B i j + A i j)| = |(J i j - B i j) + (Js.sum i j - A i j)| := by ring_nf
          _ ≤ _ := (abs_add_le _ _).trans (add_le_add (l4 i j) (k4 i j))
  obtain ⟨d₀, h1, h2⟩ := key (Spec.bodyRegion shapes) shapes hs hb fun s hsm x hx => ⟨s, hsm, hx⟩
  refine ⟨d₀, h1, fun d hd J hJ ⟨Js, j1, j2, j3, j4⟩ => ?_⟩
  subst j4
  exact h2 d hd Js j1 (fun J hJ => (j2 J hJ).1) j3

theorem body_converges (body : RigidBody ℝ) (hs : ∀ s ∈ body.shapes, s.Usable)
    (hb : ∀ P, .poly P ∈ body.shapes → Spec.Bounded (Spec.halfspaces P.faceForm.faces)) (eps : ℝ) (heps : 0 ≤ eps) :
    ConvergesTo (fun d J => Py.Holds (body.momentSdpConstraints (.mat J) eps d)) (Spec.bodyRegion body.shapes) := by
  by_cases hlen : body.shapes.length = 1
  · obtain ⟨s, h1⟩ := List.length_eq_one_iff.mp hlen
    have hr : Spec.bodyRegion body.shapes = Spec.region s := by ext x; simp [Spec.bodyRegion, h1]
    rw [hr]
    refine (shape_converges (hs s (by simp [h1])) (fun P hP => hb P (by simp [h1, hP])) eps heps).mono fun d J _ hc => ?_
    unfold RigidBody.momentSdpConstraints at hc
    rw [h1] at hc
    exact hc
  · refine (multi_converges _ hs hb).mono fun d J hd ⟨q, hq, hqq⟩ => ?_
    obtain ⟨c, hc, -⟩ := C19_mat J eps heps
    obtain ⟨r, hr, hr'⟩ := multi_eq body hlen hs _ _ _ eps d hd hc
    rw [hq] at hr
    obtain rfl := Except.ok.inj hr
    exact (hr'.mp hqq).1

theorem bodyRegion_compact (shapes : List (AnyShape ℝ)) (hs : ∀ s ∈ shapes, s.Usable)
    (hb : ∀ P, .poly P ∈ shapes → Spec.Bounded (Spec.halfspaces P.faceForm.faces)) : IsCompact (Spec.bodyRegion shapes) := by
  have e : Spec.bodyRegion shapes = ⋃ s ∈ {s | s ∈ shapes}, Spec.region s := by ext x; simp [Spec.bodyRegion]
  rw [e]
  exact (List.finite_toSet shapes).isCompact_biUnion fun s hsm => shape_compact (hs s hsm) fun P hP => hb P (hP ▸ hsm)

/-! ### The property -/

theorem IP.realJ_iff (q : IP ℝ) (S : Set (Fin 3 → ℝ)) : RealJ S q.J ↔ Spec.Realizable S q.mass q.h q.H := by
  have h1 : q.J 3 3 = q.mass := bordered_ll _ _ _ _
  have h2 : (fun i : Fin 3 => q.J i.castSucc 3) = q.h := funext fun i => bordered_cl _ _ _ _ i
  have h3 : (Matrix.of fun i j : Fin 3 => q.J i.castSucc j.castSucc) = q.H := by ext i j; exact bordered_cc _ _ _ _ i j
  unfold RealJ
  rw [h1, h2, h3]

/-- Convergence in terms of inertial parameters. -/
theorem ConvergesTo.close {c : ℕ → Matrix (Fin 4) (Fin 4) ℝ → Prop} {S : Set (Fin 3 → ℝ)} (h : ConvergesTo c S) (δ : ℝ)
    (hδ : 0 < δ) : ∃ d₀ : ℕ, 1 ≤ d₀ ∧ ∀ d, d₀ ≤ d → ∀ q : IP ℝ, q.Hᵀ = q.H → c d q.J →
      ∃ q' : IP ℝ, Spec.Realizable S q'.mass q'.h q'.H ∧ q'.mass = q.mass ∧
        (∀ i, |q.h i - q'.h i| ≤ δ * q.mass) ∧ ∀ i j, |q.H i j - q'.H i j| ≤ δ * q.mass := by
  obtain ⟨d₀, h1, h2⟩ := h δ hδ
  refine ⟨d₀, h1, fun d hd q hq hc => ?_⟩
  obtain ⟨J', -, k2, k3, k4⟩ := h2 d hd _ (q.J_symm hq) hc
  obtain ⟨p, e1, e2, e3, -⟩ := exists_ip k2
  have hm : q.J 3 3 = q.mass := bordered_ll _ _ _ _
  rw [hm] at k3 k4
  refine ⟨p, by rw [e1, e2, e3]; exact k2, e1.trans k3, fun i => ?_, fun i j => ?_⟩
  · have := k4 i.castSucc 3
    rw [e2]
    rwa [show q.J i.castSucc 3 = q.h i from bordered_cl _ _ _ _ i] at this
  · have := k4 i.castSucc j.castSucc
    rw [e3]
    rwa [show q.J i.castSucc j.castSucc = q.H i j from bordered_cc _ _ _ _ i j] at this

/-- Convergence of lower bounds on linear objectives. -/
theorem ConvergesTo.objective' {c : ℕ → Matrix (Fin 4) (Fin 4) ℝ → Prop} {S : Set (Fin 3 → ℝ)} (h : ConvergesTo c S)
    (D : Matrix (Fin 4) (Fin 4) ℝ) (β : ℝ)
    (hβ : ∀ q : IP ℝ, Spec.Realizable S q.mass q.h q.H → q.mass = 1 → β ≤ (D * q.J).trace) (δ : ℝ) (hδ : 0 < δ) :
    ∃ d₀ : ℕ, 1 ≤ d₀ ∧ ∀ d, d₀ ≤ d → ∀ q : IP ℝ, q.Hᵀ = q.H → c d q.J → (β - δ) * q.mass ≤ (D * q.J).trace := by
  obtain ⟨d₀, h1, h2⟩ := h.objective D β δ hδ fun J hJ hr hm => by
    obtain ⟨p, e1, e2, e3, e4⟩ := exists_ip hr
    have hpJ : p.J = J := by
      rw [e4]
      refine Eq.trans ?_ (bordered_self J)
      congr 1
      ext i
      exact congrFun (congrFun hJ (Fin.last 3)) i.castSucc
    have := hβ p (by rw [e1, e2, e3]; exact hr) (e1.trans hm)
    rwa [hpJ] at this
  refine ⟨d₀, h1, fun d hd q hq hc => ?_⟩
  have := h2 d hd q.J (q.J_symm hq) hc
  rwa [show q.J 3 3 = q.mass from bordered_ll _ _ _ _] at this

/-- C87: inertial parameters satisfy the moment relaxation of a bounded polyhedron at every order exactly when some
mass distribution inside the polyhedron has them. -/
theorem C87_poly (P : Poly ℝ 3) (hP : ∀ f ∈ P.faceForm.faces, f ≠ (0, 0))
    (hB : Spec.Bounded (Spec.halfspaces P.faceForm.faces)) (q : IP ℝ) (hq : q.Hᵀ = q.H) (eps : ℝ) (heps : 0 ≤ eps) :
    (∀ d, 1 ≤ d → Py.Holds (P.momentSdpConstraints (.mat q.J) eps d)) ↔
      Spec.Realizable (Spec.halfspaces P.faceForm.faces) q.mass q.h q.H :=
  ⟨fun h => (q.realJ_iff _).mp ((poly_converges P hP hB eps heps).all (halfspaces_compact _ hB) (q.J_symm hq) h),
    fun h d hd => (C52_necessary P hP q h eps heps d hd).1⟩

/-- C87: parameters accepted at a high enough order are close to parameters of the same mass that are realizable in
the polyhedron. -/
theorem C87_poly_close (P : Poly ℝ 3) (hP : ∀ f ∈ P.faceForm.faces, f ≠ (0, 0))
    (hB : Spec.Bounded (Spec.halfspaces P.faceForm.faces)) (eps : ℝ) (heps : 0 ≤ eps) (δ : ℝ) (hδ : 0 < δ) :
    ∃ d₀ : ℕ, 1 ≤ d₀ ∧ ∀ d, d₀ ≤ d → ∀ q : IP ℝ, q.Hᵀ = q.H → Py.Holds (P.momentSdpConstraints (.mat q.J) eps d) →
      ∃ q' : IP ℝ, Spec.Realizable (Spec.halfspaces P.faceForm.faces) q'.mass q'.h q'.H ∧ q'.mass = q.mass ∧
        (∀ i, |q.h i - q'.h i| ≤ δ * q.mass) ∧ ∀ i j, |q.H i j - q'.H i j| ≤ δ * q.mass :=
  (poly_converges P hP hB eps heps).close δ hδ

/-- C87: a lower bound of a linear objective over the bodies of unit mass inside the polyhedron is a lower bound, up
to any error, over the parameters the relaxation accepts at a high enough order. -/
theorem C87_poly_objective (P : Poly ℝ 3) (hP : ∀ f ∈ P.faceForm.faces, f ≠ (0, 0))
    (hB : Spec.Bounded (Spec.halfspaces P.faceForm.faces)) (D : Matrix (Fin 4) (Fin 4) ℝ) (β : ℝ)
    (hβ : ∀ q : IP ℝ, Spec.Realizable (Spec.halfspaces P.faceForm.faces) q.mass q.h q.H → q.mass = 1 → β ≤ (D * q.J).trace)
    (eps : ℝ) (heps : 0 ≤ eps) (δ : ℝ) (hδ : 0 < δ) :
    ∃ d₀ : ℕ, 1 ≤ d₀ ∧ ∀ d, d₀ ≤ d → ∀ q : IP ℝ, q.Hᵀ = q.H → Py.Holds (P.momentSdpConstraints (.mat q.J) eps d) →
      (β - δ) * q.mass ≤ (D * q.J).trace :=
  (poly_converges P hP hB eps heps).objective' D β hβ δ hδ

/-- C87: the same for boxes in any pose. -/
theorem C87_box (b : Box ℝ) (hR : Spec.Orthogonal b.rotation) (q : IP ℝ) (hq : q.Hᵀ = q.H) (eps : ℝ) (heps : 0 ≤ eps) :
    (∀ d, 1 ≤ d → Py.Holds (b.momentSdpConstraints (.mat q.J) eps d)) ↔
      Spec.Realizable (Spec.box b.halfExtents b.rotation b.center) q.mass q.h q.H := by
  have := C87_poly b.toPoly (box_rows_ne b hR) (box_bounded' b hR) q hq eps heps
  rwa [box_halfspaces b hR] at this

/-- C87: the same for cylinders in any pose. -/
theorem C87_cylinder (c : Cylinder ℝ) (hR : Spec.Orthogonal c.rotation) (q : IP ℝ) (hq : q.Hᵀ = q.H) (eps : ℝ)
    (heps : 0 ≤ eps) : (∀ d, 1 ≤ d → Py.Holds (c.momentSdpConstraints (.mat q.J) eps d)) ↔
      Spec.Realizable (Spec.cylinder c.length c.radius c.rotation c.center) q.mass q.h q.H :=
  ⟨fun h => (q.realJ_iff _).mp ((cylinder_converges c hR eps heps).all (cylinder_compact' _ _ hR _) (q.J_symm hq) h),
    fun h d hd => (C55_sdp_necessary c hR q h eps heps d hd).1⟩

/-- C87: for cylinders the relaxation of high order only admits parameters close to realizable ones. -/
theorem C87_cylinder_close (c : Cylinder ℝ) (hR : Spec.Orthogonal c.rotation) (eps : ℝ) (heps : 0 ≤ eps) (δ : ℝ)
    (hδ : 0 < δ) :
    ∃ d₀ : ℕ, 1 ≤ d₀ ∧ ∀ d, d₀ ≤ d → ∀ q : IP ℝ, q.Hᵀ = q.H → Py.Holds (c.momentSdpConstraints (.mat q.J) eps d) →
      ∃ q' : IP ℝ, Spec.Realizable (Spec.cylinder c.length c.radius c.rotation c.center) q'.mass q'.h q'.H ∧
        q'.mass = q.mass ∧ (∀ i, |q.h i - q'.h i| ≤ δ * q.mass) ∧ ∀ i j, |q.H i j - q'.H i j| ≤ δ * q.mass :=
  (cylinder_converges c hR eps heps).close δ hδ

/-- C87: for cylinders the minimum of a linear objective over the relaxations converges to the minimum over
realizable parameters. -/
theorem C87_cylinder_objective (c : Cylinder ℝ) (hR : Spec.Orthogonal c.rotation) (D : Matrix (Fin 4) (Fin 4) ℝ) (β : ℝ)
    (hβ : ∀ q : IP ℝ, Spec.Realizable (Spec.cylinder c.length c.radius c.rotation c.center) q.mass q.h q.H → q.mass = 1 →
      β ≤ (D * q.J).trace)
    (eps : ℝ) (heps : 0 ≤ eps) (δ : ℝ) (hδ : 0 < δ) :
    ∃ d₀ : ℕ, 1 ≤ d₀ ∧ ∀ d, d₀ ≤ d → ∀ q : IP ℝ, q.Hᵀ = q.H → Py.Holds (c.momentSdpConstraints (.mat q.J) eps d) →
      (β - δ) * q.mass ≤ (D * q.J).trace :=
  (cylinder_converges c hR eps heps).objective' D β hβ δ hδ

/-- C87: the constraints of a body made of any number of ellipsoids, boxes, bounded polyhedra and cylinders hold at
every order exactly when some mass distribution on the union of the shapes has the parameters. -/
theorem C87_body (body : RigidBody ℝ) (hs : ∀ s ∈ body.shapes, s.Usable)
    (hb : ∀ P, .poly P ∈ body.shapes → Spec.Bounded (Spec.halfspaces P.faceForm.faces)) (q : IP ℝ) (hq : q.Hᵀ = q.H) :
    (∀ d, 1 ≤ d → Py.Holds (body.momentSdpConstraints (.mat q.J) 0 d)) ↔
      Spec.Realizable (Spec.bodyRegion body.shapes) q.mass q.h q.H :=
  ⟨fun h => (q.realJ_iff _).mp ((body_converges body hs hb 0 le_rfl).all (bodyRegion_compact _ hs hb) (q.J_symm hq) h),
    fun h d hd => (C56_necessary body hs q h 0 le_rfl (by rw [zero_smul, sub_zero]; exact h.psd) d hd).1⟩

/-- C87: for rigid bodies the relaxation of high order only admits parameters close to realizable ones. -/
theorem C87_body_close (body : RigidBody ℝ) (hs : ∀ s ∈ body.shapes, s.Usable)
    (hb : ∀ P, .poly P ∈ body.shapes → Spec.Bounded (Spec.halfspaces P.faceForm.faces)) (eps : ℝ) (heps : 0 ≤ eps)
    (δ : ℝ) (hδ : 0 < δ) :
    ∃ d₀ : ℕ, 1 ≤ d₀ ∧ ∀ d, d₀ ≤ d → ∀ q : IP ℝ, q.Hᵀ = q.H → Py.Holds (body.momentSdpConstraints (.mat q.J) eps d) →
      ∃ q' : IP ℝ, Spec.Realizable (Spec.bodyRegion body.shapes) q'.mass q'.h q'.H ∧ q'.mass = q.mass ∧
        (∀ i, |q.h i - q'.h i| ≤ δ * q.mass) ∧ ∀ i j, |q.H i j - q'.H i j| ≤ δ * q.mass :=
  (body_converges body hs hb eps heps).close δ hδ

/-- C87: for rigid bodies the minimum of a linear objective over the relaxations converges to the minimum over
realizable parameters. -/
theorem C87_body_objective (body : RigidBody ℝ) (hs : ∀ s ∈ body.shapes, s.Usable)
    (hb : ∀ P, .poly P ∈ body.shapes → Spec.Bounded (Spec.halfspaces P.faceForm.faces)) (D : Matrix (Fin 4) (Fin 4) ℝ)
    (β : ℝ) (hβ : ∀ q : IP ℝ, Spec.Realizable (Spec.bodyRegion body.shapes) q.mass q.h q.H → q.mass = 1 →
      β ≤ (D * q.J).trace)
    (eps : ℝ) (heps : 0 ≤ eps) (δ : ℝ) (hδ : 0 < δ) :
    ∃ d₀ : ℕ, 1 ≤ d₀ ∧ ∀ d, d₀ ≤ d → ∀ q : IP ℝ, q.Hᵀ = q.H → Py.Holds (body.momentSdpConstraints (.mat q.J) eps d) →
      (β - δ) * q.mass ≤ (D * q.J).trace :=
  (body_converges body hs hb eps heps).objective' D β hβ δ hδ

/-- A body made of a box and a cylinder meets the hypotheses. -/
example : ∀ s ∈ (⟨[.box ⟨![1, 2, 3], 1, 0⟩, .cylinder ⟨4, 1, 1, ![5, 0, 0]⟩], ⟨1, 0, 1⟩⟩ : RigidBody ℝ).shapes, s.Usable := by
  simp only [List.mem_cons, List.not_mem_nil, or_false, forall_eq_or_imp, forall_eq]
  exact ⟨Spec.Orthogonal.one, Spec.Orthogonal.one⟩

/-- A flat triangle given by five half spaces is a bounded polyhedron. -/
example : Spec.Bounded (Spec.halfspaces ([(![-1, 0, 0], 0), (![0, -1, 0], 0), (![1, 1, 0], 1), (![0, 0, 1], 0),
    (![0, 0, -1], 0)] : List ((Fin 3 → ℝ) × ℝ))) := by
  refine ⟨1, fun x hx i => ?_⟩
  simp only [Spec.halfspaces, Set.mem_ofPred_eq, List.mem_cons, List.not_mem_nil, or_false, forall_eq_or_imp, forall_eq,
    dotProduct, Fin.sum_univ_three, Matrix.cons_val_zero, Matrix.cons_val_one, Matrix.cons_val] at hx
  obtain ⟨h1, h2, h3, h4, h5⟩ := hx
  rw [abs_le]
  fin_cases i <;> constructor <;> simp <;> linarith

end Rigeo
