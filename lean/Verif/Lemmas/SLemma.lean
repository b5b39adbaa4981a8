import Verif.Lemmas.Realize

/-!
# The S-lemma

If one quadratic form is non-positive wherever another one is, and the other one is negative somewhere, then
the first is bounded by a non-negative multiple of the second (Yakubovich). The ellipsoid programs of the
library rest on it: their multipliers `t` exist exactly when the containment they stand for holds.
-/

namespace Rigeo

open Matrix

variable {n : ℕ}

/-- A direction in which `G` is positive and one in which it is negative bound the ratio of the forms from both
sides. -/
theorem slemma_pair (F G : Matrix (Fin n) (Fin n) ℝ)
    (h : ∀ u, u ⬝ᵥ (G *ᵥ u) ≤ 0 → u ⬝ᵥ (F *ᵥ u) ≤ 0) (u v : Fin n → ℝ)
    (hu : 0 < u ⬝ᵥ (G *ᵥ u)) (hv : v ⬝ᵥ (G *ᵥ v) < 0) :
    (u ⬝ᵥ (G *ᵥ u)) * (v ⬝ᵥ (F *ᵥ v)) + -(v ⬝ᵥ (G *ᵥ v)) * (u ⬝ᵥ (F *ᵥ u)) ≤ 0 := by
  set p := u ⬝ᵥ (G *ᵥ u) with hp
  set m := v ⬝ᵥ (G *ᵥ v) with hm
  have hsc : ∀ (Q : Matrix (Fin n) (Fin n) ℝ) (c : ℝ) (w : Fin n → ℝ),
      (c • w) ⬝ᵥ (Q *ᵥ (c • w)) = c ^ 2 * (w ⬝ᵥ (Q *ᵥ w)) := by
    intro Q c w
    rw [mulVec_smul, smul_dotProduct, dotProduct_smul, smul_eq_mul, smul_eq_mul]; ring
  have s1 : Real.sqrt p ^ 2 = p := Real.sq_sqrt hu.le
  have s2 : Real.sqrt (-m) ^ 2 = -m := Real.sq_sqrt (by linarith)
  have ha : (Real.sqrt p • v) ⬝ᵥ (G *ᵥ (Real.sqrt p • v)) = p * m := by rw [hsc, s1]
  have hb : (Real.sqrt (-m) • u) ⬝ᵥ (G *ᵥ (Real.sqrt (-m) • u)) = -m * p := by rw [hsc, s2]
  obtain ⟨s, t, -, h0, hout⟩ := rotate_pair G (Real.sqrt p • v) (Real.sqrt (-m) • u)
    (by rw [ha]; nlinarith) (by rw [hb]; nlinarith)
  have key : ∀ Q : Matrix (Fin n) (Fin n) ℝ, ∀ a b c d : Fin n → ℝ, outer a a + outer b b = outer c c + outer d d →
      a ⬝ᵥ (Q *ᵥ a) + b ⬝ᵥ (Q *ᵥ b) = c ⬝ᵥ (Q *ᵥ c) + d ⬝ᵥ (Q *ᵥ d) := by
    intro Q a b c d hh
    rw [← trace_mul_outer, ← trace_mul_outer, ← trace_mul_outer, ← trace_mul_outer, ← Matrix.trace_add, ← Matrix.trace_add,
      ← Matrix.mul_add, ← Matrix.mul_add, hh]
  have k1 := key G _ _ _ _ hout
  have k2 := key F _ _ _ _ hout
  rw [ha, hb, h0] at k1
  have f1 := h _ h0.le
  have f2 := h _ (show _ ≤ (0 : ℝ) by linarith)
  rw [hsc F, hsc F, s1, s2] at k2
  linarith

/-- The S-lemma for quadratic forms. -/
theorem slemma (F G : Matrix (Fin n) (Fin n) ℝ)
    (h : ∀ u, u ⬝ᵥ (G *ᵥ u) ≤ 0 → u ⬝ᵥ (F *ᵥ u) ≤ 0) (hG : ∃ v, v ⬝ᵥ (G *ᵥ v) < 0) :
    ∃ t : ℝ, 0 ≤ t ∧ ∀ u, u ⬝ᵥ (F *ᵥ u) ≤ t * (u ⬝ᵥ (G *ᵥ u)) := by
  set T : Set ℝ := {r | ∃ u : Fin n → ℝ, 0 < u ⬝ᵥ (G *ᵥ u) ∧ r = u ⬝ᵥ (F *ᵥ u) / u ⬝ᵥ (G *ᵥ u)} with hT
  have hle : ∀ v : Fin n → ℝ, v ⬝ᵥ (G *ᵥ v) < 0 → ∀ r ∈ T, r ≤ v ⬝ᵥ (F *ᵥ v) / v ⬝ᵥ (G *ᵥ v) := by
    rintro v hv r ⟨u, hu, rfl⟩
    have hp := slemma_pair F G h u v hu hv
    rw [← neg_div_neg_eq (v ⬝ᵥ (F *ᵥ v)), div_le_div_iff₀ hu (by linarith)]
    linarith
  obtain ⟨v₀, hv₀⟩ := hG
  have hbdd : BddAbove T := ⟨_, hle v₀ hv₀⟩
  refine ⟨max 0 (sSup T), le_max_left _ _, fun u => ?_⟩
  rcases lt_trichotomy (u ⬝ᵥ (G *ᵥ u)) 0 with hu | hu | hu
  · have hF := h u hu.le
    have h1 : max 0 (sSup T) ≤ u ⬝ᵥ (F *ᵥ u) / u ⬝ᵥ (G *ᵥ u) :=
      max_le (div_nonneg_of_nonpos hF hu.le) (Real.sSup_le (hle u hu) (div_nonneg_of_nonpos hF hu.le))
    rwa [le_div_iff_of_neg hu] at h1
  · rw [hu, mul_zero]; exact h u hu.le
  · have h1 : u ⬝ᵥ (F *ᵥ u) / u ⬝ᵥ (G *ᵥ u) ≤ max 0 (sSup T) := le_trans (le_csSup hbdd ⟨u, hu, rfl⟩) (le_max_right _ _)
    rwa [div_le_iff₀ hu] at h1

/-- The S-lemma for two quadratic inequalities in `x`, the second of which describes a bounded set with interior:
containment of the solution sets is the same as the existence of a multiplier. -/
theorem slemma_affine (S P : Matrix (Fin n) (Fin n) ℝ) (d q : Fin n → ℝ) (e c : ℝ)
    (hP : ∀ x, x ⬝ᵥ (P *ᵥ x) ≤ 0 → x = 0) (hslater : ∃ x, x ⬝ᵥ (P *ᵥ x) + 2 * (q ⬝ᵥ x) + c < 0) :
    (∀ x, x ⬝ᵥ (P *ᵥ x) + 2 * (q ⬝ᵥ x) + c ≤ 0 → x ⬝ᵥ (S *ᵥ x) + 2 * (d ⬝ᵥ x) + e ≤ 0) ↔
      ∃ t : ℝ, 0 ≤ t ∧ ∀ (x : Fin n → ℝ) (s : ℝ), x ⬝ᵥ (S *ᵥ x) + 2 * s * (d ⬝ᵥ x) + e * s ^ 2 ≤
        t * (x ⬝ᵥ (P *ᵥ x) + 2 * s * (q ⬝ᵥ x) + c * s ^ 2) := by
  constructor
  · intro h
    obtain ⟨t, ht, hh⟩ := slemma (bordered S d d e) (bordered P q q c) (fun u hu => by
        obtain ⟨x, s, rfl⟩ : ∃ x s, u = Fin.snoc (α := fun _ => ℝ) x s := ⟨_, _, (Fin.snoc_init_self u).symm⟩
        rw [bordered_quad] at hu ⊢
        by_cases hs : s = 0
        · subst hs
          have hx : x = 0 := hP x (by linarith)
          simp [hx]
        · have sc : ∀ (A : Matrix (Fin n) (Fin n) ℝ) (b : Fin n → ℝ) (f : ℝ),
              x ⬝ᵥ (A *ᵥ x) + 2 * s * (b ⬝ᵥ x) + f * s ^ 2 =
                s ^ 2 * ((s⁻¹ • x) ⬝ᵥ (A *ᵥ (s⁻¹ • x)) + 2 * (b ⬝ᵥ (s⁻¹ • x)) + f) := by
            intro A b f
            rw [mulVec_smul, smul_dotProduct, dotProduct_smul, dotProduct_smul]
            simp only [smul_eq_mul]
            field_simp
          have hs2 : 0 < s ^ 2 := by positivity
          rw [sc] at hu ⊢
          exact mul_nonpos_of_nonneg_of_nonpos hs2.le (h _ (nonpos_of_mul_nonpos_right hu hs2)))
      (by
        obtain ⟨x, hx⟩ := hslater
        refine ⟨Fin.snoc (α := fun _ => ℝ) x 1, ?_⟩
        rw [bordered_quad]
        linarith)
    refine ⟨t, ht, fun x s => ?_⟩
    have := hh (Fin.snoc (α := fun _ => ℝ) x s)
    rwa [bordered_quad, bordered_quad] at this
  · rintro ⟨t, ht, h⟩ x hx
    have := h x 1
    nlinarith [mul_nonneg ht (neg_nonneg.mpr hx)]

end Rigeo
