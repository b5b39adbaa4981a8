import Verif.Props.Convergence

/-!
# Extents of the moment relaxations (C101)

From order two on the relaxation of a body bounds the first and second moments in every direction by the extent of the
body in that direction, and these bounds are the best possible: maximising a directional second moment over
`moment_sdp_constraints` gives the exact maximum. At order one the second moments are not bounded at all.
-/

namespace Rigeo

open Matrix MvPolynomial Putinar

/-- The affine function with coefficients `w`, the constant last, is non-negative on `S`. -/
def AffNonneg (S : Set (Fin 3 → ℝ)) (w : Fin 4 → ℝ) : Prop := ∀ x ∈ S, 0 ≤ w ⬝ᵥ IP.hom x

/-- The constant function one. -/
def affOne : Fin 4 → ℝ := Pi.single (Fin.last 3) 1

/-- Moments that behave like those of a mass distribution in `S` as far as first moments (from order one) and products
of the two functions of a slab (from order two) are concerned. -/
def SlabBound (d : ℕ) (S : Set (Fin 3 → ℝ)) (J : Matrix (Fin 4) (Fin 4) ℝ) : Prop :=
  (∀ w, AffNonneg S w → 0 ≤ w ⬝ᵥ J *ᵥ affOne) ∧
  (2 ≤ d → ∀ v w (c : ℝ), 0 ≤ c → v + w = c • affOne → AffNonneg S v → AffNonneg S w → 0 ≤ v ⬝ᵥ J *ᵥ w)

theorem AffNonneg.mono {S T : Set (Fin 3 → ℝ)} (h : S ⊆ T) {w : Fin 4 → ℝ} (hw : AffNonneg T w) : AffNonneg S w :=
  fun x hx => hw x (h hx)

theorem SlabBound.mono {d : ℕ} {S T : Set (Fin 3 → ℝ)} (h : S ⊆ T) {J : Matrix (Fin 4) (Fin 4) ℝ} (hJ : SlabBound d S J) :
    SlabBound d T J :=
  ⟨fun w hw => hJ.1 w (hw.mono h), fun hd v w c hc e hv hw => hJ.2 hd v w c hc e (hv.mono h) (hw.mono h)⟩

theorem SlabBound.zero (d : ℕ) (S : Set (Fin 3 → ℝ)) : SlabBound d S 0 :=
  ⟨fun w _ => by simp, fun _ v w c _ _ _ _ => by simp⟩

theorem SlabBound.add {d : ℕ} {S : Set (Fin 3 → ℝ)} {J J' : Matrix (Fin 4) (Fin 4) ℝ} (h : SlabBound d S J)
    (h' : SlabBound d S J') : SlabBound d S (J + J') := by
  refine ⟨fun w hw => ?_, fun hd v w c hc e hv hw => ?_⟩
  · rw [add_mulVec, dotProduct_add]; exact add_nonneg (h.1 w hw) (h'.1 w hw)
  · rw [add_mulVec, dotProduct_add]; exact add_nonneg (h.2 hd v w c hc e hv hw) (h'.2 hd v w c hc e hv hw)

theorem dot_outer (a : ℝ) (p v w : Fin 4 → ℝ) : v ⬝ᵥ (a • outer p p) *ᵥ w = a * ((v ⬝ᵥ p) * (w ⬝ᵥ p)) := by
  have : outer p p *ᵥ w = (w ⬝ᵥ p) • p := by
    ext i
    simp only [outer, mulVec, dotProduct, vecMulVec_apply, Matrix.of_apply, Pi.smul_apply, smul_eq_mul, Finset.sum_mul]
    exact Finset.sum_congr rfl fun j _ => by ring
  rw [smul_mulVec, this, dotProduct_smul, dotProduct_smul, smul_eq_mul, smul_eq_mul]
  ring

theorem lin_affOne : lin affOne = (1 : MvPolynomial (Fin 3) ℝ) := lin_single

theorem totalDegree_lin_add_C (w : Fin 4 → ℝ) (t : ℝ) : (lin w + C t).totalDegree ≤ 1 :=
  (totalDegree_add _ _).trans (max_le (lin_degree w) (by rw [totalDegree_C]; omega))

/-! ### Pseudo-moments -/

section Pseudo

variable {d : ℕ} {S : Set (Fin 3 → ℝ)} {J : Matrix (Fin 4) (Fin 4) ℝ} {y : (Fin 3 → ℕ) → ℝ}

/-- Pseudo-moments that are non-negative on the products of functions that are non-negative on the set and squares. -/
theorem slab_of_local (hd : 1 ≤ d) (hJ : Jᵀ = J) (e1 : y 0 = J 3 3) (e2 : ∀ i : Fin 3, y (Pi.single i 1) = J i.castSucc 3)
    (e3 : ∀ i j : Fin 3, y (Pi.single i 1 + Pi.single j 1) = J i.castSucc j.castSucc)
    (hp : Spec.LocalizedPSD d [(0, 1)] y)
    (h : ∀ w, AffNonneg S w → ∀ q : MvPolynomial (Fin 3) ℝ, q.totalDegree ≤ d - 1 → 0 ≤ pairing y (lin w * q ^ 2)) :
    SlabBound d S J := by
  have hone : ∀ q : MvPolynomial (Fin 3) ℝ, q.totalDegree ≤ d → 0 ≤ pairing y (q ^ 2) := fun q hq => by
    have := LocalizedPSD.pairing_nonneg hp q hq
    rwa [ofTerms_one, one_mul] at this
  refine ⟨fun w hw => ?_, fun hd2 v w c hc e hv hw => ?_⟩
  · have := h w hw 1 (by rw [totalDegree_one]; omega)
    rw [one_pow, ← lin_affOne, pairing_lin_mul hJ e1 e2 e3] at this
    exact this
  · have hpos : ∀ (v w : Fin 4 → ℝ) (c : ℝ), 0 < c → v + w = c • affOne →
        (∀ q : MvPolynomial (Fin 3) ℝ, q.totalDegree ≤ d - 1 → 0 ≤ pairing y (lin v * q ^ 2)) →
        (∀ q : MvPolynomial (Fin 3) ℝ, q.totalDegree ≤ d - 1 → 0 ≤ pairing y (lin w * q ^ 2)) →
        0 ≤ v ⬝ᵥ J *ᵥ w := by
      intro v w c hc e hv hw
      have a := hv (lin w) ((lin_degree w).trans (by omega))
      have b := hw (lin v) ((lin_degree v).trans (by omega))
      have el : lin v + lin w = (C c : MvPolynomial (Fin 3) ℝ) := by
        rw [← lin_add, e, lin_smul, lin_affOne, mul_one]
      have e' : lin v * lin w ^ 2 + lin w * lin v ^ 2 = C c * (lin v * lin w) := by rw [← el]; ring
      have := add_nonneg a b
      rw [← map_add, e', pairing_C_mul, pairing_lin_mul hJ e1 e2 e3] at this
      exact (mul_nonneg_iff_of_pos_left hc).mp this
    rcases hc.eq_or_lt with rfl | hc
    · have hε : ∀ ε : ℝ, 0 < ε → 0 ≤ v ⬝ᵥ J *ᵥ w + ε ^ 2 * J 3 3 := by
        intro ε hε
        have hsh : ∀ w, AffNonneg S w → ∀ q : MvPolynomial (Fin 3) ℝ, q.totalDegree ≤ d - 1 →
            0 ≤ pairing y (lin (w + ε • affOne) * q ^ 2) := by
          intro w hw q hq
          rw [lin_add, lin_smul, lin_affOne, mul_one, add_mul, map_add, pairing_C_mul]
          exact add_nonneg (h w hw q hq) (mul_nonneg hε.le (hone q (by omega)))
        have := hpos (v + ε • affOne) (w + ε • affOne) (2 * ε) (by linarith) (by
          rw [add_add_add_comm, e, zero_smul, zero_add, ← add_smul, two_mul]) (hsh v hv) (hsh w hw)
        have hw' : w = -v := by rw [zero_smul] at e; exact (neg_eq_of_add_eq_zero_right e).symm
        have hs : v ⬝ᵥ J *ᵥ affOne = affOne ⬝ᵥ J *ᵥ v := by
          rw [dotProduct_mulVec, ← mulVec_transpose, hJ, dotProduct_comm]
        have h33 : affOne ⬝ᵥ J *ᵥ affOne = J 3 3 := by
          simp [affOne]
        rw [hw'] at this ⊢
        simp only [add_dotProduct, mulVec_add, dotProduct_add, mulVec_smul, mulVec_neg, dotProduct_neg, smul_dotProduct,
          dotProduct_smul, smul_eq_mul, hs, h33] at this ⊢
        nlinarith
      by_contra hneg
      push Not at hneg
      rcases le_or_gt (J 3 3) 0 with hm | hm
      · have := hε 1 one_pos
        linarith
      · have hpos : 0 < Real.sqrt (-(v ⬝ᵥ J *ᵥ w) / (2 * J 3 3)) := Real.sqrt_pos.mpr (div_pos (by linarith) (by linarith))
        have := hε _ hpos
        rw [Real.sq_sqrt (div_nonneg (by linarith) (by linarith))] at this
        have e4 : -(v ⬝ᵥ J *ᵥ w) / (2 * J 3 3) * J 3 3 = -(v ⬝ᵥ J *ᵥ w) / 2 := by field_simp
        rw [e4] at this
        linarith
    · exact hpos v w c hc e (h v hv) (h w hw)

/-- Pseudo-moments without mass. -/
theorem slab_of_null (hd : 1 ≤ d) (hJ : Jᵀ = J) (e1 : y 0 = J 3 3) (e2 : ∀ i : Fin 3, y (Pi.single i 1) = J i.castSucc 3)
    (e3 : ∀ i j : Fin 3, y (Pi.single i 1 + Pi.single j 1) = J i.castSucc j.castSucc)
    (hp : Spec.LocalizedPSD d [(0, 1)] y)
    (h : ∀ q : MvPolynomial (Fin 3) ℝ, q.totalDegree ≤ d - 1 → pairing y (q ^ 2) ≤ 0) : SlabBound d S J := by
  have hone : ∀ q : MvPolynomial (Fin 3) ℝ, q.totalDegree ≤ d → 0 ≤ pairing y (q ^ 2) := fun q hq => by
    have := LocalizedPSD.pairing_nonneg hp q hq
    rwa [ofTerms_one, one_mul] at this
  have hquad : ∀ v : Fin 4 → ℝ, 0 ≤ v ⬝ᵥ J *ᵥ v := fun v => by
    have := hone (lin v) ((lin_degree v).trans hd)
    rwa [sq, pairing_lin_mul hJ e1 e2 e3] at this
  have hm : affOne ⬝ᵥ J *ᵥ affOne = 0 := by
    have := h 1 (by rw [totalDegree_one]; omega)
    rw [sq, ← lin_affOne, pairing_lin_mul hJ e1 e2 e3] at this
    exact le_antisymm this (hquad _)
  have hs : ∀ v w : Fin 4 → ℝ, v ⬝ᵥ J *ᵥ w = w ⬝ᵥ J *ᵥ v := fun v w => by
    rw [dotProduct_mulVec, ← mulVec_transpose, hJ, dotProduct_comm]
  have hw : ∀ w : Fin 4 → ℝ, w ⬝ᵥ J *ᵥ affOne = 0 := by
    intro w
    by_contra hne
    have := hquad (w + (-(w ⬝ᵥ J *ᵥ w + 1) / (2 * (w ⬝ᵥ J *ᵥ affOne))) • affOne)
    simp only [add_dotProduct, mulVec_add, dotProduct_add, mulVec_smul, smul_dotProduct, dotProduct_smul, smul_eq_mul, hm,
      hs affOne w, mul_zero, add_zero] at this
    have e4 : -(w ⬝ᵥ J *ᵥ w + 1) / (2 * (w ⬝ᵥ J *ᵥ affOne)) * (w ⬝ᵥ J *ᵥ affOne) = -(w ⬝ᵥ J *ᵥ w + 1) / 2 := by
      field_simp
    rw [e4] at this
    linarith
  refine ⟨fun w _ => (hw w).ge, fun hd2 v w c _ e _ _ => ?_⟩
  have hww : w ⬝ᵥ J *ᵥ w = 0 := by
    have := h (lin w) ((lin_degree w).trans (by omega))
    rw [sq, pairing_lin_mul hJ e1 e2 e3] at this
    exact le_antisymm this (hquad _)
  rw [show v = c • affOne - w from eq_sub_of_add_eq e, sub_dotProduct, smul_dotProduct, hs affOne w, hw, hww, smul_zero, sub_zero]

end Pseudo

/-! ### Polyhedra -/

theorem aff_dual {fs : List ((Fin 3 → ℝ) × ℝ)} {a : Fin 4 → ℝ}
    (ha : ∀ g ∈ (affOne :: fs.map fun f => Fin.snoc (α := fun _ => ℝ) (-f.1) f.2 : List (Fin 4 → ℝ)), 0 ≤ a ⬝ᵥ g) :
    0 ≤ a (Fin.last 3) ∧ ∀ f ∈ fs, f.1 ⬝ᵥ (fun i : Fin 3 => a i.castSucc) ≤ f.2 * a (Fin.last 3) := by
  refine ⟨by simpa [affOne] using ha _ List.mem_cons_self, fun f hf => ?_⟩
  have := ha _ (List.mem_cons_of_mem _ (List.mem_map.mpr ⟨f, hf, rfl⟩))
  rw [dotProduct, Fin.sum_univ_castSucc] at this
  simp only [Fin.snoc_castSucc, Fin.snoc_last, Pi.neg_apply, mul_neg, Finset.sum_neg_distrib] at this
  rw [dotProduct]
  simp only [mul_comm (f.1 _)]
  linarith

theorem aff_scaled {fs : List ((Fin 3 → ℝ) × ℝ)} {a : Fin 4 → ℝ} (ha : 0 < a (Fin.last 3))
    (h : ∀ f ∈ fs, f.1 ⬝ᵥ (fun i : Fin 3 => a i.castSucc) ≤ f.2 * a (Fin.last 3)) :
    (a (Fin.last 3))⁻¹ • (fun i : Fin 3 => a i.castSucc) ∈ Spec.halfspaces fs := by
  intro f hf
  rw [dotProduct_smul, smul_eq_mul, inv_mul_le_iff₀ ha, mul_comm]
  exact h f hf

theorem dot_hom (w : Fin 4 → ℝ) (x : Fin 3 → ℝ) :
    w ⬝ᵥ IP.hom x = (∑ i : Fin 3, w i.castSucc * x i) + w (Fin.last 3) := by
  rw [dotProduct, Fin.sum_univ_castSucc]
  simp only [IP.hom, Fin.snoc_castSucc, Fin.snoc_last, mul_one]

/-- The affine form of Farkas' lemma: an affine function that is non-negative on a polyhedron that is not empty is a
non-negative combination of its rows and a constant. -/
theorem affine_farkas (fs : List ((Fin 3 → ℝ) × ℝ)) {x₀ : Fin 3 → ℝ} (hx₀ : x₀ ∈ Spec.halfspaces fs) {w : Fin 4 → ℝ}
    (hw : AffNonneg (Spec.halfspaces fs) w) :
    w ∈ Spec.coneHull (affOne :: fs.map fun f => Fin.snoc (α := fun _ => ℝ) (-f.1) f.2) := by
  refine farkas _ _ fun a ha => ?_
  obtain ⟨h0, h1⟩ := aff_dual ha
  have hdot : a ⬝ᵥ w = (∑ i : Fin 3, w i.castSucc * a i.castSucc) + w (Fin.last 3) * a (Fin.last 3) := by
    rw [dotProduct, Fin.sum_univ_castSucc]
    simp only [mul_comm]
  rcases h0.eq_or_lt with h0 | h0
  · have hray : ∀ s : ℝ, 0 ≤ s → 0 ≤ w ⬝ᵥ IP.hom x₀ + s * (a ⬝ᵥ w) := by
      intro s hs
      have := hw (x₀ + s • fun i : Fin 3 => a i.castSucc) (fun f hf => by
        rw [dotProduct_add, dotProduct_smul, smul_eq_mul]
        have e1 := hx₀ f hf
        have e2 := h1 f hf
        rw [← h0, mul_zero] at e2
        nlinarith [mul_nonneg hs (neg_nonneg.mpr e2)])
      rw [dot_hom] at this
      rw [dot_hom, hdot, ← h0, mul_zero, add_zero]
      simp only [Pi.add_apply, Pi.smul_apply, smul_eq_mul, mul_add, Finset.sum_add_distrib] at this
      rw [Finset.mul_sum]
      have e : ∑ i : Fin 3, w i.castSucc * (s * a i.castSucc) = ∑ i : Fin 3, s * (w i.castSucc * a i.castSucc) :=
        Finset.sum_congr rfl fun i _ => by ring
      rw [e] at this
      linarith
    by_contra hneg
    push Not at hneg
    have h2 := hray 0 le_rfl
    rw [zero_mul, add_zero] at h2
    have h3 := hray ((w ⬝ᵥ IP.hom x₀ + 1) / -(a ⬝ᵥ w)) (div_nonneg (by linarith) (by linarith))
    have e : (w ⬝ᵥ IP.hom x₀ + 1) / -(a ⬝ᵥ w) * (a ⬝ᵥ w) = -(w ⬝ᵥ IP.hom x₀ + 1) := by
      have : a ⬝ᵥ w ≠ 0 := hneg.ne
      field_simp
    rw [e] at h3
    linarith
  · have := mul_nonneg h0.le (hw _ (aff_scaled h0 h1))
    rw [dot_hom, mul_add, Finset.mul_sum] at this
    rw [hdot]
    convert this using 2
    · refine Finset.sum_congr rfl fun i _ => ?_
      simp only [Pi.smul_apply, smul_eq_mul]
      field_simp
    · ring

theorem empty_farkas (fs : List ((Fin 3 → ℝ) × ℝ)) (he : Spec.halfspaces fs = ∅) :
    -affOne ∈ Spec.coneHull (affOne :: fs.map fun f => Fin.snoc (α := fun _ => ℝ) (-f.1) f.2) := by
  refine farkas _ _ fun a ha => ?_
  obtain ⟨h0, h1⟩ := aff_dual ha
  rcases h0.eq_or_lt with h0 | h0
  · rw [dotProduct_neg, affOne, dotProduct_single, ← h0, zero_mul, neg_zero]
  · exact absurd (aff_scaled h0 h1) (by rw [he]; exact Set.notMem_empty _)

theorem cone_local {d : ℕ} (hd : 1 ≤ d) {y : (Fin 3 → ℕ) → ℝ} (hp : Spec.LocalizedPSD d [(0, 1)] y)
    (fs : List ((Fin 3 → ℝ) × ℝ)) (hf : ∀ f ∈ fs, Spec.LocalizedPSD (d - 1) (Spec.affineTerms f.1 f.2) y) {w : Fin 4 → ℝ}
    (hw : w ∈ Spec.coneHull (affOne :: fs.map fun f => Fin.snoc (α := fun _ => ℝ) (-f.1) f.2))
    (q : MvPolynomial (Fin 3) ℝ) (hq : q.totalDegree ≤ d - 1) : 0 ≤ pairing y (lin w * q ^ 2) := by
  refine (coneHull_min (T := {v | 0 ≤ pairing y (lin v * q ^ 2)}) ?_ ?_ ?_ ?_ hw :)
  · show 0 ≤ pairing y (lin (0 : Fin 4 → ℝ) * q ^ 2)
    have : lin (0 : Fin 4 → ℝ) = 0 := by simp [lin]
    rw [this, zero_mul, map_zero]
  · intro a ha b hb
    show 0 ≤ pairing y (lin (a + b) * q ^ 2)
    rw [lin_add, add_mul, map_add]
    exact add_nonneg ha hb
  · intro c hc a ha
    show 0 ≤ pairing y (lin (c • a) * q ^ 2)
    rw [lin_smul, mul_assoc, pairing_C_mul]
    exact mul_nonneg hc ha
  · intro g hg
    rcases List.mem_cons.mp hg with rfl | hg
    · show 0 ≤ pairing y (lin _ * q ^ 2)
      rw [lin_affOne, ← ofTerms_one]
      exact LocalizedPSD.pairing_nonneg hp q (by omega)
    · obtain ⟨f, hfm, rfl⟩ := List.mem_map.mp hg
      show 0 ≤ pairing y (lin _ * q ^ 2)
      rw [← ofTerms_affine]
      exact LocalizedPSD.pairing_nonneg (hf f hfm) q hq

theorem feas_of_poly (P : Poly ℝ 3) (hP : ∀ f ∈ P.faceForm.faces, f ≠ (0, 0)) {eps : ℝ} (heps : 0 ≤ eps) {d : ℕ} (hd : 1 ≤ d)
    {J : Matrix (Fin 4) (Fin 4) ℝ} (hc : Py.Holds (P.momentSdpConstraints (.mat J) eps d)) :
    ∃ y : (Fin 3 → ℕ) → ℝ, y 0 = J 3 3 ∧ (∀ i : Fin 3, y (Pi.single i 1) = J i.castSucc 3) ∧
      (∀ i j : Fin 3, y (Pi.single i 1 + Pi.single j 1) = J i.castSucc j.castSucc) ∧
      Spec.LocalizedPSD d [(0, 1)] y ∧
      ∀ f ∈ P.faceForm.faces, Spec.LocalizedPSD (d - 1) (Spec.affineTerms f.1 f.2) y := by
  obtain ⟨a, ha, -⟩ := C19_mat J eps heps
  unfold Poly.momentSdpConstraints at hc
  rw [ha] at hc
  have hwf : ∀ p ∈ P.polys, p.WF ∧ ∃ D, p.degree = .ok D ∧ D ≤ 2 * d := by
    intro p hp
    obtain ⟨f, hf, rfl⟩ := List.mem_map.mp hp
    obtain ⟨D, hD, hD'⟩ := affine_degree f.1 f.2 (hP f hf)
    exact ⟨(C21_affine f.1 f.2 0).1, D, hD, by omega⟩
  obtain ⟨y, y0, y1, y2, y3, y4⟩ := (momentSdp_iff hd _ hwf _).mp hc
  refine ⟨y, y0, y1, y2, y3, fun f hf => ?_⟩
  obtain ⟨D, hD, hD'⟩ := affine_degree f.1 f.2 (hP f hf)
  have := y4 _ (List.mem_map.mpr ⟨f, hf, rfl⟩) D hD
  rw [affine_coefficients, LocalizedPSD_filter] at this
  exact LocalizedPSD_mono (by omega) this

theorem poly_slab (P : Poly ℝ 3) (hP : ∀ f ∈ P.faceForm.faces, f ≠ (0, 0)) {eps : ℝ} (heps : 0 ≤ eps) {d : ℕ} (hd : 1 ≤ d)
    {J : Matrix (Fin 4) (Fin 4) ℝ} (hJ : Jᵀ = J) (hc : Py.Holds (P.momentSdpConstraints (.mat J) eps d)) :
    SlabBound d (Spec.halfspaces P.faceForm.faces) J := by
  obtain ⟨y, e1, e2, e3, hp, hf⟩ := feas_of_poly P hP heps hd hc
  rcases (Spec.halfspaces P.faceForm.faces).eq_empty_or_nonempty with he | ⟨x₀, hx₀⟩
  · refine slab_of_null hd hJ e1 e2 e3 hp fun q hq => ?_
    have := cone_local hd hp _ hf (empty_farkas _ he) q hq
    rw [show (-affOne : Fin 4 → ℝ) = (-1 : ℝ) • affOne by simp, lin_smul, lin_affOne, mul_one, pairing_C_mul] at this
    linarith
  · exact slab_of_local hd hJ e1 e2 e3 hp fun w hw q hq => cone_local hd hp _ hf (affine_farkas _ hx₀ hw) q hq

/-! ### Cylinders -/

theorem lin_eq_three (w : Fin 4 → ℝ) :
    lin w = C (w 0) * X 0 + C (w 1) * X 1 + C (w 2) * X 2 + (C (w 3) : MvPolynomial (Fin 3) ℝ) := by
  rw [lin, Fin.sum_univ_three]; rfl

theorem nonneg_of_forall_pos {A P B : ℝ} (h : ∀ t, A < t → 0 ≤ t * P + B) : 0 ≤ A * P + B := by
  by_contra hneg
  push Not at hneg
  rcases le_or_gt P 0 with hP | hP
  · have := h (A + 1) (by linarith)
    nlinarith
  · have := h (A + -(A * P + B) / (2 * P)) (by have := div_pos (neg_pos.mpr hneg) (mul_pos two_pos hP); linarith)
    have e : -(A * P + B) / (2 * P) * P = -(A * P + B) / 2 := by field_simp
    rw [add_mul, e] at this
    linarith

/-- The least value of an affine function on the cylinder in its own frame. -/
theorem cyl_min {L r : ℝ} (hL : 0 ≤ L) {w : Fin 4 → ℝ} (hw : AffNonneg (Spec.cylinder L r 1 0) w) :
    0 ≤ w 3 - |w 2| * (L / 2) - |r| * Real.sqrt (w 0 ^ 2 + w 1 ^ 2) := by
  have val : ∀ x : Fin 3 → ℝ, w ⬝ᵥ IP.hom x = w 0 * x 0 + w 1 * x 1 + w 2 * x 2 + w 3 := fun x => by
    rw [dot_hom, Fin.sum_univ_three]; rfl
  have mem : ∀ a b z : ℝ, |z| ≤ L / 2 → a ^ 2 + b ^ 2 ≤ r ^ 2 → 0 ≤ w 0 * a + w 1 * b + w 2 * z + w 3 := by
    intro a b z hz hab
    have := hw ![a, b, z] ⟨![a, b, z], by simpa using hz, by simpa using hab, by simp [Spec.rigid]⟩
    rw [val] at this
    simpa using this
  obtain ⟨z, hz, hz'⟩ : ∃ z : ℝ, |z| ≤ L / 2 ∧ w 2 * z = -(|w 2| * (L / 2)) := by
    have h2 : 0 ≤ L / 2 := by linarith
    rcases le_total 0 (w 2) with h | h
    · exact ⟨-(L / 2), by rw [abs_neg, abs_of_nonneg h2], by rw [abs_of_nonneg h]; ring⟩
    · exact ⟨L / 2, by rw [abs_of_nonneg h2], by rw [abs_of_nonpos h]; ring⟩
  have hs2 : Real.sqrt (w 0 ^ 2 + w 1 ^ 2) ^ 2 = w 0 ^ 2 + w 1 ^ 2 := Real.sq_sqrt (by positivity)
  rcases (Real.sqrt_nonneg (w 0 ^ 2 + w 1 ^ 2)).eq_or_lt with h0 | h0
  · have := mem 0 0 z hz (by simpa using sq_nonneg r)
    rw [← h0]
    linarith
  · have := mem (-(|r| * w 0 / Real.sqrt (w 0 ^ 2 + w 1 ^ 2))) (-(|r| * w 1 / Real.sqrt (w 0 ^ 2 + w 1 ^ 2))) z hz (by
      rw [neg_sq, neg_sq, div_pow, div_pow, hs2, mul_pow, mul_pow, sq_abs, ← add_div, ← mul_add, mul_div_assoc, div_self, mul_one]
      rw [← hs2]; positivity)
    have e : w 0 * -(|r| * w 0 / Real.sqrt (w 0 ^ 2 + w 1 ^ 2)) + w 1 * -(|r| * w 1 / Real.sqrt (w 0 ^ 2 + w 1 ^ 2)) =
        -(|r| * (w 0 ^ 2 + w 1 ^ 2) / Real.sqrt (w 0 ^ 2 + w 1 ^ 2)) := by ring
    have e2 : |r| * (w 0 ^ 2 + w 1 ^ 2) / Real.sqrt (w 0 ^ 2 + w 1 ^ 2) = |r| * Real.sqrt (w 0 ^ 2 + w 1 ^ 2) := by
      rw [div_eq_iff h0.ne', mul_assoc, ← sq, hs2]
    rw [e, e2] at this
    linarith

theorem cyl_local {c : Cylinder ℝ} (hL : 0 ≤ c.length) {d : ℕ} (hd : 1 ≤ d) {y : (Fin 3 → ℕ) → ℝ}
    (hp : Spec.LocalizedPSD d [(0, 1)] y) (hf : ∀ g ∈ cylTerms c, Spec.LocalizedPSD (d - 1) g y) {w : Fin 4 → ℝ}
    (hw : AffNonneg (Spec.cylinder c.length c.radius 1 0) w) (q : MvPolynomial (Fin 3) ℝ) (hq : q.totalDegree ≤ d - 1) :
    0 ≤ pairing y (lin w * q ^ 2) := by
  have hone : ∀ q : MvPolynomial (Fin 3) ℝ, q.totalDegree ≤ d → 0 ≤ pairing y (q ^ 2) := fun q hq => by
    have := LocalizedPSD.pairing_nonneg hp q hq
    rwa [ofTerms_one, one_mul] at this
  have hset : ∀ p ∈ termSet (cylTerms c), 0 ≤ pairing y (p * q ^ 2) := by
    rintro p ⟨g, hg, rfl⟩
    exact LocalizedPSD.pairing_nonneg (hf g hg) q hq
  rw [cylTerms_eq] at hset
  have h1 := hset (X 2 + C ((1 / 2) * c.length)) (by simp)
  have h2 := hset (-X 2 + C ((1 / 2) * c.length)) (by simp)
  have h3 := hset (-X 0 ^ 2 - X 1 ^ 2 + C (c.radius ^ 2)) (by simp)
  set s := Real.sqrt (w 0 ^ 2 + w 1 ^ 2) with hs
  have hs2 : s ^ 2 = w 0 ^ 2 + w 1 ^ 2 := Real.sq_sqrt (by positivity)
  have hk := cyl_min hL hw
  rw [← hs] at hk
  have hq1 := hone q (by omega)
  have hdisk : 0 ≤ |c.radius| * s * pairing y (q ^ 2) + pairing y ((C (w 0) * X 0 + C (w 1) * X 1) * q ^ 2) := by
    refine nonneg_of_forall_pos fun t ht => ?_
    have ht0 : 0 < t := (mul_nonneg (abs_nonneg _) (Real.sqrt_nonneg _)).trans_lt ht
    have deg : ∀ a b e : ℝ, ((C a * X 0 + C b * X 1 + C e) * q).totalDegree ≤ d := by
      intro a b e
      have := totalDegree_mul (C a * X 0 + C b * X 1 + C e) q
      have h4 : (C a * X 0 + C b * X 1 + C e : MvPolynomial (Fin 3) ℝ).totalDegree ≤ 1 := by
        have := lin_degree (K := ℝ) ![a, b, 0, e]
        rw [lin_eq_three] at this
        simpa using this
      omega
    have g1 := hone _ (deg (w 0) (w 1) t)
    have g2 := hone _ (deg (w 1) (-w 0) 0)
    have e : (C t * q ^ 2 + (C (w 0) * X 0 + C (w 1) * X 1) * q ^ 2 : MvPolynomial (Fin 3) ℝ) * C (2 * t) =
        ((C (w 0) * X 0 + C (w 1) * X 1 + C t) * q) ^ 2 + C (t ^ 2 - s ^ 2 * c.radius ^ 2) * q ^ 2 +
          C (s ^ 2) * ((-X 0 ^ 2 - X 1 ^ 2 + C (c.radius ^ 2)) * q ^ 2) +
          ((C (w 1) * X 0 + C (-w 0) * X 1 + C 0) * q) ^ 2 := by
      rw [hs2]
      simp only [C_add, C_sub, C_mul, C_pow, C_neg, C_0, map_ofNat]
      ring
    have hr : 0 ≤ t ^ 2 - s ^ 2 * c.radius ^ 2 := by
      have := mul_self_le_mul_self (mul_nonneg (abs_nonneg c.radius) (Real.sqrt_nonneg _)) ht.le
      rw [← hs] at this
      nlinarith [sq_abs c.radius]
    have tot : 0 ≤ pairing y ((C t * q ^ 2 + (C (w 0) * X 0 + C (w 1) * X 1) * q ^ 2) * C (2 * t)) := by
      rw [e, map_add, map_add, map_add, pairing_C_mul, pairing_C_mul]
      have := mul_nonneg hr hq1
      have := mul_nonneg (sq_nonneg s) h3
      linarith
    rw [mul_comm, pairing_C_mul, map_add, pairing_C_mul] at tot
    exact (mul_nonneg_iff_of_pos_left (by linarith)).mp tot
  have hz : 0 ≤ |w 2| * (c.length / 2) * pairing y (q ^ 2) + w 2 * pairing y (X 2 * q ^ 2) := by
    rw [add_mul, map_add, pairing_C_mul] at h1 h2
    rw [neg_mul, map_neg] at h2
    rcases le_total 0 (w 2) with h | h
    · rw [abs_of_nonneg h]; nlinarith [mul_nonneg h h1]
    · rw [abs_of_nonpos h]; nlinarith [mul_nonneg (neg_nonneg.mpr h) h2]
  have e : lin w * q ^ 2 = (C (w 0) * X 0 + C (w 1) * X 1) * q ^ 2 + C (w 2) * (X 2 * q ^ 2) + C (w 3) * q ^ 2 := by
    rw [lin_eq_three]; ring
  rw [e, map_add, map_add, pairing_C_mul, pairing_C_mul]
  have := mul_nonneg hk hq1
  nlinarith

theorem feas_of_cylinder (c : Cylinder ℝ) {eps : ℝ} (heps : 0 ≤ eps) {d : ℕ} (hd : 1 ≤ d) {J J₀ : Matrix (Fin 4) (Fin 4) ℝ}
    (hJ₀ : J₀ = transformMatrixInv c.rotation c.center * J * (transformMatrixInv c.rotation c.center)ᵀ)
    (hc : Py.Holds (c.momentSdpConstraints (.mat J) eps d)) :
    ∃ y : (Fin 3 → ℕ) → ℝ, y 0 = J₀ 3 3 ∧ (∀ i : Fin 3, y (Pi.single i 1) = J₀ i.castSucc 3) ∧
      (∀ i j : Fin 3, y (Pi.single i 1 + Pi.single j 1) = J₀ i.castSucc j.castSucc) ∧
      Spec.LocalizedPSD d [(0, 1)] y ∧ ∀ g ∈ cylTerms c, Spec.LocalizedPSD (d - 1) g y := by
  subst hJ₀
  obtain ⟨a, ha, -⟩ := C19_mat J eps heps
  unfold Cylinder.momentSdpConstraints at hc
  rw [ha] at hc
  obtain ⟨y, y0, y1, y2, y3, y4⟩ := (momentSdp_iff hd _ (fun f hf => by
    obtain ⟨h1, D, h2, h3⟩ := poly0s_wf c f hf
    exact ⟨h1, D, h2, by omega⟩) _).mp hc
  refine ⟨y, y0, y1, y2, y3, ?_⟩
  have key : ∀ g, Polynomial.init g ∈ c.poly0s → (g.map Prod.fst).Nodup →
      Spec.LocalizedPSD (d - 1) g y := by
    intro g hg hn
    obtain ⟨-, D, h2, h3⟩ := poly0s_wf c _ hg
    have := y4 _ hg D h2
    rw [init_coefficients _ hn, LocalizedPSD_filter] at this
    exact LocalizedPSD_mono (by omega) this
  intro g hg
  simp only [cylTerms, List.mem_cons, List.not_mem_nil, or_false] at hg
  rcases hg with rfl | rfl | rfl
  · exact key _ (by simp [Cylinder.poly0s]) (by simp)
  · exact key _ (by simp [Cylinder.poly0s]) (by simp)
  · exact key _ (by simp [Cylinder.poly0s]) (by simp)

theorem transform_affOne (R : Matrix (Fin 3) (Fin 3) ℝ) (t : Fin 3 → ℝ) : (transformMatrix R t)ᵀ *ᵥ affOne = affOne := by
  funext k
  rw [affOne, mulVec_single_one, Matrix.col_apply, transpose_apply]
  refine Fin.lastCases ?_ (fun j => ?_) k
  · rw [transformMatrix, bordered_ll]; simp
  · rw [transformMatrix, bordered_lc, Pi.single_eq_of_ne (Fin.castSucc_ne_last j)]; rfl

theorem cylinder_slab (c : Cylinder ℝ) (hR : Spec.Orthogonal c.rotation) {eps : ℝ} (heps : 0 ≤ eps) {d : ℕ} (hd : 1 ≤ d)
    {J : Matrix (Fin 4) (Fin 4) ℝ} (hJ : Jᵀ = J) (hc : Py.Holds (c.momentSdpConstraints (.mat J) eps d)) :
    SlabBound d (Spec.cylinder c.length c.radius c.rotation c.center) J := by
  obtain ⟨y, e1, e2, e3, hp, hf⟩ := feas_of_cylinder c heps hd rfl hc
  set J₀ := transformMatrixInv c.rotation c.center * J * (transformMatrixInv c.rotation c.center)ᵀ with hJ₀
  have hJs : J₀ᵀ = J₀ := by rw [hJ₀, transpose_mul, transpose_mul, transpose_transpose, hJ, Matrix.mul_assoc]
  have hloc : SlabBound d (Spec.cylinder c.length c.radius 1 0) J₀ := by
    rcases le_or_gt 0 c.length with hL | hL
    · exact slab_of_local hd hJs e1 e2 e3 hp fun w hw q hq => cyl_local hL hd hp hf hw q hq
    · refine slab_of_null hd hJs e1 e2 e3 hp fun q hq => ?_
      have hset : ∀ p ∈ termSet (cylTerms c), 0 ≤ pairing y (p * q ^ 2) := by
        rintro p ⟨g, hg, rfl⟩
        exact LocalizedPSD.pairing_nonneg (hf g hg) q hq
      rw [cylTerms_eq] at hset
      have h1 := hset (X 2 + C ((1 / 2) * c.length)) (by simp)
      have h2 := hset (-X 2 + C ((1 / 2) * c.length)) (by simp)
      have := add_nonneg h1 h2
      rw [← map_add, ← add_mul, show (X 2 + C ((1 / 2) * c.length) + (-X 2 + C ((1 / 2) * c.length)) : MvPolynomial (Fin 3) ℝ) =
        C c.length by
          have e : C c.length = (C ((1 / 2) * c.length) + C ((1 / 2) * c.length) : MvPolynomial (Fin 3) ℝ) := by
            rw [← C_add]; congr 1; ring
          rw [e]; ring, pairing_C_mul] at this
      nlinarith
  obtain ⟨hi, hi'⟩ := C06_transformMatrixInv c.rotation c.center hR
  have hJe : J = transformMatrix c.rotation c.center * J₀ * (transformMatrix c.rotation c.center)ᵀ := by
    have : (transformMatrixInv c.rotation c.center)ᵀ * (transformMatrix c.rotation c.center)ᵀ = 1 := by
      rw [← transpose_mul, hi', transpose_one]
    rw [hJ₀]
    simp only [Matrix.mul_assoc]
    rw [this, Matrix.mul_one, ← Matrix.mul_assoc, hi', Matrix.one_mul]
  clear_value J₀
  have hdot : ∀ v w : Fin 4 → ℝ, v ⬝ᵥ J *ᵥ w =
      ((transformMatrix c.rotation c.center)ᵀ *ᵥ v) ⬝ᵥ J₀ *ᵥ ((transformMatrix c.rotation c.center)ᵀ *ᵥ w) := by
    intro v w
    rw [mulVec_transpose, ← dotProduct_mulVec, mulVec_mulVec, mulVec_mulVec, ← hJe]
  have hnn : ∀ w, AffNonneg (Spec.cylinder c.length c.radius c.rotation c.center) w →
      AffNonneg (Spec.cylinder c.length c.radius 1 0) ((transformMatrix c.rotation c.center)ᵀ *ᵥ w) := by
    rintro w hw x ⟨u, h1, h2, rfl⟩
    have := hw (Spec.rigid c.rotation c.center u) ⟨u, h1, h2, rfl⟩
    rw [mulVec_transpose, ← dotProduct_mulVec]
    have e : Spec.rigid (1 : Matrix (Fin 3) (Fin 3) ℝ) 0 u = u := by simp [Spec.rigid]
    rw [e]
    change 0 ≤ w ⬝ᵥ transformMatrix c.rotation c.center *ᵥ (Fin.snoc (α := fun _ => ℝ) u 1)
    rw [C06_transformMatrix_acts]
    exact this
  refine ⟨fun w hw => ?_, fun hd2 v w k hk e hv hw => ?_⟩
  · have := hloc.1 _ (hnn w hw)
    rw [hdot, transform_affOne]
    exact this
  · rw [hdot]
    exact hloc.2 hd2 _ _ k hk (by rw [← mulVec_add, e, mulVec_smul, transform_affOne]) (hnn v hv) (hnn w hw)

/-! ### Mass distributions -/

theorem dot_J {J : Matrix (Fin 4) (Fin 4) ℝ} (hJ : Jᵀ = J) (v w : Fin 4 → ℝ) :
    v ⬝ᵥ J *ᵥ w = (fun i : Fin 3 => v i.castSucc) ⬝ᵥ (Matrix.of fun i j : Fin 3 => J i.castSucc j.castSucc) *ᵥ (fun i => w i.castSucc) +
      v 3 * ((fun i : Fin 3 => w i.castSucc) ⬝ᵥ fun i => J i.castSucc 3) +
      w 3 * ((fun i : Fin 3 => v i.castSucc) ⬝ᵥ fun i => J i.castSucc 3) + v 3 * w 3 * J 3 3 := by
  have hs : ∀ i j, J i j = J j i := fun i j => congrFun (congrFun hJ j) i
  have h3 : ∀ i : Fin 3, J (3 : Fin 4) i.castSucc = J i.castSucc 3 := fun i => hs _ _
  simp only [dotProduct, mulVec, Fin.sum_univ_castSucc (n := 3), Matrix.of_apply]
  simp only [show (Fin.last 3 : Fin 4) = 3 from rfl, h3]
  simp only [Fin.sum_univ_three]
  ring

theorem RealJ.slab {S : Set (Fin 3 → ℝ)} {J : Matrix (Fin 4) (Fin 4) ℝ} (hJ : Jᵀ = J) (h : RealJ S J) (d : ℕ) :
    SlabBound d S J := by
  have key : ∀ v w : Fin 4 → ℝ, (∀ x ∈ S, 0 ≤ (v ⬝ᵥ IP.hom x) * (w ⬝ᵥ IP.hom x)) → 0 ≤ v ⬝ᵥ J *ᵥ w := by
    intro v w hvw
    rw [dot_J hJ]
    refine Spec.Realizable.induct (P := fun m f H => 0 ≤ (fun i : Fin 3 => v i.castSucc) ⬝ᵥ H *ᵥ (fun i => w i.castSucc) +
      v 3 * ((fun i : Fin 3 => w i.castSucc) ⬝ᵥ f) + w 3 * ((fun i : Fin 3 => v i.castSucc) ⬝ᵥ f) + v 3 * w 3 * m)
      (by simp) ?_ ?_ h
    · intro m f H m' f' H' h1 h2
      rw [add_mulVec, dotProduct_add, dotProduct_add, dotProduct_add]
      linarith
    · intro a p ha hp
      have := mul_nonneg ha (hvw p hp)
      rw [dot_hom, dot_hom] at this
      simp only [dotProduct, mulVec, outer, vecMulVec_apply, Matrix.smul_apply, Matrix.of_apply, Pi.smul_apply, smul_eq_mul,
        Fin.sum_univ_three] at this ⊢
      simp only [show (Fin.last 3 : Fin 4) = 3 from rfl] at this
      linarith
  have hone : ∀ x : Fin 3 → ℝ, affOne ⬝ᵥ IP.hom x = 1 := fun x => by
    rw [affOne, single_dotProduct, one_mul]; exact Fin.snoc_last (α := fun _ => ℝ) _ _
  exact ⟨fun w hw => key w affOne fun x hx => by rw [hone, mul_one]; exact hw x hx,
    fun _ v w c _ _ hv hw => key v w fun x hx => mul_nonneg (hv x hx) (hw x hx)⟩

/-! ### Shapes and bodies -/

theorem shape_slab {s : AnyShape ℝ} (hs : s.Usable) {eps : ℝ} (heps : 0 ≤ eps) {d : ℕ} (hd : 1 ≤ d)
    {J : Matrix (Fin 4) (Fin 4) ℝ} (hJ : Jᵀ = J) (hc : Py.Holds (s.momentConstraints (.mat J) eps d)) :
    SlabBound d (Spec.region s) J := by
  cases s with
  | ellipsoid e =>
    obtain ⟨c, hc, hcc⟩ := hc
    obtain ⟨c', hc', h'⟩ := C51_mat e hs.1 hs.2 J eps heps false
    change e.momentConstraints (.mat J) eps = .ok c at hc
    rw [hc] at hc'
    obtain rfl := Except.ok.inj hc'
    exact RealJ.slab hJ (h'.mp hcc).2 d
  | box b =>
    have := poly_slab b.toPoly (box_rows_ne b hs) heps hd hJ hc
    rwa [box_halfspaces b hs] at this
  | poly P => exact poly_slab P hs heps hd hJ hc
  | cylinder c => exact cylinder_slab c hs heps hd hJ hc
  | capsule c => exact hs.elim

theorem multi_slab (shapes : List (AnyShape ℝ)) (hs : ∀ s ∈ shapes, s.Usable) {d : ℕ} (hd : 1 ≤ d) (T : Set (Fin 3 → ℝ))
    (hT : ∀ s ∈ shapes, Spec.region s ⊆ T) (Js : List (Matrix (Fin 4) (Fin 4) ℝ)) (hl : Js.length = shapes.length)
    (hJs : ∀ J ∈ Js, Jᵀ = J) (hc : ∀ sJ ∈ shapes.zip Js, Py.Holds (sJ.1.momentConstraints (.mat sJ.2) 0 d)) :
    SlabBound d T Js.sum := by
  induction shapes generalizing Js with
  | nil =>
    rw [List.length_eq_zero_iff.mp hl]
    exact SlabBound.zero d T
  | cons s shapes ih =>
    match Js, hl with
    | J :: Js, hl =>
    rw [List.sum_cons]
    exact ((shape_slab (hs s (by simp)) le_rfl hd (hJs J (by simp)) (hc (s, J) (by simp))).mono (hT s (by simp))).add
      (ih (fun s h => hs s (by simp [h])) (fun s h => hT s (by simp [h])) Js (by simpa using hl)
        (fun J h => hJs J (by simp [h])) fun sJ hsJ => hc sJ (by simp [hsJ]))

theorem body_slab (body : RigidBody ℝ) (hs : ∀ s ∈ body.shapes, s.Usable) {eps : ℝ} (heps : 0 ≤ eps) {d : ℕ} (hd : 1 ≤ d)
    {J : Matrix (Fin 4) (Fin 4) ℝ} (hJ : Jᵀ = J) (hc : Py.Holds (body.momentSdpConstraints (.mat J) eps d)) :
    SlabBound d (Spec.bodyRegion body.shapes) J := by
  by_cases hlen : body.shapes.length = 1
  · obtain ⟨s, h1⟩ := List.length_eq_one_iff.mp hlen
    have hr : Spec.bodyRegion body.shapes = Spec.region s := by ext x; simp [Spec.bodyRegion, h1]
    rw [hr]
    unfold RigidBody.momentSdpConstraints at hc
    rw [h1] at hc
    exact shape_slab (hs s (by simp [h1])) heps hd hJ hc
  · obtain ⟨q, hq, hqq⟩ := hc
    obtain ⟨c, hc, -⟩ := C19_mat J eps heps
    obtain ⟨r, hr, hr'⟩ := multi_eq body hlen hs _ _ _ eps d hd hc
    rw [hq] at hr
    obtain rfl := Except.ok.inj hr
    obtain ⟨Js, j1, j2, j3, rfl⟩ := (hr'.mp hqq).1
    exact multi_slab _ hs hd (Spec.bodyRegion body.shapes) (fun s hsm x hx => ⟨s, hsm, hx⟩) Js j1 (fun J hJ => (j2 J hJ).1) j3

/-! ### The property -/

theorem affNonneg_upper {S : Set (Fin 3 → ℝ)} {u : Fin 3 → ℝ} {b : ℝ} (h : ∀ x ∈ S, u ⬝ᵥ x ≤ b) :
    AffNonneg S (Fin.snoc (α := fun _ => ℝ) (-u) b) := fun x hx => by
  rw [dot_hom]
  simp only [Fin.snoc_castSucc, Fin.snoc_last, Pi.neg_apply, neg_mul, Finset.sum_neg_distrib]
  have := h x hx
  rw [dotProduct] at this
  linarith

theorem affNonneg_lower {S : Set (Fin 3 → ℝ)} {u : Fin 3 → ℝ} {a : ℝ} (h : ∀ x ∈ S, a ≤ u ⬝ᵥ x) :
    AffNonneg S (Fin.snoc (α := fun _ => ℝ) u (-a)) := fun x hx => by
  rw [dot_hom]
  simp only [Fin.snoc_castSucc, Fin.snoc_last]
  have := h x hx
  rw [dotProduct] at this
  linarith

theorem IP.dot_J_eq (q : IP ℝ) (hq : q.Hᵀ = q.H) (u v : Fin 3 → ℝ) (a b : ℝ) :
    (Fin.snoc (α := fun _ => ℝ) u a : Fin 4 → ℝ) ⬝ᵥ q.J *ᵥ (Fin.snoc (α := fun _ => ℝ) v b) =
      u ⬝ᵥ q.H *ᵥ v + a * (v ⬝ᵥ q.h) + b * (u ⬝ᵥ q.h) + a * b * q.mass := by
  have h1 : q.J 3 3 = q.mass := bordered_ll _ _ _ _
  have h2 : (fun i : Fin 3 => q.J i.castSucc 3) = q.h := funext fun i => bordered_cl _ _ _ _ i
  have h3 : (Matrix.of fun i j : Fin 3 => q.J i.castSucc j.castSucc) = q.H := by ext i j; exact bordered_cc _ _ _ _ i j
  have e : ∀ (x : Fin 3 → ℝ) (c : ℝ), (Fin.snoc (α := fun _ => ℝ) x c : Fin 4 → ℝ) 3 = c :=
    fun x c => Fin.snoc_last (α := fun _ => ℝ) _ _
  rw [dot_J (q.J_symm hq), h1, h2, h3, e, e]
  simp only [Fin.snoc_castSucc]

theorem affOne_eq : affOne = (Fin.snoc (α := fun _ => ℝ) (0 : Fin 3 → ℝ) 1 : Fin 4 → ℝ) := by
  funext k
  refine Fin.lastCases ?_ (fun j => ?_) k
  · simp only [affOne, Fin.snoc_last, Pi.single_eq_same]
  · simp only [affOne, Fin.snoc_castSucc, Pi.single_eq_of_ne (Fin.castSucc_ne_last j), Pi.zero_apply]

/-- C101: at every order the first moment in any direction lies within the extent of the body in that direction. -/
theorem C101_first (body : RigidBody ℝ) (hs : ∀ s ∈ body.shapes, s.Usable) (eps : ℝ) (heps : 0 ≤ eps) (d : ℕ) (hd : 1 ≤ d)
    (q : IP ℝ) (hq : q.Hᵀ = q.H) (hc : Py.Holds (body.momentSdpConstraints (.mat q.J) eps d)) (u : Fin 3 → ℝ) (a b : ℝ)
    (ha : ∀ x ∈ Spec.bodyRegion body.shapes, a ≤ u ⬝ᵥ x) (hb : ∀ x ∈ Spec.bodyRegion body.shapes, u ⬝ᵥ x ≤ b) :
    a * q.mass ≤ u ⬝ᵥ q.h ∧ u ⬝ᵥ q.h ≤ b * q.mass := by
  have h := (body_slab body hs heps hd (q.J_symm hq) hc).1
  have h1 := h _ (affNonneg_lower ha)
  have h2 := h _ (affNonneg_upper hb)
  rw [affOne_eq, q.dot_J_eq hq] at h1 h2
  simp only [mulVec_zero, dotProduct_zero, zero_dotProduct, mul_zero, neg_dotProduct] at h1 h2
  constructor <;> linarith

/-- C101: from order two on the second moment in any direction is bounded by the extent of the body in that direction,
as for mass distributions inside the body. -/
theorem C101_second (body : RigidBody ℝ) (hs : ∀ s ∈ body.shapes, s.Usable) (eps : ℝ) (heps : 0 ≤ eps) (d : ℕ) (hd : 2 ≤ d)
    (q : IP ℝ) (hq : q.Hᵀ = q.H) (hc : Py.Holds (body.momentSdpConstraints (.mat q.J) eps d)) (u : Fin 3 → ℝ) (a b : ℝ)
    (hab : a ≤ b) (ha : ∀ x ∈ Spec.bodyRegion body.shapes, a ≤ u ⬝ᵥ x)
    (hb : ∀ x ∈ Spec.bodyRegion body.shapes, u ⬝ᵥ x ≤ b) :
    u ⬝ᵥ q.H *ᵥ u ≤ (a + b) * (u ⬝ᵥ q.h) - a * b * q.mass ∧ u ⬝ᵥ q.H *ᵥ u ≤ q.mass * max (a ^ 2) (b ^ 2) := by
  have hd1 : 1 ≤ d := by omega
  have h := (body_slab body hs heps hd1 (q.J_symm hq) hc).2 hd _ _ (b - a) (by linarith) (by
    rw [affOne_eq]
    funext k
    refine Fin.lastCases ?_ (fun j => ?_) k
    · simp only [Pi.add_apply, Pi.smul_apply, Fin.snoc_last, smul_eq_mul, mul_one]; ring
    · simp only [Pi.add_apply, Pi.smul_apply, Fin.snoc_castSucc, smul_eq_mul, Pi.zero_apply, mul_zero, Pi.neg_apply]
      ring) (affNonneg_upper hb) (affNonneg_lower ha)
  rw [q.dot_J_eq hq] at h
  simp only [neg_dotProduct] at h
  have h1 : u ⬝ᵥ q.H *ᵥ u ≤ (a + b) * (u ⬝ᵥ q.h) - a * b * q.mass := by linarith
  refine ⟨h1, h1.trans ?_⟩
  obtain ⟨l1, l2⟩ := C101_first body hs eps heps d hd1 q hq hc u a b ha hb
  have hm : 0 ≤ q.mass := by
    have := (C101_first body hs eps heps d hd1 q hq hc 0 (-1) 1 (fun x _ => by simp) (fun x _ => by simp)).2
    simpa using this
  rcases le_total 0 (a + b) with h0 | h0
  · calc (a + b) * (u ⬝ᵥ q.h) - a * b * q.mass ≤ q.mass * b ^ 2 := by nlinarith [mul_le_mul_of_nonneg_left l2 h0]
      _ ≤ _ := mul_le_mul_of_nonneg_left (le_max_right _ _) hm
  · calc (a + b) * (u ⬝ᵥ q.h) - a * b * q.mass ≤ q.mass * a ^ 2 := by
          nlinarith [mul_le_mul_of_nonneg_left l1 (neg_nonneg.mpr h0)]
      _ ≤ _ := mul_le_mul_of_nonneg_left (le_max_left _ _) hm

/-- The values of an objective over the parameters of mass at most `M` that the relaxation of order `d` accepts, given
as a matrix or as a vector variable. -/
def sdpValues (body : RigidBody ℝ) (var : IP ℝ → ParamVar ℝ) (d : ℕ) (M : ℝ) (f : IP ℝ → ℝ) : Set ℝ :=
  {t | ∃ q : IP ℝ, q.Hᵀ = q.H ∧ q.mass ≤ M ∧ Py.Holds (body.momentSdpConstraints (var q) 0 d) ∧ f q = t}

theorem sdpValues_vec (body : RigidBody ℝ) (d : ℕ) (M : ℝ) (f : IP ℝ → ℝ) :
    sdpValues body (fun q => .vec q.vec) d M f = sdpValues body (fun q => .mat q.J) d M f := by
  ext t
  constructor <;> rintro ⟨q, h1, h2, h3, h4⟩
  · exact ⟨q, h1, h2, by rwa [C19_body q h1] at h3, h4⟩
  · exact ⟨q, h1, h2, by rw [C19_body q h1]; exact h3, h4⟩

theorem point_accepted (body : RigidBody ℝ) (hs : ∀ s ∈ body.shapes, s.Usable) (d : ℕ) (hd : 1 ≤ d) {M : ℝ} (hM : 0 ≤ M)
    {x : Fin 3 → ℝ} (hx : x ∈ Spec.bodyRegion body.shapes) :
    ∃ q : IP ℝ, q.mass = M ∧ q.h = M • x ∧ q.H = M • outer x x ∧ q.Hᵀ = q.H ∧
      Py.Holds (body.momentSdpConstraints (.mat q.J) 0 d) := by
  have hr := Spec.Realizable.point hM hx
  obtain ⟨q, e1, e2, e3, e4⟩ := exists_ip hr
  refine ⟨q, e1, e2, e3, ?_, (C56_necessary body hs q (by rw [e1, e2, e3]; exact hr) 0 le_rfl (by
    rw [zero_smul, sub_zero, e4]; exact hr.psd) d hd).1⟩
  rw [e3]
  ext i j
  simp [outer, mul_comm]

/-- C101: maximising a first moment over the relaxation of any order, with the mass at most `M`, gives exactly `M`
times the extent of the body in that direction, or zero if the body lies on the other side of the origin. -/
theorem C101_first_greatest (body : RigidBody ℝ) (hs : ∀ s ∈ body.shapes, s.Usable) (d : ℕ) (hd : 1 ≤ d) (M : ℝ) (hM : 0 ≤ M)
    (u : Fin 3 → ℝ) (b : ℝ) (hb : IsGreatest ((fun x => u ⬝ᵥ x) '' Spec.bodyRegion body.shapes) b)
    (var : IP ℝ → ParamVar ℝ) (hvar : var = (fun q => .mat q.J) ∨ var = fun q => .vec q.vec) :
    IsGreatest (sdpValues body var d M fun q => u ⬝ᵥ q.h) (M * max 0 b) := by
  rw [show sdpValues body var d M (fun q => u ⬝ᵥ q.h) = sdpValues body (fun q => .mat q.J) d M fun q => u ⬝ᵥ q.h by
    rcases hvar with rfl | rfl
    · rfl
    · exact sdpValues_vec _ _ _ _]
  obtain ⟨⟨x, hx, rfl⟩, hub⟩ := hb
  have hub' : ∀ z ∈ Spec.bodyRegion body.shapes, u ⬝ᵥ z ≤ u ⬝ᵥ x := fun z hz => hub ⟨z, hz, rfl⟩
  constructor
  · rcases le_total 0 (u ⬝ᵥ x) with h | h
    · obtain ⟨q, e1, e2, e3, e4, e5⟩ := point_accepted body hs d hd hM hx
      exact ⟨q, e4, e1.le, e5, by simp only [e2, dotProduct_smul, smul_eq_mul]; rw [max_eq_right h]⟩
    · obtain ⟨q, e1, e2, e3, e4, e5⟩ := point_accepted body hs d hd (le_refl 0) hx
      exact ⟨q, e4, by rw [e1]; exact hM, e5, by simp only [e2, dotProduct_smul, smul_eq_mul]; rw [max_eq_left h]; ring⟩
  · rintro t ⟨q, h1, h2, h3, rfl⟩
    have hm : 0 ≤ q.mass := by
      have := (body_slab body hs le_rfl hd (q.J_symm h1) h3).1 _ (affNonneg_upper (u := 0) (b := 1) fun x _ => by simp)
      rw [affOne_eq, q.dot_J_eq h1] at this
      simpa using this
    have hle := (body_slab body hs le_rfl hd (q.J_symm h1) h3).1 _ (affNonneg_upper hub')
    rw [affOne_eq, q.dot_J_eq h1] at hle
    simp only [mulVec_zero, dotProduct_zero, zero_dotProduct, mul_zero, neg_dotProduct] at hle
    calc u ⬝ᵥ q.h ≤ q.mass * (u ⬝ᵥ x) := by linarith
      _ ≤ q.mass * max 0 (u ⬝ᵥ x) := mul_le_mul_of_nonneg_left (le_max_right _ _) hm
      _ ≤ M * max 0 (u ⬝ᵥ x) := mul_le_mul_of_nonneg_right h2 (le_max_left _ _)

/-- C101: maximising a second moment over the relaxation of any order from two on, with the mass at most `M`, gives
exactly the maximum over all mass distributions inside the body: everything at the farthest point. -/
theorem C101_second_greatest (body : RigidBody ℝ) (hs : ∀ s ∈ body.shapes, s.Usable) (d : ℕ) (hd : 2 ≤ d) (M : ℝ) (hM : 0 ≤ M)
    (u : Fin 3 → ℝ) (a b : ℝ) (ha : IsLeast ((fun x => u ⬝ᵥ x) '' Spec.bodyRegion body.shapes) a)
    (hb : IsGreatest ((fun x => u ⬝ᵥ x) '' Spec.bodyRegion body.shapes) b)
    (var : IP ℝ → ParamVar ℝ) (hvar : var = (fun q => .mat q.J) ∨ var = fun q => .vec q.vec) :
    IsGreatest (sdpValues body var d M fun q => u ⬝ᵥ q.H *ᵥ u) (M * max (a ^ 2) (b ^ 2)) := by
  rw [show sdpValues body var d M (fun q => u ⬝ᵥ q.H *ᵥ u) = sdpValues body (fun q => .mat q.J) d M fun q => u ⬝ᵥ q.H *ᵥ u by
    rcases hvar with rfl | rfl
    · rfl
    · exact sdpValues_vec _ _ _ _]
  have hval : ∀ x : Fin 3 → ℝ, u ⬝ᵥ (M • outer x x) *ᵥ u = M * (u ⬝ᵥ x) ^ 2 := fun x => by
    rw [smul_mulVec, dotProduct_smul, smul_eq_mul, outer_eq_vecMulVec, vecMulVec_mulVec, dotProduct_smul, op_smul_eq_smul,
      smul_eq_mul, dotProduct_comm x u, sq]
  have hab : a ≤ b := by
    obtain ⟨⟨x, hx, rfl⟩, -⟩ := hb
    exact ha.2 ⟨x, hx, rfl⟩
  constructor
  · have : ∃ x ∈ Spec.bodyRegion body.shapes, (u ⬝ᵥ x) ^ 2 = max (a ^ 2) (b ^ 2) := by
      rcases le_total (a ^ 2) (b ^ 2) with h | h
      · obtain ⟨⟨x, hx, rfl⟩, -⟩ := hb
        exact ⟨x, hx, (max_eq_right h).symm⟩
      · obtain ⟨⟨x, hx, rfl⟩, -⟩ := ha
        exact ⟨x, hx, (max_eq_left h).symm⟩
    obtain ⟨x, hx, hx'⟩ := this
    obtain ⟨q, e1, e2, e3, e4, e5⟩ := point_accepted body hs d (by omega) hM hx
    exact ⟨q, e4, e1.le, e5, by simp only [e3]; rw [hval, hx']⟩
  · rintro t ⟨q, h1, h2, h3, rfl⟩
    refine (C101_second body hs 0 le_rfl d hd q h1 h3 u a b hab (fun x hx => ha.2 ⟨x, hx, rfl⟩)
      (fun x hx => hb.2 ⟨x, hx, rfl⟩)).2.trans ?_
    exact mul_le_mul_of_nonneg_right h2 (le_max_of_le_left (sq_nonneg a))

/-- C101: parameters of point masses that stick out of a slab around the body too far on average are rejected from
order two on. -/
theorem C101_infeasible (body : RigidBody ℝ) (hs : ∀ s ∈ body.shapes, s.Usable) (eps : ℝ) (heps : 0 ≤ eps) (d : ℕ) (hd : 2 ≤ d)
    (u : Fin 3 → ℝ) (a b : ℝ) (hab : a ≤ b) (ha : ∀ x ∈ Spec.bodyRegion body.shapes, a ≤ u ⬝ᵥ x)
    (hb : ∀ x ∈ Spec.bodyRegion body.shapes, u ⬝ᵥ x ≤ b) (s : Spec.PointMasses ℝ 3) (hpos : 0 < s.mass)
    (hout : (s.map fun mp => mp.1 * ((b - u ⬝ᵥ mp.2) * (u ⬝ᵥ mp.2 - a))).sum < 0) :
    ∃ p, IP.fromPointMasses (s.map Prod.fst) (s.map Prod.snd) = .ok p ∧
      ¬ Py.Holds (body.momentSdpConstraints (.mat p.J) eps d) ∧ ¬ Py.Holds (body.momentSdpConstraints (.vec p.vec) eps d) := by
  obtain ⟨p, hp, e1, e2, e3, -, -⟩ := C13_moments s hpos
  have hsym : ∀ s : Spec.PointMasses ℝ 3, s.secondᵀ = s.second := fun s => by
    unfold Spec.PointMasses.second
    induction s with
    | nil => simp
    | cons a s ih =>
      rw [List.map_cons, List.sum_cons, transpose_add, ih]
      congr 1
      ext i j
      simp [vecMulVec_apply, mul_comm]
  have hH : p.Hᵀ = p.H := by rw [e3]; exact hsym s
  have key : ∀ s : Spec.PointMasses ℝ 3, (s.map fun mp => mp.1 * ((b - u ⬝ᵥ mp.2) * (u ⬝ᵥ mp.2 - a))).sum =
      (a + b) * (u ⬝ᵥ s.first) - a * b * s.mass - u ⬝ᵥ s.second *ᵥ u := by
    intro s
    unfold Spec.PointMasses.second Spec.PointMasses.first Spec.PointMasses.mass
    induction s with
    | nil => simp
    | cons c s ih =>
      simp only [List.map_cons, List.sum_cons, dotProduct_add, add_mulVec, ih]
      rw [smul_mulVec, dotProduct_smul, dotProduct_smul, vecMulVec_mulVec, dotProduct_smul, op_smul_eq_smul, smul_eq_mul,
        smul_eq_mul, smul_eq_mul, dotProduct_comm c.2 u]
      ring
  have hno : ¬ Py.Holds (body.momentSdpConstraints (.mat p.J) eps d) := fun hc => by
    have := (C101_second body hs eps heps d hd p hH hc u a b hab ha hb).1
    rw [key, ← e1, ← e2, ← e3] at hout
    linarith
  exact ⟨p, hp, hno, by rw [C19_body p hH]; exact hno⟩

/-- C101: at order one the relaxation of a polyhedron does not bound the second moments at all: around any point of
the polyhedron they can be as large as one likes. -/
theorem C101_order_one (P : Poly ℝ 3) (hP : ∀ f ∈ P.faceForm.faces, f.1 ≠ 0) (x : Fin 3 → ℝ)
    (hx : x ∈ Spec.halfspaces P.faceForm.faces) (B : ℝ) :
    ∃ q : IP ℝ, q.mass = 1 ∧ q.h = x ∧ q.Hᵀ = q.H ∧ Py.Holds (P.momentSdpConstraints (.mat q.J) 0 1) ∧
      ∀ u : Fin 3 → ℝ, B * (u ⬝ᵥ u) ≤ u ⬝ᵥ q.H *ᵥ u := by
  have hh : (⟨1, x, outer x x + |B| • (1 : Matrix (Fin 3) (Fin 3) ℝ)⟩ : IP ℝ).h = x := by simp [IP.h]
  have hH : (outer x x + |B| • (1 : Matrix (Fin 3) (Fin 3) ℝ))ᵀ = outer x x + |B| • (1 : Matrix (Fin 3) (Fin 3) ℝ) := by
    rw [transpose_add, transpose_smul, transpose_one]
    congr 1
    ext i j
    simp [outer, mul_comm]
  have hval : ∀ u : Fin 3 → ℝ, u ⬝ᵥ (outer x x + |B| • (1 : Matrix (Fin 3) (Fin 3) ℝ)) *ᵥ u = (u ⬝ᵥ x) ^ 2 + |B| * (u ⬝ᵥ u) :=
    fun u => by
      rw [add_mulVec, dotProduct_add, smul_mulVec, one_mulVec, dotProduct_smul, smul_eq_mul, outer_eq_vecMulVec, vecMulVec_mulVec,
        dotProduct_smul, op_smul_eq_smul, smul_eq_mul, dotProduct_comm x u, sq]
  have hnn : ∀ u : Fin 3 → ℝ, 0 ≤ u ⬝ᵥ u := fun u => Finset.sum_nonneg fun i _ => mul_self_nonneg _
  set q : IP ℝ := ⟨1, x, outer x x + |B| • (1 : Matrix (Fin 3) (Fin 3) ℝ)⟩ with hq
  refine ⟨q, rfl, hh, hH, ?_, fun u => ?_⟩
  · refine (C84_order_one P hP _ (q.J_symm hH) 0 le_rfl).mpr ⟨⟨q.J_symm hH, fun v => ?_⟩, fun f hf => ?_⟩
    · have hv : v = (Fin.snoc (α := fun _ => ℝ) (fun i : Fin 3 => v i.castSucc) (v (Fin.last 3)) : Fin 4 → ℝ) := by
        funext k
        refine Fin.lastCases ?_ (fun j => ?_) k
        · rw [Fin.snoc_last]
        · rw [Fin.snoc_castSucc]
      rw [hv, q.dot_J_eq hH, hh]
      change 0 ≤ _ ⬝ᵥ (outer x x + |B| • (1 : Matrix (Fin 3) (Fin 3) ℝ)) *ᵥ _ + _ + _ + _ * 1
      rw [hval]
      have := mul_nonneg (abs_nonneg B) (hnn fun i : Fin 3 => v i.castSucc)
      nlinarith [sq_nonneg ((fun i : Fin 3 => v i.castSucc) ⬝ᵥ x + v (Fin.last 3))]
    · have h1 : q.J 3 3 = 1 := bordered_ll _ _ _ _
      have h2 : ∀ i : Fin 3, q.J i.castSucc 3 = x i := fun i => by
        rw [show q.J i.castSucc 3 = q.h i from bordered_cl _ _ _ _ i, hh]
      rw [h1, one_mul]
      simp only [h2]
      exact hx f hf
  · change _ ≤ u ⬝ᵥ (outer x x + |B| • (1 : Matrix (Fin 3) (Fin 3) ℝ)) *ᵥ u
    rw [hval]
    nlinarith [mul_le_mul_of_nonneg_right (le_abs_self B) (hnn u), sq_nonneg (u ⬝ᵥ x)]

/-! ### Boxes -/

theorem col_dot_rigid {R : Matrix (Fin 3) (Fin 3) ℝ} (hR : Spec.Orthogonal R) (c y : Fin 3 → ℝ) (j : Fin 3) :
    R.col j ⬝ᵥ Spec.rigid R c y = y j + R.col j ⬝ᵥ c := by
  rw [Spec.rigid, dotProduct_add, dotProduct_mulVec]
  have : R.col j ᵥ* R = Pi.single j 1 := by
    have h := congrFun hR j
    funext k
    have := congrFun h k
    rw [mul_apply] at this
    simp only [vecMul, dotProduct, Matrix.col_apply]
    rw [Pi.single_apply, ← (show (1 : Matrix (Fin 3) (Fin 3) ℝ) j k = if k = j then 1 else 0 by
      rw [one_apply]; simp only [eq_comm]), ← this]
    rfl
  rw [this, single_dotProduct, one_mul]

/-- C101: any non-negative combination of the second moments along the axes of a box is maximised, over the relaxation
of any order from two on, by all the mass in one vertex. -/
theorem C101_box_weighted (b : Box ℝ) (hR : Spec.Orthogonal b.rotation) (hh : ∀ i, 0 ≤ b.halfExtents i) (p : IP ℝ) (d : ℕ)
    (hd : 2 ≤ d) (M : ℝ) (hM : 0 ≤ M) (w : Fin 3 → ℝ) (hw : ∀ j, 0 ≤ w j) (var : IP ℝ → ParamVar ℝ)
    (hvar : var = (fun q => .mat q.J) ∨ var = fun q => .vec q.vec) :
    IsGreatest (sdpValues ⟨[.box b], p⟩ var d M fun q => ∑ j, w j * (b.rotation.col j ⬝ᵥ q.H *ᵥ b.rotation.col j))
      (M * ∑ j, w j * (|b.rotation.col j ⬝ᵥ b.center| + b.halfExtents j) ^ 2) := by
  have hs : ∀ s ∈ (⟨[.box b], p⟩ : RigidBody ℝ).shapes, s.Usable := by simpa [AnyShape.Usable] using hR
  have hreg : Spec.bodyRegion (⟨[.box b], p⟩ : RigidBody ℝ).shapes = Spec.box b.halfExtents b.rotation b.center := by
    ext x; simp [Spec.bodyRegion, Spec.region]
  rw [show sdpValues ⟨[.box b], p⟩ var d M (fun q => ∑ j, w j * (b.rotation.col j ⬝ᵥ q.H *ᵥ b.rotation.col j)) =
      sdpValues ⟨[.box b], p⟩ (fun q => .mat q.J) d M fun q => ∑ j, w j * (b.rotation.col j ⬝ᵥ q.H *ᵥ b.rotation.col j) by
    rcases hvar with rfl | rfl
    · rfl
    · exact sdpValues_vec _ _ _ _]
  constructor
  · set y : Fin 3 → ℝ := fun j => if 0 ≤ b.rotation.col j ⬝ᵥ b.center then b.halfExtents j else -b.halfExtents j with hy
    have hx : Spec.rigid b.rotation b.center y ∈ Spec.bodyRegion (⟨[.box b], p⟩ : RigidBody ℝ).shapes := by
      rw [hreg]
      refine ⟨y, fun i => ?_, rfl⟩
      rw [hy]
      dsimp only
      split_ifs <;> simp [abs_of_nonneg (hh i)]
    obtain ⟨q, e1, e2, e3, e4, e5⟩ := point_accepted ⟨[.box b], p⟩ hs d (by omega) hM hx
    refine ⟨q, e4, e1.le, e5, ?_⟩
    simp only [e3]
    rw [Finset.mul_sum]
    refine Finset.sum_congr rfl fun j _ => ?_
    rw [smul_mulVec, dotProduct_smul, smul_eq_mul, outer_eq_vecMulVec, vecMulVec_mulVec, dotProduct_smul, op_smul_eq_smul,
      smul_eq_mul, dotProduct_comm (Spec.rigid _ _ _) (b.rotation.col j), col_dot_rigid hR]
    have : (y j + b.rotation.col j ⬝ᵥ b.center) ^ 2 = (|b.rotation.col j ⬝ᵥ b.center| + b.halfExtents j) ^ 2 := by
      rw [hy]
      dsimp only
      split_ifs with h
      · rw [abs_of_nonneg h]; ring
      · rw [abs_of_neg (not_le.mp h)]; ring
    rw [← this]
    ring
  · rintro t ⟨q, h1, h2, h3, rfl⟩
    dsimp only
    rw [Finset.mul_sum]
    refine Finset.sum_le_sum fun j _ => ?_
    set k := b.rotation.col j ⬝ᵥ b.center with hk
    have hext : ∀ x ∈ Spec.bodyRegion (⟨[.box b], p⟩ : RigidBody ℝ).shapes,
        k - b.halfExtents j ≤ b.rotation.col j ⬝ᵥ x ∧ b.rotation.col j ⬝ᵥ x ≤ k + b.halfExtents j := by
      rw [hreg]
      rintro x ⟨y, hy, rfl⟩
      rw [col_dot_rigid hR, ← hk]
      have := abs_le.mp (hy j)
      constructor <;> linarith
    have hle := (C101_second ⟨[.box b], p⟩ hs 0 le_rfl d hd q h1 h3 (b.rotation.col j) (k - b.halfExtents j)
      (k + b.halfExtents j) (by linarith [hh j]) (fun x hx => (hext x hx).1) (fun x hx => (hext x hx).2)).2
    have hmax : max ((k - b.halfExtents j) ^ 2) ((k + b.halfExtents j) ^ 2) = (|k| + b.halfExtents j) ^ 2 := by
      rcases le_total 0 k with h | h
      · rw [abs_of_nonneg h, max_eq_right]
        nlinarith [mul_nonneg h (hh j)]
      · rw [abs_of_nonpos h, max_eq_left]
        · ring
        · nlinarith [mul_nonneg (neg_nonneg.mpr h) (hh j)]
    rw [hmax] at hle
    calc w j * _ ≤ w j * (q.mass * (|k| + b.halfExtents j) ^ 2) := mul_le_mul_of_nonneg_left hle (hw j)
      _ ≤ w j * (M * (|k| + b.halfExtents j) ^ 2) :=
        mul_le_mul_of_nonneg_left (mul_le_mul_of_nonneg_right h2 (sq_nonneg _)) (hw j)
      _ = _ := by ring

/-- C101: the moment of inertia about an axis of a box is maximised, over the relaxation of any order from two on, by
all the mass in one vertex. -/
theorem C101_box_inertia (b : Box ℝ) (hR : Spec.Orthogonal b.rotation) (hh : ∀ i, 0 ≤ b.halfExtents i) (p : IP ℝ) (d : ℕ)
    (hd : 2 ≤ d) (M : ℝ) (hM : 0 ≤ M) (i : Fin 3) (var : IP ℝ → ParamVar ℝ)
    (hvar : var = (fun q => .mat q.J) ∨ var = fun q => .vec q.vec) :
    IsGreatest (sdpValues ⟨[.box b], p⟩ var d M fun q => b.rotation.col i ⬝ᵥ q.I *ᵥ b.rotation.col i)
      (M * ∑ j, if j = i then 0 else (|b.rotation.col j ⬝ᵥ b.center| + b.halfExtents j) ^ 2) := by
  have h := C101_box_weighted b hR hh p d hd M hM (fun j => if j = i then 0 else 1) (fun j => by split_ifs <;> norm_num) var hvar
  have hf : (fun q : IP ℝ => b.rotation.col i ⬝ᵥ q.I *ᵥ b.rotation.col i) =
      fun q => ∑ j, (if j = i then (0 : ℝ) else 1) * (b.rotation.col j ⬝ᵥ q.H *ᵥ b.rotation.col j) := by
    funext q
    have hcol : b.rotation.col i ⬝ᵥ b.rotation.col i = 1 := by
      have := congrFun (congrFun hR i) i
      rw [mul_apply, one_apply_eq] at this
      exact this
    have htr : ∑ j, b.rotation.col j ⬝ᵥ q.H *ᵥ b.rotation.col j = q.H.trace := by
      have : ∀ j, b.rotation.col j ⬝ᵥ q.H *ᵥ b.rotation.col j = (b.rotationᵀ * (q.H * b.rotation)) j j := fun j => by
        rw [mul_apply]
        rfl
      simp only [this]
      change (b.rotationᵀ * (q.H * b.rotation)).trace = _
      rw [trace_mul_comm, Matrix.mul_assoc, mul_eq_one_comm.mp hR, Matrix.mul_one]
    have hsplit : ∀ g : Fin 3 → ℝ, ∑ j, (if j = i then (0 : ℝ) else 1) * g j = ∑ j, g j - g i := fun g => by
      rw [eq_sub_iff_add_eq, ← Finset.sum_erase_add _ _ (Finset.mem_univ i), if_pos rfl, zero_mul, add_zero,
        ← Finset.sum_erase_add _ _ (Finset.mem_univ i)]
      congr 1
      exact Finset.sum_congr rfl fun j hj => by rw [if_neg (Finset.ne_of_mem_erase hj), one_mul]
    rw [hsplit, htr, IP.I, H2I, sub_mulVec, dotProduct_sub, smul_mulVec, one_mulVec, dotProduct_smul, hcol, smul_eq_mul, mul_one]
  rw [hf]
  convert h using 3 with j
  rename_i k
  split_ifs <;> simp

/-! ### Examples: the values the tests of the project expect -/

/-- tests/test_box_realizability.py:113-136: the second moment of a unit cube of mass at most one is at most 1/4. -/
example : IsGreatest (sdpValues ⟨[.box ⟨fun _ => 1 / 2, 1, 0⟩], ⟨0, 0, 0⟩⟩ (fun q => .mat q.J) 2 1 fun q => q.H 0 0) (1 / 4) := by
  have := C101_box_weighted ⟨fun _ => 1 / 2, 1, 0⟩ Spec.Orthogonal.one (fun _ => by norm_num) ⟨0, 0, 0⟩ 2 le_rfl 1 zero_le_one
    ![1, 0, 0] (fun j => by fin_cases j <;> simp) _ (Or.inl rfl)
  convert this using 1
  · congr 1
    funext q
    simp [Fin.sum_univ_three, Matrix.col_def, mulVec, dotProduct, one_apply]
  · simp [Fin.sum_univ_three]; norm_num

/-- tests/test_box_realizability.py:138-161: the moment of inertia of a unit cube of mass at most one is at most 1/2. -/
example : IsGreatest (sdpValues ⟨[.box ⟨fun _ => 1 / 2, 1, 0⟩], ⟨0, 0, 0⟩⟩ (fun q => .vec q.vec) 2 1 fun q => q.vec 4) (1 / 2) := by
  have := C101_box_inertia ⟨fun _ => 1 / 2, 1, 0⟩ Spec.Orthogonal.one (fun _ => by norm_num) ⟨0, 0, 0⟩ 2 le_rfl 1 zero_le_one
    0 _ (Or.inr rfl)
  convert this using 1
  · congr 1
    funext q
    simp [Fin.sum_univ_three, Matrix.col_def, mulVec, dotProduct, one_apply, IP.vec]
  · simp [Fin.sum_univ_three]; norm_num

/-- tests/test_rigidbody.py:52-66: two adjacent cubes; the first moment is at most 3. -/
example : IsGreatest (sdpValues ⟨[.box ⟨1, 1, 0⟩, .box ⟨1, 1, ![2, 0, 0]⟩], ⟨0, 0, 0⟩⟩ (fun q => .mat q.J) 2 1
    fun q => ![1, 0, 0] ⬝ᵥ q.h) 3 := by
  have := C101_first_greatest ⟨[.box ⟨1, 1, 0⟩, .box ⟨1, 1, ![2, 0, 0]⟩], ⟨0, 0, 0⟩⟩
    (by simp [AnyShape.Usable, Spec.Orthogonal.one]) 2 (by norm_num) 1 zero_le_one ![1, 0, 0] 3 ⟨⟨![3, 0, 0], ⟨.box ⟨1, 1, ![2, 0, 0]⟩, by simp,
      ⟨![1, 0, 0], fun i => by fin_cases i <;> simp, by ext i; fin_cases i <;> simp [Spec.rigid]; norm_num⟩⟩,
      by simp [dotProduct, Fin.sum_univ_three]⟩, by
      rintro t ⟨x, ⟨s, hs, hx⟩, rfl⟩
      simp only [List.mem_cons, List.not_mem_nil, or_false] at hs
      rcases hs with rfl | rfl <;> obtain ⟨y, hy, rfl⟩ := hx <;> have := abs_le.mp (hy 0) <;>
        simp [Spec.rigid, dotProduct, Fin.sum_univ_three] at this ⊢ <;> linarith⟩ _ (Or.inl rfl)
  simpa using this

/-- tests/test_box_realizability.py:50-57: half the mass in a vertex of a unit cube and half outside the opposite
vertex. -/
example : ∃ p, IP.fromPointMasses [1 / 2, 1 / 2] [![-1 / 2, -1 / 2, -1 / 2], ![11 / 20, 11 / 20, 11 / 20]] = .ok p ∧
    ¬ Py.Holds ((⟨[.box ⟨fun _ => 1 / 2, 1, 0⟩], ⟨0, 0, 0⟩⟩ : RigidBody ℝ).momentSdpConstraints (.mat p.J)) := by
  obtain ⟨p, h1, h2, -⟩ := C101_infeasible ⟨[.box ⟨fun _ => 1 / 2, 1, 0⟩], ⟨0, 0, 0⟩⟩ (by simp [AnyShape.Usable, Spec.Orthogonal.one])
    0 le_rfl 2 le_rfl ![1, 0, 0] (-1 / 2) (1 / 2) (by norm_num)
    (by
      rintro x ⟨s, hs, hx⟩
      obtain rfl := List.mem_singleton.mp hs
      obtain ⟨y, hy, rfl⟩ := hx
      have := abs_le.mp (hy 0)
      simp [Spec.rigid, dotProduct, Fin.sum_univ_three] at this ⊢
      linarith)
    (by
      rintro x ⟨s, hs, hx⟩
      obtain rfl := List.mem_singleton.mp hs
      obtain ⟨y, hy, rfl⟩ := hx
      have := abs_le.mp (hy 0)
      simp [Spec.rigid, dotProduct, Fin.sum_univ_three] at this ⊢
      linarith)
    [(1 / 2, ![-1 / 2, -1 / 2, -1 / 2]), (1 / 2, ![11 / 20, 11 / 20, 11 / 20])]
    (by simp [Spec.PointMasses.mass]) (by simp [dotProduct, Fin.sum_univ_three]; norm_num)
  exact ⟨p, h1, h2⟩

end Rigeo
