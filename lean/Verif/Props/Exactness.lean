import Verif.Lemmas.Corner
import Verif.Props.Tightness
import Verif.Props.RigidBody
import Verif.Props.DensityRealizable

/-!
# The moment relaxations of polyhedra and cylinders are exact at no order (C85, C86)
-/

namespace Rigeo

open Matrix MvPolynomial

variable {K : Type} [Field K] [LinearOrder K] [IsStrictOrderedRing K] {n : ℕ}

/-- The converse of `LocalizedPSD.pairing_nonneg`. -/
theorem LocalizedPSD.of_pairing {d : ℕ} {g : List ((Fin n → ℕ) × K)} {y : (Fin n → ℕ) → K}
    (h : ∀ q : MvPolynomial (Fin n) K, q.totalDegree ≤ d → 0 ≤ pairing y (ofTerms g * q ^ 2)) :
    Spec.LocalizedPSD d g y := by
  intro q
  set Q : MvPolynomial (Fin n) K := ∑ α ∈ Spec.multiIndices n d, monomial (Finsupp.equivFunOnFinite.symm α) (q α) with hQ
  have hd : Q.totalDegree ≤ d := by
    refine totalDegree_finsetSum_le fun α hα => (totalDegree_monomial_le _ _).trans ?_
    rw [Finsupp.sum_fintype _ _ (fun _ => rfl)]
    simpa using (mem_multiIndices _).mp hα
  convert h Q hd using 1
  rw [sq, hQ, Finset.sum_mul_sum]
  simp only [monomial_mul, Finset.mul_sum, map_sum, pairing_ofTerms_mul]
  refine Finset.sum_congr rfl fun α _ => Finset.sum_congr rfl fun β _ => ?_
  have e : ⇑(Finsupp.equivFunOnFinite.symm α + Finsupp.equivFunOnFinite.symm β) = α + β := by ext; simp
  rw [e]

open Corner

/-- Restriction of a polynomial to the plane `p + X u + Y v`. -/
noncomputable def slice (p u v : Fin n → K) : MvPolynomial (Fin n) K →+* _root_.Polynomial (_root_.Polynomial K) :=
  eval₂Hom (_root_.Polynomial.C.comp _root_.Polynomial.C) fun i => aff (p i) (u i) (v i)

theorem slice_C (p u v : Fin n → K) (a : K) : slice p u v (C a) = .C (.C a) := by
  rw [slice, coe_eval₂Hom, eval₂_C]; rfl

theorem slice_X (p u v : Fin n → K) (i : Fin n) : slice p u v (X i) = aff (p i) (u i) (v i) := by
  rw [slice, coe_eval₂Hom, eval₂_X]

theorem deg_mul {a b : ℕ} {P Q : _root_.Polynomial (_root_.Polynomial K)} (hP : Deg a P) (hQ : Deg b Q) : Deg (a + b) (P * Q) := by
  refine ⟨Polynomial.natDegree_mul_le.trans (add_le_add hP.1 hQ.1), fun j => ?_⟩
  rw [Polynomial.coeff_mul]
  exact Polynomial.natDegree_sum_le_of_forall_le _ _ fun i _ =>
    Polynomial.natDegree_mul_le.trans (add_le_add (hP.2 _) (hQ.2 _))

theorem deg_aff (a b c : K) : Deg 1 (aff a b c) := by
  unfold aff
  constructor
  · compute_degree
  · intro j
    simp only [Polynomial.coeff_add, Polynomial.coeff_C, Polynomial.coeff_C_mul, Polynomial.coeff_X]
    split_ifs <;> compute_degree <;> simp

theorem deg_one : Deg 0 (1 : _root_.Polynomial (_root_.Polynomial K)) := by
  refine ⟨by simp, fun j => ?_⟩
  rw [Polynomial.coeff_one]; split_ifs <;> simp

theorem deg_pow {a : ℕ} {P : _root_.Polynomial (_root_.Polynomial K)} (hP : Deg a P) (k : ℕ) : Deg (k * a) (P ^ k) := by
  induction k with
  | zero => simpa using deg_one
  | succ k ih => rw [pow_succ, Nat.succ_mul]; exact deg_mul ih hP

theorem deg_prod {ι : Type} (s : Finset ι) (f : ι → _root_.Polynomial (_root_.Polynomial K)) (k : ι → ℕ)
    (h : ∀ i ∈ s, Deg (k i) (f i)) : Deg (∑ i ∈ s, k i) (∏ i ∈ s, f i) := by
  classical
  induction s using Finset.induction_on with
  | empty => simpa using deg_one
  | insert a s ha ih =>
    rw [Finset.sum_insert ha, Finset.prod_insert ha]
    exact deg_mul (h a (Finset.mem_insert_self a s)) (ih fun i hi => h i (Finset.mem_insert_of_mem hi))

theorem deg_mono {a b : ℕ} {P : _root_.Polynomial (_root_.Polynomial K)} (h : Deg a P) (hab : a ≤ b) : Deg b P :=
  ⟨h.1.trans hab, fun j => (h.2 j).trans hab⟩

theorem deg_slice (p u v : Fin n → K) {d : ℕ} (q : MvPolynomial (Fin n) K) (hq : q.totalDegree ≤ d) :
    Deg d (slice p u v q) := by
  rw [slice, coe_eval₂Hom, eval₂_eq']
  have key : ∀ α ∈ q.support, Deg d ((_root_.Polynomial.C.comp _root_.Polynomial.C) (coeff α q) *
      ∏ i, aff (p i) (u i) (v i) ^ α i) := by
    intro α hα
    have h1 : ∑ i, α i * 1 ≤ d := by
      refine le_trans (le_trans (le_of_eq ?_) (le_totalDegree hα)) hq
      rw [Finsupp.sum_fintype _ _ (fun _ => rfl)]; simp
    have h0 : Deg 0 ((_root_.Polynomial.C.comp _root_.Polynomial.C) (coeff α q)) := by
      refine ⟨by simp, fun j => ?_⟩
      simp only [RingHom.comp_apply, Polynomial.coeff_C]
      split_ifs <;> simp
    exact deg_mono (deg_mul h0 (deg_prod _ _ _ fun i _ => deg_pow (deg_aff _ _ _) _)) (by simpa using h1)
  refine ⟨Polynomial.natDegree_sum_le_of_forall_le _ _ fun α hα => (key α hα).1, fun j => ?_⟩
  rw [Polynomial.finsetSum_coeff]
  exact Polynomial.natDegree_sum_le_of_forall_le _ _ fun α hα => (key α hα).2 j

/-- Pseudo-moments of order `d` at a corner: they satisfy the conditions of the weights `gs`, but a quadratic
that restricts to `X * Y` on the plane `p + X u + Y v` has a negative value. -/
theorem exists_pseudo (p u v : Fin n → K) (gs : List (List ((Fin n → ℕ) × K)))
    (hg : ∀ g ∈ gs, Weight (slice p u v (ofTerms g))) (d : ℕ) :
    ∃ y : (Fin n → ℕ) → K, y 0 = 1 ∧ (∀ g ∈ gs, ∀ d' ≤ d, Spec.LocalizedPSD d' g y) ∧
      ∀ q, slice p u v q = .C .X * .X → pairing y q < 0 := by
  obtain ⟨L, hC, h1, h2, h3⟩ := exists_functional d (gs.map fun g => slice p u v (ofTerms g)) (by
    intro G hG
    obtain ⟨g, hg', rfl⟩ := List.mem_map.mp hG
    exact hg g hg')
  set y : (Fin n → ℕ) → K := fun α => L (slice p u v (monomial (Finsupp.equivFunOnFinite.symm α) 1)) with hy
  have hL : ∀ q, pairing y q = L (slice p u v q) := by
    intro q
    induction q using MvPolynomial.induction_on' with
    | monomial α a =>
      have e0 : Finsupp.equivFunOnFinite.symm (⇑α) = α := by ext; simp
      have e : (monomial α a : MvPolynomial (Fin n) K) = C a * monomial α 1 := by rw [C_mul_monomial, mul_one]
      rw [pairing_monomial, hy]
      dsimp only
      rw [e0, ← hC, e, (slice p u v).map_mul, slice_C]
    | add f g ih1 ih2 => rw [map_add, map_add, map_add, ih1, ih2]
  refine ⟨y, ?_, ?_, ?_⟩
  · have e0 : Finsupp.equivFunOnFinite.symm (0 : Fin n → ℕ) = 0 := by ext; simp
    rw [hy]
    dsimp only
    rw [e0, show (monomial 0 (1 : K) : MvPolynomial (Fin n) K) = 1 from rfl, map_one, h1]
  · intro g hg' d' hd
    refine LocalizedPSD.of_pairing fun q hq => ?_
    rw [hL, map_mul, map_pow]
    exact h3 _ (List.mem_map.mpr ⟨g, hg', rfl⟩) _ (deg_slice p u v q (hq.trans hd))
  · intro q hq
    rw [hL, hq]; exact h2

/-- The value of the form of point masses on two affine functions. -/
theorem pm_form {m : K} {f : Fin 3 → K} {H : Matrix (Fin 3) (Fin 3) K} {S : Set (Fin 3 → K)} (h : Spec.Realizable S m f H)
    (v w : Fin 4 → K) (hv : ∀ x ∈ S, 0 ≤ v ⬝ᵥ Fin.snoc (α := fun _ => K) x 1)
    (hw : ∀ x ∈ S, 0 ≤ w ⬝ᵥ Fin.snoc (α := fun _ => K) x 1) : 0 ≤ v ⬝ᵥ bordered H f f m *ᵥ w := by
  refine h.induct (P := fun m f H => 0 ≤ v ⬝ᵥ bordered H f f m *ᵥ w) ?_ ?_ ?_
  · rw [bordered_zero]; simp
  · intro m f H m' f' H' h h'
    rw [← bordered_add, add_mulVec, dotProduct_add]
    exact add_nonneg h h'
  · intro a p ha hp
    have : bordered (a • outer p p) (a • p) (a • p) a =
        a • outer (Fin.snoc (α := fun _ => K) p 1) (Fin.snoc (α := fun _ => K) p 1) := by
      rw [outer_snoc, bordered_smul]; simp
    rw [this, smul_mulVec, dotProduct_smul, smul_eq_mul]
    refine mul_nonneg ha ?_
    have e : v ⬝ᵥ outer (Fin.snoc (α := fun _ => K) p 1) (Fin.snoc (α := fun _ => K) p 1) *ᵥ w =
        (v ⬝ᵥ Fin.snoc (α := fun _ => K) p 1) * (w ⬝ᵥ Fin.snoc (α := fun _ => K) p 1) := by
      rw [dotProduct_comm w]
      simp only [dotProduct, mulVec, outer_apply]
      rw [Finset.sum_mul_sum]
      simp only [Finset.mul_sum]
      exact Finset.sum_congr rfl fun i _ => Finset.sum_congr rfl fun j _ => by ring
    rw [e]
    exact mul_nonneg (hv p hp) (hw p hp)

/-- The symmetric matrix of the product of two affine functions. -/
def symProd (v w : Fin 4 → K) : Matrix (Fin 4) (Fin 4) K := (1 / 2 : K) • (outer v w + outer w v)

theorem symProd_symm (v w : Fin 4 → K) : (symProd v w)ᵀ = symProd v w := by
  ext i j
  simp only [symProd, transpose_apply, Matrix.smul_apply, Matrix.add_apply, outer_apply, smul_eq_mul]; ring

theorem symProd_trace (v w : Fin 4 → K) (J : Matrix (Fin 4) (Fin 4) K) (hJ : Jᵀ = J) :
    (symProd v w * J).trace = v ⬝ᵥ J *ᵥ w := by
  have e : ∀ a b : Fin 4 → K, (outer a b * J).trace = b ⬝ᵥ J *ᵥ a := by
    intro a b
    simp only [trace, diag_apply, mul_apply, outer_apply, dotProduct, mulVec, Finset.mul_sum]
    rw [Finset.sum_comm]
    exact Finset.sum_congr rfl fun i _ => Finset.sum_congr rfl fun j _ => by ring
  have c : w ⬝ᵥ J *ᵥ v = v ⬝ᵥ J *ᵥ w := by
    rw [dotProduct_mulVec, dotProduct_comm, ← mulVec_transpose, hJ]
  rw [symProd, Matrix.smul_mul, trace_smul, Matrix.add_mul, trace_add, e, e, c, smul_eq_mul]
  ring

/-- The slice of an affine function. -/
theorem slice_affine (p u v : Fin 3 → K) (a : Fin 3 → K) (b : K) :
    slice p u v (ofTerms (Spec.affineTerms a b)) = aff (b - a ⬝ᵥ p) (-(a ⬝ᵥ u)) (-(a ⬝ᵥ v)) := by
  rw [ofTerms_affine, lin, map_add, map_sum]
  simp only [map_mul, slice_C, slice_X, Fin.snoc_castSucc, Fin.snoc_last, Fin.sum_univ_three, Pi.neg_apply, aff, dotProduct]
  simp only [Polynomial.C_mul, Polynomial.C_add, Polynomial.C_sub, Polynomial.C_neg]
  ring

/-- Inertial parameters of mass one with the given pseudo-moments. -/
def ofPseudo (y : (Fin 3 → ℕ) → K) : IP K :=
  ⟨1, fun i => y (Pi.single i 1), Matrix.of fun i j => y (Pi.single i 1 + Pi.single j 1)⟩

theorem ofPseudo_symm (y : (Fin 3 → ℕ) → K) : (ofPseudo y).Hᵀ = (ofPseudo y).H := by
  ext i j
  simp only [ofPseudo, transpose_apply, of_apply]
  rw [add_comm]

theorem IP.J_symm (q : IP K) (h : q.Hᵀ = q.H) : q.Jᵀ = q.J := by rw [IP.J, bordered_transpose, h]

theorem ofPseudo_J (y : (Fin 3 → ℕ) → K) (h1 : y 0 = 1) : y 0 = (ofPseudo y).J 3 3 ∧
    (∀ i : Fin 3, y (Pi.single i 1) = (ofPseudo y).J i.castSucc 3) ∧
    ∀ i j : Fin 3, y (Pi.single i 1 + Pi.single j 1) = (ofPseudo y).J i.castSucc j.castSucc := by
  rw [show (3 : Fin 4) = Fin.last 3 from rfl]
  refine ⟨?_, fun i => ?_, fun i j => ?_⟩
  · rw [IP.J, bordered_ll, h1]; rfl
  · rw [IP.J, bordered_cl]; simp [IP.h, ofPseudo]
  · rw [IP.J, bordered_cc]; rfl

/-- Two independent vectors have a dual pair. -/
theorem exists_dual (a b : Fin n → K) (h : LinearIndependent K ![a, b]) :
    ∃ u v : Fin n → K, a ⬝ᵥ u = -1 ∧ b ⬝ᵥ u = 0 ∧ a ⬝ᵥ v = 0 ∧ b ⬝ᵥ v = -1 := by
  rw [LinearIndependent.pair_iff] at h
  set D := (a ⬝ᵥ a) * (b ⬝ᵥ b) - (a ⬝ᵥ b) ^ 2 with hD
  have hD0 : D ≠ 0 := by
    intro h0
    have hz : (b ⬝ᵥ b) • a - (a ⬝ᵥ b) • b = 0 := by
      rw [← dotProduct_self_eq_zero]
      simp only [sub_dotProduct, dotProduct_sub, smul_dotProduct, dotProduct_smul, smul_eq_mul, dotProduct_comm b a]
      linear_combination (b ⬝ᵥ b) * h0
    have h1 := h (b ⬝ᵥ b) (-(a ⬝ᵥ b)) (by rw [neg_smul, ← sub_eq_add_neg]; exact hz)
    have hb : b = 0 := dotProduct_self_eq_zero.mp h1.1
    have := (h 0 1 (by rw [hb]; simp)).2
    exact one_ne_zero this
  refine ⟨D⁻¹ • ((a ⬝ᵥ b) • b - (b ⬝ᵥ b) • a), D⁻¹ • ((a ⬝ᵥ b) • a - (a ⬝ᵥ a) • b), ?_, ?_, ?_, ?_⟩ <;>
    simp only [dotProduct_sub, dotProduct_smul, smul_eq_mul, dotProduct_comm b a]
  · rw [show (a ⬝ᵥ b) * (a ⬝ᵥ b) - (b ⬝ᵥ b) * (a ⬝ᵥ a) = -D by rw [hD]; ring, mul_neg, inv_mul_cancel₀ hD0]
  · ring
  · ring
  · rw [show (a ⬝ᵥ b) * (a ⬝ᵥ b) - (a ⬝ᵥ a) * (b ⬝ᵥ b) = -D by rw [hD]; ring, mul_neg, inv_mul_cancel₀ hD0]

/-- C85: the moment relaxation of a polyhedron is exact at no order. Let `p` be a point in the relative interior of an
edge: two faces `f₁`, `f₂` with independent normals are active there and no other. Then there is a linear objective
`D` that is non-negative for all bodies inside the polyhedron, but for every order `d` there are parameters of mass one
that `moment_sdp_constraints` accepts and on which the objective is negative. -/
theorem C85_objective (P : Poly K 3) (hP : ∀ f ∈ P.faceForm.faces, f.1 ≠ 0) (f₁ f₂ : (Fin 3 → K) × K)
    (hf₁ : f₁ ∈ P.faceForm.faces) (hf₂ : f₂ ∈ P.faceForm.faces) (hind : LinearIndependent K ![f₁.1, f₂.1])
    (p : Fin 3 → K) (hp₁ : f₁.1 ⬝ᵥ p = f₁.2) (hp₂ : f₂.1 ⬝ᵥ p = f₂.2)
    (hp : ∀ f ∈ P.faceForm.faces, f = f₁ ∨ f = f₂ ∨ f.1 ⬝ᵥ p < f.2) :
    ∃ D : Matrix (Fin 4) (Fin 4) K, Dᵀ = D ∧
      (∀ q : IP K, Spec.Realizable (Spec.halfspaces P.faceForm.faces) q.mass q.h q.H → 0 ≤ (D * q.J).trace) ∧
      ∀ d : ℕ, 1 ≤ d → ∃ q : IP K, q.mass = 1 ∧ q.Hᵀ = q.H ∧ (D * q.J).trace < 0 ∧ ∀ eps : K, 0 ≤ eps →
        Py.Holds (P.momentSdpConstraints (.mat q.J) eps d) ∧ Py.Holds (P.momentSdpConstraints (.vec q.vec) eps d) := by
  obtain ⟨u, v, hu1, hu2, hv1, hv2⟩ := exists_dual f₁.1 f₂.1 hind
  set l : (Fin 3 → K) × K → Fin 4 → K := fun f => Fin.snoc (α := fun _ => K) (-f.1) f.2 with hl
  have hnn : ∀ f ∈ P.faceForm.faces, ∀ x ∈ Spec.halfspaces P.faceForm.faces,
      0 ≤ l f ⬝ᵥ Fin.snoc (α := fun _ => K) x 1 := by
    intro f hf x hx
    have := hx f hf
    simp only [hl]
    rw [dotProduct, Fin.sum_univ_castSucc]
    simp only [Fin.snoc_castSucc, Fin.snoc_last, mul_one, Pi.neg_apply, neg_mul, Finset.sum_neg_distrib]
    rw [← dotProduct]
    linarith
  refine ⟨symProd (l f₁) (l f₂), symProd_symm _ _, fun q hq => ?_, fun d hd => ?_⟩
  · rw [symProd_trace _ _ _ (q.J_symm hq.symm)]
    exact pm_form hq _ _ (hnn f₁ hf₁) (hnn f₂ hf₂)
  · have hc1 : aff 0 1 0 = (.C .X : _root_.Polynomial (_root_.Polynomial K)) := by simp [aff]
    have hc2 : aff 0 0 1 = (.X : _root_.Polynomial (_root_.Polynomial K)) := by simp [aff]
    have hc0 : aff 1 0 0 = (1 : _root_.Polynomial (_root_.Polynomial K)) := by simp [aff]
    have e1 : slice p u v (ofTerms (Spec.affineTerms f₁.1 f₁.2)) = .C .X := by
      rw [slice_affine, hp₁, hu1, hv1, sub_self, neg_neg, neg_zero, hc1]
    have e2 : slice p u v (ofTerms (Spec.affineTerms f₂.1 f₂.2)) = .X := by
      rw [slice_affine, hp₂, hu2, hv2, sub_self, neg_neg, neg_zero, hc2]
    obtain ⟨y, y0, y1, y2⟩ := exists_pseudo p u v
      ([(0, 1)] :: P.faceForm.faces.map fun f => Spec.affineTerms f.1 f.2) (by
        intro g hg
        rcases List.mem_cons.mp hg with rfl | hg
        · refine ⟨1, 0, 0, one_pos, Or.inl ?_⟩
          have : ofTerms ([(0, 1)] : List ((Fin 3 → ℕ) × K)) = 1 := by
            have h0 : Finsupp.equivFunOnFinite.symm (0 : Fin 3 → ℕ) = 0 := by ext; simp
            simp only [ofTerms, List.map_cons, List.map_nil, List.sum_cons, List.sum_nil, add_zero, h0]; rfl
          rw [this, map_one, hc0]
        · obtain ⟨f, hf, rfl⟩ := List.mem_map.mp hg
          rcases hp f hf with rfl | rfl | hlt
          · exact ⟨1, 0, 0, one_pos, Or.inr (Or.inl (by rw [e1, hc0, mul_one]))⟩
          · exact ⟨1, 0, 0, one_pos, Or.inr (Or.inr (by rw [e2, hc0, mul_one]))⟩
          · exact ⟨_, _, _, sub_pos.mpr hlt, Or.inl (slice_affine _ _ _ _ _)⟩) d
    have hs := ofPseudo_symm y
    obtain ⟨j0, j1, j2⟩ := ofPseudo_J y y0
    refine ⟨ofPseudo y, rfl, hs, ?_, fun eps heps => ?_⟩
    · rw [symProd_trace _ _ _ (IP.J_symm _ hs), ← pairing_lin_mul (IP.J_symm _ hs) j0 j1 j2]
      refine y2 _ ?_
      rw [hl]
      dsimp only
      rw [← ofTerms_affine, ← ofTerms_affine, map_mul, e1, e2]
    · have key : Py.Holds (P.momentSdpConstraints (.mat (ofPseudo y).J) eps d) := by
        refine (C52_relaxation P hP _ eps heps d hd).mpr ⟨y, j0, j1, j2, ?_, fun f hf => ?_⟩
        · exact y1 _ List.mem_cons_self d le_rfl
        · exact y1 _ (List.mem_cons_of_mem _ (List.mem_map.mpr ⟨f, hf, rfl⟩)) _ (Nat.sub_le _ _)
      obtain ⟨c, c', hc, hc', -, -⟩ := C19_vec (ofPseudo y) hs eps heps
      refine ⟨key, ?_⟩
      unfold Poly.momentSdpConstraints at key ⊢
      rw [hc'] at key
      rw [hc]
      exact key

/-- The hypotheses of `C85_objective` hold for every box with positive half extents. -/
theorem box_edge (b : Box K) (hR : Spec.Orthogonal b.rotation) (hh : ∀ i, 0 < b.halfExtents i) :
    ∃ f₁ ∈ b.toPoly.faceForm.faces, ∃ f₂ ∈ b.toPoly.faceForm.faces, LinearIndependent K ![f₁.1, f₂.1] ∧
      ∃ p : Fin 3 → K, f₁.1 ⬝ᵥ p = f₁.2 ∧ f₂.1 ⬝ᵥ p = f₂.2 ∧
        ∀ f ∈ b.toPoly.faceForm.faces, f = f₁ ∨ f = f₂ ∨ f.1 ⬝ᵥ p < f.2 := by
  set F : (Fin 3 → K) × K → (Fin 3 → K) × K := fun ab => (ab.1 ᵥ* b.rotationᵀ, ab.2 + (ab.1 ᵥ* b.rotationᵀ) ⬝ᵥ b.center) with hF
  have hfaces : b.toPoly.faceForm.faces = [(![1, 0, 0], b.halfExtents 0), (![-1, 0, 0], b.halfExtents 0),
      (![0, 1, 0], b.halfExtents 1), (![0, -1, 0], b.halfExtents 1), (![0, 0, 1], b.halfExtents 2),
      (![0, 0, -1], b.halfExtents 2)].map F := rfl
  set y : Fin 3 → K := ![b.halfExtents 0, b.halfExtents 1, 0] with hy
  have hdot : ∀ ab : (Fin 3 → K) × K, (F ab).1 ⬝ᵥ (b.rotation *ᵥ y + b.center) = ab.1 ⬝ᵥ y + (F ab).1 ⬝ᵥ b.center := by
    intro ab
    rw [dotProduct_add]
    congr 1
    rw [hF]
    dsimp only
    rw [← dotProduct_mulVec, mulVec_mulVec, show b.rotationᵀ * b.rotation = 1 from hR, one_mulVec]
  have h2 : ∀ ab : (Fin 3 → K) × K, (F ab).2 = ab.2 + (F ab).1 ⬝ᵥ b.center := fun ab => rfl
  rw [hfaces]
  refine ⟨F (![1, 0, 0], b.halfExtents 0), by simp, F (![0, 1, 0], b.halfExtents 1), by simp, ?_,
    b.rotation *ᵥ y + b.center, ?_, ?_, ?_⟩
  · rw [LinearIndependent.pair_iff]
    intro s t h
    have h' := congrArg (fun v => v ᵥ* b.rotation) h
    simp only [hF, add_vecMul, smul_vecMul, vecMul_vecMul, show b.rotationᵀ * b.rotation = 1 from hR, vecMul_one,
      zero_vecMul] at h'
    have e0 := congrFun h' 0
    have e1 := congrFun h' 1
    simp at e0 e1
    exact ⟨e0, e1⟩
  · rw [hdot, h2]; simp [hy]
  · rw [hdot, h2]; simp [hy]
  · intro f hf
    have h0 := hh 0; have h1 := hh 1; have h2' := hh 2
    simp only [List.map_cons, List.map_nil, List.mem_cons, List.not_mem_nil, or_false] at hf
    rcases hf with rfl | rfl | rfl | rfl | rfl | rfl
    · exact Or.inl rfl
    · right; right; rw [hdot, h2]; simp [hy]; linarith
    · exact Or.inr (Or.inl rfl)
    · right; right; rw [hdot, h2]; simp [hy]; linarith
    · right; right; rw [hdot, h2]; simp [hy]; linarith
    · right; right; rw [hdot, h2]; simp [hy]; linarith

theorem box_halfspaces_eq (b : Box K) (hR : Spec.Orthogonal b.rotation) :
    Spec.halfspaces b.toPoly.faceForm.faces = Spec.box b.halfExtents b.rotation b.center := by
  ext p
  rw [← C25_contains b hR, Box.contains_iff, ← boxIneqs_iff]
  simp [Spec.halfspaces, Box.toPoly, FaceForm.init]

/-- C85: the moment relaxation of a box with positive half extents is exact at no order. There is a linear objective
that is non-negative for all bodies inside the box, but for every order `d` there are parameters of mass one that
`moment_sdp_constraints` accepts and on which the objective is negative. -/
theorem C85_box (b : Box K) (hR : Spec.Orthogonal b.rotation) (hh : ∀ i, 0 < b.halfExtents i) :
    ∃ D : Matrix (Fin 4) (Fin 4) K, Dᵀ = D ∧
      (∀ q : IP K, Spec.Realizable (Spec.box b.halfExtents b.rotation b.center) q.mass q.h q.H →
        0 ≤ (D * q.J).trace) ∧
      ∀ d : ℕ, 1 ≤ d → ∃ q : IP K, q.mass = 1 ∧ q.Hᵀ = q.H ∧ (D * q.J).trace < 0 ∧ ∀ eps : K, 0 ≤ eps →
        Py.Holds (b.momentSdpConstraints (.mat q.J) eps d) ∧ Py.Holds (b.momentSdpConstraints (.vec q.vec) eps d) := by
  obtain ⟨f₁, hf₁, f₂, hf₂, hind, p, h1, h2, h3⟩ := box_edge b hR hh
  rw [← box_halfspaces_eq b hR]
  exact C85_objective b.toPoly (box_rows_ne_zero b hR) f₁ f₂ hf₁ hf₂ hind p h1 h2 h3

/-- C85: so at every order the relaxation accepts parameters that no body inside the polyhedron has. -/
theorem C85_not_exact (P : Poly K 3) (hP : ∀ f ∈ P.faceForm.faces, f.1 ≠ 0) (f₁ f₂ : (Fin 3 → K) × K)
    (hf₁ : f₁ ∈ P.faceForm.faces) (hf₂ : f₂ ∈ P.faceForm.faces) (hind : LinearIndependent K ![f₁.1, f₂.1])
    (p : Fin 3 → K) (hp₁ : f₁.1 ⬝ᵥ p = f₁.2) (hp₂ : f₂.1 ⬝ᵥ p = f₂.2)
    (hp : ∀ f ∈ P.faceForm.faces, f = f₁ ∨ f = f₂ ∨ f.1 ⬝ᵥ p < f.2) (d : ℕ) (hd : 1 ≤ d) :
    ∃ q : IP K, q.mass = 1 ∧ q.Hᵀ = q.H ∧
      ¬ Spec.Realizable (Spec.halfspaces P.faceForm.faces) q.mass q.h q.H ∧ ∀ eps : K, 0 ≤ eps →
        Py.Holds (P.momentSdpConstraints (.mat q.J) eps d) ∧ Py.Holds (P.momentSdpConstraints (.vec q.vec) eps d) := by
  obtain ⟨D, -, h1, h2⟩ := C85_objective P hP f₁ f₂ hf₁ hf₂ hind p hp₁ hp₂ hp
  obtain ⟨q, e, hs, hneg, hq⟩ := h2 d hd
  exact ⟨q, e, hs, fun h => absurd (h1 q h) (not_le.mpr hneg), hq⟩

/-- C85: for a box, parameters that the relaxation of order `d` accepts but that no mass distribution inside the box has,
continuous or discrete. -/
theorem C85_box_measure (b : Box ℝ) (hR : Spec.Orthogonal b.rotation) (hh : ∀ i, 0 < b.halfExtents i) (d : ℕ)
    (hd : 1 ≤ d) : ∃ q : IP ℝ, q.mass = 1 ∧ q.Hᵀ = q.H ∧
      (∀ eps : ℝ, 0 ≤ eps →
        Py.Holds (b.momentSdpConstraints (.mat q.J) eps d) ∧ Py.Holds (b.momentSdpConstraints (.vec q.vec) eps d)) ∧
      ¬ ∃ μ : MeasureTheory.Measure (Fin 3 → ℝ), Spec.CarriedBy μ (Spec.box b.halfExtents b.rotation b.center) ∧
        Spec.HasMoments μ q.mass q.h q.H := by
  obtain ⟨D, -, h1, h2⟩ := C85_box b hR hh
  obtain ⟨q, e, hs, hneg, hq⟩ := h2 d hd
  refine ⟨q, e, hs, hq, fun ⟨μ, hc, hm⟩ => ?_⟩
  exact absurd (h1 q (C60_point_masses _ (box_compact _ (fun i => (hh i).le) hR _) μ hc _ _ _ hm)) (not_le.mpr hneg)

example : ∀ d : ℕ, 1 ≤ d → ∃ q : IP ℝ, q.mass = 1 ∧ q.Hᵀ = q.H ∧
    (∀ eps : ℝ, 0 ≤ eps → Py.Holds ((⟨![1, 2, 3], 1, 0⟩ : Box ℝ).momentSdpConstraints (.mat q.J) eps d) ∧
      Py.Holds ((⟨![1, 2, 3], 1, 0⟩ : Box ℝ).momentSdpConstraints (.vec q.vec) eps d)) ∧
    ¬ ∃ μ : MeasureTheory.Measure (Fin 3 → ℝ), Spec.CarriedBy μ (Spec.box ![1, 2, 3] 1 0) ∧
      Spec.HasMoments μ q.mass q.h q.H := fun d hd =>
  C85_box_measure ⟨![1, 2, 3], 1, 0⟩ (by simp [Spec.Orthogonal]) (by intro i; fin_cases i <;> norm_num) d hd

/-- The slice of a polynomial given by its terms. -/
theorem slice_ofTerms (p u v : Fin n → K) (g : List ((Fin n → ℕ) × K)) :
    slice p u v (ofTerms g) = (g.map fun t => .C (.C t.2) * ∏ i, aff (p i) (u i) (v i) ^ t.1 i).sum := by
  rw [ofTerms, map_list_sum, List.map_map]
  refine congrArg List.sum (List.map_congr_left fun t _ => ?_)
  simp only [Function.comp_apply, slice, coe_eval₂Hom, eval₂_monomial]
  rw [Finsupp.prod_fintype _ _ (fun _ => pow_zero _)]
  rfl

/-- C86: the moment relaxation of a cylinder is exact at no order: there is a linear objective `D` that is non-negative
for all bodies inside the cylinder, but for every order `d` there are parameters of mass one that
`moment_sdp_constraints` accepts and on which the objective is negative. -/
theorem C86_objective (c : Cylinder K) (hR : Spec.Orthogonal c.rotation) (hl : 0 < c.length) (hr : 0 < c.radius) :
    ∃ D : Matrix (Fin 4) (Fin 4) K, Dᵀ = D ∧
      (∀ q : IP K, Spec.Realizable (Spec.cylinder c.length c.radius c.rotation c.center) q.mass q.h q.H →
        0 ≤ (D * q.J).trace) ∧
      ∀ d : ℕ, 1 ≤ d → ∃ q : IP K, q.mass = 1 ∧ q.Hᵀ = q.H ∧ (D * q.J).trace < 0 ∧ ∀ eps : K, 0 ≤ eps →
        Py.Holds (c.momentSdpConstraints (.mat q.J) eps d) ∧ Py.Holds (c.momentSdpConstraints (.vec q.vec) eps d) := by
  set T := transformMatrix c.rotation c.center with hT
  set Ti := transformMatrixInv c.rotation c.center with hTi
  have hTT : Ti * T = 1 := (C06_transformMatrixInv c.rotation c.center hR).1
  set h := (1 / 2) * c.length with hh
  have hh0 : 0 < h := by positivity
  set l₁ : Fin 4 → K := Fin.snoc (α := fun _ => K) ![-1, 0, 0] c.radius with hl₁
  set l₂ : Fin 4 → K := Fin.snoc (α := fun _ => K) ![0, 0, -1] h with hl₂
  have form : ∀ J : Matrix (Fin 4) (Fin 4) K, (l₁ ᵥ* Ti) ⬝ᵥ J *ᵥ (l₂ ᵥ* Ti) = l₁ ⬝ᵥ (Ti * J * Tiᵀ) *ᵥ l₂ := by
    intro J
    rw [← mulVec_transpose Ti l₂, mulVec_mulVec, ← dotProduct_mulVec, mulVec_mulVec, Matrix.mul_assoc]
  have hom : ∀ (l : Fin 4 → K) (x : Fin 3 → K), (l ᵥ* Ti) ⬝ᵥ Fin.snoc (α := fun _ => K) x 1 =
      l ⬝ᵥ Fin.snoc (α := fun _ => K) (c.rotationᵀ *ᵥ (x - c.center)) 1 := by
    intro l x
    rw [← dotProduct_mulVec, hTi, transformMatrixInv_snoc, one_smul]
  refine ⟨symProd (l₁ ᵥ* Ti) (l₂ ᵥ* Ti), symProd_symm _ _, fun q hq => ?_, fun d hd => ?_⟩
  · rw [symProd_trace _ _ _ (q.J_symm hq.symm)]
    refine pm_form hq _ _ (fun x hx => ?_) (fun x hx => ?_)
    · obtain ⟨-, h2⟩ := (Spec_cylinder_iff hR _ _ _ _).mp hx
      rw [hom, hl₁, dotProduct, Fin.sum_univ_castSucc, Fin.sum_univ_three]
      simp only [Fin.snoc_castSucc, Fin.snoc_last]
      simp
      exact le_of_sq_le_sq (by nlinarith [sq_nonneg ((c.rotationᵀ *ᵥ (x - c.center)) 1)]) hr.le
    · obtain ⟨h1, -⟩ := (Spec_cylinder_iff hR _ _ _ _).mp hx
      rw [hom, hl₂, dotProduct, Fin.sum_univ_castSucc, Fin.sum_univ_three]
      simp only [Fin.snoc_castSucc, Fin.snoc_last]
      simp
      rw [hh]
      linarith [(abs_le.mp h1).2]
  · set p : Fin 3 → K := ![c.radius, 0, h] with hp
    set u : Fin 3 → K := ![-1, 0, 0] with hu
    set v : Fin 3 → K := ![0, 0, -1] with hv
    have hlin : slice p u v (lin l₁ * lin l₂) = .C .X * .X := by
      rw [map_mul]
      simp only [lin, map_add, map_sum, map_mul, slice_C, slice_X, hl₁, hl₂, Fin.snoc_castSucc, Fin.snoc_last,
        Fin.sum_univ_three]
      simp [hp, hu, hv, aff]
      ring
    have w1 : Weight (slice p u v (ofTerms [(![0, 0, 1], 1), (![0, 0, 0], h)])) := by
      refine ⟨h + h, 0, -1, by positivity, Or.inl ?_⟩
      rw [slice_ofTerms]
      simp [Fin.prod_univ_three, hp, hu, hv, aff]
      ring
    have w2 : Weight (slice p u v (ofTerms [(![0, 0, 1], -1), (![0, 0, 0], h)])) := by
      refine ⟨1, 0, 0, one_pos, Or.inr (Or.inr ?_)⟩
      rw [slice_ofTerms]
      simp [Fin.prod_univ_three, hp, hu, hv, aff]
      ring
    have w3 : Weight (slice p u v (ofTerms [(![2, 0, 0], -1), (![0, 2, 0], -1), (![0, 0, 0], c.radius ^ 2)])) := by
      refine ⟨c.radius + c.radius, -1, 0, by positivity, Or.inr (Or.inl ?_)⟩
      rw [slice_ofTerms]
      simp [Fin.prod_univ_three, hp, hu, hv, aff]
      ring
    have w0 : Weight (slice p u v (ofTerms [(0, 1)])) := by
      refine ⟨1, 0, 0, one_pos, Or.inl ?_⟩
      rw [slice_ofTerms]
      simp [aff]
    obtain ⟨y, y0, y1, y2⟩ := exists_pseudo p u v [[(0, 1)], [(![0, 0, 1], 1), (![0, 0, 0], h)],
      [(![0, 0, 1], -1), (![0, 0, 0], h)], [(![2, 0, 0], -1), (![0, 2, 0], -1), (![0, 0, 0], c.radius ^ 2)]] (by
        intro g hg
        simp only [List.mem_cons, List.not_mem_nil, or_false] at hg
        rcases hg with rfl | rfl | rfl | rfl
        exacts [w0, w1, w2, w3]) d
    have hs := ofPseudo_symm y
    obtain ⟨j0, j1, j2⟩ := ofPseudo_J y y0
    set G := T * (ofPseudo y).J * Tᵀ with hG
    have hGs : Gᵀ = G := by
      rw [hG, transpose_mul, transpose_mul, transpose_transpose, IP.J_symm _ hs, Matrix.mul_assoc]
    have hGl : G (Fin.last 3) (Fin.last 3) = 1 := by
      rw [hG, hT, transformMatrix, IP.J, bordered_mul, bordered_transpose, bordered_mul, bordered_ll]
      simp [ofPseudo]
    have hback : Ti * G * Tiᵀ = (ofPseudo y).J := by
      calc Ti * G * Tiᵀ = (Ti * T) * (ofPseudo y).J * (Ti * T)ᵀ := by
            rw [hG, transpose_mul]; simp only [Matrix.mul_assoc]
        _ = _ := by rw [hTT, transpose_one, Matrix.one_mul, Matrix.mul_one]
    set q : IP K := ⟨1, fun i => G i.castSucc (Fin.last 3), Matrix.of fun i j => G i.castSucc j.castSucc⟩ with hq
    have hqJ : q.J = G := by
      apply ext_last
      · intro i j; rw [IP.J, bordered_cc]; rfl
      · intro i; rw [IP.J, bordered_cl]; simp [IP.h, hq]
      · intro i
        rw [IP.J, bordered_lc]
        simp only [IP.h, hq, one_smul]
        exact congrFun (congrFun hGs (Fin.last 3)) i.castSucc
      · rw [IP.J, bordered_ll, hGl]
    have hqs : q.Hᵀ = q.H := by
      ext i j
      exact congrFun (congrFun hGs i.castSucc) j.castSucc
    refine ⟨q, rfl, hqs, ?_, fun eps heps => ?_⟩
    · rw [symProd_trace _ _ _ (IP.J_symm _ hqs), form, hqJ, hback, ← pairing_lin_mul (IP.J_symm _ hs) j0 j1 j2]
      exact y2 _ hlin
    · have key : Py.Holds (momentSdp c.poly0s (Ti * q.J * Tiᵀ) d) := by
        rw [hqJ, hback, momentSdp_iff hd _ (fun f hf => by
          obtain ⟨h1, D, h2, h3⟩ := poly0s_wf c f hf
          exact ⟨h1, D, h2, by omega⟩)]
        refine ⟨y, j0, j1, j2, y1 _ (by simp) d le_rfl, fun f hf D hD => ?_⟩
        simp only [Cylinder.poly0s, List.mem_cons, List.not_mem_nil, or_false] at hf
        rcases hf with rfl | rfl | rfl
        all_goals
          rw [init_coefficients _ (by simp), LocalizedPSD_filter]
          exact y1 _ (by simp [hh]) _ (Nat.sub_le _ _)
      obtain ⟨a, a', ha, ha', -, -⟩ := C19_vec q hqs eps heps
      unfold Cylinder.momentSdpConstraints
      rw [ha, ha']
      exact ⟨key, key⟩

/-- C86: parameters that the relaxation of order `d` of a cylinder accepts but that no mass distribution inside the
cylinder has, continuous or discrete. -/
theorem C86_measure (c : Cylinder ℝ) (hR : Spec.Orthogonal c.rotation) (hl : 0 < c.length) (hr : 0 < c.radius) (d : ℕ)
    (hd : 1 ≤ d) : ∃ q : IP ℝ, q.mass = 1 ∧ q.Hᵀ = q.H ∧
      (∀ eps : ℝ, 0 ≤ eps →
        Py.Holds (c.momentSdpConstraints (.mat q.J) eps d) ∧ Py.Holds (c.momentSdpConstraints (.vec q.vec) eps d)) ∧
      ¬ ∃ μ : MeasureTheory.Measure (Fin 3 → ℝ),
        Spec.CarriedBy μ (Spec.cylinder c.length c.radius c.rotation c.center) ∧ Spec.HasMoments μ q.mass q.h q.H := by
  obtain ⟨D, -, h1, h2⟩ := C86_objective c hR hl hr
  obtain ⟨q, e, hs, hneg, hq⟩ := h2 d hd
  refine ⟨q, e, hs, hq, fun ⟨μ, hc, hm⟩ => ?_⟩
  exact absurd (h1 q (C60_point_masses _ (cylinder_compact _ _ hl.le hr.le hR _) μ hc _ _ _ hm)) (not_le.mpr hneg)

example : ∃ D : Matrix (Fin 4) (Fin 4) ℚ, Dᵀ = D ∧
    (∀ q : IP ℚ, Spec.Realizable (Spec.cylinder 4 1 1 0) q.mass q.h q.H → 0 ≤ (D * q.J).trace) ∧
    ∀ d : ℕ, 1 ≤ d → ∃ q : IP ℚ, q.mass = 1 ∧ q.Hᵀ = q.H ∧ (D * q.J).trace < 0 ∧ ∀ eps : ℚ, 0 ≤ eps →
      Py.Holds ((⟨4, 1, 1, 0⟩ : Cylinder ℚ).momentSdpConstraints (.mat q.J) eps d) ∧
      Py.Holds ((⟨4, 1, 1, 0⟩ : Cylinder ℚ).momentSdpConstraints (.vec q.vec) eps d) :=
  C86_objective ⟨4, 1, 1, 0⟩ (by simp [Spec.Orthogonal]) (by norm_num) (by norm_num)

end Rigeo
