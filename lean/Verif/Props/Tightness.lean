import Verif.Lemmas.Pseudo
import Verif.Props.Strengthen

/-!
# The custom box constraints against the moment relaxation (C84)
-/

namespace Rigeo

open Matrix MvPolynomial

variable {K : Type} [Field K] [LinearOrder K] [IsStrictOrderedRing K]

/-- A quadratic that the relaxation of order 2 proves non-negative on the cube. -/
theorem cube_certificate (L : MvPolynomial (Fin 3) K →ₗ[K] K) (u₁ u₂ u₃ : MvPolynomial (Fin 3) K)
    (d₁ : u₁.totalDegree ≤ 1) (d₂ : u₂.totalDegree ≤ 1) (d₃ : u₃.totalDegree ≤ 1)
    (h₁ : ∀ q : MvPolynomial (Fin 3) K, q.totalDegree ≤ 1 → 0 ≤ L ((1 - u₁) * q ^ 2))
    (h₂ : ∀ q : MvPolynomial (Fin 3) K, q.totalDegree ≤ 1 → 0 ≤ L ((1 - u₂) * q ^ 2) ∧ 0 ≤ L ((1 + u₂) * q ^ 2))
    (h₃ : ∀ q : MvPolynomial (Fin 3) K, q.totalDegree ≤ 1 → 0 ≤ L ((1 - u₃) * q ^ 2) ∧ 0 ≤ L ((1 + u₃) * q ^ 2)) :
    0 ≤ 832 * L (1 * 1) + 256 * L (u₂ * 1) + 256 * L (u₃ * 1) - 159 * L (u₂ * u₂) - 159 * L (u₃ * u₃) +
      128 * L (u₂ * u₃) - 512 * L (u₁ * 1) - 380 * L (u₁ * u₂) - 380 * L (u₁ * u₃) + 136 * L (u₁ * u₁) := by
  have dn : ∀ k : ℤ, (k : MvPolynomial (Fin 3) K).totalDegree ≤ 1 := fun k => by
    rw [← map_intCast (C : K →+* MvPolynomial (Fin 3) K), totalDegree_C]; exact zero_le
  have da : ∀ p q : MvPolynomial (Fin 3) K, p.totalDegree ≤ 1 → q.totalDegree ≤ 1 → (p + q).totalDegree ≤ 1 :=
    fun p q hp hq => (totalDegree_add p q).trans (max_le hp hq)
  have dm : ∀ (k : ℤ) (p : MvPolynomial (Fin 3) K), p.totalDegree ≤ 1 → ((k : MvPolynomial (Fin 3) K) * p).totalDegree ≤ 1 :=
    fun k p hp => (totalDegree_mul _ _).trans (by
      rw [← map_intCast (C : K →+* MvPolynomial (Fin 3) K), totalDegree_C, zero_add]; exact hp)
  have t1 := h₁ ((2 : ℤ) + u₂ + u₃) (da _ _ (da _ _ (dn _) d₂) d₃)
  have t2 := (h₂ (u₁ + (-1 : ℤ)) (da _ _ d₁ (dn _))).2
  have t3 := (h₂ (u₁ + (-1 : ℤ) * u₃) (da _ _ d₁ (dm _ _ d₃))).1
  have t4 := (h₃ (u₁ + (-1 : ℤ)) (da _ _ d₁ (dn _))).2
  have t5 := (h₃ (u₁ + (-1 : ℤ) * u₂) (da _ _ d₁ (dm _ _ d₂))).1
  have dq : ∀ (k : ℤ) (a b : MvPolynomial (Fin 3) K), a.totalDegree ≤ 1 → b.totalDegree ≤ 1 →
      ((16 : ℤ) + (k : MvPolynomial (Fin 3) K) * a + (-2 : ℤ) * u₁ + (-1 : ℤ) * b).totalDegree ≤ 1 := fun k a b ha hb =>
    da _ _ (da _ _ (da _ _ (dn _) (dm _ _ ha)) (dm _ _ d₁)) (dm _ _ hb)
  have t6 := (h₃ _ (dq 16 u₃ u₂ d₃ d₂)).1
  have t7 := (h₃ _ (dq (-16) u₃ u₂ d₃ d₂)).2
  have t8 := (h₂ _ (dq 16 u₂ u₃ d₂ d₃)).1
  have t9 := (h₂ _ (dq (-16) u₂ u₃ d₂ d₃)).2
  have sm : ∀ (k : ℤ) (p : MvPolynomial (Fin 3) K), (k : K) * L p = L ((k : MvPolynomial (Fin 3) K) * p) := fun k p => by
    rw [← zsmul_eq_mul, ← zsmul_eq_mul, map_zsmul]
  have key : ((832 : ℤ) : K) * L (1 * 1) + ((256 : ℤ) : K) * L (u₂ * 1) + ((256 : ℤ) : K) * L (u₃ * 1) +
      ((-159 : ℤ) : K) * L (u₂ * u₂) + ((-159 : ℤ) : K) * L (u₃ * u₃) + ((128 : ℤ) : K) * L (u₂ * u₃) +
      ((-512 : ℤ) : K) * L (u₁ * 1) + ((-380 : ℤ) : K) * L (u₁ * u₂) + ((-380 : ℤ) : K) * L (u₁ * u₃) +
      ((136 : ℤ) : K) * L (u₁ * u₁) =
      ((64 : ℤ) : K) * L ((1 - u₁) * ((2 : ℤ) + u₂ + u₃) ^ 2) + ((32 : ℤ) : K) * L ((1 + u₂) * (u₁ + (-1 : ℤ)) ^ 2) +
      ((32 : ℤ) : K) * L ((1 - u₂) * (u₁ + (-1 : ℤ) * u₃) ^ 2) + ((32 : ℤ) : K) * L ((1 + u₃) * (u₁ + (-1 : ℤ)) ^ 2) +
      ((32 : ℤ) : K) * L ((1 - u₃) * (u₁ + (-1 : ℤ) * u₂) ^ 2) +
      (1 / 2) * L ((1 - u₃) * ((16 : ℤ) + (16 : ℤ) * u₃ + (-2 : ℤ) * u₁ + (-1 : ℤ) * u₂) ^ 2) +
      (1 / 2) * L ((1 + u₃) * ((16 : ℤ) + (-16 : ℤ) * u₃ + (-2 : ℤ) * u₁ + (-1 : ℤ) * u₂) ^ 2) +
      (1 / 2) * L ((1 - u₂) * ((16 : ℤ) + (16 : ℤ) * u₂ + (-2 : ℤ) * u₁ + (-1 : ℤ) * u₃) ^ 2) +
      (1 / 2) * L ((1 + u₂) * ((16 : ℤ) + (-16 : ℤ) * u₂ + (-2 : ℤ) * u₁ + (-1 : ℤ) * u₃) ^ 2) := by
    rw [← sub_eq_zero]
    have two : (2 : K) ≠ 0 := two_ne_zero
    refine (mul_eq_zero.mp (?_ : ((2 : ℤ) : K) * _ = 0)).resolve_left (by simp)
    have h2 : ∀ p, ((2 : ℤ) : K) * (1 / 2 * L p) = L p := fun p => by push_cast; field_simp
    simp only [mul_sub, mul_add, h2]
    simp only [sm, ← map_add, ← map_sub]
    rw [← map_zero L]
    congr 1
    push_cast
    ring
  have pos : ∀ (k : K) {x : K}, 0 ≤ k → 0 ≤ x → 0 ≤ k * x := fun k x => mul_nonneg
  have h := key.symm ▸ add_nonneg (add_nonneg (add_nonneg (add_nonneg (add_nonneg (add_nonneg (add_nonneg (add_nonneg
    (pos ((64 : ℤ) : K) (by simp) t1) (pos ((32 : ℤ) : K) (by simp) t2)) (pos ((32 : ℤ) : K) (by simp) t3))
    (pos ((32 : ℤ) : K) (by simp) t4)) (pos ((32 : ℤ) : K) (by simp) t5)) (pos (1 / 2) (by simp) t6))
    (pos (1 / 2) (by simp) t7)) (pos (1 / 2) (by simp) t8)) (pos (1 / 2) (by simp) t9)
  push_cast at h
  linarith

/-- The polynomial `v 0 * x₀ + v 1 * x₁ + v 2 * x₂ + v 3`. -/
noncomputable def lin (v : Fin 4 → K) : MvPolynomial (Fin 3) K := ∑ i : Fin 3, C (v i.castSucc) * X i + C (v (Fin.last 3))

theorem lin_degree (v : Fin 4 → K) : (lin v).totalDegree ≤ 1 := by
  unfold lin
  refine (totalDegree_add _ _).trans (max_le (totalDegree_finsetSum_le fun i _ => ?_) ?_)
  · refine (totalDegree_mul _ _).trans ?_
    rw [totalDegree_C, totalDegree_X]
  · rw [totalDegree_C]; exact zero_le

theorem lin_add (v w : Fin 4 → K) : lin (v + w) = lin v + lin w := by
  simp only [lin, Pi.add_apply, C_add, add_mul, Finset.sum_add_distrib]; ring

theorem lin_smul (a : K) (v : Fin 4 → K) : lin (a • v) = C a * lin v := by
  simp only [lin, Pi.smul_apply, smul_eq_mul, C_mul, mul_add, Finset.mul_sum, mul_assoc]

theorem lin_single : lin (Pi.single (Fin.last 3) 1 : Fin 4 → K) = 1 := by
  unfold lin
  rw [Finset.sum_eq_zero fun i _ => by rw [Pi.single_eq_of_ne (Fin.castSucc_ne_last i), C_0, zero_mul],
    Pi.single_eq_same, C_1, zero_add]

theorem pairing_C_mul {n : ℕ} (y : (Fin n → ℕ) → K) (a : K) (p : MvPolynomial (Fin n) K) :
    pairing y (C a * p) = a * pairing y p := by
  rw [C_mul', map_smul, smul_eq_mul]

/-- The functional of the pseudo-moments on products of affine functions is the form `J`. -/
theorem pairing_lin_mul {y : (Fin 3 → ℕ) → K} {J : Matrix (Fin 4) (Fin 4) K} (hJ : Jᵀ = J) (e1 : y 0 = J 3 3)
    (e2 : ∀ i : Fin 3, y (Pi.single i 1) = J i.castSucc 3)
    (e3 : ∀ i j : Fin 3, y (Pi.single i 1 + Pi.single j 1) = J i.castSucc j.castSucc) (v w : Fin 4 → K) :
    pairing y (lin v * lin w) = v ⬝ᵥ J *ᵥ w := by
  have x0 : pairing y (1 : MvPolynomial (Fin 3) K) = J 3 3 := by
    have := pairing_monomial y (0 : Fin 3 →₀ ℕ) 1
    rw [one_mul] at this
    exact this.trans e1
  have hx : ∀ i : Fin 3, ⇑(Finsupp.single i 1 : Fin 3 →₀ ℕ) = Pi.single i 1 := fun i => Finsupp.single_eq_pi_single i 1
  have x1 : ∀ i : Fin 3, pairing y (X i) = J i.castSucc 3 := fun i => by
    rw [X, pairing_monomial, one_mul, hx, e2]
  have x2 : ∀ i j : Fin 3, pairing y (X i * X j) = J i.castSucc j.castSucc := fun i j => by
    rw [X, X, monomial_mul, pairing_monomial, Finsupp.coe_add, hx, hx, e3]; ring
  have hs : ∀ i : Fin 3, J 3 i.castSucc = J i.castSucc 3 := fun i => congrFun (congrFun hJ i.castSucc) 3
  have e : lin v * lin w = ∑ i : Fin 3, ∑ j : Fin 3, C (v i.castSucc * w j.castSucc) * (X i * X j) +
      ∑ i : Fin 3, C (v i.castSucc * w (Fin.last 3)) * X i + ∑ i : Fin 3, C (v (Fin.last 3) * w i.castSucc) * X i +
      C (v (Fin.last 3) * w (Fin.last 3)) * 1 := by
    simp only [lin, Fin.sum_univ_three, C_mul]; ring
  rw [e]
  simp only [map_add, map_sum, pairing_C_mul, x0, x1, x2]
  simp only [dotProduct, mulVec, Fin.sum_univ_castSucc (n := 3)]
  rw [show (Fin.last 3) = (3 : Fin 4) from rfl]
  simp only [hs, Fin.sum_univ_three]
  ring

theorem ofTerms_affine (a : Fin 3 → K) (b : K) :
    ofTerms (Spec.affineTerms a b) = lin (Fin.snoc (α := fun _ => K) (-a) b) := by
  unfold ofTerms Spec.affineTerms lin
  simp only [List.map_cons, List.sum_cons, List.map_map, Function.comp_def, Fin.snoc_castSucc, Fin.snoc_last]
  rw [← List.ofFn_eq_map, List.sum_ofFn, add_comm]
  have h0 : Finsupp.equivFunOnFinite.symm (0 : Fin 3 → ℕ) = 0 := by ext; simp
  have h1 : ∀ i : Fin 3, Finsupp.equivFunOnFinite.symm (Pi.single i 1 : Fin 3 → ℕ) = Finsupp.single i 1 := fun i => by
    ext j; simp [Finsupp.single_eq_pi_single]
  congr 1
  · refine Finset.sum_congr rfl fun i _ => ?_
    rw [h1, C_mul_X_eq_monomial]; rfl
  · rw [h0]; rfl

theorem box_rows_ne_zero (b : Box K) (hR : Spec.Orthogonal b.rotation) :
    ∀ f ∈ b.toPoly.faceForm.faces, f.1 ≠ 0 := by
  intro f hf h0
  have key : ∀ a : Fin 3 → K, a ᵥ* b.rotationᵀ = 0 → a = 0 := by
    intro a ha
    have := congrArg (fun v => v ᵥ* b.rotation) ha
    simpa [vecMul_vecMul, show b.rotationᵀ * b.rotation = 1 from hR] using this
  simp only [Box.toPoly, FaceForm.init, Box.boxIneqs, List.mem_map] at hf
  obtain ⟨ab, hab, rfl⟩ := hf
  have h1 := key ab.1 h0
  simp only [List.mem_cons, List.not_mem_nil, or_false] at hab
  rcases hab with rfl | rfl | rfl | rfl | rfl | rfl <;> simp at h1

/-- The two faces of a box across its axis `i`, as affine functions. -/
theorem box_face_lin (b : Box K) (i : Fin 3) :
    (∃ f ∈ b.toPoly.faceForm.faces, ofTerms (Spec.affineTerms f.1 f.2) =
      lin (b.halfExtents i • Pi.single (Fin.last 3) 1 + (-1 : K) • transformMatrixInv b.rotation b.center i.castSucc)) ∧
    ∃ f ∈ b.toPoly.faceForm.faces, ofTerms (Spec.affineTerms f.1 f.2) =
      lin (b.halfExtents i • Pi.single (Fin.last 3) 1 + transformMatrixInv b.rotation b.center i.castSucc) := by
  have key : ∀ (s : K) (f : (Fin 3 → K) × K),
      f = ((s • Pi.single i 1) ᵥ* b.rotationᵀ, b.halfExtents i + ((s • Pi.single i 1) ᵥ* b.rotationᵀ) ⬝ᵥ b.center) →
      ofTerms (Spec.affineTerms f.1 f.2) =
        lin (b.halfExtents i • Pi.single (Fin.last 3) 1 + (-s) • transformMatrixInv b.rotation b.center i.castSucc) := by
    rintro s f rfl
    rw [ofTerms_affine]
    congr 1
    funext k
    refine Fin.lastCases ?_ (fun j => ?_) k
    · rw [Fin.snoc_last]
      simp only [transformMatrixInv, transformMatrix, Pi.add_apply, Pi.smul_apply, Pi.single_eq_same, smul_eq_mul, mul_one,
        bordered_cl, smul_vecMul, single_one_vecMul, smul_dotProduct, neg_mulVec, Pi.neg_apply]
      simp only [mulVec]
      ring_nf
      rfl
    · rw [Fin.snoc_castSucc]
      simp only [transformMatrixInv, transformMatrix, Pi.add_apply, Pi.smul_apply, smul_eq_mul, bordered_cc, smul_vecMul,
        single_one_vecMul, Pi.neg_apply]
      rw [Pi.single_eq_of_ne (Fin.castSucc_ne_last j)]
      simp [row]
  have e : ∀ (s : K), (s = 1 ∨ s = -1) → (((s • Pi.single i 1) ᵥ* b.rotationᵀ,
      b.halfExtents i + ((s • Pi.single i 1) ᵥ* b.rotationᵀ) ⬝ᵥ b.center) : (Fin 3 → K) × K) ∈ b.toPoly.faceForm.faces := by
    intro s hs
    simp only [Box.toPoly, FaceForm.init, Box.boxIneqs]
    refine List.mem_map.mpr ⟨(s • Pi.single i 1, b.halfExtents i), ?_, rfl⟩
    have h3 : ∀ a : Fin 3 → K, a = ![a 0, a 1, a 2] := fun a => by ext j; fin_cases j <;> rfl
    rw [h3 (s • Pi.single i 1)]
    rcases hs with rfl | rfl <;> fin_cases i <;> simp
  refine ⟨⟨_, e 1 (Or.inl rfl), key 1 _ rfl⟩, ⟨_, e (-1) (Or.inr rfl), ?_⟩⟩
  rw [key (-1) _ rfl, neg_neg, one_smul]

/-- The scaled inverse transform of a box: the box is the set where its first three components are between
-1 and 1. -/
def unitMap (b : Box K) : Matrix (Fin 4) (Fin 4) K :=
  bordered (Matrix.diagonal fun i => (b.halfExtents i)⁻¹) 0 0 1 * transformMatrixInv b.rotation b.center

theorem unitMap_castSucc (b : Box K) (i : Fin 3) :
    unitMap b i.castSucc = (b.halfExtents i)⁻¹ • transformMatrixInv b.rotation b.center i.castSucc := by
  funext k
  rw [unitMap, mul_apply, Fin.sum_univ_castSucc, Finset.sum_eq_single i]
  · rw [bordered_cc, bordered_cl, diagonal_apply_eq]; simp
  · intro j _ hj
    rw [bordered_cc, diagonal_apply_ne _ hj.symm, zero_mul]
  · simp

theorem unitMap_last (b : Box K) : unitMap b (Fin.last 3) = Pi.single (Fin.last 3) 1 := by
  funext k
  rw [unitMap, mul_apply, Fin.sum_univ_castSucc, Finset.sum_eq_zero]
  · rw [bordered_ll, zero_add, one_mul]
    refine Fin.lastCases ?_ (fun j => ?_) k
    · rw [transformMatrixInv, transformMatrix, bordered_ll, Pi.single_eq_same]
    · rw [transformMatrixInv, transformMatrix, bordered_lc, Pi.single_eq_of_ne (Fin.castSucc_ne_last j)]; rfl
  · intro i _
    rw [bordered_lc]; simp

/-- An inequality that every solution of the relaxation of order at least 2 satisfies. -/
theorem box_relaxation_bound (b : Box K) (hR : Spec.Orthogonal b.rotation) (hh : ∀ i, 0 < b.halfExtents i)
    (J : Matrix (Fin 4) (Fin 4) K) (hJ : Jᵀ = J) (eps : K) (heps : 0 ≤ eps) (d : ℕ) (hd : 2 ≤ d)
    (h : Py.Holds (b.momentSdpConstraints (.mat J) eps d)) :
    let G := unitMap b * J * (unitMap b)ᵀ
    0 ≤ 832 * G 3 3 + 256 * G 1 3 + 256 * G 2 3 - 159 * G 1 1 - 159 * G 2 2 + 128 * G 1 2 - 512 * G 0 3 -
      380 * G 0 1 - 380 * G 0 2 + 136 * G 0 0 := by
  intro G
  obtain ⟨y, e1, e2, e3, -, h5⟩ := (C52_relaxation b.toPoly (box_rows_ne_zero b hR) J eps heps d (by omega)).mp h
  have hG : ∀ i j, G i j = pairing y (lin (unitMap b i) * lin (unitMap b j)) := by
    intro i j
    rw [pairing_lin_mul hJ e1 e2 e3]
    simp only [G]
    rw [Matrix.mul_assoc, mul_apply_eq_vecMul, vecMul_eq_sum]
    simp [dotProduct, mulVec, mul_apply, Finset.sum_apply]
  have h1 : lin (unitMap b 3) = 1 := by rw [show (3 : Fin 4) = Fin.last 3 from rfl, unitMap_last, lin_single]
  have hpos : ∀ (i : Fin 3) (q : MvPolynomial (Fin 3) K), q.totalDegree ≤ 1 →
      0 ≤ pairing y ((1 - lin (unitMap b i.castSucc)) * q ^ 2) ∧
      0 ≤ pairing y ((1 + lin (unitMap b i.castSucc)) * q ^ 2) := by
    intro i q hq
    obtain ⟨⟨f, hf, ef⟩, f', hf', ef'⟩ := box_face_lin b i
    have hc : C (b.halfExtents i)⁻¹ * C (b.halfExtents i) = (1 : MvPolynomial (Fin 3) K) := by
      rw [← C_mul, inv_mul_cancel₀ (hh i).ne', C_1]
    have t := LocalizedPSD.pairing_nonneg (h5 f hf) q (by omega)
    have t' := LocalizedPSD.pairing_nonneg (h5 f' hf') q (by omega)
    rw [ef, lin_add, lin_smul, lin_smul, lin_single] at t
    rw [ef', lin_add, lin_smul, lin_single] at t'
    rw [unitMap_castSucc, lin_smul]
    have hn : (C (-1 : K) : MvPolynomial (Fin 3) K) = -1 := by rw [C_neg, C_1]
    have hi : 0 ≤ (b.halfExtents i)⁻¹ := (inv_pos.mpr (hh i)).le
    constructor
    · convert mul_nonneg hi t using 1
      rw [← pairing_C_mul, hn]
      congr 1
      linear_combination (-q ^ 2) * hc
    · convert mul_nonneg hi t' using 1
      rw [← pairing_C_mul]
      congr 1
      linear_combination (-q ^ 2) * hc
  have := cube_certificate (pairing y) (lin (unitMap b 0)) (lin (unitMap b 1)) (lin (unitMap b 2))
    (lin_degree _) (lin_degree _) (lin_degree _) (fun q hq => (hpos 0 q hq).1) (hpos 1) (hpos 2)
  rw [← h1] at this
  simpa only [← hG] using this

/-- The moments of a body in the unit cube (second moments, then first moments and mass). -/
def gapMoments : Matrix (Fin 4) (Fin 4) K :=
  !![4/5, 1/2, 1/2, 1/2; 1/2, 1, 0, 0; 1/2, 0, 1, 0; 1/2, 0, 0, 1]

/-- The objective that separates them from the relaxation. -/
def gapObjective : Matrix (Fin 4) (Fin 4) K :=
  !![-136, 190, 190, 256; 190, 159, -64, -128; 190, -64, 159, -128; 256, -128, -128, -832]

theorem gap_trace (G : Matrix (Fin 4) (Fin 4) K) (hG : Gᵀ = G) :
    (gapObjective * G).trace = -(832 * G 3 3 + 256 * G 1 3 + 256 * G 2 3 - 159 * G 1 1 - 159 * G 2 2 + 128 * G 1 2 -
      512 * G 0 3 - 380 * G 0 1 - 380 * G 0 2 + 136 * G 0 0) := by
  have hs : ∀ i j, G i j = G j i := fun i j => congrFun (congrFun hG j) i
  simp only [trace, diag_apply, mul_apply, Fin.sum_univ_four, gapObjective]
  simp
  rw [hs 1 0, hs 2 0, hs 3 0, hs 2 1, hs 3 1, hs 3 2]
  ring

theorem gapMoments_psd : Spec.PSD (gapMoments : Matrix (Fin 4) (Fin 4) K) := by
  refine ⟨by ext i j; fin_cases i <;> fin_cases j <;> rfl, fun v => ?_⟩
  have : v ⬝ᵥ gapMoments *ᵥ v = (v 1 + v 0 / 2) ^ 2 + (v 2 + v 0 / 2) ^ 2 + (v 3 + v 0 / 2) ^ 2 + v 0 ^ 2 / 20 := by
    simp only [dotProduct, mulVec, Fin.sum_univ_four, gapMoments]
    simp
    ring
  rw [this]; positivity

/-- C84: the custom vertex constraints of a box are not tighter than the moment relaxation. For every box with
positive half extents there are an objective `D` and a matrix `J` of mass one that
`moment_custom_vertex_constraints` accepts, such that `J` has a positive objective value but every matrix that
`moment_sdp_constraints` accepts, at any order `d ≥ 2`, has a non-positive one. So with this objective the
maximum under the custom constraints is larger than the maximum under the relaxation, which is the opposite of
what scripts/experiments/process_drip_data.py expects and tests/test_box_realizability.py asserts. -/
theorem C84_objective (b : Box K) (hR : Spec.Orthogonal b.rotation) (hh : ∀ i, 0 < b.halfExtents i) :
    ∃ D J : Matrix (Fin 4) (Fin 4) K, Dᵀ = D ∧ Spec.PSD J ∧ J 3 3 = 1 ∧
      Py.Holds (b.momentCustomVertexConstraints (.mat J)) ∧ 0 < (D * J).trace ∧
      ∀ (J' : Matrix (Fin 4) (Fin 4) K) (eps : K) (d : ℕ), J'ᵀ = J' → 0 ≤ eps → 2 ≤ d →
        Py.Holds (b.momentSdpConstraints (.mat J') eps d) → (D * J').trace ≤ 0 := by
  set E : Matrix (Fin 4) (Fin 4) K := bordered (Matrix.diagonal b.halfExtents) 0 0 1 with hE
  set Ei : Matrix (Fin 4) (Fin 4) K := bordered (Matrix.diagonal fun i => (b.halfExtents i)⁻¹) 0 0 1 with hEi
  set T := transformMatrix b.rotation b.center with hT
  set Ti := transformMatrixInv b.rotation b.center with hTi
  have hTT : Ti * T = 1 := (C06_transformMatrixInv b.rotation b.center hR).1
  have hEd : ∀ k : Fin 3 → K, (bordered (Matrix.diagonal k) 0 0 1 : Matrix (Fin 4) (Fin 4) K) =
      Matrix.diagonal ![k 0, k 1, k 2, 1] := by
    intro k
    apply ext_last
    · intro i j; rw [bordered_cc]; fin_cases i <;> fin_cases j <;> simp [Matrix.diagonal_apply]
    · intro i; rw [bordered_cl]; fin_cases i <;> simp [Matrix.diagonal_apply]
    · intro i; rw [bordered_lc]; fin_cases i <;> simp [Matrix.diagonal_apply]
    · rw [bordered_ll]; simp [Matrix.diagonal_apply]
  have hEE : Ei * E = 1 := by
    rw [hEi, hE, hEd, hEd, diagonal_mul_diagonal, ← diagonal_one]
    congr 1
    funext i
    have h0 := (hh 0).ne'; have h1 := (hh 1).ne'; have h2 := (hh 2).ne'
    fin_cases i <;> simp [h0, h1, h2]
  have hU : unitMap b = Ei * Ti := rfl
  have htr : ∀ J : Matrix (Fin 4) (Fin 4) K, ((unitMap b)ᵀ * gapObjective * unitMap b * J).trace =
      (gapObjective * (unitMap b * J * (unitMap b)ᵀ)).trace := by
    intro J
    rw [Matrix.mul_assoc, Matrix.mul_assoc, trace_mul_comm]
    simp only [Matrix.mul_assoc]
  have hsymm : ∀ J : Matrix (Fin 4) (Fin 4) K, Jᵀ = J → (unitMap b * J * (unitMap b)ᵀ)ᵀ = unitMap b * J * (unitMap b)ᵀ := by
    intro J hJ
    rw [transpose_mul, transpose_mul, transpose_transpose, hJ, Matrix.mul_assoc]
  have hG : unitMap b * (T * E * gapMoments * (T * E)ᵀ) * (unitMap b)ᵀ = gapMoments := by
    have h1 : unitMap b * (T * E) = 1 := by
      rw [hU, Matrix.mul_assoc, ← Matrix.mul_assoc Ti, hTT, Matrix.one_mul, hEE]
    calc _ = unitMap b * (T * E) * gapMoments * (unitMap b * (T * E))ᵀ := by
          rw [transpose_mul (unitMap b)]; simp only [Matrix.mul_assoc]
      _ = _ := by rw [h1, transpose_one, Matrix.one_mul, Matrix.mul_one]
  have hpsd : Spec.PSD (T * E * gapMoments * (T * E)ᵀ) := gapMoments_psd.congr _
  refine ⟨(unitMap b)ᵀ * gapObjective * unitMap b, T * E * gapMoments * (T * E)ᵀ, ?_, hpsd, ?_, ?_, ?_, ?_⟩
  · have : (gapObjective : Matrix (Fin 4) (Fin 4) K)ᵀ = gapObjective := by
      ext i j; fin_cases i <;> fin_cases j <;> rfl
    rw [transpose_mul, transpose_mul, transpose_transpose, this, Matrix.mul_assoc]
  · have hrow : (T * E) (Fin.last 3) = Pi.single (Fin.last 3) 1 := by
      rw [hT, hE, transformMatrix, bordered_mul]
      funext k
      refine Fin.lastCases ?_ (fun j => ?_) k
      · rw [bordered_ll]; simp
      · rw [bordered_lc, Pi.single_eq_of_ne (Fin.castSucc_ne_last j)]; simp
    have : ∀ W G : Matrix (Fin 4) (Fin 4) K, W (Fin.last 3) = Pi.single (Fin.last 3) 1 →
        (W * G * Wᵀ) (Fin.last 3) (Fin.last 3) = G (Fin.last 3) (Fin.last 3) := by
      intro W G hW
      simp only [mul_apply, transpose_apply, hW]
      rw [Finset.sum_eq_single (Fin.last 3)]
      · rw [Finset.sum_eq_single (Fin.last 3)]
        · simp
        · intro j _ hj; rw [Pi.single_eq_of_ne hj, zero_mul]
        · simp
      · intro j _ hj; rw [Pi.single_eq_of_ne hj, mul_zero]
      · simp
    exact (this _ _ hrow).trans rfl
  · obtain ⟨c, hc, hc'⟩ := C19_mat (T * E * gapMoments * (T * E)ᵀ) 0 le_rfl
    have hf : BoxFeasible b.halfExtents (Ti * (T * E * gapMoments * (T * E)ᵀ) * Tiᵀ) := by
      have : Ti * (T * E * gapMoments * (T * E)ᵀ) * Tiᵀ = E * gapMoments * Eᵀ := by
        calc _ = (Ti * T) * E * gapMoments * Eᵀ * (Ti * T)ᵀ := by
              rw [transpose_mul Ti, transpose_mul T]; simp only [Matrix.mul_assoc]
          _ = _ := by rw [hTT, transpose_one, Matrix.one_mul, Matrix.mul_one]
      rw [this]
      unfold BoxFeasible
      rw [boxVerts_eq]
      refine ⟨![1/4, 1/4, 1/4, 0, 0, 0, 0, 1/4], ?_, ?_⟩
      · intro k
        change Fin 8 at k
        fin_cases k <;> simp
      · intro Jv
        have hh3 : ∀ v : Fin 3 → K, IP.hom v 3 = 1 := fun v => rfl
        have hh0 : ∀ v : Fin 3 → K, IP.hom v 0 = v 0 := fun v => rfl
        have hh1 : ∀ v : Fin 3 → K, IP.hom v 1 = v 1 := fun v => rfl
        have hh2 : ∀ v : Fin 3 → K, IP.hom v 2 = v 2 := fun v => rfl
        set h := b.halfExtents with hdef
        have hJv : ∀ i j, Jv i j = 1 / 4 * (IP.hom ![h 0, h 1, h 2] i * IP.hom ![h 0, h 1, h 2] j) +
            1 / 4 * (IP.hom ![h 0, h 1, -h 2] i * IP.hom ![h 0, h 1, -h 2] j) +
            1 / 4 * (IP.hom ![h 0, -h 1, h 2] i * IP.hom ![h 0, -h 1, h 2] j) +
            0 * (IP.hom ![h 0, -h 1, -h 2] i * IP.hom ![h 0, -h 1, -h 2] j) +
            0 * (IP.hom ![-h 0, h 1, h 2] i * IP.hom ![-h 0, h 1, h 2] j) +
            0 * (IP.hom ![-h 0, h 1, -h 2] i * IP.hom ![-h 0, h 1, -h 2] j) +
            0 * (IP.hom ![-h 0, -h 1, h 2] i * IP.hom ![-h 0, -h 1, h 2] j) +
            1 / 4 * (IP.hom ![-h 0, -h 1, -h 2] i * IP.hom ![-h 0, -h 1, -h 2] j) := by
          intro i j
          exact (congrFun (congrFun (Fin.sum_univ_eight (M := Matrix (Fin 4) (Fin 4) K) _) i) j)
        have hL : ∀ i j, (E * (gapMoments : Matrix (Fin 4) (Fin 4) K) * Eᵀ) i j =
            (![h 0, h 1, h 2, 1] : Fin 4 → K) i * gapMoments i j * (![h 0, h 1, h 2, 1] : Fin 4 → K) j := by
          intro i j
          rw [hE, hEd, diagonal_transpose, mul_diagonal, diagonal_mul]
        refine ⟨?_, ?_, ?_⟩
        · rw [hJv, hL]
          simp only [hh3]
          simp [gapMoments]
          norm_num
        · intro i j hij
          rw [hJv, hL]
          fin_cases i <;> fin_cases j <;> first
            | exact absurd hij (by decide)
            | (simp only [Fin.mk_one, Fin.zero_eta, Fin.reduceFinMk, Fin.isValue, hh3, hh0, hh1, hh2]
               simp [gapMoments]
               try ring)
        · intro i
          rw [hJv, hL]
          have p0 := mul_pos (hh 0) (hh 0)
          fin_cases i <;>
            (simp only [Fin.mk_one, Fin.zero_eta, Fin.reduceFinMk, Fin.isValue, Fin.castSucc_zero, Fin.castSucc_one,
               Fin.reduceCastSucc, hh0, hh1, hh2]
             simp [gapMoments]
             try nlinarith)
    unfold Box.momentCustomVertexConstraints
    rw [hc]
    refine ⟨_, rfl, hc'.mpr ?_, hf⟩
    simpa using hpsd
  · rw [htr, hG, gap_trace _ gapMoments_psd.1]
    simp [gapMoments]
    norm_num
  · intro J' eps d hJ' heps hd h
    rw [htr, gap_trace _ (hsymm J' hJ')]
    have := box_relaxation_bound b hR hh J' hJ' eps heps d hd h
    simp only at this
    linarith

/-- C84: for every box with positive half extents the custom vertex constraints accept a matrix of mass one
that the moment relaxation rejects at every order `d ≥ 2`. -/
theorem C84_not_tighter (b : Box K) (hR : Spec.Orthogonal b.rotation) (hh : ∀ i, 0 < b.halfExtents i) :
    ∃ J : Matrix (Fin 4) (Fin 4) K, J 3 3 = 1 ∧ Py.Holds (b.momentCustomVertexConstraints (.mat J)) ∧
      ∀ (eps : K) (d : ℕ), 0 ≤ eps → 2 ≤ d → ¬ Py.Holds (b.momentSdpConstraints (.mat J) eps d) := by
  obtain ⟨D, J, -, hpsd, h1, h2, h3, h4⟩ := C84_objective b hR hh
  exact ⟨J, h1, h2, fun eps d heps hd h => absurd (h4 J eps d hpsd.1 heps hd h) (not_le.mpr h3)⟩

/-- C84: the custom vertex constraints of a box are not sufficient. Every box with positive half extents has
parameters of mass one that they accept, although no distribution of mass in the box has these parameters. -/
theorem C84_not_sufficient (b : Box K) (hR : Spec.Orthogonal b.rotation) (hh : ∀ i, 0 < b.halfExtents i) :
    ∃ p : IP K, p.mass = 1 ∧ Py.Holds (b.momentCustomVertexConstraints (.mat p.J)) ∧
      Py.Holds (b.momentCustomVertexConstraints (.vec p.vec)) ∧
      ¬ Spec.Realizable (Spec.box b.halfExtents b.rotation b.center) p.mass p.h p.H := by
  obtain ⟨D, J, -, hpsd, h1, h2, h3, h4⟩ := C84_objective b hR hh
  have hJ : ∀ i j, J i j = J j i := fun i j => congrFun (congrFun hpsd.1 j) i
  let p : IP K := ⟨1, fun i => J i.castSucc 3, Matrix.of fun i j => J i.castSucc j.castSucc⟩
  have hpJ : p.J = J := by
    apply ext_last
    · intro i j; rw [IP.J, bordered_cc]; rfl
    · intro i; rw [IP.J, bordered_cl, IP.h]; simp [p]
    · intro i; rw [IP.J, bordered_lc, IP.h]; simp [p, hJ 3]
    · rw [IP.J, bordered_ll]; exact h1.symm
  have hH : p.Hᵀ = p.H := by ext i j; exact hJ _ _
  refine ⟨p, rfl, by rw [hpJ]; exact h2, ?_, fun hr => ?_⟩
  · obtain ⟨c, c', hc, hc', hcc, -⟩ := C19_vec p hH 0 le_rfl
    unfold Box.momentCustomVertexConstraints at h2 ⊢
    rw [hpJ] at hc hc'
    rw [hc'] at h2
    rw [hc]
    obtain ⟨q, hq, hq'⟩ := h2
    simp only [bind, Except.bind, pure, Except.pure, Except.ok.injEq] at hq ⊢
    rw [← hq] at hq'
    exact ⟨_, rfl, hcc.mpr hq'.1, hq'.2⟩
  · have hbox : Spec.halfspaces b.toPoly.faceForm.faces = Spec.box b.halfExtents b.rotation b.center := by
      ext p
      rw [← C25_contains b hR, Box.contains_iff, ← boxIneqs_iff]
      simp [Spec.halfspaces, Box.toPoly, FaceForm.init]
    have := (C52_necessary b.toPoly (fun f hf h0 => box_rows_ne_zero b hR f hf (by rw [h0])) p
      (by rw [hbox]; exact hr) 0 le_rfl 2 (by norm_num)).1
    rw [hpJ] at this
    exact absurd (h4 J 0 2 hpsd.1 le_rfl le_rfl this) (not_le.mpr h3)

theorem multiIndices_zero : Spec.multiIndices 3 0 = {0} := by decide +kernel

theorem multiIndices_one : Spec.multiIndices 3 1 = {0, Pi.single 0 1, Pi.single 1 1, Pi.single 2 1} := by decide +kernel

/-- The relaxation of order one only asks for a PSD matrix and a centre of mass in the polyhedron. -/
theorem C84_order_one (P : Poly K 3) (hP : ∀ f ∈ P.faceForm.faces, f.1 ≠ 0) (J : Matrix (Fin 4) (Fin 4) K)
    (hJ : Jᵀ = J) (eps : K) (heps : 0 ≤ eps) :
    Py.Holds (P.momentSdpConstraints (.mat J) eps 1) ↔
      Spec.PSD J ∧ ∀ f ∈ P.faceForm.faces, ∑ i, f.1 i * J i.castSucc 3 ≤ J 3 3 * f.2 := by
  have hs : ∀ i j, J i j = J j i := fun i j => congrFun (congrFun hJ j) i
  rw [C52_relaxation P hP J eps heps 1 le_rfl]
  have key0 : ∀ (y : (Fin 3 → ℕ) → K), y 0 = J 3 3 → (∀ i : Fin 3, y (Pi.single i 1) = J i.castSucc 3) →
      ∀ f : (Fin 3 → K) × K, Spec.LocalizedPSD (1 - 1) (Spec.affineTerms f.1 f.2) y ↔
        ∑ i, f.1 i * J i.castSucc 3 ≤ J 3 3 * f.2 := by
    intro y e1 e2 f
    have hsum : ((Spec.affineTerms f.1 f.2).map fun t => t.2 * y (t.1 + (0 + 0))).sum =
        J 3 3 * f.2 - ∑ i, f.1 i * J i.castSucc 3 := by
      simp only [Spec.affineTerms, List.map_cons, List.sum_cons, List.map_map, Function.comp_def, add_zero, e1, e2]
      rw [← List.ofFn_eq_map, List.sum_ofFn]
      simp only [neg_mul, Finset.sum_neg_distrib]
      ring
    unfold Spec.LocalizedPSD
    simp only [Nat.sub_self, multiIndices_zero, Finset.sum_singleton, hsum]
    constructor
    · intro h
      have := h 1
      simp only [Pi.one_apply] at this
      linarith
    · intro h q
      exact mul_nonneg (mul_self_nonneg _) (by linarith)
  have key1 : ∀ (y : (Fin 3 → ℕ) → K), y 0 = J 3 3 → (∀ i : Fin 3, y (Pi.single i 1) = J i.castSucc 3) →
      (∀ i j : Fin 3, y (Pi.single i 1 + Pi.single j 1) = J i.castSucc j.castSucc) →
      (Spec.LocalizedPSD 1 [(0, 1)] y ↔ Spec.PSD J) := by
    intro y e1 e2 e3
    have hne : (0 : Fin 3 → ℕ) ∉ ({Pi.single 0 1, Pi.single 1 1, Pi.single 2 1} : Finset (Fin 3 → ℕ)) := by decide +kernel
    have hne1 : (Pi.single 0 1 : Fin 3 → ℕ) ∉ ({Pi.single 1 1, Pi.single 2 1} : Finset (Fin 3 → ℕ)) := by decide +kernel
    have hne2 : (Pi.single 1 1 : Fin 3 → ℕ) ∉ ({Pi.single 2 1} : Finset (Fin 3 → ℕ)) := by decide +kernel
    have hquad : ∀ q : (Fin 3 → ℕ) → K,
        ∑ α ∈ Spec.multiIndices 3 1, ∑ β ∈ Spec.multiIndices 3 1, q α * q β *
          (([((0 : Fin 3 → ℕ), (1 : K))]).map fun t => t.2 * y (t.1 + (α + β))).sum =
        (![q (Pi.single 0 1), q (Pi.single 1 1), q (Pi.single 2 1), q 0] : Fin 4 → K) ⬝ᵥ
          J *ᵥ ![q (Pi.single 0 1), q (Pi.single 1 1), q (Pi.single 2 1), q 0] := by
      intro q
      have c0 : (Fin.castSucc (0 : Fin 3)) = (0 : Fin 4) := rfl
      have c1 : (Fin.castSucc (1 : Fin 3)) = (1 : Fin 4) := rfl
      have c2 : (Fin.castSucc (2 : Fin 3)) = (2 : Fin 4) := rfl
      simp only [multiIndices_one, Finset.sum_insert hne, Finset.sum_insert hne1, Finset.sum_insert hne2,
        Finset.sum_singleton, List.map_cons, List.map_nil, List.sum_cons, List.sum_nil, zero_add, add_zero, e1, e2, e3,
        c0, c1, c2, one_mul]
      simp only [dotProduct, mulVec, Fin.sum_univ_four, Matrix.cons_val]
      rw [hs 3 0, hs 3 1, hs 3 2]
      ring
    unfold Spec.LocalizedPSD
    simp only [hquad]
    constructor
    · intro h
      refine ⟨hJ, fun v => ?_⟩
      have := h fun α => if α = 0 then v 3 else if α = Pi.single 0 1 then v 0 else if α = Pi.single 1 1 then v 1 else v 2
      have g0 : (Pi.single 0 1 : Fin 3 → ℕ) ≠ 0 := by decide +kernel
      have g1 : (Pi.single 1 1 : Fin 3 → ℕ) ≠ 0 := by decide +kernel
      have g2 : (Pi.single 2 1 : Fin 3 → ℕ) ≠ 0 := by decide +kernel
      have g3 : (Pi.single 1 1 : Fin 3 → ℕ) ≠ Pi.single 0 1 := by decide +kernel
      have g4 : (Pi.single 2 1 : Fin 3 → ℕ) ≠ Pi.single 0 1 := by decide +kernel
      have g5 : (Pi.single 2 1 : Fin 3 → ℕ) ≠ Pi.single 1 1 := by decide +kernel
      rw [if_neg g0, if_pos rfl, if_neg g1, if_neg g3, if_pos rfl, if_neg g2, if_neg g4, if_neg g5, if_pos rfl] at this
      have hv : (![v 0, v 1, v 2, v 3] : Fin 4 → K) = v := by ext i; fin_cases i <;> rfl
      rwa [hv] at this
    · intro h q
      exact h.2 _
  constructor
  · rintro ⟨y, e1, e2, e3, h4, h5⟩
    exact ⟨(key1 y e1 e2 e3).mp h4, fun f hf => (key0 y e1 e2 f).mp (h5 f hf)⟩
  · rintro ⟨hpsd, hf⟩
    let y : (Fin 3 → ℕ) → K := fun α => if ∑ i, α i = 0 then J 3 3 else if ∑ i, α i = 1 then ∑ i, (α i : K) * J i.castSucc 3
      else 1 / 2 * ∑ i, ∑ j, ((α i : K) * α j - if i = j then (α i : K) else 0) * J i.castSucc j.castSucc
    have e1 : y 0 = J 3 3 := by simp [y]
    have e2 : ∀ i : Fin 3, y (Pi.single i 1) = J i.castSucc 3 := by
      intro i
      simp only [y, Finset.sum_pi_single', Finset.mem_univ, if_true]
      rw [if_neg one_ne_zero]
      fin_cases i <;> simp [Fin.sum_univ_three, Pi.single_apply]
    have e3 : ∀ i j : Fin 3, y (Pi.single i 1 + Pi.single j 1) = J i.castSucc j.castSucc := by
      intro i j
      have h2 : ∑ k, (Pi.single i 1 + Pi.single j 1 : Fin 3 → ℕ) k = 2 := by
        simp [Finset.sum_add_distrib]
      simp only [y, h2]
      rw [if_neg two_ne_zero, if_neg (by norm_num)]
      have s1 := hs 1 0; have s2 := hs 2 0; have s3 := hs 2 1
      fin_cases i <;> fin_cases j <;>
        (simp only [Fin.sum_univ_three, Pi.add_apply, Pi.single_apply]
         simp
         try simp only [s1, s2, s3]
         try ring)
    exact ⟨y, e1, e2, e3, (key1 y e1 e2 e3).mpr hpsd, fun f hf' => (key0 y e1 e2 f).mpr (hf f hf')⟩

/-- C84: at order one the claim holds: whatever the custom vertex constraints of a box accept, the moment
relaxation accepts too. -/
theorem C84_implies_order_one (b : Box K) (hR : Spec.Orthogonal b.rotation) (hh : ∀ i, 0 ≤ b.halfExtents i)
    (J : Matrix (Fin 4) (Fin 4) K) (eps : K) (h : Py.Holds (b.momentCustomVertexConstraints (.mat J) eps)) :
    Py.Holds (b.momentSdpConstraints (.mat J) eps 1) := by
  have hcom := C54_com b hR hh J eps h
  have hbox : Spec.halfspaces b.toPoly.faceForm.faces = Spec.box b.halfExtents b.rotation b.center := by
    ext p
    rw [← C25_contains b hR, Box.contains_iff, ← boxIneqs_iff]
    simp [Spec.halfspaces, Box.toPoly, FaceForm.init]
  rw [← hbox] at hcom
  obtain ⟨c, hc, hcc⟩ := h
  unfold Box.momentCustomVertexConstraints at hc
  have heps : 0 ≤ eps := by
    by_contra hneg
    simp [pimMustEqualParamVar, hneg, bind, Except.bind] at hc
  obtain ⟨psd, h1, h2⟩ := C19_mat J eps heps
  rw [h1] at hc
  simp only [bind, Except.bind, pure, Except.pure, Except.ok.injEq] at hc
  rw [← hc] at hcc
  have hp := h2.mp hcc.1
  have hpsd : Spec.PSD J := by
    have h := hp.add ((Spec.PSD.one (K := K) (n := 4)).smul heps)
    simpa using h
  refine (C84_order_one b.toPoly (box_rows_ne_zero b hR) J hpsd.1 eps heps).mpr ⟨hpsd, fun f hf => ?_⟩
  have hm : 0 ≤ J 3 3 := by
    have := hpsd.2 (Pi.single 3 1)
    simpa using this
  rcases hm.eq_or_lt with h0 | h0
  · have hb : J = bordered (Matrix.of fun i j => J i.castSucc j.castSucc) (fun i : Fin 3 => J i.castSucc 3)
        (fun i : Fin 3 => J i.castSucc 3) 0 := by
      apply ext_last
      · intro i j; rw [bordered_cc]; rfl
      · intro i; rw [bordered_cl]; rfl
      · intro i; rw [bordered_lc]; exact congrFun (congrFun hpsd.1 i.castSucc) 3
      · rw [bordered_ll]; exact h0.symm
    rw [hb] at hpsd
    have hz := bordered_zero_corner hpsd.2
    have : ∀ i : Fin 3, J i.castSucc 3 = 0 := fun i => congrFun hz i
    simp [this, ← h0]
  · have := hcom h0 f hf
    have e : f.1 ⬝ᵥ (fun i : Fin 3 => J i.castSucc 3 / J 3 3) = (∑ i, f.1 i * J i.castSucc 3) / J 3 3 := by
      rw [dotProduct, Finset.sum_div]
      exact Finset.sum_congr rfl fun i _ => by ring
    rw [e, div_le_iff₀ h0] at this
    linarith

/-- The theorems apply to the box of tests/test_box_realizability.py. -/
example : Spec.Orthogonal (1 : Matrix (Fin 3) (Fin 3) ℚ) ∧ ∀ i, 0 < (![1/2, 1, 3/2] : Fin 3 → ℚ) i :=
  ⟨Spec.Orthogonal.one, by intro i; fin_cases i <;> decide +kernel⟩

end Rigeo
