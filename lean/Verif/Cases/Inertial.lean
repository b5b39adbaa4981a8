import Verif.Cases.Basic

/-!
# Concrete cases: utilities, dynamics and inertial parameters

Cases for the theorems of Props/Util, Props/Dynamics, Props/Inertial, Props/Inertial2, Props/Strengthen and Props/Strengthen2.
-/

namespace Rigeo.Case

open Matrix

/-! ## Utilities -/

example : ∃ M : Matrix (Fin 3) (Fin 3) ℚ, unvech [1, 2, 3, 4, 5, 6] = .ok ⟨3, M⟩ := C01_unvech_ok _ 3 (by norm_num) rfl

example : ∃ M : Matrix (Fin 3) (Fin 3) ℚ, vech M = [1, 2, 3, 4, 5, 6] ∧ Mᵀ = M := by
  obtain ⟨M, hM⟩ := C01_unvech_ok ([1, 2, 3, 4, 5, 6] : List ℚ) 3 (by norm_num) rfl
  exact ⟨M, (C01_vech_unvech _ 3 M hM).1, (C01_vech_unvech _ 3 M hM).2.1⟩

example : (isTriangularNumber 4).1 = false := by
  refine C02_not_triangular 4 fun n hn h => ?_
  have h' : (8 : ℝ) = ((n * (n + 1) : ℤ) : ℝ) := by push_cast; linarith
  have h2 : (8 : ℤ) = n * (n + 1) := by exact_mod_cast h'
  rcases le_or_gt n 2 with h3 | h3 <;> nlinarith

example := C06_transformMatrixInv (R : Matrix (Fin 3) (Fin 3) ℚ) t R_orth

example := C06_transformMatrixInv_other_dim 2 (by norm_num) (!![3 / 5, -4 / 5; 4 / 5, 3 / 5] : Matrix (Fin 2) (Fin 2) ℚ) ![1, 2]

example := C07_computeEvaluationTimes (1 : ℚ) (3 / 10) (by norm_num) (by norm_num)

example : computeEvaluationTimes (1 : ℚ) (-1) = .error .assertion := C07_error _ _ (Or.inr (by norm_num))

example : (boxVertices (ext : Fin 3 → ℚ)).Nodup := C08_nodup _ fun i => (ext_pos i).ne'

/-- A regressor of two observations, and forces that no parameter explains exactly. -/
def Ys : Fin 2 → Matrix (Fin 2) (Fin 1) ℝ := ![!![1; 2], !![3; 4]]

example := C71_value (by norm_num) Ys ![![1, 2], ![0, 1]] ![1] none

example : validationRmse Ys ![![2, 4], ![6, 8]] ![2] none = .ok 0 := by
  refine (C71_zero_iff (by norm_num) Ys _ ![2] none).mpr fun i => ?_
  fin_cases i <;> ext j <;> fin_cases j <;> simp [Ys, Matrix.mulVec, dotProduct] <;> norm_num

/-! ## Dynamics -/

def twist : SV ℚ := ⟨![1, 2, 3, 4, 5, 6]⟩

def accel : SV ℚ := ⟨![-1, 0, 2, 3, 1, 1]⟩

example : lift3 (t : Fin 3 → ℚ) *ᵥ ![1, 2, 3, 4, 5, 6] = !![1, 2, 3; 2, 4, 5; 3, 5, 6] *ᵥ t :=
  C04_lift3 _ _ (by ext i j; fin_cases i <;> fin_cases j <;> rfl) _ (by decide +kernel)

example := C04_lift6 (ip : IP ℚ) ip_symm twist

example := C04_regressor (ip : IP ℚ) ip_symm twist accel

example := C05_passive (ip : IP ℚ) ip_symm twist

/-- A body that runs along a circle and turns with it. -/
example := C05_newton_second_law masses ip rfl ip_h (by
    have h := C13_moments (K := ℝ) masses (by rw [masses_mass]; norm_num)
    obtain ⟨p, _, h1, h2, h3, h4, _⟩ := h
    rw [← h4]
    have : (ip : IP ℝ).H = p.H := h3.symm
    simp only [IP.I, this])
  (fun τ => !![Real.cos τ, -Real.sin τ, 0; Real.sin τ, Real.cos τ, 0; 0, 0, 1])
  (fun τ => ![Real.sin τ, -Real.cos τ, 0]) (fun _ => ![1, 0, 0]) (fun _ => ![0, 0, 1]) (fun _ => 0) (fun _ => 0)
  (by
    intro τ
    unfold Spec.Orthogonal
    have := Real.sin_sq_add_cos_sq τ
    ext i j
    fin_cases i <;> fin_cases j <;> simp [Matrix.mul_apply, Fin.sum_univ_three] <;> nlinarith)
  (by
    intro τ x
    rw [hasDerivAt_pi]
    intro i
    have hc := Real.hasDerivAt_cos τ
    have hs := Real.hasDerivAt_sin τ
    fin_cases i
    · convert (hc.mul_const (x 0)).sub (hs.mul_const (x 1)) using 1
      · ext t; simp [Matrix.mulVec, dotProduct, Fin.sum_univ_three]; ring
      · simp [Matrix.mulVec, dotProduct, Fin.sum_univ_three, crossProduct]; ring
    · convert (hs.mul_const (x 0)).add (hc.mul_const (x 1)) using 1
      · ext t; simp [Matrix.mulVec, dotProduct, Fin.sum_univ_three]
      · simp [Matrix.mulVec, dotProduct, Fin.sum_univ_three, crossProduct]; ring
    · convert hasDerivAt_const τ (x 2) using 1
      · ext t; simp [Matrix.mulVec, dotProduct, Fin.sum_univ_three]
      · simp [Matrix.mulVec, dotProduct, Fin.sum_univ_three, crossProduct])
  (by
    intro τ
    rw [hasDerivAt_pi]
    intro i
    fin_cases i
    · simpa [Matrix.mulVec, dotProduct, Fin.sum_univ_three] using Real.hasDerivAt_sin τ
    · have h := (Real.hasDerivAt_cos τ).neg
      rw [neg_neg] at h
      simpa [Matrix.mulVec, dotProduct, Fin.sum_univ_three] using! h
    · simpa [Matrix.mulVec, dotProduct, Fin.sum_univ_three] using hasDerivAt_const τ (0 : ℝ))
  (fun τ => hasDerivAt_const τ _) (fun τ => hasDerivAt_const τ _)

/-! ## Inertial parameters -/

theorem ip_H_psd {K : Type} [Field K] [LinearOrder K] [IsStrictOrderedRing K] : Spec.PSD (ip : IP K).H :=
  (C17_energy ip ip_psd).2.2.1

example := C09_triangle (ip : IP ℚ).H R ip_H_psd R_orth 1

example : IP.fromPim (ip : IP ℚ).J = .ok ip := C10_fromPim_J ip mass_pos

example : IP.fromVec (ip : IP ℚ).vec = .ok ip := C10_fromVec_vec ip mass_pos ip_symm

example := C10_init_com_I (ip : IP ℚ) mass_pos.le

example := C10_zero_mass (⟨0, ![1, 2, 3], 1⟩ : IP ℚ) rfl

example : ∃ p : IP ℚ, IP.init 2 none (some ![1, 2, 3]) none (some !![2, 1, 0; 1, 3, 0; 0, 0, 4]) true = .ok p ∧ p.mass = 2 ∧
    p.com = ![1, 2, 3] ∧ p.Ic = !![2, 1, 0; 1, 3, 0; 0, 0, 4] := by
  refine ⟨_, rfl, ?_⟩
  obtain ⟨h1, h2, -, -, -, h3, -⟩ := C11_values _ _ _ _ _ _ _ (rfl : IP.init (2 : ℚ) none (some ![1, 2, 3]) none
    (some !![2, 1, 0; 1, 3, 0; 0, 0, 4]) true = .ok _)
  exact ⟨h1, h2 _ rfl, (h3 rfl).2 _ rfl⟩

example := C12_J_injective (ip : IP ℚ) ⟨6, 0, 1⟩ mass_pos.ne'

example := C12_fromPim_of_vec (ip : IP ℚ).vec mass_pos

example := C12_pim_of_vec (ip : IP ℚ) ip_symm

example := C12_vec_iff_J (ip : IP ℚ) ⟨6, 0, 1⟩ ip_symm (by simp)

theorem mass_masses {K : Type} [Field K] [LinearOrder K] [IsStrictOrderedRing K] : 0 < (masses : Spec.PointMasses K 3).mass := mass_pos

example := C13_append (masses : Spec.PointMasses ℚ 3) [(1, t)] mass_masses (by norm_num [Spec.PointMasses.mass])

example : ∃ p : IP ℝ, IP.fromPointMasses (masses.map Prod.fst) (masses.map Prod.snd) = .ok p ∧ p.consistent = true := by
  obtain ⟨p, hp, -⟩ := C13_moments (masses : Spec.PointMasses ℝ 3) mass_masses
  exact ⟨p, hp, C13_consistent masses masses_nonneg mass_masses p hp⟩

example := C13_perm (masses : Spec.PointMasses ℚ 3) masses.reverse (List.reverse_perm _).symm

example := C14_J (ip : IP ℚ) mass_pos.le R t

example := C14_compose (ip : IP ℚ) mass_pos.le R Rᵀ t ext

example : ∃ q, (ip : IP ℚ).transform (some R) (some t) = .ok q ∧ q.Ic = R * (ip : IP ℚ).Ic * Rᵀ := by
  obtain ⟨q, hq, -⟩ := C14_J (ip : IP ℚ) mass_pos.le R t
  exact ⟨q, hq, C14_inertia_rotates _ mass_pos.le R R_orth t q hq⟩

example := C14_inverse (ip : IP ℚ) mass_pos.le R R_orth t

example := C14_point_masses (masses : Spec.PointMasses ℚ 3) mass_masses R t

example := C15_add (ip : IP ℚ) ⟨-1, 0, 1⟩ (by show (0 : ℚ) < (masses : Spec.PointMasses ℚ 3).mass + -1; rw [masses_mass]; norm_num)

example := C15_assoc (ip : IP ℚ) ip ⟨1, t, 1⟩ mass_pos mass_pos one_pos

example := C15_sum [(ip : IP ℚ), ip, ⟨1, t, 1⟩] (by
  intro p hp
  simp only [List.mem_cons, List.not_mem_nil, or_false] at hp
  rcases hp with rfl | rfl | rfl
  exacts [mass_pos, mass_pos, one_pos])

example := C15_zero (ip : IP ℚ) mass_pos

theorem ip_consistent : (ip : IP ℝ).consistent = true :=
  (C16_realizable_iff ip mass_pos ip_symm).mpr ⟨masses, masses_nonneg, rfl, ip_h.symm, rfl⟩

example := C17_closure (ip : IP ℚ) ip ip_psd ip_psd

example := C18_random (1 / 2 : ℚ) (by norm_num) (by norm_num) t R

example : ∃ p, IP.random (1 / 2 : ℝ) t R = .ok p ∧ p.consistent = true := by
  obtain ⟨p, hp, -⟩ := C18_random (1 / 2 : ℝ) (by norm_num) (by norm_num) t R
  exact ⟨p, hp, C18_random_consistent _ (by norm_num) (by norm_num) t R p hp⟩

example := C19_mat (ip : IP ℚ).J (1 / 10) (by norm_num)

example := C19_vec (ip : IP ℚ) ip_symm (1 / 10) (by norm_num)

/-! ## Props/Strengthen and Props/Strengthen2 -/

example := C17_consistent ip ip ip_symm ip_symm mass_pos ip_consistent ip_consistent

/-- A body made of a box and an ellipsoid. -/
def body {K : Type} [Field K] : RigidBody K := ⟨[.box box, .ellipsoid ellipsoid], ip⟩

example := C19_body (ip : IP ℚ) ip_symm (1 / 10) body 2

example := C19_builders (ip : IP ℚ) ip_symm (1 / 10)

/-- `1 - x² - y²` in two variables, and the moments up to degree two of three point masses in the unit disk. -/
def diskPoly : Polynomial ℚ 2 := ⟨[(![0, 0], 1), (![2, 0], -1), (![0, 2], -1)]⟩

theorem diskPoly_wf : diskPoly.WF := ⟨by decide +kernel, by decide +kernel⟩

theorem diskPoly_degree : diskPoly.degree = .ok 2 := by decide +kernel

example (M : Matrix (Fin (Polynomial.dim 2 0)) (Fin (Polynomial.dim 2 0)) ℚ) :
    MomentMatrix.localize 2 0 M diskPoly = .error .value := C22_degree_too_high M diskPoly diskPoly_degree (by norm_num)

/-- The polyhedron with the vertices of the box. -/
def poly {K : Type} [Field K] [LinearOrder K] : Poly K 3 := (box : Box K).toPoly

theorem poly_hull {K : Type} [Field K] [LinearOrder K] [IsStrictOrderedRing K] :
    Spec.hull (poly : Poly K 3).vertices = Spec.box ext R t := C25_vertices box ext_nonneg

theorem ip_poly {K : Type} [Field K] [LinearOrder K] [IsStrictOrderedRing K] :
    Spec.Realizable (Spec.hull (poly : Poly K 3).vertices) (ip : IP K).mass (ip : IP K).h (ip : IP K).H := by
  rw [poly_hull]; exact ip_box

example := C53_default (poly : Poly ℚ 3) ip ip_poly

example := C54_default (box : Box ℚ) R_orth ip ip_box

theorem body_usable : ∀ s ∈ (body : RigidBody ℝ).shapes, s.Usable := by
  intro s hs
  simp only [body, List.mem_cons, List.not_mem_nil, or_false] at hs
  rcases hs with rfl | rfl
  · exact R_orth
  · exact ⟨R_orth, ext_resolved⟩

theorem ip_body : Spec.Realizable (Spec.bodyRegion (body : RigidBody ℝ).shapes) (ip : IP ℝ).mass (ip : IP ℝ).h (ip : IP ℝ).H :=
  ip_box.mono fun _ hp => ⟨.box box, by simp [body], hp⟩

example := C56_default body body_usable ip ip_body

example : Spec.PSD ((ip : IP ℝ).J - (0 : ℝ) • (1 : Matrix (Fin 4) (Fin 4) ℝ)) :=
  (C72_vec ip ip_symm 0 (Or.inr (Or.inr ⟨box, (C54_default box R_orth ip ip_box).2⟩))).2

example := C72_vec_ignored ip ip_symm (1 / 10) (by norm_num) poly cylinder 2

/-- The moments of a uniform distribution on the four corners of a square. -/
def square : (Fin 2 → ℕ) → ℚ := fun α => if α 0 % 2 = 0 ∧ α 1 % 2 = 0 then 1 else 0

/-- The moment matrix of degree one of those moments. -/
def squareMatrix (d : ℕ) : Matrix (Fin (Polynomial.dim 2 d)) (Fin (Polynomial.dim 2 d)) ℚ := fun i j =>
  square (((Polynomial.basis 2 d)[(i : ℕ)]?.join.getD 0) + ((Polynomial.basis 2 d)[(j : ℕ)]?.join.getD 0))

theorem squareMatrix_moment (d : ℕ) : Spec.IsMomentMatrix d square (squareMatrix d) := by
  intro i j α β hi hj
  simp [squareMatrix, hi, hj]

example := C24_localizing_all (by norm_num) square (squareMatrix 1) (squareMatrix_moment 1) [diskPoly, ⟨[(![1, 0], 1)]⟩]
  (by
    intro p hp
    simp only [List.mem_cons, List.not_mem_nil, or_false] at hp
    rcases hp with rfl | rfl
    exacts [diskPoly_wf, ⟨by decide +kernel, by decide +kernel⟩])
  (fun p => if p.coefficients.length = 3 then 2 else 1) (by decide +kernel)

end Rigeo.Case
