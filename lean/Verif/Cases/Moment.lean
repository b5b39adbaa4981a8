import Verif.Cases.Shapes

/-!
# Concrete cases: moment matrices

Cases for the theorems of Props/Moment, Props/Moment2 and Props/Moment3.
-/

namespace Rigeo.Case

open Matrix

example := C20_basis 3 2 (by norm_num)

example := C20_prefix 3 1 2 (by norm_num) (by norm_num)

example := C20_start 3 2 (by norm_num)

example := C21_add diskPoly ⟨[(![2, 0], 1), (![0, 0], 3)]⟩ diskPoly_wf ![1, 2]

example := C21_add_coeff diskPoly ⟨[(![2, 0], 1), (![0, 0], 3)]⟩ diskPoly_wf ⟨by decide +kernel, by decide +kernel⟩ ![2, 0]

example := C21_localize diskPoly diskPoly_wf ![1, 2] ![1, 2]

example := C22_no_key_error (by norm_num) (squareMatrix 2) diskPoly diskPoly_wf diskPoly_degree (by norm_num)

/-- Three point masses in the unit disk. -/
def planar : Spec.PointMasses ℚ 2 := [(1, ![0, 0]), (2, ![1 / 2, 1 / 2]), (3, ![0, -1])]

def planarMatrix : Matrix (Fin (Polynomial.dim 2 2)) (Fin (Polynomial.dim 2 2)) ℚ := fun i j =>
  planar.integral (Spec.mono (((Polynomial.basis 2 2)[(i : ℕ)]?.join.getD 0) + ((Polynomial.basis 2 2)[(j : ℕ)]?.join.getD 0)))

theorem planarMatrix_moment : Spec.IsMomentMatrix 2 (fun α => planar.integral (Spec.mono α)) planarMatrix := by
  intro i j α β hi hj
  simp [planarMatrix, hi, hj]

theorem planar_nonneg : planar.Nonneg := by
  intro mp h
  simp only [planar, List.mem_cons, List.not_mem_nil, or_false] at h
  rcases h with rfl | rfl | rfl <;> norm_num

example := C22_substitute (by norm_num) planar planarMatrix planarMatrix_moment diskPoly (by decide +kernel)

example := C23_localizing (by norm_num) planar planar_nonneg planarMatrix planarMatrix_moment diskPoly diskPoly_wf diskPoly_degree
  (by norm_num) (by
    intro mp h
    simp only [planar, List.mem_cons, List.not_mem_nil, or_false] at h
    rcases h with rfl | rfl | rfl <;> norm_num [diskPoly, Polynomial.evaluate, Fin.prod_univ_two])

example := C23_moment_matrix (by norm_num) planar planar_nonneg planarMatrix planarMatrix_moment

theorem planarMatrix_symm : planarMatrixᵀ = planarMatrix := by
  ext i j
  simp only [Matrix.transpose_apply, planarMatrix]
  rw [add_comm]

example := C24_structure (by norm_num) planarMatrix planarMatrix_symm

example := C24_localizing (by norm_num) square (squareMatrix 2) (squareMatrix_moment 2) diskPoly diskPoly_wf diskPoly_degree (by norm_num)

theorem poly_rows_ne {K : Type} [Field K] [LinearOrder K] [IsStrictOrderedRing K] : ∀ f ∈ (poly : Poly K 3).faceForm.faces, f.1 ≠ 0 := by
  intro f hf h
  have key : ∀ a : Fin 3 → K, a ᵥ* (R : Matrix (Fin 3) (Fin 3) K)ᵀ = 0 → a = 0 := by
    intro a ha
    have h2 := congrArg (fun v => v ᵥ* (R : Matrix (Fin 3) (Fin 3) K)) ha
    simpa [Matrix.vecMul_vecMul, show (R : Matrix (Fin 3) (Fin 3) K)ᵀ * R = 1 from R_orth] using h2
  have hf' : f ∈ Box.boxIneqs (ext : Fin 3 → K) R t := hf
  simp only [Box.boxIneqs, List.mem_map] at hf'
  obtain ⟨ab, hab, rfl⟩ := hf'
  have h3 := key ab.1 h
  simp only [List.mem_cons, List.not_mem_nil, or_false] at hab
  rcases hab with rfl | rfl | rfl | rfl | rfl | rfl
  · simpa using congrFun h3 0
  · simpa using congrFun h3 0
  · simpa using congrFun h3 1
  · simpa using congrFun h3 1
  · simpa using congrFun h3 2
  · simpa using congrFun h3 2

theorem poly_rows {K : Type} [Field K] [LinearOrder K] [IsStrictOrderedRing K] : ∀ f ∈ (poly : Poly K 3).faceForm.faces, f ≠ (0, 0) :=
  fun f hf h => poly_rows_ne f hf (by rw [h])

theorem ip_poly_sdp {K : Type} [Field K] [LinearOrder K] [IsStrictOrderedRing K] (eps : K) (heps : 0 ≤ eps) (d : ℕ) (hd : 1 ≤ d) :
    Py.Holds ((poly : Poly K 3).momentSdpConstraints (.mat (ip : IP K).J) eps d) :=
  (C52_necessary poly poly_rows ip (by rw [← poly_consistent.2.2]; exact ip_poly) eps heps d hd).1

example := C52_com (poly : Poly ℚ 3) poly_rows_ne ip.J 0 le_rfl 2 (by norm_num) (ip_poly_sdp 0 le_rfl 2 (by norm_num))

example := C52_relaxation (poly : Poly ℚ 3) poly_rows_ne ip.J 0 le_rfl 2 (by norm_num)

theorem J_pos {K : Type} [Field K] [LinearOrder K] [IsStrictOrderedRing K] : 0 < (ip : IP K).J 3 3 := mass_pos

example : (fun i : Fin 3 => (ip : IP ℚ).J i.castSucc 3 / (ip : IP ℚ).J 3 3) ∈ Spec.cylinder 4 2 R t :=
  C55_sdp_com (cylinder : Cylinder ℚ) R_orth ip.J 0 le_rfl 2 (by norm_num)
    (C55_sdp_necessary cylinder R_orth ip ip_cylinder 0 le_rfl 2 (by norm_num)).1 J_pos

end Rigeo.Case
