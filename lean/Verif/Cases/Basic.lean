import Verif.Props.Realize4
import Verif.Props.RigidBody
import Verif.Props.Strengthen
import Verif.Props.Strengthen2
import Verif.Props.Strengthen3
import Verif.Props.Strengthen4
import Verif.Props.Extremal
import Verif.Props.Rejection

/-!
# Concrete cases: common objects

The files of this directory apply the property theorems to concrete inputs, which shows that their hypotheses can be met. Most use
the objects below: a rotation that is no coordinate permutation, shapes of different extents in that pose away from the origin, and a body
of three point masses that lies inside all of them.
-/

namespace Rigeo.Case

open Matrix

section
variable {K : Type} [Field K]

/-- The turn about the third axis with cosine `3/5`. -/
def R : Matrix (Fin 3) (Fin 3) K := !![3 / 5, -4 / 5, 0; 4 / 5, 3 / 5, 0; 0, 0, 1]

def t : Fin 3 → K := ![4, 5, 6]

def ext : Fin 3 → K := ![1, 2, 3]

def box : Box K := ⟨ext, R, t⟩

def ellipsoid : Ellipsoid K 3 := ⟨ext, R, t⟩

/-- An elliptic disk. -/
def disk : Ellipsoid K 3 := ⟨![1, 2, 0], R, t⟩

def cylinder : Cylinder K := ⟨4, 2, R, t⟩

def capsule : Capsule K := ⟨cylinder⟩

/-- The point masses in the frame of the shapes. -/
def inner : Spec.PointMasses K 3 := [(1, ![1 / 2, 0, 0]), (2, ![0, 1, 1]), (3, ![-1 / 2, -1 / 2, 1])]

def masses : Spec.PointMasses K 3 := Spec.PointMasses.move inner R t

def ip : IP K := ⟨(masses : Spec.PointMasses K 3).mass, (masses : Spec.PointMasses K 3).mass⁻¹ • (masses : Spec.PointMasses K 3).first,
  (masses : Spec.PointMasses K 3).second⟩

end

section
variable {K : Type} [Field K] [LinearOrder K] [IsStrictOrderedRing K]

omit [LinearOrder K] [IsStrictOrderedRing K] in
theorem R_orth [CharZero K] : Spec.Orthogonal (R : Matrix (Fin 3) (Fin 3) K) := by
  unfold Spec.Orthogonal R
  ext i j
  fin_cases i <;> fin_cases j <;> simp [Matrix.mul_apply, Fin.sum_univ_three] <;> norm_num

theorem ext_pos : ∀ i, 0 < (ext i : K) := by
  intro i; fin_cases i <;> norm_num [ext]

theorem ext_nonneg : ∀ i, 0 ≤ (ext i : K) := fun i => (ext_pos i).le

theorem ext_big : ∀ i, 1 / 100000000 < (ext i : K) := by
  intro i; fin_cases i <;> norm_num [ext]

theorem ext_resolved : ∀ i, Spec.Resolved (ext i : K) := fun i => Or.inr (ext_big i)

omit [LinearOrder K] [IsStrictOrderedRing K] in
theorem masses_mass : (masses : Spec.PointMasses K 3).mass = 6 := by
  simp [masses, inner, Spec.PointMasses.mass, Spec.PointMasses.move]; norm_num

theorem mass_pos : 0 < (ip : IP K).mass := by
  show 0 < (masses : Spec.PointMasses K 3).mass
  rw [masses_mass]; norm_num

theorem masses_nonneg : (masses : Spec.PointMasses K 3).Nonneg := by
  intro mp h
  simp only [masses, inner, Spec.PointMasses.move, List.map_cons, List.map_nil, List.mem_cons, List.not_mem_nil, or_false] at h
  rcases h with rfl | rfl | rfl <;> norm_num

omit [LinearOrder K] [IsStrictOrderedRing K] in
theorem ip_h [CharZero K] : (ip : IP K).h = (masses : Spec.PointMasses K 3).first := by
  show (masses : Spec.PointMasses K 3).mass • ((masses : Spec.PointMasses K 3).mass⁻¹ • (masses : Spec.PointMasses K 3).first) = _
  rw [smul_smul, masses_mass, mul_inv_cancel₀ (by norm_num), one_smul]

/-- The body lies in every set that contains the three points. -/
theorem ip_realizable {S : Set (Fin 3 → K)} (h : (masses : Spec.PointMasses K 3).Within S) :
    Spec.Realizable S (ip : IP K).mass (ip : IP K).h (ip : IP K).H :=
  ⟨masses, masses_nonneg, h, rfl, ip_h.symm, rfl⟩

/-- Membership for sets that are images under the common pose. -/
theorem masses_within {S : Set (Fin 3 → K)} (h : ∀ y ∈ [![1 / 2, 0, 0], ![0, 1, 1], ![-1 / 2, -1 / 2, (1 : K)]], Spec.rigid R t y ∈ S) :
    (masses : Spec.PointMasses K 3).Within S := by
  intro mp hmp
  simp only [masses, inner, Spec.PointMasses.move, List.map_cons, List.map_nil, List.mem_cons, List.not_mem_nil, or_false] at hmp
  rcases hmp with rfl | rfl | rfl
  · exact h _ (by simp)
  · exact h _ (by simp)
  · exact h _ (by simp)

theorem ip_box : Spec.Realizable (Spec.box ext R t) (ip : IP K).mass (ip : IP K).h (ip : IP K).H := by
  refine ip_realizable (masses_within fun y hy => ⟨y, ?_, rfl⟩)
  simp only [List.mem_cons, List.not_mem_nil, or_false] at hy
  rcases hy with rfl | rfl | rfl <;> intro i <;> fin_cases i <;> simp [ext, abs_le] <;> norm_num

theorem ip_ellipsoid : Spec.Realizable (Spec.ellipsoid ext R t) (ip : IP K).mass (ip : IP K).h (ip : IP K).H := by
  refine ip_realizable (masses_within fun y hy => ⟨fun i => y i / ext i, ?_, ?_⟩)
  · simp only [List.mem_cons, List.not_mem_nil, or_false] at hy
    rcases hy with rfl | rfl | rfl <;> simp [ext, dotProduct, Fin.sum_univ_three] <;> norm_num
  · congr 1
    ext i
    have := (ext_pos i : 0 < (ext i : K)).ne'
    field_simp

theorem ip_cylinder : Spec.Realizable (Spec.cylinder 4 2 R t) (ip : IP K).mass (ip : IP K).h (ip : IP K).H := by
  refine ip_realizable (masses_within fun y hy => ⟨y, ?_, ?_, rfl⟩)
  all_goals simp only [List.mem_cons, List.not_mem_nil, or_false] at hy
  · rcases hy with rfl | rfl | rfl <;> simp [abs_le] <;> norm_num
  · rcases hy with rfl | rfl | rfl <;> norm_num

theorem ip_symm : (ip : IP K).Hᵀ = (ip : IP K).H := (ip_box (K := K)).symm

theorem ip_psd : Spec.PSD (ip : IP K).J := (ip_box (K := K)).psd

theorem len_resolved : Spec.Resolved ((cylinder : Cylinder K).length / 2) := by
  right; norm_num [cylinder]

theorem rad_resolved : Spec.Resolved (cylinder : Cylinder K).radius := by
  right; norm_num [cylinder]

theorem len_big : 1 / 100000000 < (cylinder : Cylinder K).length / 2 := by norm_num [cylinder]

theorem rad_big : 1 / 100000000 < (cylinder : Cylinder K).radius := by norm_num [cylinder]

theorem len_nonneg : 0 ≤ (cylinder : Cylinder K).length := by norm_num [cylinder]

theorem rad_nonneg : 0 ≤ (cylinder : Cylinder K).radius := by norm_num [cylinder]

/-- A point inside all the shapes, off their axes. -/
def pt : Fin 3 → K := Spec.rigid R t ![1 / 2, 1 / 2, 1]

theorem pt_box : (pt : Fin 3 → K) ∈ Spec.box ext R t := by
  refine ⟨_, ?_, rfl⟩
  intro i; fin_cases i <;> simp [ext, abs_le] <;> norm_num

theorem pt_ellipsoid : (pt : Fin 3 → K) ∈ Spec.ellipsoid ext R t := by
  refine ⟨![1 / 2, 1 / 4, 1 / 3], ?_, ?_⟩
  · simp [dotProduct, Fin.sum_univ_three]; norm_num
  · rw [pt]
    congr 1
    ext i; fin_cases i <;> norm_num [ext]

theorem pt_cylinder : (pt : Fin 3 → K) ∈ Spec.cylinder 4 2 R t := by
  refine ⟨_, ?_, ?_, rfl⟩
  · simp; norm_num
  · norm_num

theorem pt_capsule : (pt : Fin 3 → K) ∈ Spec.capsule 4 2 R t := by
  rw [C32_union R_orth 4 2 (by norm_num)]
  exact Or.inr pt_cylinder

end

/-- Numerical routines that meet their contracts. -/
noncomputable def cdd {K : Type} [Field K] [LinearOrder K] [IsStrictOrderedRing K] : CddLib K := exists_cdd.choose

theorem cdd_ok {K : Type} [Field K] [LinearOrder K] [IsStrictOrderedRing K] : Spec.IsCdd (cdd : CddLib K) := exists_cdd.choose_spec

noncomputable def eigh : Eigh := exists_isEigh.choose

theorem eigh_ok : Spec.IsEigh eigh := exists_isEigh.choose_spec

noncomputable def lstsq : Lstsq := exists_isLstsq.choose

theorem lstsq_ok : Spec.IsLstsq lstsq := exists_isLstsq.choose_spec

noncomputable def orth : Orth := exists_orth.choose

theorem orth_ok : Spec.IsOrth orth := exists_orth.choose_spec

noncomputable def nullSpace : NullSpace := exists_nullSpace.choose

theorem nullSpace_ok : Spec.IsNullSpace nullSpace := exists_nullSpace.choose_spec

end Rigeo.Case
