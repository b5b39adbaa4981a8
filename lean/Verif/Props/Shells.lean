import Verif.Props.Density

/-!
# C58: hollow boxes, wireframes and shells
-/

namespace Rigeo

open MeasureTheory Matrix

/-! ### Faces -/

/-- The linear part of `Fin.insertNth i`. -/
def insertMat (i : Fin 3) : Matrix (Fin 3) (Fin 2) ℝ := Matrix.of fun k j => if k = i.succAbove j then 1 else 0

theorem insertMat_mulVec (i : Fin 3) (x : ℝ) (y : Fin 2 → ℝ) :
    (i.insertNth x y : Fin 3 → ℝ) = insertMat i *ᵥ y + Pi.single i x := by
  ext k
  rcases Fin.eq_self_or_eq_succAbove i k with rfl | ⟨j, rfl⟩
  · simp [insertMat, mulVec, dotProduct, Fin.ne_succAbove]
  · rw [Fin.insertNth_apply_succAbove, Pi.add_apply, Pi.single_eq_of_ne (Fin.succAbove_ne i j), add_zero, mulVec, dotProduct,
      Fintype.sum_eq_single j]
    · simp [insertMat]
    · intro l hl
      have : i.succAbove j ≠ i.succAbove l := fun h => hl (Fin.succAbove_right_injective h).symm
      simp [insertMat, this]

theorem insertMat_diagonal (i : Fin 3) (d : Fin 3 → ℝ) :
    insertMat i * diagonal (fun j => d (i.succAbove j)) * (insertMat i)ᵀ = diagonal fun k => if k = i then 0 else d k := by
  ext k l
  rw [Matrix.mul_apply]
  simp only [mul_diagonal, transpose_apply]
  rcases Fin.eq_self_or_eq_succAbove i k with rfl | ⟨a, rfl⟩
  · simp [insertMat, Fin.ne_succAbove, diagonal]
  · rw [Fintype.sum_eq_single a]
    · by_cases hl : l = i.succAbove a
      · subst hl
        simp [insertMat, Fin.succAbove_ne]
      · rw [diagonal_apply_ne _ (Ne.symm hl)]
        simp [insertMat, hl]
    · intro b hb
      have : i.succAbove a ≠ i.succAbove b := fun h => hb (Fin.succAbove_right_injective h).symm
      simp [insertMat, this]

/-- The moments of one face. -/
theorem face_moments (h : Fin 3 → ℝ) (hh : ∀ i, 0 ≤ h i) (i : Fin 3) (x : ℝ) (hx : x ^ 2 = h i ^ 2) :
    Spec.HasMoments ((volume.restrict {y : Fin 2 → ℝ | ∀ j, |y j| ≤ h (i.succAbove j)}).map
        fun y => (i.insertNth x y : Fin 3 → ℝ))
      (∏ j, 2 * h (i.succAbove j)) ((∏ j, 2 * h (i.succAbove j)) • Pi.single i x)
      ((∏ j, 2 * h (i.succAbove j)) • diagonal fun k => if k = i then h k ^ 2 else h k ^ 2 / 3) := by
  have h1 := HasMoments.map (rect_moments (fun j => h (i.succAbove j)) fun j => hh _) (insertMat i) (Pi.single i x)
  rw [mulVec_zero, zero_add, outer_zero_left, outer_zero_right, add_zero, add_zero] at h1
  simp only [insertMat_mulVec]
  have hr : {y : Fin 2 → ℝ | ∀ j, |y j| ≤ h (i.succAbove j)} = rect fun j => h (i.succAbove j) := rfl
  rw [hr]
  convert h1 using 1
  rw [Matrix.mul_smul, Matrix.smul_mul, insertMat_diagonal i fun k => h k ^ 2 / 3, ← smul_add]
  congr 1
  ext k l
  rw [Matrix.add_apply, outer_apply]
  by_cases hkl : k = l
  · subst hkl
    by_cases hk : k = i
    · subst hk
      simp [← hx]
      ring
    · simp [hk]
  · rw [diagonal_apply_ne _ hkl, diagonal_apply_ne _ hkl]
    by_cases hk : k = i
    · have : l ≠ i := fun h => hkl (hk.trans h.symm)
      simp [this]
    · simp [hk]

/-- The moments of the surface. -/
theorem boxFaces_moments (h : Fin 3 → ℝ) (hh : ∀ i, 0 ≤ h i) :
    Spec.HasMoments (Spec.boxFaces h) (8 * (h 0 * h 1 + h 0 * h 2 + h 1 * h 2)) 0
      (diagonal ![8 / 3 * (h 0 ^ 2 * (h 0 * h 1 + h 0 * h 2 + 3 * h 1 * h 2)),
        8 / 3 * (h 1 ^ 2 * (h 0 * h 1 + 3 * h 0 * h 2 + h 1 * h 2)),
        8 / 3 * (h 2 ^ 2 * (3 * h 0 * h 1 + h 0 * h 2 + h 1 * h 2))]) := by
  have h1 := HasMoments.sum Finset.univ fun (i : Fin 3) _ => HasMoments.sum Finset.univ fun (s : Bool) _ =>
    face_moments h hh i (if s then h i else -h i) (by cases s <;> simp)
  rw [Spec.boxFaces]
  convert h1 using 1
  · simp only [Fin.sum_univ_three, Fintype.sum_bool, Fin.prod_univ_two]
    simp [Fin.succAbove]
    ring
  · simp only [Fin.sum_univ_three, Fintype.sum_bool]
    ext k
    fin_cases k <;> simp
  · ext k l
    simp only [Fin.sum_univ_three, Fintype.sum_bool, Fin.prod_univ_two]
    fin_cases k <;> fin_cases l <;> simp [Fin.succAbove, diagonal] <;> ring

/-! ### Edges -/

theorem edge_moments (h : Fin 3 → ℝ) (hh : ∀ i, 0 ≤ h i) (i : Fin 3) (x : Fin 2 → ℝ)  :
    Spec.HasMoments ((volume.restrict {y : Fin 1 → ℝ | |y 0| ≤ h i}).map
        fun y => (i.insertNth (y 0) x : Fin 3 → ℝ))
      (2 * h i) ((2 * h i) • i.insertNth 0 x)
      ((2 * h i) • (Matrix.diagonal (Pi.single i (h i ^ 2 / 3)) + outer (i.insertNth 0 x) (i.insertNth 0 x))) := by
  have h1 := HasMoments.map (rect_moments (fun _ : Fin 1 => h i) fun j => hh _)
    (Matrix.of fun k _ => (Pi.single i 1 : Fin 3 → ℝ) k) (i.insertNth 0 x)
  rw [mulVec_zero, zero_add, outer_zero_left, outer_zero_right, add_zero, add_zero] at h1
  convert h1 using 1
  · have e : {y : Fin 1 → ℝ | |y 0| ≤ h i} = rect fun _ : Fin 1 => h i := by
      ext y
      simp [rect]
    rw [e]
    congr 1
    ext1 y
    ext k
    rcases Fin.eq_self_or_eq_succAbove i k with rfl | ⟨j, rfl⟩
    · simp [mulVec, dotProduct]
    · simp [mulVec, dotProduct]
  · simp
  · simp
  · simp only [Finset.univ_unique, Finset.prod_singleton, smul_add]
    congr 1
    rw [Matrix.mul_smul, Matrix.smul_mul]
    congr 1
    ext k l
    rw [Matrix.mul_apply]
    simp only [mul_diagonal, transpose_apply, Finset.univ_unique, Finset.sum_singleton, of_apply]
    by_cases hkl : k = l
    · subst hkl
      by_cases hk : k = i
      · subst hk
        simp
      · simp [hk]
    · rw [diagonal_apply_ne _ hkl]
      by_cases hk : k = i
      · have : l ≠ i := fun h => hkl (hk.trans h.symm)
        simp [this]
      · simp [hk]

theorem boxEdges_moments (h : Fin 3 → ℝ) (hh : ∀ i, 0 ≤ h i) :
    Spec.HasMoments (Spec.boxEdges h) (8 * (h 0 + h 1 + h 2)) 0
      (diagonal ![8 * (h 0 ^ 2 * (h 0 / 3 + h 1 + h 2)), 8 * (h 1 ^ 2 * (h 0 + h 1 / 3 + h 2)),
        8 * (h 2 ^ 2 * (h 0 + h 1 + h 2 / 3))]) := by
  have h1 := HasMoments.sum Finset.univ fun (i : Fin 3) _ => HasMoments.sum Finset.univ fun (s : Bool) _ =>
    HasMoments.sum Finset.univ fun (t : Bool) _ => edge_moments h hh i ![if s then h (i.succAbove 0) else -h (i.succAbove 0),
      if t then h (i.succAbove 1) else -h (i.succAbove 1)]
  have e0 : ∀ (a : ℝ) (x : Fin 2 → ℝ), ((0 : Fin 3).insertNth a x : Fin 3 → ℝ) = ![a, x 0, x 1] := by
    intro a x
    ext k
    fin_cases k <;> rfl
  have e1 : ∀ (a : ℝ) (x : Fin 2 → ℝ), ((1 : Fin 3).insertNth a x : Fin 3 → ℝ) = ![x 0, a, x 1] := by
    intro a x
    ext k
    fin_cases k <;> rfl
  have e2 : ∀ (a : ℝ) (x : Fin 2 → ℝ), ((2 : Fin 3).insertNth a x : Fin 3 → ℝ) = ![x 0, x 1, a] := by
    intro a x
    ext k
    fin_cases k <;> rfl
  have s0 : ((0 : Fin 3).succAbove 0 = 1) ∧ ((0 : Fin 3).succAbove 1 = 2) := by decide
  have s1 : ((1 : Fin 3).succAbove 0 = 0) ∧ ((1 : Fin 3).succAbove 1 = 2) := by decide
  have s2 : ((2 : Fin 3).succAbove 0 = 0) ∧ ((2 : Fin 3).succAbove 1 = 1) := by decide
  simp only [Fin.sum_univ_three, Fintype.sum_bool, s0.1, s0.2, s1.1, s1.2, s2.1, s2.2, e0, e1, e2] at h1
  have hd : Spec.boxEdges h = _ := rfl
  convert h1 using 1
  · rw [Spec.boxEdges]
    simp only [Fin.sum_univ_three, Fintype.sum_bool, s0.1, s0.2, s1.1, s1.2, s2.1, s2.2, e0, e1, e2]
  · ring
  · ext k
    fin_cases k <;> simp
  · ext k l
    fin_cases k <;> fin_cases l <;> simp [outer_apply, diagonal] <;> ring

/-! ### C58: boxes -/

/-- Mass spread evenly over a measure of non-zero total. -/
theorem evenly_moments {n : ℕ} {ν : Measure (Fin n → ℝ)} {A : ℝ} {D : Matrix (Fin n) (Fin n) ℝ}
    (hν : Spec.HasMoments ν A 0 D) (hA : 0 < A) (m : ℝ) (hm : 0 ≤ m) :
    Spec.HasMoments (Spec.evenly m ν) m 0 ((m / A) • D) := by
  have := HasMoments.smul hν (div_nonneg hm hA.le)
  rw [div_mul_cancel₀ _ hA.ne', smul_zero] at this
  rw [Spec.evenly, hν.mass]
  exact this

theorem Box.hollowDensityParams_ok (b : Box ℝ) (m : ℝ) (hm : 0 < m)
    (hA : b.halfExtents 0 * b.halfExtents 1 + b.halfExtents 0 * b.halfExtents 2 + b.halfExtents 1 * b.halfExtents 2 ≠ 0) :
    b.hollowDensityParams m = .ok ⟨m, b.center, b.rotation * (m • diagonal
      ![b.halfExtents 0 ^ 2 * (b.halfExtents 0 * b.halfExtents 1 + b.halfExtents 0 * b.halfExtents 2 +
          3 * b.halfExtents 1 * b.halfExtents 2) /
          (3 * (b.halfExtents 0 * b.halfExtents 1 + b.halfExtents 0 * b.halfExtents 2 + b.halfExtents 1 * b.halfExtents 2)),
        b.halfExtents 1 ^ 2 * (b.halfExtents 0 * b.halfExtents 1 + 3 * b.halfExtents 0 * b.halfExtents 2 +
          b.halfExtents 1 * b.halfExtents 2) /
          (3 * (b.halfExtents 0 * b.halfExtents 1 + b.halfExtents 0 * b.halfExtents 2 + b.halfExtents 1 * b.halfExtents 2)),
        b.halfExtents 2 ^ 2 * (3 * b.halfExtents 0 * b.halfExtents 1 + b.halfExtents 0 * b.halfExtents 2 +
          b.halfExtents 1 * b.halfExtents 2) /
          (3 * (b.halfExtents 0 * b.halfExtents 1 + b.halfExtents 0 * b.halfExtents 2 + b.halfExtents 1 * b.halfExtents 2))])
      * b.rotationᵀ + m • outer b.center b.center⟩ := by
  rw [← density_transform m hm, Box.hollowDensityParams]
  have h3 : 3 * (b.halfExtents 0 * b.halfExtents 1 + b.halfExtents 0 * b.halfExtents 2 +
    b.halfExtents 1 * b.halfExtents 2) ≠ 0 := mul_ne_zero three_ne_zero hA
  simp only [pyAssert, hm.le, decide_true, if_true, pdiv, if_neg h3]
  rfl

theorem Box.wireframeDensityParams_ok (b : Box ℝ) (m : ℝ) (hm : 0 < m)
    (hA : b.halfExtents 0 + b.halfExtents 1 + b.halfExtents 2 ≠ 0) :
    b.wireframeDensityParams m = .ok ⟨m, b.center, b.rotation * (m • diagonal
      ![b.halfExtents 0 ^ 2 * (b.halfExtents 0 / 3 + b.halfExtents 1 + b.halfExtents 2) /
          (b.halfExtents 0 + b.halfExtents 1 + b.halfExtents 2),
        b.halfExtents 1 ^ 2 * (b.halfExtents 0 + b.halfExtents 1 / 3 + b.halfExtents 2) /
          (b.halfExtents 0 + b.halfExtents 1 + b.halfExtents 2),
        b.halfExtents 2 ^ 2 * (b.halfExtents 0 + b.halfExtents 1 + b.halfExtents 2 / 3) /
          (b.halfExtents 0 + b.halfExtents 1 + b.halfExtents 2)])
      * b.rotationᵀ + m • outer b.center b.center⟩ := by
  rw [← density_transform m hm, Box.wireframeDensityParams]
  simp only [pyAssert, hm.le, decide_true, if_true, pdiv, if_neg hA]
  rfl

/-- C58: the parameters of a hollow box are the moments of the mass spread evenly over its surface, whenever the surface
has an area. -/
theorem C58_hollow (b : Box ℝ) (hb : ∀ i, 0 ≤ b.halfExtents i) (m : ℝ) (hm : 0 < m)
    (hA : (Spec.boxFaces b.halfExtents).real Set.univ ≠ 0) :
    ∃ p, b.hollowDensityParams m = .ok p ∧
      Spec.HasMoments ((Spec.evenly m (Spec.boxFaces b.halfExtents)).map (Spec.rigid b.rotation b.center))
        p.mass p.h p.H := by
  have hf := boxFaces_moments b.halfExtents hb
  rw [hf.mass] at hA
  have hpos : 0 < 8 * (b.halfExtents 0 * b.halfExtents 1 + b.halfExtents 0 * b.halfExtents 2 +
      b.halfExtents 1 * b.halfExtents 2) := by
    refine lt_of_le_of_ne ?_ (Ne.symm hA)
    have := hb 0
    have := hb 1
    have := hb 2
    positivity
  refine ⟨_, b.hollowDensityParams_ok m hm (fun h => hA (by rw [h, mul_zero])), ?_⟩
  refine density_moments ?_
  convert moments_rigid (evenly_moments hf hpos m hm.le) b.rotation b.center using 4
  ext i j
  have h0 : b.halfExtents 0 * b.halfExtents 1 + b.halfExtents 0 * b.halfExtents 2 +
      b.halfExtents 1 * b.halfExtents 2 ≠ 0 := fun h => hA (by rw [h, mul_zero])
  by_cases hij : i = j
  · subst hij
    rw [Matrix.smul_apply, Matrix.smul_apply, diagonal_apply_eq, diagonal_apply_eq]
    fin_cases i <;> simp <;> field_simp
  · simp [diagonal_apply_ne _ hij]

/-- C58: the parameters of a wireframe box are the moments of the mass spread evenly over its edges, whenever they have a
length. -/
theorem C58_wireframe (b : Box ℝ) (hb : ∀ i, 0 ≤ b.halfExtents i) (m : ℝ) (hm : 0 < m)
    (hA : (Spec.boxEdges b.halfExtents).real Set.univ ≠ 0) :
    ∃ p, b.wireframeDensityParams m = .ok p ∧
      Spec.HasMoments ((Spec.evenly m (Spec.boxEdges b.halfExtents)).map (Spec.rigid b.rotation b.center))
        p.mass p.h p.H := by
  have hf := boxEdges_moments b.halfExtents hb
  rw [hf.mass] at hA
  have hpos : 0 < 8 * (b.halfExtents 0 + b.halfExtents 1 + b.halfExtents 2) := by
    refine lt_of_le_of_ne ?_ (Ne.symm hA)
    have := hb 0
    have := hb 1
    have := hb 2
    positivity
  refine ⟨_, b.wireframeDensityParams_ok m hm (fun h => hA (by rw [h, mul_zero])), ?_⟩
  refine density_moments ?_
  convert moments_rigid (evenly_moments hf hpos m hm.le) b.rotation b.center using 4
  ext i j
  have h0 : b.halfExtents 0 + b.halfExtents 1 + b.halfExtents 2 ≠ 0 := fun h => hA (by rw [h, mul_zero])
  by_cases hij : i = j
  · subst hij
    rw [Matrix.smul_apply, Matrix.smul_apply, diagonal_apply_eq, diagonal_apply_eq]
    fin_cases i <;> simp <;> field_simp
  · simp [diagonal_apply_ne _ hij]

/-- C58: the methods produce NaN exactly for boxes without area, respectively length. -/
theorem C58_nonfinite (b : Box ℝ) (hb : ∀ i, 0 ≤ b.halfExtents i) (m : ℝ) (hm : 0 < m) :
    (b.hollowDensityParams m = .error .nonfinite ↔ (Spec.boxFaces b.halfExtents).real Set.univ = 0) ∧
    (b.wireframeDensityParams m = .error .nonfinite ↔ (Spec.boxEdges b.halfExtents).real Set.univ = 0) := by
  constructor
  · constructor
    · intro h
      by_contra h0
      obtain ⟨p, hp, -⟩ := C58_hollow b hb m hm h0
      rw [h] at hp
      cases hp
    · intro h
      rw [(boxFaces_moments b.halfExtents hb).mass] at h
      have h3 : 3 * (b.halfExtents 0 * b.halfExtents 1 + b.halfExtents 0 * b.halfExtents 2 +
        b.halfExtents 1 * b.halfExtents 2) = 0 := by linarith
      rw [Box.hollowDensityParams]
      simp only [pyAssert, hm.le, decide_true, if_true, pdiv, if_pos h3]
      rfl
  · constructor
    · intro h
      by_contra h0
      obtain ⟨p, hp, -⟩ := C58_wireframe b hb m hm h0
      rw [h] at hp
      cases hp
    · intro h
      rw [(boxEdges_moments b.halfExtents hb).mass] at h
      have h3 : b.halfExtents 0 + b.halfExtents 1 + b.halfExtents 2 = 0 := by linarith
      rw [Box.wireframeDensityParams]
      simp only [pyAssert, hm.le, decide_true, if_true, pdiv, if_pos h3]
      rfl

/-- C58: in terms of the extents: no area means at least two zero extents, no length means three. -/
theorem C58_area (h : Fin 3 → ℝ) (hh : ∀ i, 0 ≤ h i) :
    ((Spec.boxFaces h).real Set.univ = 0 ↔ ∃ i j, i ≠ j ∧ h i = 0 ∧ h j = 0) ∧
    ((Spec.boxEdges h).real Set.univ = 0 ↔ ∀ i, h i = 0) := by
  rw [(boxFaces_moments h hh).mass, (boxEdges_moments h hh).mass]
  have h0 := hh 0
  have h1 := hh 1
  have h2 := hh 2
  constructor
  · constructor
    · intro h'
      have a := mul_nonneg h0 h1
      have b := mul_nonneg h0 h2
      have c := mul_nonneg h1 h2
      have a' : h 0 * h 1 = 0 := by linarith
      have b' : h 0 * h 2 = 0 := by linarith
      have c' : h 1 * h 2 = 0 := by linarith
      rcases mul_eq_zero.1 a' with x | x
      · rcases mul_eq_zero.1 c' with y | y
        · exact ⟨0, 1, by decide, x, y⟩
        · exact ⟨0, 2, by decide, x, y⟩
      · rcases mul_eq_zero.1 b' with y | y
        · exact ⟨1, 0, by decide, x, y⟩
        · exact ⟨1, 2, by decide, x, y⟩
    · rintro ⟨i, j, hij, hi, hj⟩
      fin_cases i <;> fin_cases j <;> simp at hi hj hij <;> simp [hi, hj]
  · constructor
    · intro h' i
      fin_cases i
      · show h 0 = 0
        linarith
      · show h 1 = 0
        linarith
      · show h 2 = 0
        linarith
    · intro h'
      simp [h']

example : (Spec.boxFaces ![1, 2, 3]).real Set.univ ≠ 0 ∧ (Spec.boxEdges ![1, 2, 0]).real Set.univ ≠ 0 := by
  rw [(boxFaces_moments ![1, 2, 3] (by intro i; fin_cases i <;> norm_num)).mass,
    (boxEdges_moments ![1, 2, 0] (by intro i; fin_cases i <;> norm_num)).mass]
  simp
  norm_num

/-! ### C58: shells of ellipsoids -/

theorem Ellipsoid.hollowDensityParams_ok (e : Ellipsoid ℝ 3) (m : ℝ) (hm : 0 < m)
    (hA : e.halfExtents 0 * e.halfExtents 1 + e.halfExtents 0 * e.halfExtents 2 + e.halfExtents 1 * e.halfExtents 2 ≠ 0) :
    e.hollowDensityParams m = .ok ⟨m, e.center, e.rotation * (m • diagonal
      ![e.halfExtents 0 ^ 2 * (e.halfExtents 0 * e.halfExtents 1 + e.halfExtents 0 * e.halfExtents 2 +
          3 * e.halfExtents 1 * e.halfExtents 2) /
          (5 * (e.halfExtents 0 * e.halfExtents 1 + e.halfExtents 0 * e.halfExtents 2 + e.halfExtents 1 * e.halfExtents 2)),
        e.halfExtents 1 ^ 2 * (e.halfExtents 0 * e.halfExtents 1 + 3 * e.halfExtents 0 * e.halfExtents 2 +
          e.halfExtents 1 * e.halfExtents 2) /
          (5 * (e.halfExtents 0 * e.halfExtents 1 + e.halfExtents 0 * e.halfExtents 2 + e.halfExtents 1 * e.halfExtents 2)),
        e.halfExtents 2 ^ 2 * (3 * e.halfExtents 0 * e.halfExtents 1 + e.halfExtents 0 * e.halfExtents 2 +
          e.halfExtents 1 * e.halfExtents 2) /
          (5 * (e.halfExtents 0 * e.halfExtents 1 + e.halfExtents 0 * e.halfExtents 2 + e.halfExtents 1 * e.halfExtents 2))])
      * e.rotationᵀ + m • outer e.center e.center⟩ := by
  rw [← density_transform m hm, Ellipsoid.hollowDensityParams]
  have h3 : 5 * (e.halfExtents 0 * e.halfExtents 1 + e.halfExtents 0 * e.halfExtents 2 +
    e.halfExtents 1 * e.halfExtents 2) ≠ 0 := mul_ne_zero (by norm_num) hA
  simp only [pyAssert, hm.le, decide_true, if_true, pdiv, if_neg h3]
  rfl

/-- C58: the parameters of a spherical shell are those of any distribution of the mass on the sphere that is invariant
under rotations about the centre. -/
theorem C58_sphere_shell (r : ℝ) (hr : 0 < r) (R : Matrix (Fin 3) (Fin 3) ℝ) (hR : Spec.Orthogonal R) (c : Fin 3 → ℝ)
    (m : ℝ) (hm : 0 < m) (μ : Measure (Fin 3 → ℝ)) [IsFiniteMeasure μ] (hmass : μ.real Set.univ = m)
    (hcar : Spec.CarriedBy μ {p | p ⬝ᵥ p = r ^ 2})
    (hinv : ∀ Q : Matrix (Fin 3) (Fin 3) ℝ, Spec.Orthogonal Q → μ.map (fun p => Q *ᵥ p) = μ) :
    ∃ p, (⟨fun _ => r, R, c⟩ : Ellipsoid ℝ 3).hollowDensityParams m = .ok p ∧
      Spec.HasMoments (μ.map fun p => p + c) p.mass p.h p.H := by
  refine ⟨_, Ellipsoid.hollowDensityParams_ok _ m hm (by positivity), ?_⟩
  have hae : ∀ᵐ p ∂μ, p ⬝ᵥ p = r ^ 2 := hcar
  have hbd : ∀ i, ∀ᵐ p ∂μ, |p i| ≤ r := by
    intro i
    filter_upwards [hae] with p hp
    have h1 : p i * p i ≤ p ⬝ᵥ p := Finset.single_le_sum (f := fun k => p k * p k) (fun k _ => mul_self_nonneg _)
      (Finset.mem_univ i)
    exact abs_le_of_sq_le_sq (by rw [hp] at h1; nlinarith) hr.le
  have hi1 : ∀ i, Integrable (fun p : Fin 3 → ℝ => p i) μ := fun i =>
    Integrable.of_bound (continuous_apply i).aestronglyMeasurable r (hbd i)
  have hi2 : ∀ i j, Integrable (fun p : Fin 3 → ℝ => p i * p j) μ := fun i j =>
    Integrable.of_bound ((continuous_apply i).mul (continuous_apply j)).aestronglyMeasurable (r * r) (by
      filter_upwards [hbd i, hbd j] with p h1 h2
      rw [Real.norm_eq_abs, abs_mul]
      exact mul_le_mul h1 h2 (abs_nonneg _) hr.le)
  have hinv' : ∀ (Q : Matrix (Fin 3) (Fin 3) ℝ), Spec.Orthogonal Q → ∀ f : (Fin 3 → ℝ) → ℝ, Continuous f →
      ∫ p, f (Q *ᵥ p) ∂μ = ∫ p, f p ∂μ := by
    intro Q hQ f hf
    conv_rhs => rw [← hinv Q hQ]
    rw [integral_map (by fun_prop) hf.aestronglyMeasurable]
  let F : Fin 3 → Matrix (Fin 3) (Fin 3) ℝ := fun i => diagonal fun k => if k = i then -1 else 1
  have hF : ∀ i, Spec.Orthogonal (F i) := by
    intro i
    show (F i)ᵀ * F i = 1
    rw [diagonal_transpose, diagonal_mul_diagonal, ← diagonal_one]
    congr 1
    ext k
    by_cases h : k = i <;> simp [h]
  have hFa : ∀ i (p : Fin 3 → ℝ) k, (F i *ᵥ p) k = if k = i then -p k else p k := by
    intro i p k
    rw [mulVec_diagonal]
    by_cases h : k = i <;> simp [h]
  let P : Fin 3 → Fin 3 → Matrix (Fin 3) (Fin 3) ℝ := fun i j => Matrix.of fun k l => if Equiv.swap i j k = l then 1 else 0
  have hPa : ∀ i j (p : Fin 3 → ℝ) k, (P i j *ᵥ p) k = p (Equiv.swap i j k) := by
    intro i j p k
    simp [P, mulVec, dotProduct]
  have hP : ∀ i j, Spec.Orthogonal (P i j) := by
    intro i j
    show (P i j)ᵀ * P i j = 1
    ext k l
    simp only [Matrix.mul_apply, transpose_apply, P, of_apply]
    rw [Fintype.sum_eq_single (Equiv.swap i j k)]
    · rw [Equiv.swap_apply_self]
      simp [Matrix.one_apply]
    · intro a ha
      have : Equiv.swap i j a ≠ k := by
        rintro rfl
        rw [Equiv.swap_apply_self] at ha
        exact ha rfl
      simp [this]
  have hfirst : ∀ i, ∫ p, p i ∂μ = 0 := by
    intro i
    have h := hinv' (F i) (hF i) (fun p => p i) (continuous_apply i)
    simp only [hFa, if_true] at h
    rw [integral_neg] at h
    linarith
  have hoff : ∀ i j, i ≠ j → ∫ p, p i * p j ∂μ = 0 := by
    intro i j hij
    have h := hinv' (F i) (hF i) (fun p => p i * p j) (by fun_prop)
    simp only [hFa, if_true, if_neg (Ne.symm hij), neg_mul] at h
    rw [integral_neg] at h
    linarith
  have hsame : ∀ i j, ∫ p, p i * p i ∂μ = ∫ p, p j * p j ∂μ := by
    intro i j
    have h := hinv' (P i j) (hP i j) (fun p => p i * p i) (by fun_prop)
    simp only [hPa, Equiv.swap_apply_left] at h
    exact h.symm
  have hsum : ∫ p, p 0 * p 0 ∂μ + ∫ p, p 1 * p 1 ∂μ + ∫ p, p 2 * p 2 ∂μ = m * r ^ 2 := by
    have h01 : Integrable (fun p : Fin 3 → ℝ => p 0 * p 0 + p 1 * p 1) μ := (hi2 0 0).add (hi2 1 1)
    rw [← integral_add (hi2 0 0) (hi2 1 1), ← integral_add h01 (hi2 2 2)]
    have : ∫ p : Fin 3 → ℝ, (p 0 * p 0 + p 1 * p 1 + p 2 * p 2) ∂μ = ∫ _p : Fin 3 → ℝ, r ^ 2 ∂μ := by
      refine integral_congr_ae ?_
      filter_upwards [hae] with p hp
      rw [← hp, dotProduct, Fin.sum_univ_three]
    refine Eq.trans this ?_
    rw [integral_const, hmass, smul_eq_mul]
  have hmu : Spec.HasMoments μ m 0 (m • diagonal fun _ => r ^ 2 / 3) := by
    refine ⟨inferInstance, hi1, hi2, hmass, hfirst, fun i j => ?_⟩
    by_cases hij : i = j
    · subst hij
      rw [Matrix.smul_apply, diagonal_apply_eq, smul_eq_mul]
      have a := hsame 0 i
      have b := hsame 1 i
      have c := hsame 2 i
      linarith
    · rw [hoff i j hij]
      simp [diagonal_apply_ne _ hij]
  have h1 := moments_rigid hmu 1 c
  have h2 : Spec.rigid (1 : Matrix (Fin 3) (Fin 3) ℝ) c = fun p => p + c := by
    ext1 p
    rw [Spec.rigid, one_mulVec]
  rw [h2] at h1
  refine density_moments ?_
  convert h1 using 2
  have h3 : ∀ a : ℝ, (diagonal fun _ => a : Matrix (Fin 3) (Fin 3) ℝ) = a • 1 := by
    intro a
    rw [smul_one_eq_diagonal]
  have h4 : (![r ^ 2 * (r * r + r * r + 3 * r * r) / (5 * (r * r + r * r + r * r)),
      r ^ 2 * (r * r + 3 * r * r + r * r) / (5 * (r * r + r * r + r * r)),
      r ^ 2 * (3 * r * r + r * r + r * r) / (5 * (r * r + r * r + r * r))] : Fin 3 → ℝ) = fun _ => r ^ 2 / 3 := by
    ext i
    fin_cases i <;> simp <;> field_simp <;> ring
  rw [h4, h3, smul_smul, Matrix.mul_smul, Matrix.mul_one, Matrix.smul_mul, hR.mul_transpose, Matrix.one_mul,
    transpose_one, Matrix.mul_one]

/-- C58, the defect: the formula for shells of ellipsoids is not that of an even distribution over the surface. A flat
ellipsoid has a disk, counted on both sides, as its surface. -/
theorem C58_disk_shell_wrong (r : ℝ) (hr : 0 < r) (R : Matrix (Fin 3) (Fin 3) ℝ) (hR : Spec.Orthogonal R) (c : Fin 3 → ℝ)
    (m : ℝ) (hm : 0 < m) :
    ∃ p, (⟨![r, r, 0], R, c⟩ : Ellipsoid ℝ 3).hollowDensityParams m = .ok p ∧
      ¬ Spec.HasMoments ((Spec.uniform m {u : Fin 2 → ℝ | u ⬝ᵥ u ≤ 1}).map
        fun u => Spec.rigid R c ![r * u 0, r * u 1, 0]) p.mass p.h p.H := by
  obtain ⟨p, q, h1, -, h2, -⟩ := C57_disk_wrong r hr R hR c m hm
  have h3 := Ellipsoid.hollowDensityParams_ok ⟨![r, r, 0], R, c⟩ m hm (by simp [hr.ne'])
  refine ⟨p, ?_, h2⟩
  rw [← h1, h3, Ellipsoid.uniformDensityParams_ok _ m hm]
  congr 7
  ext i
  fin_cases i
  · show r ^ 2 * (r * r + r * 0 + 3 * r * 0) / (5 * (r * r + r * 0 + r * 0)) = 1 / 5 * r ^ 2
    simp only [mul_zero, add_zero]
    field_simp
  · show r ^ 2 * (r * r + 3 * r * 0 + r * 0) / (5 * (r * r + r * 0 + r * 0)) = 1 / 5 * r ^ 2
    simp only [mul_zero, add_zero]
    field_simp
  · show 0 ^ 2 * _ / _ = 1 / 5 * (0 : ℝ) ^ 2
    ring

/-- A distribution as in `C58_sphere_shell` exists. -/
theorem exists_sphere_shell (r : ℝ) (hr : 0 < r) (m : ℝ) (hm : 0 ≤ m) :
    ∃ μ : Measure (Fin 3 → ℝ), IsFiniteMeasure μ ∧ μ.real Set.univ = m ∧ Spec.CarriedBy μ {p | p ⬝ᵥ p = r ^ 2} ∧
      ∀ Q : Matrix (Fin 3) (Fin 3) ℝ, Spec.Orthogonal Q → μ.map (fun p => Q *ᵥ p) = μ := by
  have hu := uniform_unitBall (n := 2) m hm
  have := hu.finite
  let f : (Fin 3 → ℝ) → Fin 3 → ℝ := fun p => (r / √(p ⬝ᵥ p)) • p
  have hf : Measurable f := by
    unfold f dotProduct
    fun_prop
  refine ⟨(Spec.uniform m (unitBall 3)).map f, Measure.isFiniteMeasure_map _ _, ?_, ?_, ?_⟩
  · rw [measureReal_def, Measure.map_apply hf MeasurableSet.univ, Set.preimage_univ, ← measureReal_def]
    exact hu.mass
  · have hS : MeasurableSet {p : Fin 3 → ℝ | p ⬝ᵥ p = r ^ 2} := by
      have : Continuous fun p : Fin 3 → ℝ => p ⬝ᵥ p := continuous_dot_self
      exact (isClosed_singleton.preimage this).measurableSet
    rw [Spec.CarriedBy, Measure.map_apply hf hS.compl, Spec.uniform, Measure.smul_apply]
    have h0 : volume.restrict (unitBall 3) (f ⁻¹' {p | p ⬝ᵥ p = r ^ 2}ᶜ) = 0 := by
      refine le_antisymm ((Measure.restrict_apply_le _ _).trans ?_) zero_le
      refine (measure_mono (t := {0}) ?_).trans (by simp)
      intro p hp
      by_contra h
      refine hp ?_
      have hpos : 0 < p ⬝ᵥ p := by
        have h1 : 0 ≤ p ⬝ᵥ p := Finset.sum_nonneg fun i _ => mul_self_nonneg _
        refine lt_of_le_of_ne h1 fun h2 => h ?_
        exact dotProduct_self_eq_zero.1 h2.symm
      show f p ⬝ᵥ f p = r ^ 2
      simp only [f, smul_dotProduct, dotProduct_smul, smul_eq_mul]
      have := Real.sq_sqrt hpos.le
      have := Real.sqrt_pos.2 hpos
      field_simp
      nlinarith
    rw [h0, smul_zero]
  · intro Q hQ
    have hdot : ∀ p : Fin 3 → ℝ, (Q *ᵥ p) ⬝ᵥ (Q *ᵥ p) = p ⬝ᵥ p := by
      intro p
      rw [dotProduct_mulVec, vecMul_mulVec, hQ, vecMul_one]
    have hcomm : (fun p => Q *ᵥ p) ∘ f = f ∘ fun p => Q *ᵥ p := by
      ext1 p
      simp only [Function.comp, f, mulVec_smul, hdot]
    rw [Measure.map_map (by fun_prop) hf, hcomm, ← Measure.map_map hf (by fun_prop)]
    congr 1
    have hdet : Q.det ≠ 0 := by
      have := det_orthogonal_sq hQ
      intro h
      rw [h] at this
      norm_num at this
    have h1 := uniform_affine Q hdet 0 m (unitBall 3)
    simp only [add_zero] at h1
    rw [← h1]
    congr 1
    ext p
    constructor
    · rintro ⟨q, hq, rfl⟩
      show (Q *ᵥ q) ⬝ᵥ (Q *ᵥ q) ≤ 1
      rw [hdot]
      exact hq
    · intro hp
      refine ⟨Qᵀ *ᵥ p, ?_, ?_⟩
      · show (Qᵀ *ᵥ p) ⬝ᵥ (Qᵀ *ᵥ p) ≤ 1
        rw [dotProduct_mulVec, vecMul_mulVec, transpose_transpose, hQ.mul_transpose, vecMul_one]
        exact hp
      · show Q *ᵥ (Qᵀ *ᵥ p) = p
        rw [mulVec_mulVec, hQ.mul_transpose, one_mulVec]

end Rigeo
