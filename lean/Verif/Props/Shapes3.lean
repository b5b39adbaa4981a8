import Verif.Props.Shapes2
import Verif.Model.Numerics
import Verif.Spec.Numerics
import Mathlib.LinearAlgebra.Matrix.NonsingularInverse

/-! # C28 (constructors), C33: transforms of shapes -/

namespace Rigeo

open Matrix

/-! ## C28: `from_shape_matrix` and `from_affine` rebuild the ellipsoid -/

section Real
variable {d : ℕ}

theorem invWithZero_some {a : ℝ} (h : 1 / 100000000 < a) : Ellipsoid.invWithZero a = some (1 / a) := by
  unfold Ellipsoid.invWithZero
  rw [if_neg]
  rw [isclose_zero_right, not_le]
  exact h.trans_le (le_abs_self a)

/-- The set built from an eigendecomposition. -/
theorem fromEigh_spec (V : Matrix (Fin d) (Fin d) ℝ) (eigs : Fin d → ℝ) (hV : Spec.Orthogonal V)
    (he : ∀ i, (1 / 100000000) ^ 2 < eigs i) (c : Option (Fin d → ℝ)) :
    ∃ e : Ellipsoid ℝ d, Ellipsoid.fromEigh eigs V c = .ok e ∧ Spec.Orthogonal e.rotation ∧
      (∀ i, 0 < e.halfExtents i) ∧ e.center = c.getD 0 ∧
      ∀ p, p ∈ Spec.ellipsoid e.halfExtents e.rotation e.center ↔
        (p - c.getD 0) ⬝ᵥ ((V * Matrix.diagonal eigs * Vᵀ) *ᵥ (p - c.getD 0)) ≤ 1 := by
  have hpos : ∀ i, 0 < eigs i := fun i => (by positivity : (0 : ℝ) < (1 / 100000000) ^ 2).trans (he i)
  have hs : ∀ i, 1 / 100000000 < Real.sqrt (eigs i) := fun i => Real.lt_sqrt_of_sq_lt (he i)
  have hi : ∀ i, Ellipsoid.invWithZero (Real.sqrt (eigs i)) = some (1 / Real.sqrt (eigs i)) :=
    fun i => invWithZero_some (hs i)
  have hsp : ∀ i, 0 < 1 / Real.sqrt (eigs i) := fun i => by
    have := Real.sqrt_pos.mpr (hpos i); positivity
  refine ⟨⟨fun i => 1 / Real.sqrt (eigs i), V, c.getD 0⟩, ?_, hV, hsp, rfl, fun p => ?_⟩
  · simp [Ellipsoid.fromEigh, Ellipsoid.init, pyAssert, hi, bind, Except.bind, pure, Except.pure,
      fun i => (hpos i).le]
  · rw [ellipsoid_of_shape hV _ _ _ hsp]
    have : (fun i => (1 / (1 / Real.sqrt (eigs i))) ^ 2) = eigs := by
      ext i; rw [one_div_one_div, Real.sq_sqrt (hpos i).le]
    rw [this]

/-- If a symmetric matrix is a rotated diagonal in two ways, a bound on one set of eigenvalues holds for
the other. -/
theorem eigs_lt_of_similar {R V : Matrix (Fin d) (Fin d) ℝ} {w eigs : Fin d → ℝ} (hR : Spec.Orthogonal R)
    (hV : Spec.Orthogonal V) (h : R * Matrix.diagonal w * Rᵀ = V * Matrix.diagonal eigs * Vᵀ) (a : ℝ)
    (hw : ∀ i, a < w i) (i : Fin d) : a < eigs i := by
  set v : Fin d → ℝ := V *ᵥ Pi.single i 1 with hv
  have hVv : Vᵀ *ᵥ v = Pi.single i 1 := by rw [hv, mulVec_mulVec, hV, one_mulVec]
  have q1 : v ⬝ᵥ ((V * Matrix.diagonal eigs * Vᵀ) *ᵥ v) = eigs i := by
    rw [quad_diag, hVv]; simp [Pi.single_apply]
  rw [← h, quad_diag] at q1
  set y := Rᵀ *ᵥ v
  have hy : ∑ j, y j ^ 2 = 1 := by
    have h1 : y ⬝ᵥ y = v ⬝ᵥ v := dot_mulVec_orthogonal hR.transpose _ _
    have h2 : (Vᵀ *ᵥ v) ⬝ᵥ (Vᵀ *ᵥ v) = v ⬝ᵥ v := dot_mulVec_orthogonal hV.transpose _ _
    rw [hVv] at h2
    have h3 : ∑ j, y j ^ 2 = y ⬝ᵥ y := by simp [dotProduct, sq]
    rw [h3, h1, ← h2]
    simp
  rw [← q1]
  have : ∃ j, y j ≠ 0 := by
    by_contra hc
    push Not at hc
    simp [hc] at hy
  obtain ⟨j, hj⟩ := this
  calc a = ∑ j, a * y j ^ 2 := by rw [← Finset.mul_sum, hy, mul_one]
    _ < ∑ j, w j * y j ^ 2 := Finset.sum_lt_sum
        (fun j _ => mul_le_mul_of_nonneg_right (hw j).le (sq_nonneg _))
        ⟨j, Finset.mem_univ j, mul_lt_mul_of_pos_right (hw j) (by positivity)⟩

/-- C28: `from_shape_matrix(e.S, e.center)` rebuilds the point set of a non-degenerate ellipsoid,
whichever eigendecomposition `eigh` returns. Half extents of `1e8` and more are rejected by the code and
hence excluded. -/
theorem C28_fromShapeMatrix (eigh : Eigh) (heigh : Spec.IsEigh eigh) (e : Ellipsoid ℝ d)
    (hR : Spec.Orthogonal e.rotation) (he : ∀ i, 1 / 100000000 < e.halfExtents i)
    (he' : ∀ i, e.halfExtents i < 100000000) :
    ∃ S e', e.S = .ok S ∧ Ellipsoid.fromShapeMatrix eigh S (some e.center) = .ok e' ∧
      Spec.ellipsoid e'.halfExtents e'.rotation e'.center =
        Spec.ellipsoid e.halfExtents e.rotation e.center := by
  have hpos : ∀ i, 0 < e.halfExtents i := fun i => (tol8_pos (K := ℝ)).trans (he i)
  set S := e.rotation * Matrix.diagonal (fun i => (1 / e.halfExtents i) ^ 2) * e.rotationᵀ with hS
  have eS : e.S = .ok S := by simp [Ellipsoid.S, e.hInvFin_ok he, bind, Except.bind, pure, Except.pure, hS]
  obtain ⟨hV, hdec⟩ := heigh d S (conj_diag_transpose _ _)
  have hlow : ∀ i, (1 / 100000000) ^ 2 < (eigh d S).1 i := by
    refine eigs_lt_of_similar hR hV (hS.symm.trans hdec) _ fun i => ?_
    exact pow_lt_pow_left₀ (one_div_lt_one_div_of_lt (hpos i) (he' i)) (by positivity) two_ne_zero
  obtain ⟨e', h1, -, -, -, h5⟩ := fromEigh_spec (eigh d S).2 (eigh d S).1 hV hlow (some e.center)
  refine ⟨S, e', eS, h1, ?_⟩
  ext p
  rw [h5, ← hdec, ellipsoid_of_shape hR _ _ _ hpos]
  rfl

/-- C28: `from_affine(e.A, e.b)` rebuilds the point set of a non-degenerate ellipsoid, whichever
eigendecomposition `eigh` and whichever minimiser `lstsq` returns. -/
theorem C28_fromAffine (eigh : Eigh) (heigh : Spec.IsEigh eigh) (lstsq : Lstsq)
    (hlstsq : Spec.IsLstsq lstsq) (e : Ellipsoid ℝ d)
    (hR : Spec.Orthogonal e.rotation) (he : ∀ i, 1 / 100000000 < e.halfExtents i)
    (he' : ∀ i, e.halfExtents i < 100000000) :
    ∃ A b e', e.A = .ok A ∧ e.b = .ok b ∧ Ellipsoid.fromAffine eigh lstsq A b = .ok e' ∧
      Spec.ellipsoid e'.halfExtents e'.rotation e'.center =
        Spec.ellipsoid e.halfExtents e.rotation e.center := by
  have hpos : ∀ i, 0 < e.halfExtents i := fun i => (tol8_pos (K := ℝ)).trans (he i)
  obtain ⟨S, A, b, Q, hS, hA, hb, -, hSE, hES, hAA, -⟩ := C28_representations e hR he
  obtain ⟨S', e', hS', hfrom, hset⟩ := C28_fromShapeMatrix eigh heigh e hR he he'
  rw [hS] at hS'
  obtain rfl := Except.ok.inj hS'
  have hb' : b = (-A) *ᵥ e.center := by
    have : e.b = .ok ((-A) *ᵥ e.center) := by
      simp [Ellipsoid.b, hA, bind, Except.bind, pure, Except.pure]
    rw [hb] at this; exact Except.ok.inj this
  have hc : lstsq d A (-b) = e.center := by
    have h1 := hlstsq d A (-b) e.center
    have h2 : A *ᵥ e.center - -b = 0 := by rw [hb', neg_mulVec]; simp
    rw [h2] at h1
    have h3 : A *ᵥ lstsq d A (-b) - -b = 0 := by
      rw [← dot_self_eq_zero]
      exact le_antisymm (by simpa using h1) (dot_self_nonneg _)
    have h4 : A *ᵥ (lstsq d A (-b) - e.center) = 0 := by
      rw [mulVec_sub, sub_eq_zero.mp h3, sub_eq_zero.mp h2, sub_self]
    have h5 : (e.E * A) *ᵥ (A *ᵥ (lstsq d A (-b) - e.center)) = 0 := by rw [h4, mulVec_zero]
    rw [mulVec_mulVec, Matrix.mul_assoc, hAA, hES, one_mulVec] at h5
    exact sub_eq_zero.mp h5
  refine ⟨A, b, e', hA, hb, ?_, hset⟩
  unfold Ellipsoid.fromAffine
  rw [hc, hAA]; exact hfrom

/-- C28: a symmetric matrix that is not positive definite is rejected by `from_shape_matrix`: the code
cannot build degenerate ellipsoids from a singular shape matrix. -/
theorem C28_singular (eigh : Eigh) (heigh : Spec.IsEigh eigh) (S : Matrix (Fin d) (Fin d) ℝ)
    (hS : Sᵀ = S) (v : Fin d → ℝ) (hv : v ≠ 0) (hq : v ⬝ᵥ (S *ᵥ v) ≤ 0) (c : Option (Fin d → ℝ)) :
    Ellipsoid.fromShapeMatrix eigh S c = .error .assertion := by
  obtain ⟨hV, hdec⟩ := heigh d S hS
  have hex : ∃ i, (eigh d S).1 i ≤ 0 := by
    by_contra hc
    push Not at hc
    rw [hdec, quad_diag] at hq
    have h0 : ∀ i ∈ Finset.univ, 0 ≤ (eigh d S).1 i * ((eigh d S).2ᵀ *ᵥ v) i ^ 2 :=
      fun i _ => mul_nonneg (hc i).le (sq_nonneg _)
    have h1 := (Finset.sum_eq_zero_iff_of_nonneg h0).mp (le_antisymm hq (Finset.sum_nonneg h0))
    have h2 : (eigh d S).2ᵀ *ᵥ v = 0 := by
      ext i
      have := h1 i (Finset.mem_univ i)
      rw [mul_eq_zero, or_iff_right (hc i).ne', pow_eq_zero_iff two_ne_zero] at this
      exact this
    apply hv
    have h3 : (eigh d S).2 *ᵥ ((eigh d S).2ᵀ *ᵥ v) = v := by
      rw [mulVec_mulVec, hV.mul_transpose, one_mulVec]
    rw [← h3, h2, mulVec_zero]
  obtain ⟨i, hi⟩ := hex
  unfold Ellipsoid.fromShapeMatrix Ellipsoid.fromEigh
  by_cases hall : ∀ i, 0 ≤ (eigh d S).1 i
  · have hn : ¬ ∀ i, (Ellipsoid.invWithZero (Real.sqrt ((eigh d S).1 i))).isSome := by
      intro h
      have h' := h i
      rw [Real.sqrt_eq_zero_of_nonpos hi] at h'
      simp [Ellipsoid.invWithZero, isclose_zero_right, (tol8_pos (K := ℝ)).le] at h'
    have hn' : decide (∀ i, (Ellipsoid.invWithZero (Real.sqrt ((eigh d S).1 i))).isSome) = false :=
      decide_eq_false hn
    simp only [pyAssert, hall, hn', bind, Except.bind, implies_true, decide_true, if_true]
    rfl
  · have hall' : decide (∀ i, 0 ≤ (eigh d S).1 i) = false := decide_eq_false hall
    simp only [pyAssert, hall', bind, Except.bind]
    rfl

/-- Least squares problems have minimisers. -/
theorem exists_lstsq (A : Matrix (Fin d) (Fin d) ℝ) (b : Fin d → ℝ) :
    ∃ x, ∀ y, (A *ᵥ x - b) ⬝ᵥ (A *ᵥ x - b) ≤ (A *ᵥ y - b) ⬝ᵥ (A *ᵥ y - b) := by
  obtain ⟨V, w, hV, hV', hX⟩ := exists_eigh (Aᵀ * A) (by simp)
  set g : Fin d → ℝ := Vᵀ *ᵥ (Aᵀ *ᵥ b) with hg
  set x : Fin d → ℝ := V *ᵥ (fun i => (w i)⁻¹ * g i) with hx
  have hcol : ∀ i, w i = 0 → g i = 0 := by
    intro i hi
    set v : Fin d → ℝ := V *ᵥ Pi.single i 1 with hv
    have hVv : Vᵀ *ᵥ v = Pi.single i 1 := by rw [hv, mulVec_mulVec, hV, one_mulVec]
    have h1 : (A *ᵥ v) ⬝ᵥ (A *ᵥ v) = 0 := by
      have : v ⬝ᵥ ((Aᵀ * A) *ᵥ v) = 0 := by
        rw [hX, quad_diag, hVv]; simp [Pi.single_apply, hi]
      rw [← this, ← mulVec_mulVec, dotProduct_mulVec v, ← mulVec_transpose, transpose_transpose]
    rw [dot_self_eq_zero] at h1
    have h2 : g i = (Pi.single i 1 : Fin d → ℝ) ⬝ᵥ g := by simp
    rw [h2, hg, dotProduct_mulVec, ← mulVec_transpose, transpose_transpose, ← hv, dotProduct_mulVec,
      ← mulVec_transpose, transpose_transpose, h1, zero_dotProduct]
  have hnormal : Aᵀ *ᵥ (A *ᵥ x - b) = 0 := by
    rw [mulVec_sub, mulVec_mulVec, hX, hx]
    have h1 : (V * diagonal w * Vᵀ) *ᵥ (V *ᵥ fun i => (w i)⁻¹ * g i) = V *ᵥ g := by
      rw [← mulVec_mulVec, ← mulVec_mulVec, mulVec_mulVec _ Vᵀ V, hV, one_mulVec]
      congr 1
      ext i
      rw [mulVec_diagonal]
      by_cases hi : w i = 0
      · simp [hi, hcol i hi]
      · rw [mul_inv_cancel_left₀ hi]
    rw [h1, hg, mulVec_mulVec, hV', one_mulVec, sub_self]
  refine ⟨x, fun y => ?_⟩
  have h1 : A *ᵥ y - b = (A *ᵥ x - b) + A *ᵥ (y - x) := by rw [mulVec_sub]; abel
  have h2 : (A *ᵥ x - b) ⬝ᵥ (A *ᵥ (y - x)) = 0 := by
    rw [dotProduct_mulVec, ← mulVec_transpose, hnormal, zero_dotProduct]
  rw [h1, add_dotProduct, dotProduct_add, dotProduct_add, h2, dotProduct_comm (A *ᵥ (y - x)), h2]
  have := dot_self_nonneg (A *ᵥ (y - x))
  linarith

theorem exists_isLstsq : ∃ lstsq : Lstsq, Spec.IsLstsq lstsq :=
  ⟨fun _ A b => (exists_lstsq A b).choose, fun _ A b x => (exists_lstsq A b).choose_spec x⟩

/-- The contracts are satisfiable: every symmetric real matrix has an eigendecomposition. -/
theorem exists_isEigh : ∃ eigh : Eigh, Spec.IsEigh eigh := by
  classical
  refine ⟨fun n X => if h : Xᵀ = X then
    ((exists_eigh X h).choose_spec.choose, (exists_eigh X h).choose) else (0, 0), ?_⟩
  intro n X hX
  simp only [hX, dif_pos]
  have := (exists_eigh X hX).choose_spec.choose_spec
  exact ⟨this.1, this.2.2⟩

end Real

/-! ## C33: transforms -/

section Field
variable {K : Type} [Field K] [LinearOrder K] [IsStrictOrderedRing K]

/-- The pose `(R' R, R' c + t)` sees the moved point where the old pose saw the point. -/
theorem body_coord {n : ℕ} {R' : Matrix (Fin n) (Fin n) K} (hR' : Spec.Orthogonal R')
    (R : Matrix (Fin n) (Fin n) K) (c t p : Fin n → K) :
    (R' * R)ᵀ *ᵥ (Spec.rigid R' t p - (R' *ᵥ c + t)) = Rᵀ *ᵥ (p - c) := by
  unfold Spec.rigid
  rw [add_sub_add_right_eq_sub, ← mulVec_sub, mulVec_mulVec, transpose_mul, Matrix.mul_assoc, hR',
    Matrix.mul_one]

theorem rigid_rigid {n : ℕ} (R' R : Matrix (Fin n) (Fin n) K) (c t y : Fin n → K) :
    Spec.rigid (R' * R) (R' *ᵥ c + t) y = Spec.rigid R' t (Spec.rigid R c y) := by
  simp only [Spec.rigid, mulVec_add, mulVec_mulVec, add_assoc]

/-- C33: a transformed box answers membership queries (at every tolerance) for moved points as the
original did for the original points, and its point set is the moved point set. -/
theorem C33_box (b : Box K) (hb : ∀ i, 0 ≤ b.halfExtents i) (R : Matrix (Fin 3) (Fin 3) K)
    (hR : Spec.Orthogonal R) (t : Fin 3 → K) :
    ∃ b', b.transform (some R) (some t) = .ok b' ∧
      (∀ p tol, b'.contains (Spec.rigid R t p) tol = b.contains p tol) ∧
      Spec.box b'.halfExtents b'.rotation b'.center =
        Spec.moved R t (Spec.box b.halfExtents b.rotation b.center) := by
  refine ⟨⟨b.halfExtents, R * b.rotation, R *ᵥ b.center + t⟩, ?_, fun p tol => ?_, ?_⟩
  · unfold Box.transform; rw [Box.init_ok _ hb]; rfl
  · rw [Bool.eq_iff_iff, Box.contains_iff, Box.contains_iff]
    dsimp only
    rw [body_coord hR]
  · ext p
    simp only [Spec.box, Spec.moved, Set.mem_image, Set.mem_ofPred_eq, rigid_rigid]
    constructor
    · rintro ⟨y, hy, rfl⟩; exact ⟨_, ⟨y, hy, rfl⟩, rfl⟩
    · rintro ⟨_, ⟨y, hy, rfl⟩, rfl⟩; exact ⟨y, hy, rfl⟩

theorem Ellipsoid.init_ok {d : ℕ} (h : Fin d → K) (hh : ∀ i, 0 ≤ h i) (R : Option (Matrix (Fin d) (Fin d) K))
    (c : Option (Fin d → K)) : Ellipsoid.init h R c = .ok ⟨h, R.getD 1, c.getD 0⟩ := by
  simp [Ellipsoid.init, pyAssert, hh, bind, Except.bind, pure, Except.pure]

/-- `Ellipsoid.contains` only depends on the half extents and the body coordinates of the point. -/
theorem Ellipsoid.contains_congr {d : ℕ} (e e' : Ellipsoid K d) (p p' : Fin d → K) (tol : K)
    (hh : e.halfExtents = e'.halfExtents)
    (hp : e.rotationᵀ *ᵥ (p - e.center) = e'.rotationᵀ *ᵥ (p' - e'.center)) :
    e.contains p tol = e'.contains p' tol := by
  have hz : e.z = e'.z := by ext i; unfold Ellipsoid.z; rw [hh]
  have hi : e.hInvNz = e'.hInvNz := by ext i; unfold Ellipsoid.hInvNz Ellipsoid.hInv; rw [hh]
  unfold Ellipsoid.contains
  simp only [vecMul_eq_transpose, hp, hz, hi]

/-- C33: ellipsoids, in any dimension. -/
theorem C33_ellipsoid {d : ℕ} (e : Ellipsoid K d) (he : ∀ i, 0 ≤ e.halfExtents i)
    (R : Matrix (Fin d) (Fin d) K) (hR : Spec.Orthogonal R) (t : Fin d → K) :
    ∃ e', e.transform (some R) (some t) = .ok e' ∧
      (∀ p tol, e'.contains (Spec.rigid R t p) tol = e.contains p tol) ∧
      Spec.ellipsoid e'.halfExtents e'.rotation e'.center =
        Spec.moved R t (Spec.ellipsoid e.halfExtents e.rotation e.center) := by
  refine ⟨⟨e.halfExtents, R * e.rotation, R *ᵥ e.center + t⟩, ?_, fun p tol => ?_, ?_⟩
  · unfold Ellipsoid.transform; rw [Ellipsoid.init_ok _ he]; rfl
  · exact Ellipsoid.contains_congr _ _ _ _ _ rfl (body_coord hR _ _ _ _)
  · ext p
    simp only [Spec.ellipsoid, Spec.moved, Set.mem_image, Set.mem_ofPred_eq, rigid_rigid]
    constructor
    · rintro ⟨y, hy, rfl⟩; exact ⟨_, ⟨y, hy, rfl⟩, rfl⟩
    · rintro ⟨_, ⟨y, hy, rfl⟩, rfl⟩; exact ⟨y, hy, rfl⟩

theorem Cylinder.contains_congr (c c' : Cylinder K) (p p' : Fin 3 → K) (tol tol' : K)
    (hL : c.length = c'.length) (hr : c.radius = c'.radius)
    (hp : c.rotationᵀ *ᵥ (p - c.center) = c'.rotationᵀ *ᵥ (p' - c'.center)) :
    c.contains p tol = c'.contains p' tol' := by
  unfold Cylinder.contains
  congr 1
  · refine Ellipsoid.contains_congr _ _ _ _ _ (by simp [Cylinder.ell1, hL]) ?_
    simp only [Cylinder.ell1, transpose_one, one_mulVec]
    ext i
    simp only [Pi.sub_apply]
    rw [c.coord1, c'.coord1, hp]
  · refine Ellipsoid.contains_congr _ _ _ _ _ (by simp [Cylinder.ell2, hr]) ?_
    simp only [Cylinder.ell2, transpose_one, one_mulVec]
    ext i
    rw [c.coord2, c'.coord2, hp]

theorem Cylinder.init_ok (L r : K) (hL : 0 ≤ L) (hr : 0 ≤ r) (R : Option (Matrix (Fin 3) (Fin 3) K))
    (c : Option (Fin 3 → K)) : Cylinder.init L r R c = .ok ⟨L, r, R.getD 1, c.getD 0⟩ := by
  simp [Cylinder.init, pyAssert, hL, hr, bind, Except.bind, pure, Except.pure]

/-- C33: cylinders. -/
theorem C33_cylinder (c : Cylinder K) (hL : 0 ≤ c.length) (hr : 0 ≤ c.radius)
    (R : Matrix (Fin 3) (Fin 3) K) (hR : Spec.Orthogonal R) (t : Fin 3 → K) :
    ∃ c', c.transform (some R) (some t) = .ok c' ∧
      (∀ p tol, c'.contains (Spec.rigid R t p) tol = c.contains p tol) ∧
      Spec.cylinder c'.length c'.radius c'.rotation c'.center =
        Spec.moved R t (Spec.cylinder c.length c.radius c.rotation c.center) := by
  refine ⟨⟨c.length, c.radius, R * c.rotation, R *ᵥ c.center + t⟩, ?_, fun p tol => ?_, ?_⟩
  · unfold Cylinder.transform; rw [Cylinder.init_ok _ _ hL hr]; rfl
  · exact Cylinder.contains_congr _ _ _ _ _ _ rfl rfl (body_coord hR _ _ _ _)
  · ext p
    simp only [Spec.cylinder, Spec.moved, Set.mem_image, Set.mem_ofPred_eq, rigid_rigid]
    constructor
    · rintro ⟨y, hy, hy', rfl⟩; exact ⟨_, ⟨y, hy, hy', rfl⟩, rfl⟩
    · rintro ⟨_, ⟨y, hy, hy', rfl⟩, rfl⟩; exact ⟨y, hy, hy', rfl⟩

theorem ball_moved {n : ℕ} {R : Matrix (Fin n) (Fin n) K} (hR : Spec.Orthogonal R) (r : K)
    (t c p : Fin n → K) : Spec.rigid R t p ∈ Spec.ball r (Spec.rigid R t c) ↔ p ∈ Spec.ball r c := by
  simp only [Spec.ball, Set.mem_ofPred_eq, Spec.rigid, add_sub_add_right_eq_sub]
  rw [← mulVec_sub, dot_mulVec_orthogonal hR]

/-- A sphere of radius at most `1e-8` counts as degenerate in every direction. -/
theorem contains_tiny {d : ℕ} (r : K) (hr0 : 0 ≤ r) (hr : r ≤ 1 / 100000000) (c p : Fin d → K) (tol : K) :
    (⟨fun _ => r, 1, c⟩ : Ellipsoid K d).contains p tol = true ↔ (∀ i, |p i - c i| ≤ tol) ∧ 0 ≤ 1 + tol := by
  have hz : ∀ i, (⟨fun _ => r, 1, c⟩ : Ellipsoid K d).z i = true := fun i => by
    rw [Ellipsoid.z_iff, abs_of_nonneg hr0]; exact hr
  unfold Ellipsoid.contains
  simp only [hz, Bool.true_eq_false, Finset.filter_false, Finset.sum_empty, vecMul_one, isclose_zero_right,
    Bool.and_eq_true, decide_eq_true_eq, forall_const, Pi.sub_apply]

theorem sphere_contains_moved {R : Matrix (Fin 3) (Fin 3) K} (hR : Spec.Orthogonal R) (r : K)
    (tol : K) (hr0 : 0 ≤ r) (hr : 1 / 100000000 < r ∨ tol ≤ 0) (t c p : Fin 3 → K) :
    (⟨fun _ => r, 1, Spec.rigid R t c⟩ : Ellipsoid K 3).contains (Spec.rigid R t p) tol =
      (⟨fun _ => r, 1, c⟩ : Ellipsoid K 3).contains p tol := by
  rw [Bool.eq_iff_iff]
  have key : ∀ x : Fin 3 → K, ∑ i, (x i) ^ 2 = x ⬝ᵥ x := fun x => by simp [dotProduct, sq]
  have key2 : (∑ i, (Spec.rigid R t p i - Spec.rigid R t c i) ^ 2) = ∑ i, (p i - c i) ^ 2 := by
    have h1 := key (Spec.rigid R t p - Spec.rigid R t c)
    have h2 := key (p - c)
    simp only [Pi.sub_apply] at h1 h2
    rw [h1, h2]
    unfold Spec.rigid
    rw [add_sub_add_right_eq_sub, ← mulVec_sub, dot_mulVec_orthogonal hR]
  rcases lt_or_ge (1 / 100000000) r with hr' | hr'
  · rw [contains_const _ (Or.inr hr'), contains_const _ (Or.inr hr')]
    have : r ≠ 0 := ((tol8_pos (K := K)).trans hr').ne'
    rw [if_neg this, if_neg this, key2]
  · have ht : tol ≤ 0 := hr.resolve_left (not_lt.mpr hr')
    rw [contains_tiny r hr0 hr', contains_tiny r hr0 hr']
    rcases ht.eq_or_lt with rfl | ht
    · have hz : ∀ a b : Fin 3 → K, (∀ i, |a i - b i| ≤ 0) ↔ ∑ i, (a i - b i) ^ 2 = 0 := fun a b => by
        rw [Finset.sum_eq_zero_iff_of_nonneg fun i _ => sq_nonneg _]
        simp
      rw [hz, hz, key2]
    · have hn : ∀ a b : Fin 3 → K, ¬ ((∀ i, |a i - b i| ≤ tol) ∧ 0 ≤ 1 + tol) := fun a b h =>
        absurd ((abs_nonneg _).trans (h.1 0)) (not_le.mpr ht)
      exact iff_of_false (hn _ _) (hn _ _)

theorem Capsule.contains_eq (c : Capsule K) (hr : 0 ≤ c.cylinder.radius) (p : Fin 3 → K) (tol : K) :
    c.contains p tol = .ok (
      (⟨fun _ => c.cylinder.radius, 1,
        Spec.rigid c.cylinder.rotation c.cylinder.center ![0, 0, c.cylinder.length / 2]⟩
          : Ellipsoid K 3).contains p tol ||
      (⟨fun _ => c.cylinder.radius, 1,
        Spec.rigid c.cylinder.rotation c.cylinder.center ![0, 0, -(c.cylinder.length / 2)]⟩
          : Ellipsoid K 3).contains p tol || c.cylinder.contains p tol) := by
  unfold Capsule.contains
  rw [c.caps_ok hr]
  simp [bind, Except.bind, pure, Except.pure]

/-- C33: capsules. C33 asks for this at every tolerance and radius; here the radius is larger than `1e-8`, or the
tolerance is not positive. The rest is false: a sphere of radius at most `1e-8` is replaced by a cube with half edges
`tol`, and every such capsule fails the claim for `tol` from the default `1e-8` on, see `C33_capsule_tol`. -/
theorem C33_capsule_partial (c : Capsule K) (hL : 0 ≤ c.cylinder.length) (hr : 0 ≤ c.cylinder.radius)
    (R : Matrix (Fin 3) (Fin 3) K) (hR : Spec.Orthogonal R) (t : Fin 3 → K) :
    ∃ c', c.transform (some R) (some t) = .ok c' ∧
      (∀ p tol, (1 / 100000000 < c.cylinder.radius ∨ tol ≤ 0) →
        c'.contains (Spec.rigid R t p) tol = c.contains p tol) ∧
      Spec.capsule c'.cylinder.length c'.cylinder.radius c'.cylinder.rotation c'.cylinder.center =
        Spec.moved R t
          (Spec.capsule c.cylinder.length c.cylinder.radius c.cylinder.rotation c.cylinder.center) := by
  refine ⟨⟨⟨c.cylinder.length, c.cylinder.radius, R * c.cylinder.rotation, R *ᵥ c.cylinder.center + t⟩⟩,
    ?_, fun p tol ht => ?_, ?_⟩
  · simp [Capsule.transform, Cylinder.transform, Cylinder.init_ok _ _ hL hr, bind, Except.bind, pure,
      Except.pure]
  · rw [c.contains_eq hr, Capsule.contains_eq _ (by exact hr)]
    dsimp only
    rw [rigid_rigid, rigid_rigid, sphere_contains_moved hR _ _ hr ht, sphere_contains_moved hR _ _ hr ht]
    congr 2
    exact Cylinder.contains_congr _ _ _ _ _ _ rfl rfl (body_coord hR _ _ _ _)
  · ext p
    simp only [Spec.capsule, Spec.moved, Set.mem_image, Set.mem_ofPred_eq, rigid_rigid]
    constructor
    · rintro ⟨z, hz, hp⟩
      have hp' : p = Spec.rigid R t (Rᵀ *ᵥ (p - t)) := (rigid_iff hR _ _ _).mpr rfl
      refine ⟨Rᵀ *ᵥ (p - t), ⟨z, hz, ?_⟩, hp'.symm⟩
      rw [hp'] at hp
      exact (ball_moved hR _ _ _ _).mp hp
    · rintro ⟨q, ⟨z, hz, hq⟩, rfl⟩
      exact ⟨z, hz, (ball_moved hR _ _ _ _).mpr hq⟩

/-- C33: transforms compose like rigid motions: transforming by `(R₁, t₁)` and then by `(R₂, t₂)` is
transforming by `(R₂ R₁, R₂ t₁ + t₂)`, for all four kinds of shape. -/
theorem C33_compose (R₁ R₂ : Matrix (Fin 3) (Fin 3) K) (t₁ t₂ : Fin 3 → K) :
    (∀ b : Box K, (b.transform (some R₁) (some t₁) >>= fun b' => b'.transform (some R₂) (some t₂)) =
      b.transform (some (R₂ * R₁)) (some (Spec.rigid R₂ t₂ t₁))) ∧
    (∀ e : Ellipsoid K 3,
      (e.transform (some R₁) (some t₁) >>= fun e' => e'.transform (some R₂) (some t₂)) =
      e.transform (some (R₂ * R₁)) (some (Spec.rigid R₂ t₂ t₁))) ∧
    (∀ c : Cylinder K,
      (c.transform (some R₁) (some t₁) >>= fun c' => c'.transform (some R₂) (some t₂)) =
      c.transform (some (R₂ * R₁)) (some (Spec.rigid R₂ t₂ t₁))) ∧
    (∀ c : Capsule K,
      (c.transform (some R₁) (some t₁) >>= fun c' => c'.transform (some R₂) (some t₂)) =
      c.transform (some (R₂ * R₁)) (some (Spec.rigid R₂ t₂ t₁))) := by
  have hc : ∀ x : Fin 3 → K, R₂ *ᵥ (R₁ *ᵥ x + t₁) + t₂ = (R₂ * R₁) *ᵥ x + Spec.rigid R₂ t₂ t₁ := fun x => by
    simp only [Spec.rigid, mulVec_add, mulVec_mulVec, add_assoc]
  have hcyl : ∀ c : Cylinder K,
      (c.transform (some R₁) (some t₁) >>= fun c' => c'.transform (some R₂) (some t₂)) =
      c.transform (some (R₂ * R₁)) (some (Spec.rigid R₂ t₂ t₁)) := fun c => by
    by_cases hL : 0 ≤ c.length <;> by_cases hr : 0 ≤ c.radius <;>
    simp [Cylinder.transform, Cylinder.init, pyAssert, bind, Except.bind, pure, Except.pure, hL, hr, hc,
      Matrix.mul_assoc]
  refine ⟨fun b => ?_, fun e => ?_, hcyl, fun c => ?_⟩
  · by_cases h : ∀ i, 0 ≤ b.halfExtents i
    · simp [Box.transform, Box.init_ok _ h, bind, Except.bind, hc, Matrix.mul_assoc]
    · have h' : decide (∀ i, 0 ≤ b.halfExtents i) = false := decide_eq_false h
      simp [Box.transform, Box.init, pyAssert, bind, Except.bind, h']
  · by_cases h : ∀ i, 0 ≤ e.halfExtents i
    · simp [Ellipsoid.transform, Ellipsoid.init_ok _ h, bind, Except.bind, hc, Matrix.mul_assoc]
    · have h' : decide (∀ i, 0 ≤ e.halfExtents i) = false := decide_eq_false h
      simp [Ellipsoid.transform, Ellipsoid.init, pyAssert, bind, Except.bind, h']
  · have := hcyl c.cylinder
    by_cases hL : 0 ≤ c.cylinder.length <;> by_cases hr : 0 ≤ c.cylinder.radius <;>
    simp [Capsule.transform, Cylinder.transform, Cylinder.init, pyAssert, bind, Except.bind, pure,
      Except.pure, hL, hr, hc, Matrix.mul_assoc]

/-- C33: omitted arguments mean the identity rotation and no translation. -/
theorem C33_defaults (b : Box K) (e : Ellipsoid K 3) (c : Cylinder K) (R : Matrix (Fin 3) (Fin 3) K)
    (t : Fin 3 → K) :
    b.transform none (some t) = b.transform (some 1) (some t) ∧
    b.transform (some R) none = b.transform (some R) (some 0) ∧
    e.transform none (some t) = e.transform (some 1) (some t) ∧
    e.transform (some R) none = e.transform (some R) (some 0) ∧
    c.transform none (some t) = c.transform (some 1) (some t) ∧
    c.transform (some R) none = c.transform (some R) (some 0) := ⟨rfl, rfl, rfl, rfl, rfl, rfl⟩

/-- C33: rotating a box or an ellipsoid about its centre moves its point set by the rigid motion
`p ↦ R (p - c) + c`. -/
theorem C33_rotateAboutCenter (b : Box K) (hb : ∀ i, 0 ≤ b.halfExtents i) (e : Ellipsoid K 3)
    (he : ∀ i, 0 ≤ e.halfExtents i) (R : Matrix (Fin 3) (Fin 3) K) :
    (∃ b', b.rotateAboutCenter R = .ok b' ∧
      Spec.box b'.halfExtents b'.rotation b'.center =
        (fun p => R *ᵥ (p - b.center) + b.center) '' (Spec.box b.halfExtents b.rotation b.center)) ∧
    (∃ e', e.rotateAboutCenter R = .ok e' ∧
      Spec.ellipsoid e'.halfExtents e'.rotation e'.center =
        (fun p => R *ᵥ (p - e.center) + e.center) ''
          (Spec.ellipsoid e.halfExtents e.rotation e.center)) := by
  have key : ∀ (R₀ : Matrix (Fin 3) (Fin 3) K) (c y : Fin 3 → K),
      R *ᵥ (Spec.rigid R₀ c y - c) + c = Spec.rigid (R * R₀) c y := fun R₀ c y => by
    simp [Spec.rigid, mulVec_mulVec]
  constructor
  · refine ⟨⟨b.halfExtents, R * b.rotation, b.center⟩, ?_, ?_⟩
    · unfold Box.rotateAboutCenter; rw [Box.init_ok _ hb]; rfl
    · ext p
      simp only [Spec.box, Set.mem_image, Set.mem_ofPred_eq]
      constructor
      · rintro ⟨y, hy, rfl⟩; exact ⟨_, ⟨y, hy, rfl⟩, key _ _ _⟩
      · rintro ⟨_, ⟨y, hy, rfl⟩, rfl⟩; exact ⟨y, hy, key _ _ _⟩
  · refine ⟨⟨e.halfExtents, R * e.rotation, e.center⟩, ?_, ?_⟩
    · unfold Ellipsoid.rotateAboutCenter; rw [Ellipsoid.init_ok _ he]; rfl
    · ext p
      simp only [Spec.ellipsoid, Set.mem_image, Set.mem_ofPred_eq]
      constructor
      · rintro ⟨y, hy, rfl⟩; exact ⟨_, ⟨y, hy, rfl⟩, key _ _ _⟩
      · rintro ⟨_, ⟨y, hy, rfl⟩, rfl⟩; exact ⟨y, hy, key _ _ _⟩

example : ∃ (c : Capsule ℚ) (R : Matrix (Fin 3) (Fin 3) ℚ), 0 ≤ c.cylinder.length ∧
    1 / 100000000 < c.cylinder.radius ∧ Spec.Orthogonal R ∧ R ≠ 1 :=
  ⟨⟨⟨2, 1, 1, ![1, 2, 3]⟩⟩, !![0, -1, 0; 1, 0, 0; 0, 0, 1], by norm_num, by norm_num, by decide +kernel,
    by decide +kernel⟩

end Field
end Rigeo
