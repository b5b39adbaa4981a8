import Verif.Lemmas.Optim
import Verif.Props.Polydd

/-!
# C48, C49: bounding ellipsoids of points and inscribed ellipsoids of polyhedra

The solver is an arbitrary function. Containment is proved for every *feasible* answer; minimality and
maximality of the volume for every *optimal* answer.
-/

namespace Rigeo

open Matrix

variable {d : ℕ}

theorem PSD_of_var {n : ℕ} {X : Matrix (Fin n) (Fin n) ℝ} (h : cvxPsdVar X) : Spec.PSD X := h

/-- The eigenvalues `eigh` returns for a positive definite matrix are positive. -/
theorem eigh_pos {n : ℕ} {eigh : Eigh} (heigh : Spec.IsEigh eigh) {A : Matrix (Fin n) (Fin n) ℝ}
    (hA : Spec.PSD A) (hdet : 0 < A.det) (i : Fin n) : 0 < (eigh n A).1 i := by
  obtain ⟨hV, hdec⟩ := heigh n A hA.1
  have h0 : ∀ i, 0 ≤ (eigh n A).1 i := by
    intro i
    have h1 := hA.2 ((eigh n A).2 *ᵥ Pi.single i 1)
    rw [hdec, quad_diag, mulVec_mulVec] at h1
    have hV' : (eigh n A).2ᵀ * (eigh n A).2 = 1 := hV
    rw [← hdec, hV', one_mulVec] at h1
    simpa [Pi.single_apply] using h1
  have h2 : A.det = ∏ i, (eigh n A).1 i := by
    conv_lhs => rw [hdec]
    exact det_conj_diag hV _
  rw [h2] at hdet
  refine lt_of_le_of_ne (h0 i) fun h3 => ?_
  rw [Finset.prod_eq_zero (Finset.mem_univ i) h3.symm] at hdet
  exact lt_irrefl _ hdet

/-- `lstsq` solves the system if the matrix is invertible. -/
theorem lstsq_solves {n : ℕ} {lstsq : Lstsq} (hl : Spec.IsLstsq lstsq) {A : Matrix (Fin n) (Fin n) ℝ}
    (hdet : 0 < A.det) (b : Fin n → ℝ) : A *ᵥ lstsq n A b = b := by
  have h := hl n A b (A⁻¹ *ᵥ b)
  have hu : IsUnit A.det := isUnit_iff_ne_zero.mpr hdet.ne'
  rw [mulVec_mulVec, Matrix.mul_nonsing_inv _ hu, one_mulVec, sub_self, dotProduct_zero] at h
  exact sub_eq_zero.mp (dot_self_eq_zero.mp (le_antisymm h (dot_self_nonneg _)))

/-- What `mbe_of_points` computes from a feasible answer of the solver: the set
`{r + R x | |A x + b| ≤ 1}`. -/
theorem mbeOfPoints_spec {eigh : Eigh} (heigh : Spec.IsEigh eigh) {lstsq : Lstsq} (hl : Spec.IsLstsq lstsq)
    {orth : Orth} (ho : Spec.IsOrth orth) {ns : NullSpace} (hn : Spec.IsNullSpace ns)
    (solver : (n : ℕ) → List (Fin n → ℝ) → Bool → MbeVars n) (r : Fin d → ℝ) (rest : List (Fin d → ℝ)) (sphere : Bool)
    (hsol : mbeFeasible (project orth (r :: rest) r) sphere (solver _ (project orth (r :: rest) r) sphere)) :
    ∃ e, mbeOfPoints eigh lstsq orth ns solver (r :: rest) sphere = .ok (if sphere then
        .symbolic ⟨e.halfExtents, e.rotation, e.center - r + fun _ => (solver _ (project orth (r :: rest) r) sphere).a⟩
        else .numeric e) ∧
      Spec.Orthogonal e.rotation ∧ (∀ i, 0 ≤ e.halfExtents i) ∧
      ((orth _ _ (centred (r :: rest) r)).1 = d →
        ∏ i, e.halfExtents i = ((solver _ (project orth (r :: rest) r) sphere).A.det)⁻¹) ∧
      ((orth _ _ (centred (r :: rest) r)).1 ≠ d → ∃ i, e.halfExtents i = 0) ∧
      ∀ p, p ∈ Spec.ellipsoid e.halfExtents e.rotation e.center ↔
        ∃ y, norm2 ((solver _ (project orth (r :: rest) r) sphere).A *ᵥ y +
            (solver _ (project orth (r :: rest) r) sphere).b) ≤ 1 ∧
          p = (orth _ _ (centred (r :: rest) r)).2 *ᵥ y + r := by
  obtain ⟨hR, -⟩ := ho _ _ (centred (r :: rest) r)
  set R := (orth _ _ (centred (r :: rest) r)).2 with hRdef
  set x := solver _ (project orth (r :: rest) r) sphere with hx
  obtain ⟨hA, hdet, -, -⟩ := hsol
  have hpos := eigh_pos heigh hA hdet
  obtain ⟨hV, hdec⟩ := heigh _ x.A hA.1
  set V := (eigh _ x.A).2 with hVdef
  set w := (eigh _ x.A).1 with hw
  have hRV : (R * V)ᵀ * (R * V) = 1 := by
    rw [transpose_mul, Matrix.mul_assoc, ← Matrix.mul_assoc Rᵀ, hR, Matrix.one_mul]; exact hV
  obtain ⟨hN1, hN2⟩ := hn _ _ (R * V)ᵀ
  have hC : Completes (R * V) (ns _ _ (R * V)ᵀ).2 := ⟨hRV, hN1, hN2⟩
  have hhe : ∀ i, 0 ≤ (fun i => if w i = 0 then (0 : ℝ) else 1 / w i) i := by
    intro i
    dsimp only
    rw [if_neg (hpos i).ne']
    exact (one_div_pos.mpr (hpos i)).le
  obtain ⟨W, h', e1, e2, hW, hh', hprod, hzero, hmem⟩ := hC.lift _ hhe
  refine ⟨⟨h', W, R *ᵥ lstsq _ x.A (-x.b) + r⟩, ?_, hW, hh', fun hd => ?_, hzero, fun p => ?_⟩
  · simp only [mbeOfPoints, bind, Except.bind]
    rw [← hRdef, ← hx, ← hVdef, ← hw, e2]
    dsimp only
    rw [e1]
    dsimp only
    cases sphere with
    | false => rw [if_neg (by simp), Ellipsoid.init_ok _ hh']; rfl
    | true =>
      rw [if_pos rfl, Ellipsoid.init_ok _ hh']
      simp only [if_true, pure, Except.pure, Option.getD_some]
      congr 3
      abel
  · dsimp only
    rw [hprod hd, hdec, det_conj_diag hV, ← Finset.prod_inv_distrib]
    refine Finset.prod_congr rfl fun i _ => ?_
    rw [if_neg (hpos i).ne', one_div]
  · dsimp only
    rw [hmem]
    have hb := lstsq_solves hl hdet (-x.b)
    set x0 := lstsq _ x.A (-x.b) with hx0
    have hfun : ∀ u : Fin _ → ℝ, (fun i => (if w i = 0 then (0 : ℝ) else 1 / w i) * u i) = fun i => u i / w i := by
      intro u; ext i
      rw [if_neg (hpos i).ne']; ring
    -- the norm of `A y + b` in the eigenbasis
    have hnorm : ∀ y, (x.A *ᵥ y + x.b) ⬝ᵥ (x.A *ᵥ y + x.b) =
        (fun i => w i * (Vᵀ *ᵥ (y - x0)) i) ⬝ᵥ (fun i => w i * (Vᵀ *ᵥ (y - x0)) i) := by
      intro y
      have : x.A *ᵥ y + x.b = V *ᵥ (fun i => w i * (Vᵀ *ᵥ (y - x0)) i) := by
        have e : (fun i => w i * (Vᵀ *ᵥ (y - x0)) i) = Matrix.diagonal w *ᵥ (Vᵀ *ᵥ (y - x0)) := by
          ext i; rw [mulVec_diagonal]
        rw [e, mulVec_mulVec, mulVec_mulVec, ← hdec, mulVec_sub, hb]
        abel
      rw [this, dot_mulVec_orthogonal hV]
    constructor
    · rintro ⟨u, hu, rfl⟩
      refine ⟨x0 + V *ᵥ (fun i => u i / w i), ?_, ?_⟩
      · rw [norm2_le_one, hnorm]
        have : (fun i => w i * (Vᵀ *ᵥ (x0 + V *ᵥ (fun i => u i / w i) - x0)) i) = u := by
          ext i
          have hV' : Vᵀ * V = 1 := hV
          rw [add_sub_cancel_left, mulVec_mulVec, hV', one_mulVec, mul_div_cancel₀ _ (hpos i).ne']
        rw [this]
        exact hu
      · rw [hfun, mulVec_add, mulVec_mulVec]
        abel
    · rintro ⟨y, hy, rfl⟩
      rw [norm2_le_one, hnorm] at hy
      refine ⟨_, hy, ?_⟩
      rw [hfun]
      have : (fun i => w i * (Vᵀ *ᵥ (y - x0)) i / w i) = Vᵀ *ᵥ (y - x0) := by
        ext i; rw [mul_div_cancel_left₀ _ (hpos i).ne']
      rw [this, mulVec_mulVec, Matrix.mul_assoc, hV.mul_transpose, Matrix.mul_one, mulVec_sub]
      abel

/-- C48: for every feasible answer of the solver and all valid outputs of `orth`, `null_space`, `eigh` and
`lstsq`, `mbe_of_points` returns an ellipsoid that contains every input point. The points may be affinely
dependent. -/
theorem C48_contains (eigh : Eigh) (heigh : Spec.IsEigh eigh) (lstsq : Lstsq) (hl : Spec.IsLstsq lstsq)
    (orth : Orth) (ho : Spec.IsOrth orth) (ns : NullSpace) (hn : Spec.IsNullSpace ns)
    (solver : (n : ℕ) → List (Fin n → ℝ) → Bool → MbeVars n) (r : Fin d → ℝ) (rest : List (Fin d → ℝ))
    (hsol : mbeFeasible (project orth (r :: rest) r) false (solver _ (project orth (r :: rest) r) false)) :
    ∃ e, mbeOfPoints eigh lstsq orth ns solver (r :: rest) = .ok (.numeric e) ∧
      Spec.Orthogonal e.rotation ∧ (∀ i, 0 ≤ e.halfExtents i) ∧
      (∀ p ∈ r :: rest, p ∈ Spec.ellipsoid e.halfExtents e.rotation e.center) ∧
      Spec.hull (r :: rest) ⊆ Spec.ellipsoid e.halfExtents e.rotation e.center := by
  obtain ⟨e, h1, h2, h3, -, -, h6⟩ := mbeOfPoints_spec heigh hl ho hn solver r rest false hsol
  have hall : ∀ p ∈ r :: rest, p ∈ Spec.ellipsoid e.halfExtents e.rotation e.center := by
    intro p hp
    rw [h6]
    exact ⟨_, hsol.2.2.1 _ (List.mem_map_of_mem hp), orth_recon ho _ r p hp⟩
  refine ⟨e, h1, h2, h3, hall, ?_⟩
  exact convexHull_min hall (ellipsoid_convex _ _ _)

/-- C48: with `sphere=True` the ellipsoid computed is a bounding sphere `e₀` (of the affine hull) displaced by
`a - r`, where `r` is the first point and `a` the inverse radius: the code has overwritten `r` by a cvxpy
variable. The result does not even hold numbers, but expressions with these values. -/
theorem C48_sphere_displaced (eigh : Eigh) (heigh : Spec.IsEigh eigh) (lstsq : Lstsq) (hl : Spec.IsLstsq lstsq)
    (orth : Orth) (ho : Spec.IsOrth orth) (ns : NullSpace) (hn : Spec.IsNullSpace ns)
    (solver : (n : ℕ) → List (Fin n → ℝ) → Bool → MbeVars n) (r : Fin d → ℝ) (rest : List (Fin d → ℝ))
    (hsol : mbeFeasible (project orth (r :: rest) r) true (solver _ (project orth (r :: rest) r) true)) :
    ∃ e₀ e : Ellipsoid ℝ d, mbeOfPoints eigh lstsq orth ns solver (r :: rest) true = .ok (.symbolic e) ∧
      (∀ p ∈ r :: rest, p ∈ Spec.ellipsoid e₀.halfExtents e₀.rotation e₀.center) ∧
      e.halfExtents = e₀.halfExtents ∧ e.rotation = e₀.rotation ∧
      e.center = e₀.center - r + fun _ => (solver _ (project orth (r :: rest) r) true).a := by
  obtain ⟨e, h1, h2, h3, -, -, h6⟩ := mbeOfPoints_spec heigh hl ho hn solver r rest true hsol
  refine ⟨e, _, h1, ?_, rfl, rfl, rfl⟩
  intro p hp
  rw [h6]
  exact ⟨_, hsol.2.2.1 _ (List.mem_map_of_mem hp), orth_recon ho _ r p hp⟩

/-- C48: hence the sphere misses the first point as soon as that point is further than a diameter away from
`(a, …, a)`. -/
theorem C48_sphere_wrong (eigh : Eigh) (heigh : Spec.IsEigh eigh) (lstsq : Lstsq) (hl : Spec.IsLstsq lstsq)
    (orth : Orth) (ho : Spec.IsOrth orth) (ns : NullSpace) (hn : Spec.IsNullSpace ns)
    (solver : (n : ℕ) → List (Fin n → ℝ) → Bool → MbeVars n) (r : Fin d → ℝ) (rest : List (Fin d → ℝ))
    (hsol : mbeFeasible (project orth (r :: rest) r) true (solver _ (project orth (r :: rest) r) true))
    (hfar : 4 < (solver _ (project orth (r :: rest) r) true).a ^ 2 *
      ((r - fun _ => (solver _ (project orth (r :: rest) r) true).a) ⬝ᵥ
        (r - fun _ => (solver _ (project orth (r :: rest) r) true).a))) :
    ∃ e : Ellipsoid ℝ d, mbeOfPoints eigh lstsq orth ns solver (r :: rest) true = .ok (.symbolic e) ∧
      r ∉ Spec.ellipsoid e.halfExtents e.rotation e.center := by
  obtain ⟨e, h1, h2, h3, -, -, h6⟩ := mbeOfPoints_spec heigh hl ho hn solver r rest true hsol
  refine ⟨_, h1, fun hr => ?_⟩
  have hA := hsol.2.2.2 rfl
  have hR := (ho _ _ (centred (r :: rest) r)).1
  have hr0 : r ∈ Spec.ellipsoid e.halfExtents e.rotation e.center := by
    rw [h6]
    exact ⟨_, hsol.2.2.1 _ (List.mem_map_of_mem List.mem_cons_self), orth_recon ho _ r r List.mem_cons_self⟩
  set x := solver _ (project orth (r :: rest) r) true
  set q : Fin d → ℝ := r - fun _ => x.a with hq
  have hr1 : r + q ∈ Spec.ellipsoid e.halfExtents e.rotation e.center := by
    obtain ⟨u, hu, h7⟩ := hr
    refine ⟨u, hu, ?_⟩
    unfold Spec.rigid at h7 ⊢
    dsimp only at h7
    have h8 : r + q = (e.rotation *ᵥ (fun i => e.halfExtents i * u i) + (e.center - r + fun _ => x.a)) + q := by
      rw [← h7]
    rw [h8, hq]
    abel
  rw [h6] at hr0 hr1
  obtain ⟨y, hy, ey⟩ := hr0
  obtain ⟨y', hy', ey'⟩ := hr1
  have e1 : q = (orth _ _ (centred (r :: rest) r)).2 *ᵥ (y' - y) := by
    rw [mulVec_sub]
    calc q = (r + q) - r := by abel
      _ = ((orth _ _ (centred (r :: rest) r)).2 *ᵥ y' + r) - ((orth _ _ (centred (r :: rest) r)).2 *ᵥ y + r) := by
        rw [← ey', ← ey]
      _ = _ := by abel
  rw [e1, dot_mulVec_cols hR] at hfar
  rw [norm2_le_one] at hy hy'
  have e2 : x.a • (y' - y) = (x.A *ᵥ y' + x.b) - (x.A *ᵥ y + x.b) := by
    rw [hA, smul_mulVec, smul_mulVec, one_mulVec, one_mulVec, smul_sub]
    abel
  have e3 : x.a ^ 2 * ((y' - y) ⬝ᵥ (y' - y)) = (x.a • (y' - y)) ⬝ᵥ (x.a • (y' - y)) := by
    rw [smul_dotProduct, dotProduct_smul, smul_eq_mul, smul_eq_mul]; ring
  rw [e3, e2] at hfar
  set u := x.A *ᵥ y' + x.b
  set v := x.A *ᵥ y + x.b
  have h10 := dot_self_nonneg (u + v)
  simp only [dotProduct_add, add_dotProduct] at h10
  simp only [dotProduct_sub, sub_dotProduct] at hfar
  have h11 : v ⬝ᵥ u = u ⬝ᵥ v := dotProduct_comm _ _
  linarith

/-- The program always has a feasible point (a small multiple of the identity), with and without the sphere
constraint. -/
theorem mbe_feasible_exists {n : ℕ} (P : List (Fin n → ℝ)) (sphere : Bool) :
    ∃ x : MbeVars n, mbeFeasible P sphere x := by
  obtain ⟨c, hc0, hc⟩ : ∃ c : ℝ, 0 < c ∧ ∀ p ∈ P, p ⬝ᵥ p ≤ c ^ 2 := by
    induction P with
    | nil => exact ⟨1, one_pos, by simp⟩
    | cons p P ih =>
      obtain ⟨c, hc0, hc⟩ := ih
      have hp := dot_self_nonneg p
      refine ⟨c + p ⬝ᵥ p + 1, by linarith, ?_⟩
      intro q hq
      rcases List.mem_cons.mp hq with rfl | hq
      · nlinarith
      · exact (hc q hq).trans (by nlinarith)
  refine ⟨⟨c⁻¹ • 1, 0, c⁻¹⟩, ⟨by simp, fun v => ?_⟩, ?_, fun p hp => ?_, fun _ => rfl⟩
  · rw [smul_mulVec, one_mulVec, dotProduct_smul]
    exact mul_nonneg (inv_pos.mpr hc0).le (dot_self_nonneg v)
  · rw [det_smul, det_one, mul_one]
    positivity
  · rw [norm2_le_one]
    dsimp only
    rw [smul_mulVec, one_mulVec, add_zero, smul_dotProduct, dotProduct_smul, smul_eq_mul, smul_eq_mul]
    have := hc p hp
    have h2 : c⁻¹ * (c⁻¹ * (p ⬝ᵥ p)) = (p ⬝ᵥ p) / c ^ 2 := by field_simp
    rw [h2, div_le_one (by positivity)]
    exact this

/-- C48: without points there is no first point to centre on. -/
theorem C48_empty (eigh : Eigh) (lstsq : Lstsq) (orth : Orth) (ns : NullSpace)
    (solver : (n : ℕ) → List (Fin n → ℝ) → Bool → MbeVars n) (sphere : Bool) :
    mbeOfPoints (d := d) eigh lstsq orth ns solver [] sphere = .error .index := rfl

/-- C48: if the answer of the solver is optimal, no ellipsoid that contains the points (degenerate or not,
at any pose) has a smaller volume than the one returned. -/
theorem C48_minimal (eigh : Eigh) (heigh : Spec.IsEigh eigh) (lstsq : Lstsq) (hl : Spec.IsLstsq lstsq)
    (orth : Orth) (ho : Spec.IsOrth orth) (ns : NullSpace) (hn : Spec.IsNullSpace ns)
    (solver : (n : ℕ) → List (Fin n → ℝ) → Bool → MbeVars n) (r : Fin d → ℝ) (rest : List (Fin d → ℝ))
    (hsol : mbeFeasible (project orth (r :: rest) r) false (solver _ (project orth (r :: rest) r) false))
    (hopt : ∀ x, mbeFeasible (project orth (r :: rest) r) false x →
      -Real.log (solver _ (project orth (r :: rest) r) false).A.det ≤ -Real.log x.A.det) :
    ∃ e, mbeOfPoints eigh lstsq orth ns solver (r :: rest) = .ok (.numeric e) ∧
      ∀ e' : Ellipsoid ℝ d, Spec.Orthogonal e'.rotation → (∀ i, 0 ≤ e'.halfExtents i) →
        (∀ p ∈ r :: rest, p ∈ Spec.ellipsoid e'.halfExtents e'.rotation e'.center) →
        e.volume ≤ e'.volume := by
  obtain ⟨e, h1, h2, h3, h4, h5, -⟩ := mbeOfPoints_spec heigh hl ho hn solver r rest false hsol
  refine ⟨e, h1, fun e' hR' hh' hin => volume_mono ?_⟩
  by_cases hd : (orth _ _ (centred (r :: rest) r)).1 = d
  · rw [h4 hd]
    refine le_prod_of_forall_pos fun ε hε => ?_
    have hR := (ho _ _ (centred (r :: rest) r)).1
    have hrec := orth_recon ho (r :: rest) r
    have hdet := hsol.2.1
    have hproj : ∀ q ∈ project orth (r :: rest) r, ∃ p ∈ r :: rest,
        q = (p - r) ᵥ* (orth _ _ (centred (r :: rest) r)).2 := by
      intro q hq
      obtain ⟨p, hp, rfl⟩ := List.mem_map.mp hq
      exact ⟨p, hp, rfl⟩
    set R := (orth _ _ (centred (r :: rest) r)).2
    set g : Fin d → ℝ := fun i => e'.halfExtents i + ε
    have hg : ∀ i, 0 < g i := fun i => by have := hh' i; simp only [g]; linarith
    set W := e'.rotation
    set M := W * Matrix.diagonal (fun i => 1 / g i) * Wᵀ with hM
    have hMt : Mᵀ = M := conj_diag_transpose _ _
    have hMpsd : Spec.PSD M := by
      refine ⟨hMt, fun v => ?_⟩
      rw [hM, quad_diag]
      exact Finset.sum_nonneg fun i _ => mul_nonneg (one_div_pos.mpr (hg i)).le (sq_nonneg _)
    have hMdet : M.det = ∏ i, 1 / g i := det_conj_diag hR' _
    have hfeas : mbeFeasible (project orth (r :: rest) r) false
        ⟨Rᵀ * M * R, Rᵀ *ᵥ (M *ᵥ (r - e'.center)), 0⟩ := by
      refine ⟨?_, ?_, ?_, by simp⟩
      · have := hMpsd.congr Rᵀ
        rw [transpose_transpose] at this
        exact this
      · dsimp only
        rw [det_cols hd hR, hMdet]
        exact Finset.prod_pos fun i _ => one_div_pos.mpr (hg i)
      · intro q hq
        obtain ⟨p, hp, rfl⟩ := hproj q hq
        dsimp only
        rw [norm2_le_one]
        have e1 : (Rᵀ * M * R) *ᵥ ((p - r) ᵥ* R) + Rᵀ *ᵥ (M *ᵥ (r - e'.center)) = Rᵀ *ᵥ (M *ᵥ (p - e'.center)) := by
          have h6 : R *ᵥ ((p - r) ᵥ* R) = p - r := by
            conv_rhs => rw [hrec p hp]
            abel
          rw [← mulVec_mulVec, h6, ← mulVec_mulVec, ← mulVec_add, ← mulVec_add]
          congr 2
          abel
        rw [e1, dot_cols hd hR]
        have h7 := ellipsoid_mono (W := W) (c := e'.center) hh' (g := g)
          (fun i => by change _ ≤ e'.halfExtents i + ε; linarith) (hin p hp)
        rw [Spec_ellipsoid_iff hR'] at h7
        have e2 : M *ᵥ (p - e'.center) = W *ᵥ (fun i => (Wᵀ *ᵥ (p - e'.center)) i / g i) := by
          rw [hM, ← mulVec_mulVec, ← mulVec_mulVec]
          congr 1
          ext i
          rw [mulVec_diagonal]; ring
        rw [e2, dot_mulVec_orthogonal hR']
        refine le_trans (le_of_eq ?_) h7.2
        simp [dotProduct, sq]
    have h8 := hopt _ hfeas
    dsimp only at h8
    have hp : 0 < ∏ i, g i := Finset.prod_pos fun i _ => hg i
    rw [det_cols hd hR, hMdet, neg_le_neg_iff] at h8
    have h9 : ∏ i, 1 / g i ≤ (solver _ (project orth (r :: rest) r) false).A.det :=
      (Real.log_le_log_iff (Finset.prod_pos fun i _ => one_div_pos.mpr (hg i)) hdet).mp h8
    rw [Finset.prod_div_distrib, Finset.prod_const_one] at h9
    rw [inv_le_comm₀ hdet hp]
    simpa using h9
  · obtain ⟨i, hi⟩ := h5 hd
    rw [Finset.prod_eq_zero (Finset.mem_univ i) hi]
    exact Finset.prod_nonneg fun i _ => hh' i

/-- C48: `ConvexPolyhedron.mbe` contains the whole polyhedron. -/
theorem C48_poly (eigh : Eigh) (heigh : Spec.IsEigh eigh) (lstsq : Lstsq) (hl : Spec.IsLstsq lstsq)
    (orth : Orth) (ho : Spec.IsOrth orth) (ns : NullSpace) (hn : Spec.IsNullSpace ns)
    (solver : (n : ℕ) → List (Fin n → ℝ) → Bool → MbeVars n) (P : Poly ℝ d) (hP : P.Consistent)
    (hsol : ∀ n Q, mbeFeasible Q false (solver n Q false)) :
    ∃ e : Ellipsoid ℝ d, P.mbe eigh lstsq orth ns solver = .ok (.numeric e) ∧
      ∀ p, P.contains p 0 = true → p ∈ Spec.ellipsoid e.halfExtents e.rotation e.center := by
  have hne := hP.1
  have hcon := hP.contains_iff
  obtain ⟨vs, ff⟩ := P
  cases vs with
  | nil => exact absurd rfl hne
  | cons r rest =>
    obtain ⟨e, h1, -, -, -, h5⟩ := C48_contains eigh heigh lstsq hl orth ho ns hn solver r rest (hsol _ _)
    exact ⟨e, h1, fun p hp => h5 ((hcon p).1 hp)⟩

/-- The oracles of `C48_contains`, `C48_poly` exist: a solver that always answers with a feasible point, and
implementations of all four numerical routines. -/
example : (∃ solver : (n : ℕ) → List (Fin n → ℝ) → Bool → MbeVars n, ∀ n Q s, mbeFeasible Q s (solver n Q s)) ∧
    (∃ eigh : Eigh, Spec.IsEigh eigh) ∧ (∃ lstsq : Lstsq, Spec.IsLstsq lstsq) ∧
    (∃ orth : Orth, Spec.IsOrth orth) ∧ ∃ ns : NullSpace, Spec.IsNullSpace ns := by
  refine ⟨?_, exists_isEigh, exists_isLstsq, exists_orth, exists_nullSpace⟩
  choose f hf using fun n (Q : List (Fin n → ℝ)) s => mbe_feasible_exists Q s
  exact ⟨f, hf⟩

/-! ## C49 -/

/-- What `mie_inequality_form` returns: the image of the unit ball under `u ↦ B u + c`. -/
theorem mieInequalityForm_spec {n : ℕ} {eigh : Eigh} (heigh : Spec.IsEigh eigh)
    (solver : (n : ℕ) → List ((Fin n → ℝ) × ℝ) → Bool → MieVars n) (faces : List ((Fin n → ℝ) × ℝ)) (sphere : Bool)
    (hsol : mieFeasible faces sphere (solver n faces sphere)) {e : Ellipsoid ℝ n}
    (he : mieInequalityForm eigh solver faces sphere = .ok e) :
    Spec.Orthogonal e.rotation ∧ (∀ i, 0 < e.halfExtents i) ∧
      ∏ i, e.halfExtents i = (solver n faces sphere).B.det ∧
      ∀ p, p ∈ Spec.ellipsoid e.halfExtents e.rotation e.center ↔
        ∃ u : Fin n → ℝ, u ⬝ᵥ u ≤ 1 ∧ p = (solver n faces sphere).B *ᵥ u + (solver n faces sphere).c := by
  set x := solver n faces sphere
  obtain ⟨hB, hdet, -, -⟩ := hsol
  have hu : IsUnit x.B.det := isUnit_iff_ne_zero.mpr hdet.ne'
  have hBB : (x.B * x.B).det ≠ 0 := by rw [det_mul]; positivity
  have hS : ((x.B * x.B)⁻¹)ᵀ = (x.B * x.B)⁻¹ := by
    rw [transpose_nonsing_inv, transpose_mul, hB.1]
  have he' : Ellipsoid.fromShapeMatrix eigh (x.B * x.B)⁻¹ (some x.c) = .ok e := by
    unfold mieInequalityForm at he
    simp only at he
    rwa [if_neg hBB] at he
  obtain ⟨h1, h2, h3, h4, h5⟩ := fromShapeMatrix_spec heigh hS he'
  refine ⟨h1, h2, ?_, fun p => ?_⟩
  · have h6 := congrArg Matrix.det h4
    rw [det_conj_diag h1, det_nonsing_inv, det_mul, Ring.inverse_eq_inv', Finset.prod_pow, Finset.prod_div_distrib, Finset.prod_const_one] at h6
    have h7 : 0 < ∏ i, e.halfExtents i := Finset.prod_pos fun i _ => h2 i
    have h8 : (∏ i, e.halfExtents i) ^ 2 = x.B.det ^ 2 := by
      rw [← _root_.inv_inj, ← inv_pow, sq x.B.det, h6]
      simp
    exact (pow_left_inj₀ h7.le hdet.le (by norm_num)).mp h8
  · rw [h5]
    have hq : ∀ v : Fin n → ℝ, v ⬝ᵥ ((x.B * x.B)⁻¹ *ᵥ v) = (x.B⁻¹ *ᵥ v) ⬝ᵥ (x.B⁻¹ *ᵥ v) := by
      intro v
      rw [Matrix.mul_inv_rev, ← mulVec_mulVec, dotProduct_mulVec v, ← mulVec_transpose, transpose_nonsing_inv, hB.1]
    rw [hq]
    constructor
    · intro h
      refine ⟨_, h, ?_⟩
      rw [mulVec_mulVec, Matrix.mul_nonsing_inv _ hu, one_mulVec, sub_add_cancel]
    · rintro ⟨u, hu1, rfl⟩
      rw [add_sub_cancel_right, mulVec_mulVec, Matrix.nonsing_inv_mul _ hu, one_mulVec]
      exact hu1

/-- C49: for every feasible answer of the solver, the ellipsoid returned by `mie_inequality_form(A, b)` lies
inside `{x | A x ≤ b}`. -/
theorem C49_inside {n : ℕ} (eigh : Eigh) (heigh : Spec.IsEigh eigh)
    (solver : (n : ℕ) → List ((Fin n → ℝ) × ℝ) → Bool → MieVars n) (faces : List ((Fin n → ℝ) × ℝ)) (sphere : Bool)
    (hsol : mieFeasible faces sphere (solver n faces sphere)) (e : Ellipsoid ℝ n)
    (he : mieInequalityForm eigh solver faces sphere = .ok e) :
    Spec.ellipsoid e.halfExtents e.rotation e.center ⊆ Spec.halfspaces faces := by
  obtain ⟨-, -, -, h⟩ := mieInequalityForm_spec heigh solver faces sphere hsol he
  intro p hp f hf
  obtain ⟨u, hu, rfl⟩ := (h p).1 hp
  obtain ⟨hB, -, hc, -⟩ := hsol
  set x := solver n faces sphere
  have e1 : f.1 ⬝ᵥ (x.B *ᵥ u) = (x.B *ᵥ f.1) ⬝ᵥ u := by
    rw [dotProduct_mulVec, ← mulVec_transpose, hB.1]
  rw [dotProduct_add, e1]
  exact (add_le_add_left (dot_le_norm2 _ _ hu) _).trans (hc f hf)

/-- C49: the call succeeds unless the ellipsoid is longer than `1e8` in some direction. -/
theorem C49_ok {n : ℕ} (eigh : Eigh) (heigh : Spec.IsEigh eigh)
    (solver : (n : ℕ) → List ((Fin n → ℝ) × ℝ) → Bool → MieVars n) (faces : List ((Fin n → ℝ) × ℝ)) (sphere : Bool)
    (hsol : mieFeasible faces sphere (solver n faces sphere))
    (hbound : ∀ v : Fin n → ℝ, v ≠ 0 →
      norm2 ((solver n faces sphere).B *ᵥ v) < 100000000 * norm2 v) :
    ∃ e, mieInequalityForm eigh solver faces sphere = .ok e := by
  set x := solver n faces sphere
  obtain ⟨hB, hdet, -, -⟩ := hsol
  have hu : IsUnit x.B.det := isUnit_iff_ne_zero.mpr hdet.ne'
  have hBB : (x.B * x.B).det ≠ 0 := by rw [det_mul]; positivity
  have hS : ((x.B * x.B)⁻¹)ᵀ = (x.B * x.B)⁻¹ := by
    rw [transpose_nonsing_inv, transpose_mul, hB.1]
  obtain ⟨e, he⟩ := fromShapeMatrix_ok heigh hS x.c (by
    intro v hv
    have hw : x.B *ᵥ (x.B⁻¹ *ᵥ v) = v := by rw [mulVec_mulVec, Matrix.mul_nonsing_inv _ hu, one_mulVec]
    have hw0 : x.B⁻¹ *ᵥ v ≠ 0 := by
      intro h0; rw [h0, mulVec_zero] at hw; exact hv hw.symm
    have h1 := hbound _ hw0
    rw [hw] at h1
    have e1 : v ⬝ᵥ ((x.B * x.B)⁻¹ *ᵥ v) = (x.B⁻¹ *ᵥ v) ⬝ᵥ (x.B⁻¹ *ᵥ v) := by
      rw [Matrix.mul_inv_rev, ← mulVec_mulVec, dotProduct_mulVec v, ← mulVec_transpose, transpose_nonsing_inv, hB.1]
    rw [e1]
    unfold norm2 at h1
    have h2 := Real.sq_sqrt (dot_self_nonneg v)
    have h3 := Real.sq_sqrt (dot_self_nonneg (x.B⁻¹ *ᵥ v))
    have h4 := Real.sqrt_nonneg (v ⬝ᵥ v)
    have h5 := pow_lt_pow_left₀ h1 h4 (n := 2) (by norm_num)
    rw [mul_pow, h2, h3] at h5
    linarith)
  refine ⟨e, ?_⟩
  unfold mieInequalityForm
  simp only
  rw [if_neg hBB]
  exact he

/-- C49: if the answer of the solver is optimal, no ellipsoid inside the polyhedron (degenerate or not, at any
pose) has a larger volume than the one returned. -/
theorem C49_maximal {n : ℕ} (eigh : Eigh) (heigh : Spec.IsEigh eigh)
    (solver : (n : ℕ) → List ((Fin n → ℝ) × ℝ) → Bool → MieVars n) (faces : List ((Fin n → ℝ) × ℝ))
    (hsol : mieFeasible faces false (solver n faces false))
    (hopt : ∀ x, mieFeasible faces false x → Real.log x.B.det ≤ Real.log (solver n faces false).B.det)
    (e : Ellipsoid ℝ n) (he : mieInequalityForm eigh solver faces = .ok e)
    (e' : Ellipsoid ℝ n) (hR' : Spec.Orthogonal e'.rotation) (hh' : ∀ i, 0 ≤ e'.halfExtents i)
    (hin : Spec.ellipsoid e'.halfExtents e'.rotation e'.center ⊆ Spec.halfspaces faces) :
    e'.volume ≤ e.volume := by
  obtain ⟨-, hpos, hprod, -⟩ := mieInequalityForm_spec heigh solver faces false hsol he
  refine volume_mono ?_
  rw [hprod]
  have hdet := hsol.2.1
  by_cases hz : ∃ i, e'.halfExtents i = 0
  · obtain ⟨i, hi⟩ := hz
    rw [Finset.prod_eq_zero (Finset.mem_univ i) hi]
    exact hdet.le
  · push Not at hz
    have hp : ∀ i, 0 < e'.halfExtents i := fun i => lt_of_le_of_ne (hh' i) (Ne.symm (hz i))
    set W := e'.rotation
    set B := W * Matrix.diagonal e'.halfExtents * Wᵀ with hB
    have hBt : Bᵀ = B := conj_diag_transpose _ _
    have hBdet : B.det = ∏ i, e'.halfExtents i := det_conj_diag hR' _
    have hfeas : mieFeasible faces false ⟨B, e'.center⟩ := by
      refine ⟨⟨hBt, fun v => ?_⟩, ?_, fun f hf => ?_, by simp⟩
      · rw [hB, quad_diag]
        exact Finset.sum_nonneg fun i _ => mul_nonneg (hh' i) (sq_nonneg _)
      · dsimp only
        rw [hBdet]
        exact Finset.prod_pos fun i _ => hp i
      · dsimp only
        -- the point of the ellipsoid furthest in the direction of the face normal
        set g := B *ᵥ f.1 with hg
        have hmem : ∀ u : Fin n → ℝ, u ⬝ᵥ u ≤ 1 → B *ᵥ u + e'.center ∈
            Spec.ellipsoid e'.halfExtents W e'.center := by
          intro u hu
          refine ⟨Wᵀ *ᵥ u, by rw [dot_mulVec_orthogonal hR'.transpose]; exact hu, ?_⟩
          unfold Spec.rigid
          rw [hB, ← mulVec_mulVec, ← mulVec_mulVec]
          congr 2
          ext i
          rw [mulVec_diagonal]
        by_cases hg0 : g = 0
        · have h1 := hin (hmem 0 (by simp)) f hf
          rw [mulVec_zero, zero_add] at h1
          rw [hg0]
          simpa [norm2] using h1
        · have hgp : 0 < g ⬝ᵥ g := lt_of_le_of_ne (dot_self_nonneg g) fun h0 => hg0 (dot_self_eq_zero.mp h0.symm)
          have hs : 0 < norm2 g := Real.sqrt_pos.mpr hgp
          have hss : norm2 g * norm2 g = g ⬝ᵥ g := Real.mul_self_sqrt hgp.le
          have h1 := hin (hmem ((norm2 g)⁻¹ • g) (by
            rw [smul_dotProduct, dotProduct_smul, smul_eq_mul, smul_eq_mul, ← hss]
            field_simp; rfl)) f hf
          rw [dotProduct_add, mulVec_smul, dotProduct_smul] at h1
          have e1 : f.1 ⬝ᵥ (B *ᵥ g) = g ⬝ᵥ g := by
            rw [dotProduct_mulVec, ← mulVec_transpose, hBt]
          rw [e1, ← hss, smul_eq_mul, ← mul_assoc, inv_mul_cancel₀ hs.ne', one_mul] at h1
          exact h1
    have h1 := hopt _ hfeas
    dsimp only at h1
    rw [hBdet] at h1
    exact (Real.log_le_log_iff (Finset.prod_pos fun i _ => hp i) hdet).mp h1

/-- C49: `ConvexPolyhedron.mie` lifts the ellipsoid into the affine hull: the result lies in the polyhedron,
whatever its dimension. -/
theorem C49_poly (cdd : CddLib ℝ) (hcdd : Spec.IsCdd cdd) (eigh : Eigh) (heigh : Spec.IsEigh eigh)
    (orth : Orth) (ho : Spec.IsOrth orth) (ns : NullSpace) (hn : Spec.IsNullSpace ns)
    (solver : (n : ℕ) → List ((Fin n → ℝ) × ℝ) → Bool → MieVars n) (P : Poly ℝ d) (hP : P.Consistent) (sphere : Bool)
    (hsol : ∀ r rest ff, P.vertices = r :: rest →
      (SpanForm.init (some (project orth (r :: rest) r))).toFaceForm cdd = .ok ff →
      mieFeasible ff.faces sphere (solver _ ff.faces sphere) ∧
        ∀ v, v ≠ 0 → norm2 ((solver _ ff.faces sphere).B *ᵥ v) < 100000000 * norm2 v) :
    ∃ e : Ellipsoid ℝ d, P.mie cdd eigh orth ns solver sphere = .ok e ∧ Spec.Orthogonal e.rotation ∧
      (∀ i, 0 ≤ e.halfExtents i) ∧
      ∀ p ∈ Spec.ellipsoid e.halfExtents e.rotation e.center, P.contains p 0 = true := by
  have hne := hP.1
  have hcon := hP.contains_iff
  obtain ⟨vs, pf⟩ := P
  cases vs with
  | nil => exact absurd rfl hne
  | cons r rest =>
    have hproper : (SpanForm.init (some (project orth (r :: rest) r)) : SpanForm ℝ _).Proper := by
      refine ⟨?_, ?_, Or.inl rfl⟩
      · simp [SpanForm.init, project]
      · simp [SpanForm.init]
    obtain ⟨ff, hff, -, hset⟩ := C61_to_face_form cdd hcdd _ hproper
    rw [C61_span_init] at hset
    simp only [Option.getD_some, Option.getD_none] at hset
    rw [generated_hull (by simp [project])] at hset
    obtain ⟨hfeas, hbd⟩ := hsol r rest ff rfl hff
    obtain ⟨ell, hell⟩ := C49_ok eigh heigh solver ff.faces sphere hfeas hbd
    have hin := C49_inside eigh heigh solver ff.faces sphere hfeas ell hell
    obtain ⟨h1, h2, -, -⟩ := mieInequalityForm_spec heigh solver ff.faces sphere hfeas hell
    rw [hset] at hin
    have hR := (ho _ _ (centred (r :: rest) r)).1
    have hrec := orth_recon ho (r :: rest) r
    obtain ⟨hN1, hN2⟩ := hn _ _ (orth _ _ (centred (r :: rest) r)).2ᵀ
    set R := (orth _ _ (centred (r :: rest) r)).2 with hRdef
    have hRV : (R * ell.rotation)ᵀ * (R * ell.rotation) = 1 := by
      rw [transpose_mul, Matrix.mul_assoc, ← Matrix.mul_assoc Rᵀ, hR, Matrix.one_mul]; exact h1
    have hC : Completes (R * ell.rotation) (ns _ _ Rᵀ).2 := by
      refine ⟨hRV, hN1, fun v => ?_⟩
      rw [← hN2, transpose_mul, ← mulVec_mulVec]
      constructor
      · intro h
        have := congrArg (ell.rotation *ᵥ ·) h
        simpa [mulVec_mulVec, ← Matrix.mul_assoc, h1.mul_transpose] using this
      · intro h; rw [h, mulVec_zero]
    obtain ⟨W, h', e1, e2, hW, hh', -, -, hmem⟩ := hC.lift ell.halfExtents (fun i => (h2 i).le)
    refine ⟨⟨h', W, R *ᵥ ell.center + r⟩, ?_, hW, hh', fun p hp => ?_⟩
    · simp only [Poly.mie, bind, Except.bind, hff]
      rw [hell]
      dsimp only
      rw [e2]
      dsimp only
      rw [e1]
      dsimp only
      rw [Ellipsoid.init_ok _ hh']
      rfl
    · rw [hcon]
      obtain ⟨u, hu, rfl⟩ := (hmem _ p).1 hp
      have hy : ell.rotation *ᵥ (fun i => ell.halfExtents i * u i) + ell.center ∈
          Spec.hull (project orth (r :: rest) r) := hin ⟨u, hu, rfl⟩
      have hmap : R *ᵥ (ell.rotation *ᵥ (fun i => ell.halfExtents i * u i) + ell.center) + r ∈
          Spec.hull ((project orth (r :: rest) r).map fun y => R *ᵥ y + r) := hull_map R r _ hy
      have hlist : (project orth (r :: rest) r).map (fun y => R *ᵥ y + r) = r :: rest := by
        unfold project
        rw [List.map_map]
        conv_rhs => rw [← List.map_id (r :: rest)]
        refine List.map_congr_left fun p hp => ?_
        exact (hrec p hp).symm
      rw [hlist] at hmap
      convert hmap using 1
      rw [mulVec_add, mulVec_mulVec, add_assoc]

/-- The hypotheses of `C48_sphere_wrong` are met for the points `10` and `12` on the line. -/
example (orth : Orth) (ho : Spec.IsOrth orth) :
    ∃ x, mbeFeasible (project orth [![(10 : ℝ)], ![12]] ![10]) true x ∧
      4 < x.a ^ 2 * ((![(10 : ℝ)] - fun _ => x.a) ⬝ᵥ (![(10 : ℝ)] - fun _ => x.a)) := by
  refine ⟨⟨(1 / 2 : ℝ) • 1, 0, 1 / 2⟩, ⟨⟨by simp, fun v => ?_⟩, ?_, fun q hq => ?_, fun _ => rfl⟩, ?_⟩
  · rw [smul_mulVec, one_mulVec, dotProduct_smul]
    exact mul_nonneg (by norm_num) (dot_self_nonneg v)
  · rw [det_smul, det_one, mul_one]
    positivity
  · obtain ⟨p, hp, rfl⟩ := List.mem_map.mp hq
    have h1 := orth_recon ho _ ![(10 : ℝ)] p hp
    have h2 := dot_mulVec_cols (ho _ _ (centred [![(10 : ℝ)], ![12]] ![10])).1
      ((p - ![10]) ᵥ* (orth _ _ (centred [![(10 : ℝ)], ![12]] ![10])).2)
      ((p - ![10]) ᵥ* (orth _ _ (centred [![(10 : ℝ)], ![12]] ![10])).2)
    rw [eq_sub_iff_add_eq.mpr h1.symm] at h2
    rw [norm2_le_one]
    simp only [smul_mulVec, one_mulVec, add_zero, smul_dotProduct, dotProduct_smul, smul_eq_mul, ← h2]
    simp only [List.mem_cons, List.not_mem_nil, or_false] at hp
    rcases hp with rfl | rfl
    · simp
    · simp; norm_num
  · simp; norm_num

/-- The hypotheses of `C48_minimal` are met for the points `0` and `2` on the line, whatever basis `orth`
chooses: there is an optimal answer. -/
example (orth : Orth) (ho : Spec.IsOrth orth) :
    ∃ x, mbeFeasible (project orth [![(0 : ℝ)], ![2]] ![0]) false x ∧
      ∀ y, mbeFeasible (project orth [![(0 : ℝ)], ![2]] ![0]) false y →
        -Real.log x.A.det ≤ -Real.log y.A.det := by
  obtain ⟨h1, h2⟩ := ho _ _ (centred [![(0 : ℝ)], ![2]] ![0])
  have h3 : ∀ v : Fin 1 → ℝ, ∃ w, v = (orth _ _ (centred [![(0 : ℝ)], ![2]] ![0])).2 *ᵥ w := by
    intro v
    refine (h2 v).1 ⟨![0, v 0 / 2], ?_⟩
    ext i
    fin_cases i
    simp [centred, mulVec, dotProduct, Fin.sum_univ_two]
    ring
  unfold project
  generalize orth _ _ (centred [![(0 : ℝ)], ![2]] ![0]) = X at *
  obtain ⟨n, R⟩ := X
  dsimp only at *
  have h4 : R * Rᵀ = 1 := by
    apply Matrix.ext_of_mulVec_single
    intro i
    obtain ⟨w, hw⟩ := h3 (Pi.single i 1)
    rw [one_mulVec, hw, mulVec_mulVec, Matrix.mul_assoc, h1, Matrix.mul_one]
  obtain rfl : n = 1 := by
    have h5 := congrArg Matrix.trace h1
    rw [Matrix.trace_mul_comm, h4, Matrix.trace_one, Matrix.trace_one] at h5
    simp only [Fintype.card_fin] at h5
    exact_mod_cast h5.symm
  have h6 : R 0 0 * R 0 0 = 1 := by
    have := congrFun (congrFun h1 0) 0
    simpa [Matrix.mul_apply] using this
  refine ⟨⟨1, fun _ => -R 0 0, 0⟩, ⟨⟨by simp, fun v => ?_⟩, by simp, fun p hp => ?_, by simp⟩, fun y hy => ?_⟩
  · rw [one_mulVec]; exact dot_self_nonneg v
  · rw [norm2_le_one]
    simp only [List.map_cons, List.map_nil, List.mem_cons, List.not_mem_nil, or_false] at hp
    rcases hp with rfl | rfl
    · simp [dotProduct, h6]
    · simp only [one_mulVec, dotProduct, vecMul, Fin.isValue, Finset.univ_unique, Fin.default_eq_zero, Pi.sub_apply,
        Finset.sum_singleton, Pi.add_apply, cons_val_fin_one, sub_zero]
      nlinarith
  · obtain ⟨-, hd, hc, -⟩ := hy
    have e0 : y.A.det = y.A 0 0 := by simp
    rw [e0] at hd ⊢
    have c1 := hc ((![(0 : ℝ)] - ![0]) ᵥ* R) List.mem_cons_self
    have c2 := hc ((![(2 : ℝ)] - ![0]) ᵥ* R) (List.mem_cons_of_mem _ List.mem_cons_self)
    rw [norm2_le_one] at c1 c2
    simp only [dotProduct, mulVec, vecMul, Fin.isValue, Finset.univ_unique, Fin.default_eq_zero, Pi.sub_apply,
        Finset.sum_singleton, Pi.add_apply, cons_val_fin_one, sub_zero, zero_mul, mul_zero, zero_add] at c1 c2
    simp only [det_one, Real.log_one, neg_zero, Left.nonneg_neg_iff]
    refine Real.log_nonpos hd.le ?_
    have h7 : (y.A 0 0 * (2 * R 0 0)) ^ 2 ≤ 4 := by nlinarith [sq_nonneg (y.A 0 0 * (2 * R 0 0) + 2 * y.b 0)]
    have h8 : (y.A 0 0 * (2 * R 0 0)) ^ 2 = 4 * y.A 0 0 ^ 2 := by nlinarith
    nlinarith

/-- The hypotheses of `C49_inside`, `C49_ok`, `C49_maximal` are met for the interval `[-1, 1]`. -/
example : ∃ x : MieVars 1, mieFeasible [(![(1 : ℝ)], 1), (![-1], 1)] false x ∧
    (∀ v, v ≠ 0 → norm2 (x.B *ᵥ v) < 100000000 * norm2 v) ∧
    ∀ y, mieFeasible [(![(1 : ℝ)], 1), (![-1], 1)] false y → Real.log y.B.det ≤ Real.log x.B.det := by
  refine ⟨⟨1, 0⟩, ⟨⟨by simp, fun v => ?_⟩, by simp, ?_, by simp⟩, fun v hv => ?_, fun y hy => ?_⟩
  · rw [one_mulVec]; exact dot_self_nonneg v
  · simp [norm2]
  · rw [one_mulVec]
    have : 0 < norm2 v := Real.sqrt_pos.mpr (lt_of_le_of_ne (dot_self_nonneg v)
      fun h0 => hv (dot_self_eq_zero.mp h0.symm))
    linarith
  · obtain ⟨-, hd, hc, -⟩ := hy
    have e0 : y.B.det = y.B 0 0 := by simp
    rw [e0] at hd ⊢
    have c1 := hc _ (List.mem_cons_self)
    have c2 := hc _ (List.mem_cons_of_mem _ List.mem_cons_self)
    simp only [norm2, dotProduct, mulVec, Finset.univ_unique, Fin.default_eq_zero, Fin.isValue, cons_val_fin_one,
      mul_one, Finset.sum_singleton, one_mul, mul_neg, neg_mul, neg_neg] at c1 c2
    rw [Real.sqrt_mul_self hd.le] at c1 c2
    simp only [det_one, Real.log_one]
    exact Real.log_nonpos hd.le (by linarith)

end Rigeo
