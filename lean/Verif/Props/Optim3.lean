import Verif.Props.Optim2
import Verif.Lemmas.SLemma

/-!
# C46, C47: exactly what the ellipsoid programs decide

With the S-lemma the multipliers of the two programs disappear: the constraints are replaced by the containment
they are equivalent to, both for the constraints posed by the source and for the intended ones.
-/

namespace Rigeo

open Matrix

variable {n : ℕ}

/-- The attributes of a non-degenerate ellipsoid: `A` is symmetric and definite, `S = A²`, `b = -A c`. -/
theorem ellipsoid_attrs (e : Ellipsoid ℝ n) (hR : Spec.Orthogonal e.rotation)
    (he : ∀ i, 1 / 100000000 < e.halfExtents i) :
    ∃ A : Matrix (Fin n) (Fin n) ℝ, A = e.rotation * Matrix.diagonal (fun i => 1 / e.halfExtents i) * e.rotationᵀ ∧
      e.A = .ok A ∧ e.S = .ok (A * A) ∧ e.b = .ok ((-A) *ᵥ e.center) ∧ Aᵀ = A ∧
      (∀ x, x ⬝ᵥ (A *ᵥ x) ≤ 0 → x = 0) ∧ (∀ x, x ⬝ᵥ ((A * A) *ᵥ x) ≤ 0 → x = 0) := by
  have hpos : ∀ i, 0 < e.halfExtents i := fun i => lt_trans (by norm_num) (he i)
  have h0 : ∀ i, e.hInv i = some (1 / e.halfExtents i) := fun i => by
    unfold Ellipsoid.hInv
    exact invWithZero_some (he i)
  have hi : e.hInvFin = .ok fun i => 1 / e.halfExtents i := by
    unfold Ellipsoid.hInvFin
    rw [if_pos (fun i => by rw [h0]; rfl)]
    congr 1
    ext i
    unfold Ellipsoid.hInvNz
    rw [h0]; rfl
  have hAt := conj_diag_transpose e.rotation fun i => 1 / e.halfExtents i
  have eA : e.A = .ok (e.rotation * Matrix.diagonal (fun i => 1 / e.halfExtents i) * e.rotationᵀ) := by
    unfold Ellipsoid.A; rw [hi]; rfl
  have eS : e.S = .ok (e.rotation * Matrix.diagonal (fun i => 1 / e.halfExtents i) * e.rotationᵀ *
      (e.rotation * Matrix.diagonal (fun i => 1 / e.halfExtents i) * e.rotationᵀ)) := by
    unfold Ellipsoid.S; rw [hi]
    simp only [bind, Except.bind, pure, Except.pure]
    congr 1
    rw [conj_diag_mul hR]
    congr 3
    ext i; ring
  have hz : ∀ (w : Fin n → ℝ), (∀ i, 0 < w i) → ∀ x, x ⬝ᵥ ((e.rotation * Matrix.diagonal w * e.rotationᵀ) *ᵥ x) ≤ 0 → x = 0 := by
    intro w hw x hx
    set y := e.rotationᵀ *ᵥ x with hy
    have h1 : x ⬝ᵥ ((e.rotation * Matrix.diagonal w * e.rotationᵀ) *ᵥ x) = ∑ i, w i * y i ^ 2 := by
      rw [← mulVec_mulVec, ← mulVec_mulVec, dotProduct_mulVec, ← mulVec_transpose, ← hy]
      simp only [dotProduct, mulVec_diagonal]
      exact Finset.sum_congr rfl fun i _ => by ring
    rw [h1] at hx
    have h2 : ∀ i, y i = 0 := by
      have h3 : ∀ i ∈ Finset.univ, 0 ≤ w i * y i ^ 2 := fun i _ => mul_nonneg (hw i).le (sq_nonneg _)
      have h4 := (Finset.sum_eq_zero_iff_of_nonneg h3).1 (le_antisymm hx (Finset.sum_nonneg h3))
      intro i
      have := h4 i (Finset.mem_univ i)
      rcases mul_eq_zero.1 this with h | h
      · exact absurd h (hw i).ne'
      · exact pow_eq_zero_iff (two_ne_zero) |>.1 h
    have h5 : x = e.rotation *ᵥ y := by
      rw [hy, mulVec_mulVec, hR.mul_transpose, one_mulVec]
    rw [h5, show y = 0 from funext h2, mulVec_zero]
  refine ⟨_, rfl, eA, eS, by unfold Ellipsoid.b; rw [eA]; rfl, hAt, hz _ fun i => by have := hpos i; positivity, fun x hx => ?_⟩
  rw [conj_diag_mul hR] at hx
  exact hz _ (fun i => by have := hpos i; positivity) x hx

/-- The quadratic inequality of the intended programs has the centre as an interior point. -/
theorem intended_slater (A : Matrix (Fin n) (Fin n) ℝ) (hA : Aᵀ = A) (c : Fin n → ℝ) :
    c ⬝ᵥ ((A * A) *ᵥ c) + 2 * ((A *ᵥ ((-A) *ᵥ c)) ⬝ᵥ c) + (((-A) *ᵥ c) ⬝ᵥ ((-A) *ᵥ c) - 1) < 0 := by
  have h1 : c ⬝ᵥ ((A * A) *ᵥ c) = (A *ᵥ c) ⬝ᵥ (A *ᵥ c) := by
    rw [← mulVec_mulVec, dotProduct_mulVec, ← mulVec_transpose, hA]
  have h2 : (A *ᵥ (A *ᵥ c)) ⬝ᵥ c = (A *ᵥ c) ⬝ᵥ (A *ᵥ c) := by
    rw [dotProduct_comm, dotProduct_mulVec, ← mulVec_transpose, hA]
  rw [neg_mulVec, mulVec_neg, neg_dotProduct, neg_dotProduct, dotProduct_neg, h1, h2]
  linarith

/-- The constraint of `contains_ellipsoid` in terms of the forms. -/
theorem schur_nsd_iff (S P : Matrix (Fin n) (Fin n) ℝ) (d q : Fin n → ℝ) (e c t : ℝ) :
    cvxPsd (-(schur (S - t • P) (d - t • q) (e - t * c))) ↔
      ∀ (x : Fin n → ℝ) (s : ℝ), x ⬝ᵥ (S *ᵥ x) + 2 * s * (d ⬝ᵥ x) + e * s ^ 2 ≤
        t * (x ⬝ᵥ (P *ᵥ x) + 2 * s * (q ⬝ᵥ x) + c * s ^ 2) := by
  have key : ∀ (x : Fin n → ℝ) (s : ℝ),
      (Fin.snoc (α := fun _ => ℝ) x s) ⬝ᵥ ((-(schur (S - t • P) (d - t • q) (e - t * c))) *ᵥ
        (Fin.snoc (α := fun _ => ℝ) x s)) =
      t * (x ⬝ᵥ (P *ᵥ x) + 2 * s * (q ⬝ᵥ x) + c * s ^ 2) - (x ⬝ᵥ (S *ᵥ x) + 2 * s * (d ⬝ᵥ x) + e * s ^ 2) := by
    intro x s
    unfold schur
    rw [neg_mulVec, dotProduct_neg, bordered_quad, sub_mulVec, dotProduct_sub, smul_mulVec, dotProduct_smul, smul_eq_mul]
    simp only [sub_dotProduct, smul_dotProduct, smul_eq_mul]
    ring
  constructor
  · intro h x s
    have := h (Fin.snoc (α := fun _ => ℝ) x s)
    rw [key] at this
    linarith
  · intro h v
    obtain ⟨x, s, rfl⟩ : ∃ x s, v = Fin.snoc (α := fun _ => ℝ) x s := ⟨_, _, (Fin.snoc_init_self v).symm⟩
    rw [key]
    linarith [h x s]

/-- C46: the test intended in the cited textbook is right: a multiplier exists exactly when `other` is a subset. -/
theorem C46_intended_exact (self other : Ellipsoid ℝ n) (hR : Spec.Orthogonal self.rotation)
    (hR' : Spec.Orthogonal other.rotation) (hs : ∀ i, 1 / 100000000 < self.halfExtents i)
    (ho : ∀ i, 1 / 100000000 < other.halfExtents i) :
    ∃ S A b So Ao bo, self.S = .ok S ∧ self.A = .ok A ∧ self.b = .ok b ∧
      other.S = .ok So ∧ other.A = .ok Ao ∧ other.b = .ok bo ∧
      ((∃ t : ℝ, 0 ≤ t ∧
        cvxPsd (-(schur (S - t • So) (A *ᵥ b - t • (Ao *ᵥ bo)) (b ⬝ᵥ b - 1 - t * (bo ⬝ᵥ bo - 1))))) ↔
        Spec.ellipsoid other.halfExtents other.rotation other.center ⊆
          Spec.ellipsoid self.halfExtents self.rotation self.center) := by
  obtain ⟨S, A, b, h1, h2, h3, -, -, h4⟩ := ellipsoid_quad self hR hs
  obtain ⟨So, Ao, bo, h1', h2', h3', -, -, h4'⟩ := ellipsoid_quad other hR' ho
  obtain ⟨Ao', -, k2, k1, k3, kT, -, kP⟩ := ellipsoid_attrs other hR' ho
  refine ⟨S, A, b, So, Ao, bo, h1, h2, h3, h1', h2', h3', ?_⟩
  obtain rfl : Ao = Ao' := by rw [h2'] at k2; exact Except.ok.inj k2
  obtain rfl : So = Ao * Ao := by rw [h1'] at k1; exact Except.ok.inj k1
  obtain rfl : bo = (-Ao) *ᵥ other.center := by rw [h3'] at k3; exact Except.ok.inj k3
  simp only [schur_nsd_iff]
  rw [← slemma_affine _ _ _ _ _ _ kP ⟨_, intended_slater Ao kT other.center⟩]
  exact ⟨fun h x hx => (h4 x).2 (h x ((h4' x).1 hx)), fun h x hx => (h4 x).1 (h ((h4' x).2 hx))⟩

/-- C46: exactly what `contains_ellipsoid` decides for non-degenerate ellipsoids. With `A`, `b` of `self` and `Ao`, `bo`
of `other`, the set tested for containment is `{x | xᵀ Ao x + 2 bᵀ x + boᵀ bo - 1 ≤ 0}` instead of `other`. -/
theorem C46_decides (self other : Ellipsoid ℝ n) (hR : Spec.Orthogonal self.rotation)
    (hR' : Spec.Orthogonal other.rotation) (hs : ∀ i, 1 / 100000000 < self.halfExtents i)
    (ho : ∀ i, 1 / 100000000 < other.halfExtents i) :
    ∃ b Ao bo, self.b = .ok b ∧ other.A = .ok Ao ∧ other.b = .ok bo ∧
      ((∃ x : Fin n → ℝ, x ⬝ᵥ (Ao *ᵥ x) + 2 * (b ⬝ᵥ x) + (bo ⬝ᵥ bo - 1) < 0) →
        ((∃ t, Py.Holds (self.containsEllipsoidProblem other t)) ↔
          {x : Fin n → ℝ | x ⬝ᵥ (Ao *ᵥ x) + 2 * (b ⬝ᵥ x) + (bo ⬝ᵥ bo - 1) ≤ 0} ⊆
            Spec.ellipsoid self.halfExtents self.rotation self.center)) := by
  obtain ⟨S, A, b, h1, h2, h3, -, -, h4⟩ := ellipsoid_quad self hR hs
  obtain ⟨Ao, -, k2, k1, k3, kT, kP, -⟩ := ellipsoid_attrs other hR' ho
  refine ⟨b, Ao, _, h3, k2, k3, fun hsl => ?_⟩
  have e1 : ∀ t, Py.Holds (self.containsEllipsoidProblem other t) ↔
      0 ≤ t ∧ cvxPsd (-(schur (S - t • Ao) (A *ᵥ b - t • b)
        (b ⬝ᵥ b - 1 - t * (((-Ao) *ᵥ other.center) ⬝ᵥ ((-Ao) *ᵥ other.center) - 1)))) := by
    intro t
    unfold Ellipsoid.containsEllipsoidProblem Py.Holds
    rw [h1, h2, h3, k2, k3]
    simp only [bind, Except.bind, pure, Except.pure]
    constructor
    · rintro ⟨p, hp, h⟩
      rw [← Except.ok.inj hp] at h
      exact h
    · intro h
      exact ⟨_, rfl, h⟩
  simp only [e1, schur_nsd_iff]
  rw [← slemma_affine _ _ _ _ _ _ kP hsl]
  exact ⟨fun h x hx => (h4 x).2 (h x hx), fun h x hx => (h4 x).1 (h hx)⟩

/-- An ellipsoid around the origin whose half extents are the square roots of those of `e` is described by the
attribute `A` of `e`. -/
theorem sqrt_ellipsoid {h : Fin n → ℝ} (hh : ∀ i, 0 < h i) {R : Matrix (Fin n) (Fin n) ℝ} (hR : Spec.Orthogonal R)
    (x : Fin n → ℝ) :
    x ∈ Spec.ellipsoid (fun i => Real.sqrt (h i)) R 0 ↔
      x ⬝ᵥ ((R * Matrix.diagonal (fun i => 1 / h i) * Rᵀ) *ᵥ x) ≤ 1 := by
  rw [ellipsoid_of_shape hR _ _ _ fun i => Real.sqrt_pos.mpr (hh i), sub_zero]
  have : (fun i => (1 / Real.sqrt (h i)) ^ 2) = fun i => 1 / h i := by
    ext i
    rw [div_pow, one_pow, Real.sq_sqrt (hh i).le]
  rw [this]

/-- C46: for any two ellipsoids around the origin the test asks whether the ellipsoid with the *square roots* of the
half extents of `other` is contained in `self`. -/
theorem C46_centred (self other : Ellipsoid ℝ n) (hR : Spec.Orthogonal self.rotation)
    (hR' : Spec.Orthogonal other.rotation) (hs : ∀ i, 1 / 100000000 < self.halfExtents i)
    (ho : ∀ i, 1 / 100000000 < other.halfExtents i) (hc : self.center = 0) (hc' : other.center = 0) :
    (∃ t, Py.Holds (self.containsEllipsoidProblem other t)) ↔
      Spec.ellipsoid (fun i => Real.sqrt (other.halfExtents i)) other.rotation 0 ⊆
        Spec.ellipsoid self.halfExtents self.rotation 0 := by
  obtain ⟨b, Ao, bo, hb, hAo, hbo, h⟩ := C46_decides self other hR hR' hs ho
  obtain ⟨A, -, -, -, kb, -⟩ := ellipsoid_attrs self hR hs
  obtain ⟨Ao', eAo, k2, -, k3, -⟩ := ellipsoid_attrs other hR' ho
  obtain rfl : Ao = Ao' := by rw [hAo] at k2; exact Except.ok.inj k2
  obtain rfl : b = 0 := by rw [hb] at kb; rw [Except.ok.inj kb, hc, mulVec_zero]
  obtain rfl : bo = 0 := by rw [hbo] at k3; rw [Except.ok.inj k3, hc', mulVec_zero]
  rw [h ⟨0, by simp⟩, hc]
  have hpos : ∀ i, 0 < other.halfExtents i := fun i => lt_trans (by norm_num) (ho i)
  have : {x : Fin n → ℝ | x ⬝ᵥ (Ao *ᵥ x) + 2 * ((0 : Fin n → ℝ) ⬝ᵥ x) + ((0 : Fin n → ℝ) ⬝ᵥ 0 - 1) ≤ 0} =
      Spec.ellipsoid (fun i => Real.sqrt (other.halfExtents i)) other.rotation 0 := by
    ext x
    rw [sqrt_ellipsoid hpos hR', ← eAo]
    simp only [Set.mem_ofPred_eq, zero_dotProduct, mul_zero, add_zero, zero_sub]
    constructor <;> intro h <;> linarith
  rw [this]

/-- The hypotheses of `C46_centred` are met by an ellipsoid with half extents `(1, 2, 3)`, rotated by a quarter turn. -/
example : (∀ i, 1 / 100000000 < (![1, 2, 3] : Fin 3 → ℝ) i) ∧ Spec.Orthogonal !![0, -1, 0; 1, 0, 0; 0, 0, (1 : ℝ)] :=
  ⟨by intro i; fin_cases i <;> norm_num, by
    unfold Spec.Orthogonal
    ext i j; fin_cases i <;> fin_cases j <;> simp [Matrix.mul_apply, Fin.sum_univ_three]⟩

/-! ## C47 -/

/-- A constraint of `mbe_of_ellipsoids` is equivalent to the containment it stands for. -/
theorem mbeeGen_iff {S : Matrix (Fin n) (Fin n) ℝ} (hS : Spec.PSD S) (hdet : 0 < S.det) (d : Fin n → ℝ)
    (P : Matrix (Fin n) (Fin n) ℝ) (q : Fin n → ℝ) (c : ℝ) (hP : ∀ x, x ⬝ᵥ (P *ᵥ x) ≤ 0 → x = 0)
    (hsl : ∃ x, x ⬝ᵥ (P *ᵥ x) + 2 * (q ⬝ᵥ x) + c < 0) :
    (∃ t : ℝ, 0 ≤ t ∧ cvxNsd (mbeeGen S d P q c t)) ↔
      ∀ x, x ⬝ᵥ (P *ᵥ x) + 2 * (q ⬝ᵥ x) + c ≤ 0 →
        (x - S⁻¹ *ᵥ (-d)) ⬝ᵥ (S *ᵥ (x - S⁻¹ *ᵥ (-d))) ≤ 1 := by
  constructor
  · rintro ⟨t, ht, h⟩ x hx
    exact mbeeGen_contains hS hdet d P q c t ht h x hx
  · intro h
    have hu : IsUnit S.det := isUnit_iff_ne_zero.mpr hdet.ne'
    set z := S⁻¹ *ᵥ d with hz
    have hSz : S *ᵥ z = d := by rw [hz, mulVec_mulVec, Matrix.mul_nonsing_inv _ hu, one_mulVec]
    have hsym : ∀ x y : Fin n → ℝ, x ⬝ᵥ (S *ᵥ y) = y ⬝ᵥ (S *ᵥ x) := fun x y => by
      rw [dotProduct_mulVec, ← mulVec_transpose, hS.1, dotProduct_comm]
    have h1 : ∀ x, x ⬝ᵥ (P *ᵥ x) + 2 * (q ⬝ᵥ x) + c ≤ 0 → x ⬝ᵥ (S *ᵥ x) + 2 * (d ⬝ᵥ x) + (d ⬝ᵥ z - 1) ≤ 0 := by
      intro x hx
      have h2 := h x hx
      have e1 : x - S⁻¹ *ᵥ (-d) = x + z := by rw [mulVec_neg, hz]; abel
      rw [e1, mulVec_add, add_dotProduct, dotProduct_add, dotProduct_add, hsym z x, hSz, dotProduct_comm x d,
        dotProduct_comm z d] at h2
      linarith
    obtain ⟨t, ht, hh⟩ := (slemma_affine S P d q _ c hP hsl).1 h1
    refine ⟨t, ht, fun v => ?_⟩
    obtain ⟨x, s, y, rfl⟩ : ∃ (x : Fin n → ℝ) (s : ℝ) (y : Fin n → ℝ),
        v = Sum.elim x (Sum.elim (fun _ : Unit => s) y) :=
      ⟨fun i => v (.inl i), v (.inr (.inl ())), fun i => v (.inr (.inr i)), by
        ext i; rcases i with i | i | i <;> rfl⟩
    rw [mbeeGen_quad]
    have h3 := hh x s
    have h4 := hS.2 (y - s • z)
    rw [mulVec_sub, mulVec_smul, hSz, sub_dotProduct, dotProduct_sub, dotProduct_sub, smul_dotProduct, smul_dotProduct,
      dotProduct_smul, dotProduct_smul, hsym z y, hSz, dotProduct_comm y d, dotProduct_comm z d] at h4
    simp only [smul_eq_mul] at h4
    nlinarith

/-- C47: the intended constraint holds, for some multiplier, exactly when the ellipsoid it describes contains the given
one; hence minimising the volume over it gives the smallest ellipsoid around the given ones. -/
theorem C47_intended_exact (E : Ellipsoid ℝ n) (hR : Spec.Orthogonal E.rotation) (hE : ∀ i, 1 / 100000000 < E.halfExtents i) :
    ∃ Si Ai bi, E.S = .ok Si ∧ E.A = .ok Ai ∧ E.b = .ok bi ∧
      ∀ (S : Matrix (Fin n) (Fin n) ℝ) (d : Fin n → ℝ), Spec.PSD S → 0 < S.det →
        ((∃ t : ℝ, 0 ≤ t ∧ cvxNsd (mbeeGen S d Si (Ai *ᵥ bi) (bi ⬝ᵥ bi - 1) t)) ↔
        ∀ x ∈ Spec.ellipsoid E.halfExtents E.rotation E.center,
          (x - S⁻¹ *ᵥ (-d)) ⬝ᵥ (S *ᵥ (x - S⁻¹ *ᵥ (-d))) ≤ 1) := by
  obtain ⟨Si, Ai, bi, h1, h2, h3, -, -, h4⟩ := ellipsoid_quad E hR hE
  obtain ⟨A, -, k2, k1, k3, kT, -, kP⟩ := ellipsoid_attrs E hR hE
  refine ⟨Si, Ai, bi, h1, h2, h3, fun S d hS hdet => ?_⟩
  obtain rfl : Ai = A := by rw [h2] at k2; exact Except.ok.inj k2
  obtain rfl : Si = Ai * Ai := by rw [h1] at k1; exact Except.ok.inj k1
  obtain rfl : bi = (-Ai) *ᵥ E.center := by rw [h3] at k3; exact Except.ok.inj k3
  rw [mbeeGen_iff hS hdet d _ _ _ kP ⟨_, intended_slater Ai kT E.center⟩]
  exact ⟨fun h x hx => h x ((h4 x).1 hx), fun h x hx => h x ((h4 x).2 hx)⟩

/-- C47: exactly what the constraints of `mbe_of_ellipsoids` mean for any list of data `(A, b)` with `A` definite and
solvable inequalities: `(S, d)` is feasible, for some multipliers, iff the ellipsoid it describes contains every set
`{x | xᵀ A x + 2 bᵀ x + bᵀ b - 1 ≤ 0}`. -/
theorem C47_feasible_iff (Ab : List (Matrix (Fin n) (Fin n) ℝ × (Fin n → ℝ)))
    (hP : ∀ E ∈ Ab, ∀ x, x ⬝ᵥ (E.1 *ᵥ x) ≤ 0 → x = 0)
    (hsl : ∀ E ∈ Ab, ∃ x : Fin n → ℝ, x ⬝ᵥ (E.1 *ᵥ x) + 2 * (E.2 ⬝ᵥ x) + (E.2 ⬝ᵥ E.2 - 1) < 0) (sphere : Bool)
    (S : Matrix (Fin n) (Fin n) ℝ) (d : Fin n → ℝ) :
    (∃ ts, mbeeFeasible Ab sphere ⟨S, d, ts⟩) ↔
      Spec.PSD S ∧ 0 < S.det ∧ (sphere = true → ∃ a : ℝ, S = a • (1 : Matrix (Fin n) (Fin n) ℝ)) ∧
      ∀ E ∈ Ab, ∀ x : Fin n → ℝ, x ⬝ᵥ (E.1 *ᵥ x) + 2 * (E.2 ⬝ᵥ x) + (E.2 ⬝ᵥ E.2 - 1) ≤ 0 →
        (x - S⁻¹ *ᵥ (-d)) ⬝ᵥ (S *ᵥ (x - S⁻¹ *ᵥ (-d))) ≤ 1 := by
  constructor
  · rintro ⟨ts, hS, hdet, hlen, hpos, hcon, hsph⟩
    refine ⟨hS, hdet, hsph, fun E hE x hx => ?_⟩
    obtain ⟨k, hk, rfl⟩ := List.getElem_of_mem hE
    dsimp only at hlen hcon hpos
    have hmem : (Ab[k], ts[k]'(by omega)) ∈ Ab.zip ts := by
      rw [List.mem_iff_getElem]
      exact ⟨k, by simp; omega, by simp⟩
    have h1 := hcon _ hmem
    rw [mbeeConMat_eq] at h1
    exact mbeeGen_contains hS hdet d _ _ _ _ (hpos _ (List.getElem_mem _)) h1 x hx
  · rintro ⟨hS, hdet, hsph, h⟩
    have h1 : ∀ E, ∃ t : ℝ, E ∈ Ab → 0 ≤ t ∧ cvxNsd (mbeeConMat S d E.1 E.2 t) := by
      intro E
      by_cases hE : E ∈ Ab
      · obtain ⟨t, ht⟩ := (mbeeGen_iff hS hdet d _ _ _ (hP E hE) (hsl E hE)).2 (h E hE)
        exact ⟨t, fun _ => ht⟩
      · exact ⟨0, fun h => absurd h hE⟩
    choose f hf using h1
    refine ⟨Ab.map f, hS, hdet, by simp, ?_, ?_, hsph⟩
    · intro t ht
      obtain ⟨E, hE, rfl⟩ := List.mem_map.1 ht
      exact (hf E hE).1
    · intro Et hEt
      obtain ⟨k, hk, rfl⟩ := List.getElem_of_mem hEt
      simp only [List.getElem_zip, List.getElem_map]
      exact (hf _ (List.getElem_mem _)).2

/-- C47: for ellipsoids around the origin the program bounds, instead of the given ellipsoids, those with the *square
roots* of their half extents, and every such bound is feasible: its optimum is the smallest ellipsoid around these. -/
theorem C47_centred (Es : List (Ellipsoid ℝ n))
    (hEs : ∀ E ∈ Es, Spec.Orthogonal E.rotation ∧ (∀ i, 1 / 100000000 < E.halfExtents i) ∧ E.center = 0) :
    ∃ Ab, (Es.mapM fun E => do
        let A ← E.A
        let b ← E.b
        pure (A, b) : Py _) = .ok Ab ∧
      ∀ (sphere : Bool) (S : Matrix (Fin n) (Fin n) ℝ) (d : Fin n → ℝ),
        (∃ ts, mbeeFeasible Ab sphere ⟨S, d, ts⟩) ↔
          Spec.PSD S ∧ 0 < S.det ∧ (sphere = true → ∃ a : ℝ, S = a • (1 : Matrix (Fin n) (Fin n) ℝ)) ∧
          ∀ E ∈ Es, ∀ x ∈ Spec.ellipsoid (fun i => Real.sqrt (E.halfExtents i)) E.rotation 0,
            (x - S⁻¹ *ᵥ (-d)) ⬝ᵥ (S *ᵥ (x - S⁻¹ *ᵥ (-d))) ≤ 1 := by
  have h1 : ∀ E ∈ Es, E.A = .ok (E.rotation * Matrix.diagonal (fun i => 1 / E.halfExtents i) * E.rotationᵀ) ∧
      E.b = .ok 0 ∧ ∀ x, x ⬝ᵥ ((E.rotation * Matrix.diagonal (fun i => 1 / E.halfExtents i) * E.rotationᵀ) *ᵥ x) ≤ 0 → x = 0 := by
    intro E hE
    obtain ⟨hR, hh, hc⟩ := hEs E hE
    obtain ⟨A, rfl, k2, -, k3, -, kP, -⟩ := ellipsoid_attrs E hR hh
    exact ⟨k2, by rw [k3, hc, mulVec_zero], kP⟩
  refine ⟨Es.map fun E => (E.rotation * Matrix.diagonal (fun i => 1 / E.halfExtents i) * E.rotationᵀ, 0), ?_, ?_⟩
  · clear hEs
    induction Es with
    | nil => rfl
    | cons E Es ih =>
      obtain ⟨k1, k2, -⟩ := h1 E List.mem_cons_self
      simp only [List.map_cons, List.mapM_cons]
      rw [ih fun x hx => h1 x (List.mem_cons_of_mem _ hx), k1, k2]
      rfl
  · intro sphere S d
    rw [C47_feasible_iff]
    · refine and_congr_right fun _ => and_congr_right fun _ => and_congr_right fun _ => ?_
      rw [List.forall_mem_map]
      refine forall_congr' fun E => forall_congr' fun hE => forall_congr' fun x => ?_
      rw [sqrt_ellipsoid (fun i => lt_trans (by norm_num) ((hEs E hE).2.1 i)) (hEs E hE).1]
      simp only [zero_dotProduct, mul_zero, add_zero, zero_sub, ← sub_eq_add_neg, sub_nonpos]
    · rw [List.forall_mem_map]
      exact fun E hE => (h1 E hE).2.2
    · rw [List.forall_mem_map]
      exact fun E hE => ⟨0, by simp⟩

/-- The hypotheses of `C47_feasible_iff` are met by the data of a sphere of radius four around the origin. -/
example : (∀ x : Fin 3 → ℝ, x ⬝ᵥ (((1 / 4 : ℝ) • (1 : Matrix (Fin 3) (Fin 3) ℝ)) *ᵥ x) ≤ 0 → x = 0) ∧
    ∃ x : Fin 3 → ℝ, x ⬝ᵥ (((1 / 4 : ℝ) • (1 : Matrix (Fin 3) (Fin 3) ℝ)) *ᵥ x) + 2 * ((0 : Fin 3 → ℝ) ⬝ᵥ x) +
      ((0 : Fin 3 → ℝ) ⬝ᵥ 0 - 1) < 0 := by
  refine ⟨fun x hx => ?_, 0, by simp⟩
  rw [smul_mulVec, one_mulVec, dotProduct_smul, smul_eq_mul] at hx
  simp only [dotProduct, Fin.sum_univ_three] at hx
  ext i
  fin_cases i <;> simp <;> nlinarith [mul_self_nonneg (x 0), mul_self_nonneg (x 1), mul_self_nonneg (x 2)]

end Rigeo
