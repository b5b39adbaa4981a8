import Verif.Props.Optim
import Verif.Props.Shapes4
import Verif.Props.Sampling

/-!
# C46, C47: the tests and bounding programs for ellipsoids

Both programs mix up the attributes of the ellipsoids involved. The theorems say exactly what the posed
constraints mean, give the wrong answers they lead to, and show that the intended constraints are right.
-/

namespace Rigeo

open Matrix

variable {n : ℕ}

/-- A sphere with resolved radius. -/
theorem sphere_attrs {r : ℝ} (hr : 1 / 100000000 < r) (c : Fin n → ℝ) :
    (⟨fun _ => r, 1, c⟩ : Ellipsoid ℝ n).A = .ok ((1 / r) • 1) ∧
    (⟨fun _ => r, 1, c⟩ : Ellipsoid ℝ n).S = .ok (((1 / r) ^ 2) • 1) ∧
    (⟨fun _ => r, 1, c⟩ : Ellipsoid ℝ n).b = .ok (-((1 / r) • c)) := by
  have hi : (⟨fun _ => r, 1, c⟩ : Ellipsoid ℝ n).hInvFin = .ok fun _ => 1 / r := by
    have h0 : ∀ i, (⟨fun _ => r, 1, c⟩ : Ellipsoid ℝ n).hInv i = some (1 / r) := fun i => by
      unfold Ellipsoid.hInv
      exact invWithZero_some hr
    unfold Ellipsoid.hInvFin
    rw [if_pos (fun i => by rw [h0]; rfl)]
    congr 1
    ext i
    unfold Ellipsoid.hInvNz
    rw [h0]; rfl
  have hA : (⟨fun _ => r, 1, c⟩ : Ellipsoid ℝ n).A = .ok ((1 / r) • 1) := by
    unfold Ellipsoid.A
    rw [hi]
    simp only [bind, Except.bind, pure, Except.pure, Matrix.one_mul, transpose_one, Matrix.mul_one]
    congr 1
    ext i j
    simp [Matrix.diagonal_apply, Matrix.one_apply]
  refine ⟨hA, ?_, ?_⟩
  · unfold Ellipsoid.S
    rw [hi]
    simp only [bind, Except.bind, pure, Except.pure, Matrix.one_mul, transpose_one, Matrix.mul_one]
    congr 1
    ext i j
    simp [Matrix.diagonal_apply, Matrix.one_apply]
  · unfold Ellipsoid.b
    rw [hA]
    simp only [bind, Except.bind, pure, Except.pure]
    congr 1
    rw [neg_mulVec, smul_mulVec, one_mulVec]

/-! ## C46 -/

/-- C46: for centred spheres the test posed by `contains_ellipsoid` succeeds iff `r ≤ R ^ 2`, in any
dimension. -/
theorem C46_spheres (R r : ℝ) (hR : 1 / 100000000 < R) (hr : 1 / 100000000 < r) :
    (∃ t, Py.Holds (Ellipsoid.containsEllipsoidProblem (⟨fun _ => R, 1, 0⟩ : Ellipsoid ℝ (n + 1))
      ⟨fun _ => r, 1, 0⟩ t)) ↔ r ≤ R ^ 2 := by
  obtain ⟨a1, a2, a3⟩ := sphere_attrs (n := n + 1) hR 0
  obtain ⟨b1, b2, b3⟩ := sphere_attrs (n := n + 1) hr 0
  have hR0 : 0 < R := lt_trans (by norm_num) hR
  have hr0 : 0 < r := lt_trans (by norm_num) hr
  have key : ∀ t : ℝ, Py.Holds (Ellipsoid.containsEllipsoidProblem (⟨fun _ => R, 1, 0⟩ : Ellipsoid ℝ (n + 1))
      ⟨fun _ => r, 1, 0⟩ t) ↔ 0 ≤ t ∧ (1 / R) ^ 2 ≤ t * (1 / r) ∧ t ≤ 1 := by
    intro t
    have e1 : Ellipsoid.containsEllipsoidProblem (⟨fun _ => R, 1, 0⟩ : Ellipsoid ℝ (n + 1)) ⟨fun _ => r, 1, 0⟩ t =
        .ok (0 ≤ t ∧ cvxPsd (-(schur (((1 / R) ^ 2 - t * (1 / r)) • (1 : Matrix (Fin (n + 1)) (Fin (n + 1)) ℝ)) 0 (t - 1)))) := by
      unfold Ellipsoid.containsEllipsoidProblem
      rw [a1, a2, a3, b1, b3]
      simp only [bind, Except.bind, pure, Except.pure, smul_zero, neg_zero, mulVec_zero, sub_zero, dotProduct_zero]
      rw [show (1 / R) ^ 2 • (1 : Matrix (Fin (n + 1)) (Fin (n + 1)) ℝ) - t • (1 / r) • 1 =
        ((1 / R) ^ 2 - t * (1 / r)) • 1 by rw [sub_smul, mul_smul], show (0 : ℝ) - 1 - t * (0 - 1) = t - 1 by ring]
    have e2 : ∀ (a b : ℝ), cvxPsd (-(schur (a • (1 : Matrix (Fin (n + 1)) (Fin (n + 1)) ℝ)) 0 b)) ↔ a ≤ 0 ∧ b ≤ 0 := by
      intro a b
      have hq : ∀ (x : Fin (n + 1) → ℝ) (s : ℝ), (Fin.snoc (α := fun _ => ℝ) x s) ⬝ᵥ
          ((-(schur (a • (1 : Matrix (Fin (n + 1)) (Fin (n + 1)) ℝ)) 0 b)) *ᵥ (Fin.snoc (α := fun _ => ℝ) x s)) =
          -(a * (x ⬝ᵥ x) + b * s ^ 2) := by
        intro x s
        unfold schur
        rw [neg_mulVec, dotProduct_neg, bordered_quad]
        simp [smul_mulVec]
      constructor
      · intro h
        have h1 := h (Fin.snoc (α := fun _ => ℝ) (Pi.single 0 1) 0)
        have h2 := h (Fin.snoc (α := fun _ => ℝ) 0 1)
        rw [hq] at h1 h2
        constructor
        · simpa using h1
        · simpa using h2
      · rintro ⟨ha, hb⟩ v
        obtain ⟨x, s, rfl⟩ : ∃ x s, v = Fin.snoc (α := fun _ => ℝ) x s := ⟨_, _, (Fin.snoc_init_self v).symm⟩
        rw [hq]
        have := dot_self_nonneg x
        nlinarith [mul_nonneg (neg_nonneg.mpr ha) this, mul_nonneg (neg_nonneg.mpr hb) (sq_nonneg s)]
    rw [e1]
    unfold Py.Holds
    simp only [Except.ok.injEq, exists_eq_left', e2, sub_nonpos]
  simp only [key]
  have hx : (1 / R) ^ 2 ≤ 1 * (1 / r) ↔ r ≤ R ^ 2 := by
    rw [one_mul, div_pow, one_pow, div_le_div_iff₀ (by positivity) hr0, one_mul, one_mul]
  constructor
  · rintro ⟨t, h0, h1, h2⟩
    rw [← hx]
    exact h1.trans (mul_le_mul_of_nonneg_right h2 (by positivity))
  · intro h
    exact ⟨1, zero_le_one, hx.mpr h, le_refl _⟩

/-- C46: the test accepts a sphere that sticks out, and rejects one that is contained. -/
theorem C46_wrong :
    ((∃ t, Py.Holds (Ellipsoid.containsEllipsoidProblem (⟨fun _ => 3 / 2, 1, 0⟩ : Ellipsoid ℝ 3) ⟨fun _ => 2, 1, 0⟩ t)) ∧
      ¬ Spec.ellipsoid (fun _ => (2 : ℝ)) (1 : Matrix (Fin 3) (Fin 3) ℝ) 0 ⊆ Spec.ellipsoid (fun _ => 3 / 2) 1 0) ∧
    (¬ (∃ t, Py.Holds (Ellipsoid.containsEllipsoidProblem (⟨fun _ => 1 / 2, 1, 0⟩ : Ellipsoid ℝ 3) ⟨fun _ => 2 / 5, 1, 0⟩ t)) ∧
      Spec.ellipsoid (fun _ => (2 / 5 : ℝ)) (1 : Matrix (Fin 3) (Fin 3) ℝ) 0 ⊆ Spec.ellipsoid (fun _ => 1 / 2) 1 0) := by
  refine ⟨⟨?_, ?_⟩, ?_, ?_⟩
  · rw [C46_spheres (n := 2) _ _ (by norm_num) (by norm_num)]; norm_num
  · intro h
    have h1 : (![2, 0, 0] : Fin 3 → ℝ) ∈ Spec.ellipsoid (fun _ => (2 : ℝ)) (1 : Matrix (Fin 3) (Fin 3) ℝ) 0 := by
      refine ⟨![1, 0, 0], by simp, ?_⟩
      ext i; fin_cases i <;> simp [Spec.rigid]
    have h2 := h h1
    rw [Spec_ellipsoid_iff Spec.Orthogonal.one] at h2
    have h3 := h2.2
    simp [Fin.sum_univ_three] at h3
    norm_num at h3
  · rw [C46_spheres (n := 2) _ _ (by norm_num) (by norm_num)]; norm_num
  · exact ellipsoid_mono (fun _ => by norm_num) (fun _ => by norm_num)

/-- The quadratic inequality of a non-degenerate ellipsoid in terms of its attributes: `x ∈ E` iff
`xᵀ S x + 2 (A b)ᵀ x + bᵀ b - 1 ≤ 0`. -/
theorem ellipsoid_quad (e : Ellipsoid ℝ n) (hR : Spec.Orthogonal e.rotation)
    (he : ∀ i, 1 / 100000000 < e.halfExtents i) :
    ∃ S A b, e.S = .ok S ∧ e.A = .ok A ∧ e.b = .ok b ∧ Sᵀ = S ∧ Aᵀ = A ∧
      ∀ x, x ∈ Spec.ellipsoid e.halfExtents e.rotation e.center ↔
        x ⬝ᵥ (S *ᵥ x) + 2 * ((A *ᵥ b) ⬝ᵥ x) + (b ⬝ᵥ b - 1) ≤ 0 := by
  have hpos : ∀ i, 0 < e.halfExtents i := fun i => lt_trans (by norm_num) (he i)
  have h0 : ∀ i, e.hInv i = some (1 / e.halfExtents i) := fun i => by
    unfold Ellipsoid.hInv
    exact invWithZero_some (he i)
  have hi : e.hInvFin = .ok fun i => 1 / e.halfExtents i := by
    unfold Ellipsoid.hInvFin
    rw [if_pos (fun i => by rw [h0]; rfl)]
    congr 1
    ext i
    unfold Ellipsoid.hInvNz
    rw [h0]; rfl
  set W := e.rotation
  set A := W * Matrix.diagonal (fun i => 1 / e.halfExtents i) * Wᵀ with hA
  have hAt : Aᵀ = A := conj_diag_transpose _ _
  have eA : e.A = .ok A := by
    unfold Ellipsoid.A; rw [hi]; rfl
  have eS : e.S = .ok (A * A) := by
    unfold Ellipsoid.S; rw [hi]
    simp only [bind, Except.bind, pure, Except.pure]
    congr 1
    rw [hA, conj_diag_mul hR]
    congr 3
    ext i; ring
  refine ⟨A * A, A, (-A) *ᵥ e.center, eS, eA, by unfold Ellipsoid.b; rw [eA]; rfl,
    by rw [transpose_mul, hAt], hAt, fun x => ?_⟩
  rw [ellipsoid_of_shape hR _ _ _ hpos]
  have eAA : W * Matrix.diagonal (fun i => (1 / e.halfExtents i) ^ 2) * Wᵀ = A * A := by
    rw [hA, conj_diag_mul hR]
    congr 3
    ext i; ring
  change (x - e.center) ⬝ᵥ ((W * Matrix.diagonal (fun i => (1 / e.halfExtents i) ^ 2) * Wᵀ) *ᵥ (x - e.center)) ≤ 1 ↔ _
  rw [eAA]
  have hq : ∀ u v : Fin n → ℝ, u ⬝ᵥ ((A * A) *ᵥ v) = (A *ᵥ u) ⬝ᵥ (A *ᵥ v) := by
    intro u v
    rw [← mulVec_mulVec, dotProduct_mulVec, ← mulVec_transpose, hAt]
  have h2 : (A *ᵥ ((-A) *ᵥ e.center)) ⬝ᵥ x = -((A *ᵥ x) ⬝ᵥ (A *ᵥ e.center)) := by
    rw [neg_mulVec, mulVec_neg, neg_dotProduct, mulVec_mulVec, dotProduct_comm, hq]
  rw [hq, hq, h2, mulVec_sub, neg_mulVec, neg_dotProduct, dotProduct_neg, sub_dotProduct, dotProduct_sub, dotProduct_sub,
    dotProduct_comm (A *ᵥ e.center) (A *ᵥ x)]
  constructor <;> intro h <;> linarith

/-- C46: the test intended in the cited textbook, with `other.S` and `other.A @ other.b` in place of `other.A`
and `self.b`, is sound: a feasible multiplier proves containment. -/
theorem C46_intended_sound (self other : Ellipsoid ℝ n) (hR : Spec.Orthogonal self.rotation)
    (hR' : Spec.Orthogonal other.rotation) (hs : ∀ i, 1 / 100000000 < self.halfExtents i)
    (ho : ∀ i, 1 / 100000000 < other.halfExtents i) :
    ∃ S A b So Ao bo, self.S = .ok S ∧ self.A = .ok A ∧ self.b = .ok b ∧
      other.S = .ok So ∧ other.A = .ok Ao ∧ other.b = .ok bo ∧
      ∀ t : ℝ, 0 ≤ t →
        cvxPsd (-(schur (S - t • So) (A *ᵥ b - t • (Ao *ᵥ bo)) (b ⬝ᵥ b - 1 - t * (bo ⬝ᵥ bo - 1)))) →
        Spec.ellipsoid other.halfExtents other.rotation other.center ⊆
          Spec.ellipsoid self.halfExtents self.rotation self.center := by
  obtain ⟨S, A, b, h1, h2, h3, -, -, h4⟩ := ellipsoid_quad self hR hs
  obtain ⟨So, Ao, bo, h1', h2', h3', -, -, h4'⟩ := ellipsoid_quad other hR' ho
  refine ⟨S, A, b, So, Ao, bo, h1, h2, h3, h1', h2', h3', fun t ht hpsd x hx => ?_⟩
  rw [h4'] at hx
  rw [h4]
  have h5 := hpsd (Fin.snoc (α := fun _ => ℝ) x 1)
  unfold schur at h5
  rw [neg_mulVec, dotProduct_neg, bordered_quad, sub_mulVec, dotProduct_sub, smul_mulVec, dotProduct_smul, smul_eq_mul] at h5
  simp only [sub_dotProduct, smul_dotProduct, smul_eq_mul, dotProduct_sub, dotProduct_smul] at h5
  nlinarith [mul_nonneg ht (neg_nonneg.mpr hx)]

/-- The hypotheses of `C46_intended_sound` are met, and its constraint is feasible, for the unit ball inside the
ball of radius two. -/
example : cvxPsd (-(schur ((1 / 4 : ℝ) • (1 : Matrix (Fin 2) (Fin 2) ℝ) - (1 : ℝ) • 1)
    (((1 / 2 : ℝ) • (1 : Matrix (Fin 2) (Fin 2) ℝ)) *ᵥ 0 - (1 : ℝ) • ((1 : Matrix (Fin 2) (Fin 2) ℝ) *ᵥ 0))
    ((0 : Fin 2 → ℝ) ⬝ᵥ 0 - 1 - 1 * ((0 : Fin 2 → ℝ) ⬝ᵥ 0 - 1)))) := by
  intro v
  obtain ⟨x, s, rfl⟩ : ∃ x s, v = Fin.snoc (α := fun _ => ℝ) x s := ⟨_, _, (Fin.snoc_init_self v).symm⟩
  unfold schur
  rw [neg_mulVec, dotProduct_neg, bordered_quad]
  have := dot_self_nonneg x
  simp [sub_mulVec, smul_mulVec]
  nlinarith [mul_self_nonneg (x 0), mul_self_nonneg (x 1)]

/-! ## C47 -/

/-- The matrix of `_mbee_con_mat` for an arbitrary quadratic inequality `xᵀ P x + 2 qᵀ x + c ≤ 0` in place of the
data of an ellipsoid. -/
def mbeeGen (S : Matrix (Fin n) (Fin n) ℝ) (d : Fin n → ℝ) (P : Matrix (Fin n) (Fin n) ℝ) (q : Fin n → ℝ) (c t : ℝ) :
    Matrix (Fin n ⊕ Unit ⊕ Fin n) (Fin n ⊕ Unit ⊕ Fin n) ℝ :=
  Matrix.fromBlocks (S - t • P) (Matrix.fromCols (Matrix.replicateCol Unit (d - t • q)) 0)
    (Matrix.fromRows (Matrix.replicateRow Unit (d - t • q)) 0)
    (Matrix.fromBlocks (Matrix.of fun _ _ => -1 - t * c) (Matrix.replicateRow Unit d) (Matrix.replicateCol Unit d) (-S))

/-- The source uses `P = A`, `q = b`, `c = b @ b - 1`. -/
theorem mbeeConMat_eq (S : Matrix (Fin n) (Fin n) ℝ) (d : Fin n → ℝ) (A : Matrix (Fin n) (Fin n) ℝ) (b : Fin n → ℝ)
    (t : ℝ) : mbeeConMat S d A b t = mbeeGen S d A b (b ⬝ᵥ b - 1) t := rfl

theorem mbeeGen_quad (S : Matrix (Fin n) (Fin n) ℝ) (d : Fin n → ℝ) (P : Matrix (Fin n) (Fin n) ℝ) (q : Fin n → ℝ)
    (c t : ℝ) (x y : Fin n → ℝ) (s : ℝ) :
    (Sum.elim x (Sum.elim (fun _ : Unit => s) y)) ⬝ᵥ (mbeeGen S d P q c t *ᵥ (Sum.elim x (Sum.elim (fun _ : Unit => s) y))) =
      x ⬝ᵥ (S *ᵥ x) - t * (x ⬝ᵥ (P *ᵥ x)) + 2 * s * (d ⬝ᵥ x - t * (q ⬝ᵥ x)) + s ^ 2 * (-1 - t * c) +
        2 * s * (d ⬝ᵥ y) - y ⬝ᵥ (S *ᵥ y) := by
  unfold mbeeGen
  have e1 : ∀ e : Fin n → ℝ, Matrix.replicateCol Unit e *ᵥ (fun _ : Unit => s) = s • e := by
    intro e; ext i; simp [mulVec, dotProduct, mul_comm]
  have e2 : ∀ e z : Fin n → ℝ, Matrix.replicateRow Unit e *ᵥ z = fun _ => e ⬝ᵥ z := by
    intro e z; ext i; simp [mulVec]
  have e3 : ∀ f : ℝ, (Matrix.of fun _ _ => f : Matrix Unit Unit ℝ) *ᵥ (fun _ : Unit => s) = fun _ => f * s := by
    intro f; ext i; simp [mulVec, dotProduct]
  have e4 : ∀ a b : Unit → ℝ, a ⬝ᵥ b = a () * b () := by intro a b; simp [dotProduct]
  rw [fromBlocks_mulVec, sumElim_dotProduct_sumElim, Sum.elim_comp_inl, Sum.elim_comp_inr, fromCols_mulVec_sumElim,
    fromRows_mulVec, fromBlocks_mulVec, Sum.elim_comp_inl, Sum.elim_comp_inr, e1, e1, e2, e2, e3, zero_mulVec, zero_mulVec]
  rw [show (Sum.elim (fun _ : Unit => (d - t • q) ⬝ᵥ x) (0 : Fin n → ℝ) +
      Sum.elim ((fun _ : Unit => (-1 - t * c) * s) + fun _ => d ⬝ᵥ y) (s • d + (-S) *ᵥ y)) =
      Sum.elim (fun _ : Unit => (d - t • q) ⬝ᵥ x + ((-1 - t * c) * s + d ⬝ᵥ y)) (s • d + (-S) *ᵥ y) by
    ext i; rcases i with i | i <;> simp]
  rw [sumElim_dotProduct_sumElim, e4]
  simp only [sub_mulVec, smul_mulVec, neg_mulVec, dotProduct_add, dotProduct_sub, dotProduct_smul, dotProduct_neg,
    sub_dotProduct, smul_dotProduct, smul_eq_mul, dotProduct_zero, add_zero]
  rw [dotProduct_comm x d, dotProduct_comm x q, dotProduct_comm y d]
  ring

/-- What a feasible constraint guarantees: the ellipsoid `{x | (x - c)ᵀ S (x - c) ≤ 1}` with `c = -S⁻¹ d` contains
the set of solutions of the quadratic inequality. -/
theorem mbeeGen_contains {S : Matrix (Fin n) (Fin n) ℝ} (hS : Spec.PSD S) (hdet : 0 < S.det) (d : Fin n → ℝ)
    (P : Matrix (Fin n) (Fin n) ℝ) (q : Fin n → ℝ) (c t : ℝ) (ht : 0 ≤ t) (h : cvxNsd (mbeeGen S d P q c t))
    (x : Fin n → ℝ) (hx : x ⬝ᵥ (P *ᵥ x) + 2 * (q ⬝ᵥ x) + c ≤ 0) :
    (x - S⁻¹ *ᵥ (-d)) ⬝ᵥ (S *ᵥ (x - S⁻¹ *ᵥ (-d))) ≤ 1 := by
  have hu : IsUnit S.det := isUnit_iff_ne_zero.mpr hdet.ne'
  have h1 := h (Sum.elim x (Sum.elim (fun _ : Unit => 1) (S⁻¹ *ᵥ d)))
  rw [mbeeGen_quad] at h1
  set y := S⁻¹ *ᵥ d with hy
  have hSy : S *ᵥ y = d := by rw [hy, mulVec_mulVec, Matrix.mul_nonsing_inv _ hu, one_mulVec]
  have e1 : x - S⁻¹ *ᵥ (-d) = x + y := by rw [mulVec_neg, hy]; abel
  have e2 : y ⬝ᵥ (S *ᵥ x) = d ⬝ᵥ x := by
    rw [dotProduct_mulVec, ← mulVec_transpose, hS.1, hSy]
  rw [e1, mulVec_add, add_dotProduct, dotProduct_add, dotProduct_add, hSy, e2, dotProduct_comm x d, dotProduct_comm y d]
  rw [hSy, dotProduct_comm y d] at h1
  nlinarith [mul_nonneg ht (neg_nonneg.mpr hx)]

/-- C47: the constraint intended in the cited textbook, with `S` and `A b` of the inner ellipsoid in place of `A` and
`b`, is right: every feasible answer defines an ellipsoid that contains the given one. -/
theorem C47_intended (E : Ellipsoid ℝ n) (hR : Spec.Orthogonal E.rotation) (hE : ∀ i, 1 / 100000000 < E.halfExtents i) :
    ∃ Si Ai bi, E.S = .ok Si ∧ E.A = .ok Ai ∧ E.b = .ok bi ∧
      ∀ (S : Matrix (Fin n) (Fin n) ℝ) (d : Fin n → ℝ) (t : ℝ), Spec.PSD S → 0 < S.det → 0 ≤ t →
        cvxNsd (mbeeGen S d Si (Ai *ᵥ bi) (bi ⬝ᵥ bi - 1) t) →
        ∀ x ∈ Spec.ellipsoid E.halfExtents E.rotation E.center,
          (x - S⁻¹ *ᵥ (-d)) ⬝ᵥ (S *ᵥ (x - S⁻¹ *ᵥ (-d))) ≤ 1 := by
  obtain ⟨Si, Ai, bi, h1, h2, h3, -, -, h4⟩ := ellipsoid_quad E hR hE
  refine ⟨Si, Ai, bi, h1, h2, h3, fun S d t hS hdet ht hc x hx => ?_⟩
  exact mbeeGen_contains hS hdet d _ _ _ t ht hc x ((h4 x).1 hx)

/-- What `mbe_of_ellipsoids` returns, in terms of the answer of the solver. -/
theorem mbeOfEllipsoids_spec {eigh : Eigh} (heigh : Spec.IsEigh eigh)
    (solver : List (Matrix (Fin n) (Fin n) ℝ × (Fin n → ℝ)) → Bool → MbeeVars n) (Es : List (Ellipsoid ℝ n))
    (Ab : List (Matrix (Fin n) (Fin n) ℝ × (Fin n → ℝ))) (sphere : Bool)
    (hAb : (Es.mapM fun E => do
      let A ← E.A
      let b ← E.b
      pure (A, b) : Py _) = .ok Ab)
    (hsol : mbeeFeasible Ab sphere (solver Ab sphere)) {e : Ellipsoid ℝ n}
    (he : mbeOfEllipsoids eigh solver Es sphere = .ok e) (p : Fin n → ℝ) :
    p ∈ Spec.ellipsoid e.halfExtents e.rotation e.center ↔
      (p - (solver Ab sphere).S⁻¹ *ᵥ (-(solver Ab sphere).d)) ⬝ᵥ
        ((solver Ab sphere).S *ᵥ (p - (solver Ab sphere).S⁻¹ *ᵥ (-(solver Ab sphere).d))) ≤ 1 := by
  obtain ⟨hS, hdet, -⟩ := hsol
  have he' : Ellipsoid.fromShapeMatrix eigh (solver Ab sphere).S
      (some ((solver Ab sphere).S⁻¹ *ᵥ (-(solver Ab sphere).d))) = .ok e := by
    unfold mbeOfEllipsoids at he
    by_cases hE : Es.isEmpty
    · rw [if_pos hE] at he
      simp [bind, Except.bind, throw, throwThe, MonadExceptOf.throw] at he
    · rw [if_neg hE] at he
      rw [hAb] at he
      simp only [bind, Except.bind] at he
      rw [if_neg hdet.ne'] at he
      exact he
  obtain ⟨-, -, -, -, h⟩ := fromShapeMatrix_spec heigh hS.1 he'
  exact h p

/-- The attributes of a list of spheres. -/
theorem mapM_spheres (l : List (ℝ × (Fin n → ℝ))) (hl : ∀ rc ∈ l, 1 / 100000000 < rc.1) :
    ((l.map fun rc => (⟨fun _ => rc.1, 1, rc.2⟩ : Ellipsoid ℝ n)).mapM fun E => do
      let A ← E.A
      let b ← E.b
      pure (A, b) : Py _) = .ok (l.map fun rc => ((1 / rc.1) • 1, -((1 / rc.1) • rc.2))) := by
  induction l with
  | nil => rfl
  | cons rc l ih =>
    obtain ⟨h1, -, h3⟩ := sphere_attrs (hl rc List.mem_cons_self) rc.2
    simp only [List.map_cons, List.mapM_cons]
    rw [ih fun x hx => hl x (List.mem_cons_of_mem _ hx), h1, h3]
    rfl

/-- C47: for spheres the constraint posed bounds, instead of the sphere of radius `r` around `c`, the sphere around `c`
with squared radius `r + |c|² - |c|² / r`: that is what every feasible answer contains. -/
theorem C47_spheres_guarantee (eigh : Eigh) (heigh : Spec.IsEigh eigh)
    (solver : List (Matrix (Fin n) (Fin n) ℝ × (Fin n → ℝ)) → Bool → MbeeVars n) (l : List (ℝ × (Fin n → ℝ)))
    (hl : ∀ rc ∈ l, 1 / 100000000 < rc.1) (sphere : Bool)
    (hsol : mbeeFeasible (l.map fun rc => ((1 / rc.1) • 1, -((1 / rc.1) • rc.2))) sphere
      (solver (l.map fun rc => ((1 / rc.1) • 1, -((1 / rc.1) • rc.2))) sphere)) (e : Ellipsoid ℝ n)
    (he : mbeOfEllipsoids eigh solver (l.map fun rc => ⟨fun _ => rc.1, 1, rc.2⟩) sphere = .ok e) :
    ∀ rc ∈ l, ∀ p, (p - rc.2) ⬝ᵥ (p - rc.2) ≤ rc.1 + rc.2 ⬝ᵥ rc.2 - (rc.2 ⬝ᵥ rc.2) / rc.1 →
      p ∈ Spec.ellipsoid e.halfExtents e.rotation e.center := by
  intro rc hrc p hp
  have hspec := mbeOfEllipsoids_spec heigh solver _ _ sphere (mapM_spheres l hl) hsol he p
  set Ab : List (Matrix (Fin n) (Fin n) ℝ × (Fin n → ℝ)) := l.map fun rc => ((1 / rc.1) • 1, -((1 / rc.1) • rc.2)) with hAb
  rw [hspec]
  obtain ⟨hS, hdet, hlen, hts, hcon, -⟩ := hsol
  obtain ⟨k, hk, rfl⟩ := List.mem_iff_getElem.mp hrc
  have hkA : k < Ab.length := by rw [hAb]; simpa using hk
  have hkt : k < (solver Ab sphere).ts.length := by rw [hlen]; exact hkA
  have hmem : (Ab[k], (solver Ab sphere).ts[k]) ∈ Ab.zip (solver Ab sphere).ts := by
    rw [List.mem_iff_getElem]
    exact ⟨k, by simpa using ⟨hkA, hkt⟩, by simp⟩
  have h1 := hcon _ hmem
  have h2 := hts _ (List.getElem_mem hkt)
  rw [mbeeConMat_eq] at h1
  refine mbeeGen_contains hS hdet _ _ _ _ _ h2 h1 p ?_
  have hA : Ab[k] = ((1 / l[k].1) • 1, -((1 / l[k].1) • l[k].2)) := by simp [hAb]
  rw [hA]
  set r := l[k].1
  set c := l[k].2
  have hr : 0 < r := lt_trans (by norm_num) (hl _ (List.getElem_mem hk))
  simp only [smul_mulVec, one_mulVec, dotProduct_smul, smul_eq_mul, neg_dotProduct, smul_dotProduct, dotProduct_neg, neg_neg]
  rw [dotProduct_sub, sub_dotProduct, sub_dotProduct, dotProduct_comm c p] at hp
  rw [dotProduct_comm c p]
  have h3 : 1 / r * (p ⬝ᵥ p) + 2 * -(1 / r * (p ⬝ᵥ c)) + (-(1 / r * -(1 / r * (c ⬝ᵥ c))) - 1) =
      (1 / r) * (p ⬝ᵥ p - p ⬝ᵥ c - (p ⬝ᵥ c - c ⬝ᵥ c) - (r + c ⬝ᵥ c - c ⬝ᵥ c / r)) := by
    field_simp
    ring
  rw [h3]
  exact mul_nonpos_of_nonneg_of_nonpos (by positivity) (by linarith)

/-- C47: for unit spheres the code is right: every feasible answer contains all of them. -/
theorem C47_unit_spheres (eigh : Eigh) (heigh : Spec.IsEigh eigh)
    (solver : List (Matrix (Fin n) (Fin n) ℝ × (Fin n → ℝ)) → Bool → MbeeVars n) (l : List (ℝ × (Fin n → ℝ)))
    (hl : ∀ rc ∈ l, rc.1 = 1) (sphere : Bool)
    (hsol : mbeeFeasible (l.map fun rc => ((1 / rc.1) • 1, -((1 / rc.1) • rc.2))) sphere
      (solver (l.map fun rc => ((1 / rc.1) • 1, -((1 / rc.1) • rc.2))) sphere)) (e : Ellipsoid ℝ n)
    (he : mbeOfEllipsoids eigh solver (l.map fun rc => ⟨fun _ => rc.1, 1, rc.2⟩) sphere = .ok e) :
    ∀ rc ∈ l, Spec.ball rc.1 rc.2 ⊆ Spec.ellipsoid e.halfExtents e.rotation e.center := by
  intro rc hrc p hp
  refine C47_spheres_guarantee eigh heigh solver l (fun rc h => by rw [hl rc h]; norm_num) sphere hsol e he rc hrc p ?_
  have h1 := hl rc hrc
  have hp' : (p - rc.2) ⬝ᵥ (p - rc.2) ≤ rc.1 ^ 2 := hp
  rw [h1] at hp' ⊢
  rw [div_one, add_sub_cancel_right]
  simpa using hp'

/-- The bounding program of one centred sphere of radius `r`: every feasible `S` is at most `I / r`. -/
theorem mbee_sphere_bound {r : ℝ} (hr : 0 < r) {S : Matrix (Fin n) (Fin n) ℝ} {d : Fin n → ℝ} {t : ℝ}
    (h : cvxNsd (mbeeConMat S d ((1 / r) • 1) (-((1 / r) • 0)) t)) (v : Fin n → ℝ) :
    v ⬝ᵥ (S *ᵥ v) ≤ (1 / r) * (v ⬝ᵥ v) := by
  rw [mbeeConMat_eq] at h
  have h1 := h (Sum.elim v (Sum.elim (fun _ : Unit => 0) 0))
  have h2 := h (Sum.elim 0 (Sum.elim (fun _ : Unit => 1) 0))
  rw [mbeeGen_quad] at h1 h2
  simp [smul_mulVec] at h1 h2
  have h3 : 0 ≤ r⁻¹ * (v ⬝ᵥ v) := mul_nonneg (inv_pos.mpr hr).le (dot_self_nonneg v)
  rw [one_div]
  nlinarith

/-- A positive definite matrix that is at most `a I` with determinant at least `a ^ n` is `a I`. -/
theorem eq_smul_one_of_det {a : ℝ} {S : Matrix (Fin n) (Fin n) ℝ} (hS : Spec.PSD S) (hdet : 0 < S.det)
    (hle : ∀ v : Fin n → ℝ, v ⬝ᵥ (S *ᵥ v) ≤ a * (v ⬝ᵥ v)) (hge : a ^ n ≤ S.det) : S = a • 1 := by
  obtain ⟨eigh, heigh⟩ := exists_isEigh
  have hpos := eigh_pos heigh hS hdet
  obtain ⟨hV, hdec⟩ := heigh n S hS.1
  have hd : S.det = ∏ i, (eigh n S).1 i := by
    conv_lhs => rw [hdec]
    exact det_conj_diag hV _
  have hV' : (eigh n S).2ᵀ * (eigh n S).2 = 1 := hV
  have hub : ∀ i, (eigh n S).1 i ≤ a := by
    intro i
    have h1 := hle ((eigh n S).2 *ᵥ Pi.single i 1)
    rw [dot_mulVec_orthogonal hV, hdec, quad_diag, mulVec_mulVec, ← hdec, hV', one_mulVec] at h1
    simpa [Pi.single_apply] using h1
  have heq : ∀ i, (eigh n S).1 i = a := by
    by_contra hne
    push Not at hne
    obtain ⟨i, hi⟩ := hne
    have h1 : ∏ i, (eigh n S).1 i < ∏ _i : Fin n, a :=
      Finset.prod_lt_prod (fun i _ => hpos i) (fun i _ => hub i) ⟨i, Finset.mem_univ i, lt_of_le_of_ne (hub i) hi⟩
    rw [← hd] at h1
    simp at h1
    linarith
  rw [hdec]
  have h2 : Matrix.diagonal (eigh n S).1 = a • 1 := by
    ext i j
    simp [Matrix.diagonal_apply, Matrix.one_apply, heq]
  rw [h2, Matrix.mul_smul, Matrix.mul_one, Matrix.smul_mul, hV.mul_transpose]

theorem mbee_sphere_feasible {r : ℝ} (hr : 0 < r) (sphere : Bool) :
    mbeeFeasible [((1 / r) • (1 : Matrix (Fin n) (Fin n) ℝ), -((1 / r) • 0))] sphere ⟨(1 / r) • 1, 0, [1]⟩ := by
  refine ⟨Spec.PSD.one.smul (one_div_pos.mpr hr).le, ?_, rfl, by simp, ?_, fun _ => ⟨_, rfl⟩⟩
  · dsimp only
    rw [det_smul, det_one, mul_one]
    positivity
  · intro Et hEt v
    obtain rfl : Et = (((1 / r) • 1, -((1 / r) • 0)), 1) := by simpa using hEt
    obtain ⟨x, s, y, rfl⟩ : ∃ (x : Fin n → ℝ) (s : ℝ) (y : Fin n → ℝ),
        v = Sum.elim x (Sum.elim (fun _ : Unit => s) y) :=
      ⟨fun i => v (.inl i), v (.inr (.inl ())), fun i => v (.inr (.inr i)), by
        ext i; rcases i with i | i | i <;> rfl⟩
    rw [mbeeConMat_eq, mbeeGen_quad]
    simp [smul_mulVec]
    exact mul_nonneg (inv_pos.mpr hr).le (dot_self_nonneg y)

theorem mbee_sphere_d {r : ℝ} (hr : 0 < r) {d : Fin n → ℝ} {t : ℝ} (hn : 0 < n)
    (hc : cvxNsd (mbeeConMat ((1 / r) • 1) d ((1 / r) • 1) (-((1 / r) • 0)) t)) : d = 0 := by
  rw [mbeeConMat_eq] at hc
  have h5 : 0 < r⁻¹ := inv_pos.mpr hr
  have ht1 : 1 ≤ t := by
    have h2 := hc (Sum.elim (Pi.single ⟨0, hn⟩ 1) (Sum.elim (fun _ : Unit => 0) 0))
    rw [mbeeGen_quad] at h2
    simp [smul_mulVec] at h2
    nlinarith
  have h4 := hc (Sum.elim 0 (Sum.elim (fun _ : Unit => r⁻¹) d))
  rw [mbeeGen_quad] at h4
  simp [smul_mulVec] at h4
  have h6 := dot_self_nonneg d
  have h7 : 0 ≤ (r ^ 2)⁻¹ * (-1 + t) := mul_nonneg (by positivity) (by linarith)
  exact dot_self_eq_zero.mp (le_antisymm (by nlinarith) h6)

/-- The optimal answer for one centred sphere of radius `r`. -/
theorem mbee_sphere_optimal {r : ℝ} (hr : 0 < r) (hn : 0 < n) {sphere : Bool} {x : MbeeVars n}
    (hf : mbeeFeasible [((1 / r) • 1, -((1 / r) • 0))] sphere x)
    (hopt : ∀ y : MbeeVars n, mbeeFeasible [((1 / r) • 1, -((1 / r) • 0))] sphere y →
      y.S.det ≤ x.S.det) : x.S = (1 / r) • 1 ∧ x.d = 0 := by
  obtain ⟨S, d, ts⟩ := x
  obtain ⟨hS, hdet, hlen, ht, hc, -⟩ := hf
  obtain ⟨t, rfl⟩ : ∃ t, ts = [t] := List.length_eq_one_iff.mp hlen
  have hc' : cvxNsd (mbeeConMat S d ((1 / r) • 1) (-((1 / r) • 0)) t) :=
    hc (((1 / r) • 1, -((1 / r) • 0)), t) (by simp)
  have h1 := hopt _ (mbee_sphere_feasible hr sphere)
  have h2 : (1 / r) ^ n ≤ S.det := by
    refine le_trans (le_of_eq ?_) h1
    rw [det_smul, det_one, mul_one, Fintype.card_fin]
  have hSeq := eq_smul_one_of_det hS hdet (fun v => mbee_sphere_bound hr hc' v) h2
  refine ⟨hSeq, mbee_sphere_d hr hn (t := t) ?_⟩
  have hSeq' : S = (1 / r) • 1 := hSeq
  rw [hSeq'] at hc'
  exact hc'

/-- A positive semidefinite matrix that is at most `a I` has determinant at most `a ^ n`. -/
theorem det_le_of_le {a : ℝ} {S : Matrix (Fin n) (Fin n) ℝ} (hS : Spec.PSD S) (hdet : 0 < S.det)
    (hle : ∀ v : Fin n → ℝ, v ⬝ᵥ (S *ᵥ v) ≤ a * (v ⬝ᵥ v)) : S.det ≤ a ^ n := by
  obtain ⟨eigh, heigh⟩ := exists_isEigh
  have hpos := eigh_pos heigh hS hdet
  obtain ⟨hV, hdec⟩ := heigh n S hS.1
  have hV' : (eigh n S).2ᵀ * (eigh n S).2 = 1 := hV
  have hub : ∀ i, (eigh n S).1 i ≤ a := by
    intro i
    have h1 := hle ((eigh n S).2 *ᵥ Pi.single i 1)
    rw [dot_mulVec_orthogonal hV, hdec, quad_diag, mulVec_mulVec, ← hdec, hV', one_mulVec] at h1
    simpa [Pi.single_apply] using h1
  have hd : S.det = ∏ i, (eigh n S).1 i := by
    conv_lhs => rw [hdec]
    exact det_conj_diag hV _
  rw [hd]
  calc ∏ i, (eigh n S).1 i ≤ ∏ _i : Fin n, a :=
        Finset.prod_le_prod (fun i _ => (hpos i).le) fun i _ => hub i
    _ = _ := by simp

/-- Optimal answers exist. -/
theorem mbee_sphere_exists {r : ℝ} (hr : 0 < r) (sphere : Bool) : ∃ x : MbeeVars n,
    mbeeFeasible [((1 / r) • 1, -((1 / r) • 0))] sphere x ∧
    ∀ y : MbeeVars n, mbeeFeasible [((1 / r) • 1, -((1 / r) • 0))] sphere y → y.S.det ≤ x.S.det := by
  refine ⟨_, mbee_sphere_feasible hr sphere, ?_⟩
  rintro ⟨S, d, ts⟩ ⟨hS, hdet, hlen, -, hc, -⟩
  obtain ⟨t, rfl⟩ : ∃ t, ts = [t] := List.length_eq_one_iff.mp hlen
  have hc' : cvxNsd (mbeeConMat S d ((1 / r) • 1) (-((1 / r) • 0)) t) :=
    hc (((1 / r) • 1, -((1 / r) • 0)), t) (by simp)
  refine le_trans (det_le_of_le hS hdet fun v => mbee_sphere_bound hr hc' v) (le_of_eq ?_)
  rw [det_smul, det_one, mul_one, Fintype.card_fin]

/-- C47: for a single sphere of radius `r` around the origin the optimum of the program posed is the sphere of radius
`√r`: `mbe_of_ellipsoids` returns an ellipsoid, it is that sphere whatever optimal answer the solver gives, it does
not contain the given sphere if `r > 1`, and it is not minimal if `r < 1`. -/
theorem C47_sphere (eigh : Eigh) (heigh : Spec.IsEigh eigh)
    (solver : List (Matrix (Fin (n + 1)) (Fin (n + 1)) ℝ × (Fin (n + 1) → ℝ)) → Bool → MbeeVars (n + 1)) (r : ℝ)
    (hr : 1 / 100000000 < r) (hr' : r < 100000000 ^ 2) (sphere : Bool)
    (hsol : mbeeFeasible [((1 / r) • 1, -((1 / r) • 0))] sphere (solver [((1 / r) • 1, -((1 / r) • 0))] sphere))
    (hopt : ∀ y : MbeeVars (n + 1), mbeeFeasible [((1 / r) • 1, -((1 / r) • 0))] sphere y →
      y.S.det ≤ (solver [((1 / r) • 1, -((1 / r) • 0))] sphere).S.det) :
    ∃ e : Ellipsoid ℝ (n + 1), mbeOfEllipsoids eigh solver [⟨fun _ => r, 1, 0⟩] sphere = .ok e ∧
      (Spec.ellipsoid e.halfExtents e.rotation e.center = Spec.ball (Real.sqrt r) 0) ∧
      (1 < r → ¬ Spec.ball r 0 ⊆ Spec.ellipsoid e.halfExtents e.rotation e.center) ∧
      (r < 1 → Spec.ball r 0 ⊂ Spec.ellipsoid e.halfExtents e.rotation e.center) := by
  have hr0 : 0 < r := lt_trans (by norm_num) hr
  obtain ⟨hS, hd⟩ := mbee_sphere_optimal hr0 (Nat.succ_pos n) hsol hopt
  have hAb := mapM_spheres (n := n + 1) [(r, 0)] (by simpa using hr)
  simp only [List.map_cons, List.map_nil] at hAb
  have hok : ∃ e, mbeOfEllipsoids eigh solver [(⟨fun _ => r, 1, 0⟩ : Ellipsoid ℝ (n + 1))] sphere = .ok e := by
    obtain ⟨e, he⟩ := fromShapeMatrix_ok heigh (S := (1 / r) • (1 : Matrix (Fin (n + 1)) (Fin (n + 1)) ℝ))
      (by simp) (((1 / r) • (1 : Matrix (Fin (n + 1)) (Fin (n + 1)) ℝ))⁻¹ *ᵥ (-0)) (by
        intro v hv
        have h1 : 0 < v ⬝ᵥ v := lt_of_le_of_ne (dot_self_nonneg v) fun h => hv (dot_self_eq_zero.mp h.symm)
        rw [smul_mulVec, one_mulVec, dotProduct_smul, smul_eq_mul]
        refine mul_lt_mul_of_pos_right ?_ h1
        rw [lt_div_iff₀ hr0]
        have : (1 / 100000000 : ℝ) ^ 2 * r < (1 / 100000000 : ℝ) ^ 2 * 100000000 ^ 2 :=
          mul_lt_mul_of_pos_left hr' (by norm_num)
        exact lt_of_lt_of_eq this (by norm_num))
    refine ⟨e, ?_⟩
    unfold mbeOfEllipsoids
    rw [if_neg (by simp), hAb]
    simp only [bind, Except.bind]
    rw [hS, hd, if_neg]
    · exact he
    · rw [det_smul, det_one, mul_one]
      positivity
  obtain ⟨e, he⟩ := hok
  have hset : Spec.ellipsoid e.halfExtents e.rotation e.center = Spec.ball (Real.sqrt r) 0 := by
    ext p
    rw [mbeOfEllipsoids_spec heigh solver _ _ sphere hAb hsol he p, hS, hd]
    simp only [neg_zero, mulVec_zero, sub_zero, smul_mulVec, one_mulVec, dotProduct_smul, smul_eq_mul]
    show _ ↔ (p - 0) ⬝ᵥ (p - 0) ≤ (Real.sqrt r) ^ 2
    rw [Real.sq_sqrt hr0.le, sub_zero, one_div, inv_mul_le_iff₀ hr0, mul_one]
  have hmem : ∀ s : ℝ, (Pi.single 0 s : Fin (n + 1) → ℝ) ∈ Spec.ball (Real.sqrt r) 0 ↔ s ^ 2 ≤ r := by
    intro s
    show ((Pi.single 0 s : Fin (n + 1) → ℝ) - 0) ⬝ᵥ (Pi.single 0 s - 0) ≤ (Real.sqrt r) ^ 2 ↔ _
    rw [Real.sq_sqrt hr0.le]
    simp [sq]
  have hmem' : ∀ s : ℝ, (Pi.single 0 s : Fin (n + 1) → ℝ) ∈ Spec.ball r 0 ↔ s ^ 2 ≤ r ^ 2 := by
    intro s
    show ((Pi.single 0 s : Fin (n + 1) → ℝ) - 0) ⬝ᵥ (Pi.single 0 s - 0) ≤ r ^ 2 ↔ _
    simp [sq]
  refine ⟨e, he, hset, fun h1 hsub => ?_, fun h1 => ?_⟩
  · rw [hset] at hsub
    have := (hmem r).1 (hsub ((hmem' r).2 le_rfl))
    nlinarith
  · rw [hset]
    refine ⟨fun p hp => ?_, fun hsub => ?_⟩
    · have hp' : (p - 0) ⬝ᵥ (p - 0) ≤ r ^ 2 := hp
      show (p - 0) ⬝ᵥ (p - 0) ≤ (Real.sqrt r) ^ 2
      rw [Real.sq_sqrt hr0.le]
      nlinarith
    · have := (hmem' (Real.sqrt r)).1 (hsub ((hmem _).2 (Real.sq_sqrt hr0.le).le))
      rw [Real.sq_sqrt hr0.le] at this
      nlinarith

/-- Optimal answers exist, so the hypotheses of `C47_sphere` can be met; for the sphere of radius four the answer of the
code is the sphere of radius two. -/
example (sphere : Bool) : ∃ (eigh : Eigh) (solver : List (Matrix (Fin 3) (Fin 3) ℝ × (Fin 3 → ℝ)) → Bool → MbeeVars 3)
    (e : Ellipsoid ℝ 3), Spec.IsEigh eigh ∧
      mbeOfEllipsoids eigh solver [⟨fun _ => 4, 1, 0⟩] sphere = .ok e ∧
      Spec.ellipsoid e.halfExtents e.rotation e.center = Spec.ball 2 0 ∧
      ¬ Spec.ball 4 0 ⊆ Spec.ellipsoid e.halfExtents e.rotation e.center := by
  obtain ⟨eigh, heigh⟩ := exists_isEigh
  obtain ⟨x, hx, hopt⟩ := mbee_sphere_exists (n := 3) (r := 4) (by norm_num) sphere
  obtain ⟨e, h1, h2, h3, -⟩ := C47_sphere eigh heigh (fun _ _ => x) 4 (by norm_num) (by norm_num) sphere hx hopt
  refine ⟨eigh, _, e, heigh, h1, ?_, h3 (by norm_num)⟩
  rw [h2]
  congr 1
  rw [show (4 : ℝ) = 2 ^ 2 by norm_num]
  exact Real.sqrt_sq (by norm_num)

/-- Any convex set that contains both end balls of a capsule contains the capsule. -/
theorem capsule_subset {L r : ℝ} {R : Matrix (Fin 3) (Fin 3) ℝ} {c : Fin 3 → ℝ} {C : Set (Fin 3 → ℝ)} (hC : Convex ℝ C)
    (h1 : Spec.ball r (Spec.rigid R c ![0, 0, L / 2]) ⊆ C) (h2 : Spec.ball r (Spec.rigid R c ![0, 0, -(L / 2)]) ⊆ C) :
    Spec.capsule L r R c ⊆ C := by
  rintro p ⟨z, hz, hp⟩
  obtain ⟨hz1, hz2⟩ := abs_le.mp hz
  have hL : 0 ≤ L := by linarith
  set w := p - Spec.rigid R c ![0, 0, z] with hw
  have hball : ∀ q : Fin 3 → ℝ, q + w ∈ Spec.ball r q := by
    intro q
    show (q + w - q) ⬝ᵥ (q + w - q) ≤ r ^ 2
    rw [add_sub_cancel_left]
    exact hp
  have hcomb : ∀ l : ℝ, l * (L / 2) + (1 - l) * (-(L / 2)) = z →
      p = l • (Spec.rigid R c ![0, 0, L / 2] + w) + (1 - l) • (Spec.rigid R c ![0, 0, -(L / 2)] + w) := by
    intro l hl
    have e1 : (![0, 0, z] : Fin 3 → ℝ) = l • ![0, 0, L / 2] + (1 - l) • ![0, 0, -(L / 2)] := by
      ext i; fin_cases i <;> simp [← hl]
    have e2 : p = Spec.rigid R c ![0, 0, z] + w := by rw [hw]; abel
    rw [e2, e1]
    unfold Spec.rigid
    rw [mulVec_add, mulVec_smul, mulVec_smul]
    module
  obtain ⟨l, hl0, hl1, hl⟩ : ∃ l : ℝ, 0 ≤ l ∧ l ≤ 1 ∧ l * (L / 2) + (1 - l) * (-(L / 2)) = z := by
    rcases hL.eq_or_lt with h0 | h0
    · exact ⟨0, le_rfl, zero_le_one, by rw [← h0] at hz1 hz2 ⊢; linarith⟩
    · refine ⟨(z + L / 2) / L, div_nonneg (by linarith) hL, (div_le_one h0).mpr (by linarith), ?_⟩
      field_simp
      ring
  rw [hcomb l hl]
  exact hC (h1 (hball _)) (h2 (hball _)) hl0 (by linarith) (by ring)

theorem unit_pair (p q : Fin n → ℝ) : ([(1, p), (1, q)] : List (ℝ × (Fin n → ℝ))).map (fun rc =>
      (((1 / rc.1) • 1, -((1 / rc.1) • rc.2)) : Matrix (Fin n) (Fin n) ℝ × (Fin n → ℝ))) = [(1, -p), (1, -q)] := by
  simp

/-- C47: the bounding ellipsoid of a capsule of unit radius contains the capsule, for every feasible answer. -/
theorem C47_capsule (eigh : Eigh) (heigh : Spec.IsEigh eigh)
    (solver : List (Matrix (Fin 3) (Fin 3) ℝ × (Fin 3 → ℝ)) → Bool → MbeeVars 3) (c : Capsule ℝ)
    (hr : c.cylinder.radius = 1) (sphere : Bool) (p q : Fin 3 → ℝ)
    (hp : p = Spec.rigid c.cylinder.rotation c.cylinder.center ![0, 0, c.cylinder.length / 2])
    (hq : q = Spec.rigid c.cylinder.rotation c.cylinder.center ![0, 0, -(c.cylinder.length / 2)])
    (hsol : mbeeFeasible [(1, -p), (1, -q)] sphere (solver [(1, -p), (1, -q)] sphere)) (e : Ellipsoid ℝ 3)
    (he : c.mbe eigh solver sphere = .ok e) :
    Spec.capsule c.cylinder.length c.cylinder.radius c.cylinder.rotation c.cylinder.center ⊆
      Spec.ellipsoid e.halfExtents e.rotation e.center := by
  unfold Capsule.mbe at he
  rw [c.caps_ok (by rw [hr]; exact zero_le_one), ← hp, ← hq] at he
  simp only [bind, Except.bind] at he
  rw [hr] at he ⊢
  rw [← unit_pair] at hsol
  have h := C47_unit_spheres eigh heigh solver [(1, p), (1, q)] (by simp) sphere hsol e he
  refine capsule_subset (ellipsoid_convex _ _ _) ?_ ?_
  · rw [← hp]; exact h (1, p) (by simp)
  · rw [← hq]; exact h (1, q) (by simp)

/-- The program of the unit capsule with end points `(0, 0, ±1)` is feasible: the ball of radius two. -/
example : mbeeFeasible [(1, -![0, 0, 1]), (1, -![0, 0, -1])] true ⟨(1 / 4 : ℝ) • (1 : Matrix (Fin 3) (Fin 3) ℝ), 0, [1 / 2, 1 / 2]⟩ := by
  refine ⟨Spec.PSD.one.smul (by norm_num), ?_, rfl, by simp, ?_, fun _ => ⟨_, rfl⟩⟩
  · dsimp only
    rw [det_smul, det_one, mul_one]
    positivity
  · intro Et hEt v
    obtain ⟨x, s, y, rfl⟩ : ∃ (x : Fin 3 → ℝ) (s : ℝ) (y : Fin 3 → ℝ),
        v = Sum.elim x (Sum.elim (fun _ : Unit => s) y) :=
      ⟨fun i => v (.inl i), v (.inr (.inl ())), fun i => v (.inr (.inr i)), by
        ext i; rcases i with i | i | i <;> rfl⟩
    rw [mbeeConMat_eq, mbeeGen_quad]
    simp at hEt
    rcases hEt with rfl | rfl <;>
    · simp [smul_mulVec, dotProduct, Fin.sum_univ_three]
      nlinarith [mul_self_nonneg (x 0), mul_self_nonneg (x 1), mul_self_nonneg (x 2 / 2 - s), mul_self_nonneg (x 2 / 2 + s),
        mul_self_nonneg (y 0), mul_self_nonneg (y 1), mul_self_nonneg (y 2)]

end Rigeo
