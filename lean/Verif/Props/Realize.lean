import Verif.Lemmas.Realize
import Verif.Props.Inertial2
import Verif.Model.Realize

/-!
# C50, C51: realizability on ellipsoids
-/

namespace Rigeo

open Matrix

/-! ## The matrices used by the code -/

theorem outer_smul_self {n : ℕ} {K : Type} [Field K] (s : K) (u : Fin n → K) :
    outer (s • u) (s • u) = s ^ 2 • outer u u := by
  ext i j; simp only [outer_apply, Matrix.smul_apply, Pi.smul_apply, smul_eq_mul]; ring

theorem Ellipsoid.Q_ok (e : Ellipsoid ℝ 3) (he : ∀ i, 1 / 100000000 < e.halfExtents i) :
    e.Q = .ok (qMatrix (e.rotation * Matrix.diagonal (fun i => (1 / e.halfExtents i) ^ 2) * e.rotationᵀ)
      e.center) := by
  simp [Ellipsoid.Q, Ellipsoid.S, e.hInvFin_ok he, bind, Except.bind, pure, Except.pure]

theorem Ellipsoid.nondegenerate (e : Ellipsoid ℝ 3) (he : ∀ i, e.halfExtents i ≠ 0) :
    e.isDegenerate = false := by
  simp [Ellipsoid.isDegenerate, Ellipsoid.rank, he]

theorem Ellipsoid.degenerate (e : Ellipsoid ℝ 3) {i : Fin 3} (hi : e.halfExtents i = 0) :
    e.isDegenerate = true := by
  unfold Ellipsoid.isDegenerate Ellipsoid.rank
  rw [decide_eq_true_eq]
  calc (Finset.univ.filter fun i => e.halfExtents i ≠ 0).card < (Finset.univ : Finset (Fin 3)).card := by
        apply Finset.card_lt_card
        rw [Finset.filter_ssubset]
        exact ⟨i, Finset.mem_univ i, by simpa using hi⟩
    _ = 3 := by simp

theorem Ellipsoid.qDegenerate_fst (e : Ellipsoid ℝ 3) (he : ∀ i, Spec.Resolved (e.halfExtents i)) :
    e.qDegenerate.1 = qMatrix (e.rotation * Matrix.diagonal (fun i => (1 / e.halfExtents i) ^ 2) * e.rotationᵀ)
      e.center := by
  simp only [Ellipsoid.qDegenerate]
  congr 1
  rw [mul_diagonal_mul_transpose, Finset.sum_filter]
  refine Finset.sum_congr rfl fun k _ => ?_
  split_ifs with hk
  · rw [outer_smul_self, e.hInvNz_eq k hk]
  · rw [Bool.not_eq_false, e.z_iff_zero he] at hk
    simp [hk]

theorem Ellipsoid.trace_qDegenerate_snd (e : Ellipsoid ℝ 3) (he : ∀ i, Spec.Resolved (e.halfExtents i))
    {J : Matrix (Fin 4) (Fin 4) ℝ} (hJ : Spec.PSD J) :
    (e.qDegenerate.2 * J).trace = -∑ i ∈ Finset.univ.filter (fun i => e.halfExtents i = 0),
      shifted (colv e.rotation i) e.center ⬝ᵥ (J *ᵥ shifted (colv e.rotation i) e.center) := by
  obtain ⟨u, rfl⟩ := hJ.exists_outer
  simp only [Ellipsoid.qDegenerate]
  set S := ∑ k ∈ Finset.univ.filter (fun k => e.z k = true), outer (fun i => e.rotation i k) (fun i => e.rotation i k) with hSdef
  have hS : Sᵀ = S := by
    rw [hSdef, Matrix.transpose_sum]
    exact Finset.sum_congr rfl fun k _ => outer_transpose _ _
  have hz : (Finset.univ.filter fun k => e.z k = true) = Finset.univ.filter fun i => e.halfExtents i = 0 :=
    Finset.filter_congr fun k _ => e.z_iff_zero he k
  rw [Matrix.mul_sum, Matrix.trace_sum]
  simp only [trace_mul_outer]
  simp only [Matrix.sum_mulVec, dotProduct_sum, outer_quad]
  rw [Finset.sum_comm, ← Finset.sum_neg_distrib]
  refine Finset.sum_congr rfl fun k _ => ?_
  obtain ⟨y, t, hyt⟩ : ∃ (y : Fin 3 → ℝ) (t : ℝ), u k = Fin.snoc (α := fun _ => ℝ) y t :=
    ⟨Fin.init (α := fun _ => ℝ) (u k), u k (Fin.last 3), (Fin.snoc_init_self _).symm⟩
  rw [hyt, qMatrix_quad S hS, zero_mul, zero_sub, hSdef, Matrix.sum_mulVec, dotProduct_sum, hz]
  congr 1
  refine Finset.sum_congr rfl fun i _ => ?_
  rw [outer_quad, dotProduct_comm (Fin.snoc (α := fun _ => ℝ) y t), shifted_dot]
  rfl

theorem shifted_quad (R : Matrix (Fin 3) (Fin 3) ℝ) (c : Fin 3 → ℝ) (m : ℝ) (f : Fin 3 → ℝ)
    (H : Matrix (Fin 3) (Fin 3) ℝ) (i : Fin 3) :
    shifted (colv R i) c ⬝ᵥ (bordered H f f m *ᵥ shifted (colv R i) c) =
      (Rᵀ * Spec.secondAbout c m f H * R) i i := by
  rw [shifted, bordered_quad]
  have e : (Rᵀ * Spec.secondAbout c m f H * R) i i = colv R i ⬝ᵥ (Spec.secondAbout c m f H *ᵥ colv R i) := by
    rw [Matrix.mul_assoc, Matrix.mul_apply]
    simp only [dotProduct, colv, Matrix.transpose_apply, mulVec, Matrix.mul_apply]
  rw [e, Spec.secondAbout, add_mulVec, sub_mulVec, sub_mulVec, smul_mulVec, ← outer_eq_vecMulVec,
    ← outer_eq_vecMulVec, ← outer_eq_vecMulVec, outer_mulVec, outer_mulVec, outer_mulVec]
  simp only [dotProduct_add, dotProduct_sub, dotProduct_smul, smul_eq_mul]
  rw [dotProduct_comm f, dotProduct_comm c]
  ring

/-! ## C50: the test -/

theorem psd_of_eps {n : ℕ} {J : Matrix (Fin n) (Fin n) ℝ} {eps : ℝ} (heps : 0 ≤ eps)
    (h : Spec.PSD (J - eps • (1 : Matrix (Fin n) (Fin n) ℝ))) : Spec.PSD J := by
  have := h.add (Spec.PSD.one.smul heps)
  rwa [sub_add_cancel] at this

/-- C50: on a non-degenerate ellipsoid `can_realize(params, eps)` never fails, and it is `True` exactly
when some non-negative point masses inside the ellipsoid have these parameters and the eigenvalues of
`J` are at least `eps`. (For `eps = 0` the second condition follows from the first one, see
`C50_exact`.) -/
theorem C50_exact_eps (e : Ellipsoid ℝ 3) (hR : Spec.Orthogonal e.rotation)
    (he : ∀ i, 1 / 100000000 < e.halfExtents i) (p : IP ℝ) (hH : p.Hᵀ = p.H) (eps : ℝ) (heps : 0 ≤ eps) :
    ∃ b, e.canRealize p eps = .ok b ∧
      (b = true ↔ Spec.Realizable (Spec.ellipsoid e.halfExtents e.rotation e.center) p.mass p.h p.H ∧
        Spec.PSD (p.J - eps • (1 : Matrix (Fin 4) (Fin 4) ℝ))) := by
  have hne : ∀ i, e.halfExtents i ≠ 0 := fun i => ((by norm_num : (0 : ℝ) < 1 / 100000000).trans (he i)).ne'
  unfold Ellipsoid.canRealize
  rw [e.nondegenerate hne, e.Q_ok he]
  simp only [Bool.not_false, if_true]
  rw [realizable_ellipsoid_iff hR]
  by_cases hc : p.consistent eps = true
  · refine ⟨_, by rw [hc]; rfl, ?_⟩
    rw [C16_consistent_iff p hH] at hc
    rw [decide_eq_true_eq]
    constructor
    · intro h
      exact ⟨⟨psd_of_eps heps hc, h, fun i hi => absurd hi (hne i)⟩, hc⟩
    · rintro ⟨⟨-, h, -⟩, -⟩
      exact h
  · refine ⟨false, by rw [Bool.not_eq_true] at hc; rw [hc]; rfl, ?_⟩
    rw [C16_consistent_iff p hH] at hc
    simp only [Bool.false_eq_true, false_iff, not_and]
    exact fun _ => hc

/-- C50: `can_realize(params)` decides realizability on a non-degenerate ellipsoid. -/
theorem C50_exact (e : Ellipsoid ℝ 3) (hR : Spec.Orthogonal e.rotation)
    (he : ∀ i, 1 / 100000000 < e.halfExtents i) (p : IP ℝ) (hH : p.Hᵀ = p.H) :
    ∃ b, e.canRealize p = .ok b ∧
      (b = true ↔ Spec.Realizable (Spec.ellipsoid e.halfExtents e.rotation e.center) p.mass p.h p.H) := by
  obtain ⟨b, hb, h⟩ := C50_exact_eps e hR he p hH 0 le_rfl
  refine ⟨b, hb, h.trans ⟨fun h => h.1, fun h => ⟨h, ?_⟩⟩⟩
  rw [zero_smul, sub_zero]
  exact ((realizable_ellipsoid_iff hR _ _ _ _ _).mp h).1

/-- C50: on a degenerate ellipsoid `can_realize(params, eps)` never fails and is `True` exactly when `J`
is PSD (up to `eps`), and the two trace conditions hold, the second one up to the absolute tolerance
`1e-8` on the total spread of mass along the flat directions. If that spread is exactly zero the test
decides realizability. -/
theorem C50_degenerate (e : Ellipsoid ℝ 3) (hR : Spec.Orthogonal e.rotation)
    (he : ∀ i, Spec.Resolved (e.halfExtents i)) (hz : ∃ i, e.halfExtents i = 0) (p : IP ℝ)
    (hH : p.Hᵀ = p.H) (eps : ℝ) (heps : 0 ≤ eps) :
    ∃ b, e.canRealize p eps = .ok b ∧
      -- a realizable body passes
      (Spec.Realizable (Spec.ellipsoid e.halfExtents e.rotation e.center) p.mass p.h p.H →
        Spec.PSD (p.J - eps • (1 : Matrix (Fin 4) (Fin 4) ℝ)) → b = true) ∧
      -- a body that passes is consistent and has at most `1e-8` spread along the flat directions
      (b = true → Spec.PSD (p.J - eps • (1 : Matrix (Fin 4) (Fin 4) ℝ)) ∧
        ∑ i ∈ Finset.univ.filter (fun i => e.halfExtents i = 0),
          (e.rotationᵀ * Spec.secondAbout e.center p.mass p.h p.H * e.rotation) i i ≤ 1 / 100000000) ∧
      -- without spread, a body that passes is realizable
      (b = true →
        (∀ i, e.halfExtents i = 0 →
          (e.rotationᵀ * Spec.secondAbout e.center p.mass p.h p.H * e.rotation) i i = 0) →
        Spec.Realizable (Spec.ellipsoid e.halfExtents e.rotation e.center) p.mass p.h p.H) := by
  obtain ⟨i0, hi0⟩ := hz
  unfold Ellipsoid.canRealize
  rw [e.degenerate hi0]
  simp only [Bool.not_true, Bool.false_eq_true, if_false]
  rw [realizable_ellipsoid_iff hR]
  have hJ : p.J = bordered p.H p.h p.h p.mass := rfl
  by_cases hc : p.consistent eps = true
  · refine ⟨_, by rw [hc]; rfl, ?_⟩
    rw [C16_consistent_iff p hH] at hc
    have hpsd := psd_of_eps heps hc
    rw [Bool.and_eq_true, decide_eq_true_eq, isclose_zero_right, e.qDegenerate_fst he,
      e.trace_qDegenerate_snd he hpsd, hJ]
    simp only [shifted_quad]
    refine ⟨?_, ?_, ?_⟩
    · rintro ⟨-, h1, h2⟩ -
      refine ⟨h1, ?_⟩
      rw [Finset.sum_eq_zero fun i hi => h2 i (Finset.mem_filter.mp hi).2]
      simpa using (tol8_pos (K := ℝ)).le
    · rintro ⟨-, h2⟩
      refine ⟨hJ ▸ hc, ?_⟩
      rw [abs_neg] at h2
      exact (le_abs_self _).trans h2
    · rintro ⟨h1, -⟩ h2
      exact ⟨hJ ▸ hpsd, h1, h2⟩
  · refine ⟨false, by rw [Bool.not_eq_true] at hc; rw [hc]; rfl, ?_⟩
    rw [C16_consistent_iff p hH] at hc
    refine ⟨fun _ h => absurd h hc, fun h => by simp at h, fun h => by simp at h⟩

theorem shifted_self (R : Matrix (Fin 3) (Fin 3) ℝ) (hR : Spec.Orthogonal R) (c : Fin 3 → ℝ) (i : Fin 3) :
    1 ≤ shifted (colv R i) c ⬝ᵥ shifted (colv R i) c := by
  rw [shifted, snoc_dotProduct]
  have : colv R i ⬝ᵥ colv R i = 1 := by
    have := congrFun (congrFun hR i) i
    rw [Matrix.mul_apply] at this
    simpa [dotProduct, colv] using this
  nlinarith [mul_self_nonneg (-(colv R i ⬝ᵥ c))]

/-- C50: asking for a margin `eps > 1e-8` makes `can_realize` of a degenerate ellipsoid always `False`. -/
theorem C50_degenerate_eps (e : Ellipsoid ℝ 3) (hR : Spec.Orthogonal e.rotation)
    (he : ∀ i, Spec.Resolved (e.halfExtents i)) (hz : ∃ i, e.halfExtents i = 0) (p : IP ℝ)
    (hH : p.Hᵀ = p.H) (eps : ℝ) (heps : 1 / 100000000 < eps) : e.canRealize p eps = .ok false := by
  have h0 : 0 ≤ eps := le_trans (by norm_num) heps.le
  obtain ⟨b, hb, -, h, -⟩ := C50_degenerate e hR he hz p hH eps h0
  rw [hb]
  cases b with
  | false => rfl
  | true =>
    exfalso
    obtain ⟨h1, h2⟩ := h rfl
    obtain ⟨i0, hi0⟩ := hz
    have hq : ∀ i, eps ≤ (e.rotationᵀ * Spec.secondAbout e.center p.mass p.h p.H * e.rotation) i i := by
      intro i
      rw [← shifted_quad]
      have := h1.2 (shifted (colv e.rotation i) e.center)
      rw [sub_mulVec, smul_mulVec, one_mulVec, dotProduct_sub, dotProduct_smul, smul_eq_mul] at this
      have h3 := shifted_self e.rotation hR e.center i
      have hJ : p.J = bordered p.H p.h p.h p.mass := rfl
      rw [hJ] at this
      nlinarith
    have := Finset.single_le_sum
      (f := fun i => (e.rotationᵀ * Spec.secondAbout e.center p.mass p.h p.H * e.rotation) i i)
      (s := Finset.univ.filter fun i => e.halfExtents i = 0) (fun i _ => h0.trans (hq i))
      (Finset.mem_filter.mpr ⟨Finset.mem_univ i0, hi0⟩)
    have := hq i0
    linarith

/-- C50: half extents that are nonzero but at most `1e-8` make `can_realize` fail its assertion that `Q`
is finite (for a non-degenerate ellipsoid and consistent parameters). -/
theorem C50_unresolved (e : Ellipsoid ℝ 3) (hne : ∀ i, e.halfExtents i ≠ 0) (i : Fin 3)
    (hi : |e.halfExtents i| ≤ 1 / 100000000) (p : IP ℝ) (eps : ℝ) (hp : p.consistent eps = true) :
    e.canRealize p eps = .error .assertion := by
  have hF : e.hInvFin = .error .nonfinite := by
    unfold Ellipsoid.hInvFin
    rw [if_neg]
    intro h
    have := h i
    rw [Option.isSome_iff_ne_none] at this
    exact this ((e.hInv_eq_none i).mpr ((e.z_iff i).mpr hi))
  have hQ : e.Q = .error .nonfinite := by
    simp [Ellipsoid.Q, Ellipsoid.S, hF, bind, Except.bind]
  unfold Ellipsoid.canRealize
  rw [hp, e.nondegenerate hne, hQ]
  rfl

/-- C50: because of the tolerance, the degenerate test accepts bodies that are not realizable: a unit
disk is said to realize a body with a little mass outside its plane. -/
theorem C50_degenerate_gap : ∃ (e : Ellipsoid ℝ 3) (p : IP ℝ),
    e.halfExtents = ![1, 1, 0] ∧ e.rotation = 1 ∧ e.center = 0 ∧
      e.canRealize p = .ok true ∧
      ¬ Spec.Realizable (Spec.ellipsoid e.halfExtents e.rotation e.center) p.mass p.h p.H := by
  set e : Ellipsoid ℝ 3 := ⟨![1, 1, 0], 1, 0⟩ with he
  set p : IP ℝ := ⟨1, 0, Matrix.diagonal ![0, 0, 1 / 1000000000]⟩ with hp
  have hres : ∀ i, Spec.Resolved (e.halfExtents i) := by
    intro i; fin_cases i
    · right; norm_num [he]
    · right; norm_num [he]
    · left; rfl
  have hJp : p.J = Matrix.diagonal ![0, 0, 1 / 1000000000, 1] := by
    have hh : p.h = 0 := by simp [IP.h, hp]
    rw [IP.J, hh]
    ext i j
    fin_cases i <;> fin_cases j <;> simp [bordered, hp, Fin.lastCases, Matrix.diagonal] <;> rfl
  have hpsd : Spec.PSD p.J := by
    rw [hJp]
    apply Spec.PSD.diagonal
    intro i; fin_cases i <;> norm_num
  have hcons : p.consistent 0 = true := by
    rw [C16_consistent_iff _ (by simp [hp]), zero_smul, sub_zero]; exact hpsd
  have hq2 : ∀ i, shifted (colv (1 : Matrix (Fin 3) (Fin 3) ℝ) i) 0 ⬝ᵥ (p.J *ᵥ shifted (colv (1 : Matrix (Fin 3) (Fin 3) ℝ) i) 0) = p.H i i := by
    intro i
    have hJ : p.J = bordered p.H p.h p.h p.mass := rfl
    rw [hJ, shifted_quad]
    simp [Spec.secondAbout]
  refine ⟨e, p, rfl, rfl, rfl, ?_, ?_⟩
  · unfold Ellipsoid.canRealize
    rw [hcons, e.degenerate (i := 2) rfl]
    simp only [Bool.not_true, Bool.false_eq_true, if_false]
    congr 1
    rw [Bool.and_eq_true, decide_eq_true_eq, isclose_zero_right, e.qDegenerate_fst hres,
      e.trace_qDegenerate_snd hres hpsd]
    have hf : (Finset.univ.filter fun i => e.halfExtents i = 0) = {2} := by
      ext i; fin_cases i <;> simp [he]
    rw [hf, Finset.sum_singleton]
    constructor
    · have : e.rotation * Matrix.diagonal (fun i => (1 / e.halfExtents i) ^ 2) * e.rotationᵀ = Matrix.diagonal ![1, 1, 0] := by
        simp only [he, Matrix.one_mul, Matrix.transpose_one, Matrix.mul_one]
        congr 1; ext i; fin_cases i <;> simp
      rw [this, hJp]
      have h3 : (qMatrix (Matrix.diagonal ![(1 : ℝ), 1, 0]) e.center) 3 3 = 1 := by
        have := bordered_ll (-(Matrix.diagonal ![(1 : ℝ), 1, 0])) (0 : Fin 3 → ℝ) 0 1
        simpa [qMatrix, he] using this
      have h2 : (qMatrix (Matrix.diagonal ![(1 : ℝ), 1, 0]) e.center) 2 2 = 0 := by
        have := bordered_cc (-(Matrix.diagonal ![(1 : ℝ), 1, 0])) (0 : Fin 3 → ℝ) 0 1 2 2
        simpa [qMatrix, he] using this
      simp [Matrix.trace, Matrix.mul_diagonal, Fin.sum_univ_four, h2, h3]
    · have := hq2 2
      rw [this]
      simp [hp, tol8]
      norm_num
  · rw [realizable_ellipsoid_iff Spec.Orthogonal.one]
    rintro ⟨-, -, h⟩
    have := h 2 rfl
    have h2 := hq2 2
    rw [show bordered p.H p.h p.h p.mass = p.J from rfl, h2] at this
    simp [hp] at this

example : ∃ (e : Ellipsoid ℝ 3) (p : IP ℝ), Spec.Orthogonal e.rotation ∧
    (∀ i, 1 / 100000000 < e.halfExtents i) ∧ p.Hᵀ = p.H ∧ p.mass = 2 :=
  ⟨⟨![1, 2, 3], 1, ![1, 0, 0]⟩, ⟨2, 0, 1⟩, Spec.Orthogonal.one,
    fun i => by fin_cases i <;> norm_num, by simp, rfl⟩

example : ∃ (e : Ellipsoid ℝ 3), Spec.Orthogonal e.rotation ∧
    (∀ i, Spec.Resolved (e.halfExtents i)) ∧ ∃ i, e.halfExtents i = 0 :=
  ⟨⟨![1, 2, 0], 1, ![1, 0, 0]⟩, Spec.Orthogonal.one,
    fun i => by
      fin_cases i
      · right; norm_num
      · right; norm_num
      · left; rfl, 2, rfl⟩

example : ∃ (e : Ellipsoid ℝ 3), (∀ i, e.halfExtents i ≠ 0) ∧ |e.halfExtents 0| ≤ 1 / 100000000 :=
  ⟨⟨![1 / 1000000000, 2, 1], 1, 0⟩, fun i => by fin_cases i <;> norm_num,
    by simp [abs_of_nonneg]; norm_num⟩

/-! ## C51: the constraints -/

theorem lift_snoc {d r : ℕ} (e : Ellipsoid ℝ d) (idx : Fin r → Fin d) (y : Fin r → ℝ) :
    e.liftMatrix idx *ᵥ Fin.snoc (α := fun _ => ℝ) y 1 =
      Fin.snoc (α := fun _ => ℝ) (fun i => (∑ j, e.rotation i (idx j) * y j) + e.center i) 1 := by
  ext i
  refine Fin.lastCases ?_ (fun i => ?_) i <;>
    simp [Ellipsoid.liftMatrix, mulVec, dotProduct, Fin.sum_univ_castSucc]

theorem pm_bordered_map {m n : ℕ} (V : Matrix (Fin (m + 1)) (Fin (n + 1)) ℝ) (f : (Fin n → ℝ) → Fin m → ℝ)
    (s : Spec.PointMasses ℝ n)
    (hV : ∀ mp ∈ s, V *ᵥ Fin.snoc (α := fun _ => ℝ) mp.2 1 = Fin.snoc (α := fun _ => ℝ) (f mp.2) 1)
    (s' : Spec.PointMasses ℝ m) (hs' : s' = s.map fun mp => (mp.1, f mp.2)) :
    bordered s'.second s'.first s'.first s'.mass =
      V * bordered s.second s.first s.first s.mass * Vᵀ := by
  subst hs'
  rw [pm_bordered, pm_bordered, List.map_map]
  induction s with
  | nil => simp
  | cons mp s ih =>
    simp only [List.map_cons, List.sum_cons, Matrix.mul_add, Matrix.add_mul]
    rw [← ih fun x hx => hV x (by simp [hx])]
    congr 1
    rw [Matrix.mul_smul, Matrix.smul_mul, mul_outer_mul, hV mp (by simp)]
    rfl

/-- The reduced problem of a flat ellipsoid: `J = V Jr Vᵀ` with `Jr` realizable on the lower-dimensional
ellipsoid. -/
theorem qvConstraint_iff (e : Ellipsoid ℝ 3) (hR : Spec.Orthogonal e.rotation)
    (he : ∀ i, Spec.Resolved (e.halfExtents i)) (m : ℝ) (f : Fin 3 → ℝ) (H : Matrix (Fin 3) (Fin 3) ℝ) :
    ∃ c, e.qvConstraint (bordered H f f m) = .ok c ∧
      (c ↔ Spec.Realizable (Spec.ellipsoid e.halfExtents e.rotation e.center) m f H) := by
  have hcard : (Finset.univ.filter fun i => e.z i = false).card = e.rank := by
    unfold Ellipsoid.rank
    congr 1
    refine Finset.filter_congr fun i _ => ?_
    rw [e.z_false_iff he]
    exact ⟨fun h => h.ne', fun h => lt_of_le_of_ne (he i).nonneg (Ne.symm h)⟩
  unfold Ellipsoid.qvConstraint
  rw [dif_pos hcard]
  refine ⟨_, rfl, ?_⟩
  set idx := e.nzIdx e.rank hcard with hidx
  have hmem : ∀ j, e.z (idx j) = false := by
    intro j
    have := Finset.orderEmbOfFin_mem (Finset.univ.filter fun i => e.z i = false) hcard j
    exact (Finset.mem_filter.mp this).2
  have hinj : Function.Injective idx :=
    ((Finset.univ.filter fun i => e.z i = false).orderEmbOfFin hcard).injective
  have hsurj : ∀ i, e.z i = false → ∃ j, idx j = i := by
    intro i hi
    have hr := Finset.range_orderEmbOfFin (Finset.univ.filter fun i => e.z i = false) hcard
    have : i ∈ Set.range ((Finset.univ.filter fun i => e.z i = false).orderEmbOfFin hcard) := by
      rw [hr]; simpa using hi
    exact this
  have hsum : ∀ g : Fin 3 → ℝ, (∀ i, e.z i = true → g i = 0) → ∑ j, g (idx j) = ∑ i, g i := by
    intro g hg
    rw [← Finset.sum_image (s := Finset.univ) (g := idx) (f := g) (fun a _ b _ h => hinj h)]
    refine Finset.sum_subset (Finset.subset_univ _) fun i _ hi => hg i ?_
    by_contra h
    rw [Bool.not_eq_true] at h
    obtain ⟨j, hj⟩ := hsurj i h
    exact hi (Finset.mem_image.mpr ⟨j, Finset.mem_univ j, hj⟩)
  set a : Fin e.rank → ℝ := fun j => e.halfExtents (idx j) with ha
  have hSr : (Matrix.diagonal fun j => e.hInvNz (idx j) ^ 2) =
      (1 : Matrix (Fin e.rank) (Fin e.rank) ℝ) * Matrix.diagonal (fun j => (1 / a j) ^ 2) * (1 : Matrix (Fin e.rank) (Fin e.rank) ℝ)ᵀ := by
    rw [Matrix.one_mul, Matrix.transpose_one, Matrix.mul_one]
    congr 1; ext j; rw [e.hInvNz_eq _ (hmem j)]
  have ha0 : ∀ j, a j ≠ 0 := fun j => ((e.z_false_iff he _).mp (hmem j)).ne'
  constructor
  · rintro ⟨Jr, ⟨hsym, hpsd⟩, htr, hJ⟩
    obtain ⟨mr, fr, Hr, rfl⟩ : ∃ mr fr Hr, Jr = bordered Hr fr fr mr := by
      refine ⟨Jr (Fin.last _) (Fin.last _), fun i => Jr i.castSucc (Fin.last _),
        Matrix.of fun i j => Jr i.castSucc j.castSucc, ?_⟩
      conv_lhs => rw [← bordered_self Jr]
      rw [bordered_inj]
      refine ⟨rfl, rfl, ?_, rfl⟩
      ext j; exact congrFun (congrFun hsym j.castSucc) (Fin.last _)
    have hreal : Spec.Realizable (Spec.ellipsoid a (1 : Matrix (Fin e.rank) (Fin e.rank) ℝ) 0) mr fr Hr := by
      rw [realizable_ellipsoid_iff Spec.Orthogonal.one]
      refine ⟨⟨hsym, hpsd⟩, ?_, fun i hi => absurd hi (ha0 i)⟩
      rw [← hSr]; exact htr
    obtain ⟨s, hs, hin, rfl, rfl, rfl⟩ := hreal
    set lift : (Fin e.rank → ℝ) → Fin 3 → ℝ := fun y i => (∑ j, e.rotation i (idx j) * y j) + e.center i with hlift
    have hmap := pm_bordered_map (e.liftMatrix idx) lift s (fun mp _ => lift_snoc e idx mp.2) _ rfl
    rw [← hJ, bordered_inj] at hmap
    refine ⟨s.map fun mp => (mp.1, lift mp.2), ?_, ?_, hmap.2.2.2, hmap.2.1, hmap.1⟩
    · intro mp hmp
      obtain ⟨mp', h', rfl⟩ := List.mem_map.mp hmp
      exact hs mp' h'
    · intro mp hmp
      obtain ⟨mp', h', rfl⟩ := List.mem_map.mp hmp
      obtain ⟨u, hu, hp⟩ := hin mp' h'
      -- coordinates of the lifted point
      classical
      let w : Fin 3 → ℝ := fun i => if h : ∃ j, idx j = i then u h.choose else 0
      have hw : ∀ j, w (idx j) = u j := by
        intro j
        have h : ∃ j', idx j' = idx j := ⟨j, rfl⟩
        simp only [w, dif_pos h]
        exact congrArg u (hinj h.choose_spec)
      have hwz : ∀ i, e.z i = true → w i = 0 := by
        intro i hi
        simp only [w]
        rw [dif_neg]
        rintro ⟨j, rfl⟩
        rw [hmem j] at hi; simp at hi
      refine ⟨w, ?_, ?_⟩
      · rw [dotProduct, ← hsum (fun i => w i * w i) (fun i hi => by rw [hwz i hi, mul_zero])]
        simp only [hw]; exact hu
      · ext i
        simp only [hlift, Spec.rigid, Pi.add_apply, mulVec, dotProduct]
        congr 1
        rw [← hsum (fun k => e.rotation i k * (e.halfExtents k * w k)) (fun k hk => by rw [hwz k hk]; ring)]
        refine Finset.sum_congr rfl fun j _ => ?_
        rw [hw, hp]
        simp [Spec.rigid, ha]
  · rintro ⟨s, hs, hin, rfl, rfl, rfl⟩
    set proj : (Fin 3 → ℝ) → Fin e.rank → ℝ := fun p j => (e.rotationᵀ *ᵥ (p - e.center)) (idx j) with hproj
    set sr : Spec.PointMasses ℝ e.rank := s.map fun mp => (mp.1, proj mp.2) with hsr
    have hlift : ∀ mp ∈ s, (fun i => (∑ j, e.rotation i (idx j) * proj mp.2 j) + e.center i) = mp.2 := by
      intro mp hmp
      have h1 := (Spec_ellipsoid_iff hR _ _ _).mp (hin mp hmp)
      ext i
      rw [hsum (fun k => e.rotation i k * (e.rotationᵀ *ᵥ (mp.2 - e.center)) k)
        (fun k hk => by rw [h1.1 k ((e.z_iff_zero he k).mp hk), mul_zero])]
      change (e.rotation *ᵥ (e.rotationᵀ *ᵥ (mp.2 - e.center))) i + e.center i = mp.2 i
      rw [mulVec_mulVec, hR.mul_transpose, one_mulVec]
      simp
    have hreal : Spec.Realizable (Spec.ellipsoid a (1 : Matrix (Fin e.rank) (Fin e.rank) ℝ) 0) sr.mass sr.first sr.second := by
      refine ⟨sr, ?_, ?_, rfl, rfl, rfl⟩
      · intro mp hmp
        obtain ⟨mp', h', rfl⟩ := List.mem_map.mp hmp
        exact hs mp' h'
      · intro mp hmp
        obtain ⟨mp', h', rfl⟩ := List.mem_map.mp hmp
        have h1 := (Spec_ellipsoid_iff hR _ _ _).mp (hin mp' h')
        rw [Spec_ellipsoid_iff Spec.Orthogonal.one]
        simp only [Matrix.transpose_one, sub_zero, one_mulVec]
        refine ⟨fun j hj => absurd hj (ha0 j), ?_⟩
        rw [hsum (fun k => ((e.rotationᵀ *ᵥ (mp'.2 - e.center)) k / e.halfExtents k) ^ 2)
          (fun k hk => by rw [h1.1 k ((e.z_iff_zero he k).mp hk)]; simp)]
        exact h1.2
    rw [realizable_ellipsoid_iff Spec.Orthogonal.one] at hreal
    refine ⟨bordered sr.second sr.first sr.first sr.mass, hreal.1, ?_, ?_⟩
    · have := hreal.2.1
      rwa [← hSr] at this
    · apply pm_bordered_map (e.liftMatrix idx)
        (fun y i => (∑ j, e.rotation i (idx j) * y j) + e.center i) sr
      · intro mp _; exact lift_snoc e idx mp.2
      · rw [hsr, List.map_map]
        conv_lhs => rw [← List.map_id s]
        refine List.map_congr_left fun mp hmp => ?_
        exact Prod.ext rfl (hlift mp hmp).symm

/-- C51: the constraints on a `(4, 4)` variable never fail to build (resolved half extents, `eps ≥ 0`),
and a value `J` satisfies them exactly when `J - eps 1` is PSD and the mass, first and second moments
stored in `J` are realizable on the ellipsoid. This holds for degenerate ellipsoids too, and for both
settings of the module's formulation flag. -/
theorem C51_mat (e : Ellipsoid ℝ 3) (hR : Spec.Orthogonal e.rotation)
    (he : ∀ i, Spec.Resolved (e.halfExtents i)) (J : Matrix (Fin 4) (Fin 4) ℝ) (eps : ℝ) (heps : 0 ≤ eps)
    (useTrace : Bool) :
    ∃ c, e.momentConstraints (.mat J) eps useTrace = .ok c ∧
      (c ↔ Spec.PSD (J - eps • (1 : Matrix (Fin 4) (Fin 4) ℝ)) ∧
        Spec.Realizable (Spec.ellipsoid e.halfExtents e.rotation e.center) (J 3 3)
          (fun i => J i.castSucc 3) (Matrix.of fun i j => J i.castSucc j.castSucc)) := by
  obtain ⟨psd, hpsd, hpsd'⟩ := C19_mat J eps heps
  have hblk : Spec.PSD (J - eps • (1 : Matrix (Fin 4) (Fin 4) ℝ)) →
      J = bordered (Matrix.of fun i j : Fin 3 => J i.castSucc j.castSucc) (fun i : Fin 3 => J i.castSucc 3)
        (fun i : Fin 3 => J i.castSucc 3) (J 3 3) := by
    intro h
    have hs := (psd_of_eps heps h).1
    conv_lhs => rw [← bordered_self J]
    rw [bordered_inj]
    refine ⟨rfl, rfl, ?_, rfl⟩
    ext j; exact congrFun (congrFun hs j.castSucc) (Fin.last _)
  set m := J 3 3
  set f : Fin 3 → ℝ := fun i => J i.castSucc 3
  set H : Matrix (Fin 3) (Fin 3) ℝ := Matrix.of fun i j => J i.castSucc j.castSucc
  unfold Ellipsoid.momentConstraints
  rw [hpsd]
  simp only [bind, Except.bind]
  by_cases hz : ∃ i, e.halfExtents i = 0
  · obtain ⟨i0, hi0⟩ := hz
    rw [e.degenerate hi0]
    simp only [Bool.not_true, Bool.false_eq_true, if_false]
    cases useTrace with
    | true =>
      refine ⟨_, rfl, ?_⟩
      rw [hpsd', realizable_ellipsoid_iff hR]
      refine and_congr_right fun h => ?_
      rw [e.qDegenerate_fst he, e.trace_qDegenerate_snd he (psd_of_eps heps h), ← hblk h, neg_eq_zero,
        Finset.sum_eq_zero_iff_of_nonneg fun i _ => (psd_of_eps heps h).2 _]
      simp only [Finset.mem_filter, Finset.mem_univ, true_and]
      exact ⟨fun h' => ⟨psd_of_eps heps h, h'⟩, fun h' => h'.2⟩
    | false =>
      by_cases h : Spec.PSD (J - eps • (1 : Matrix (Fin 4) (Fin 4) ℝ))
      · obtain ⟨c, hc, hc'⟩ := qvConstraint_iff e hR he m f H
        rw [← hblk h] at hc
        refine ⟨_, by rw [hc]; rfl, ?_⟩
        rw [hpsd', hc']
      · have hok : ∃ c, e.qvConstraint J = .ok c := by
          obtain ⟨c, hc, -⟩ := qvConstraint_iff e hR he m f H
          unfold Ellipsoid.qvConstraint at hc ⊢
          split_ifs at hc ⊢ with h1
          exact ⟨_, rfl⟩
        obtain ⟨c, hc⟩ := hok
        refine ⟨_, by rw [hc]; rfl, ?_⟩
        rw [hpsd']
        exact ⟨fun h' => absurd h'.1 h, fun h' => absurd h'.1 h⟩
  · push Not at hz
    have he' : ∀ i, 1 / 100000000 < e.halfExtents i := fun i => (he i).resolve_left (hz i)
    rw [e.nondegenerate hz, e.Q_ok he']
    refine ⟨_, rfl, ?_⟩
    rw [hpsd', realizable_ellipsoid_iff hR]
    refine and_congr_right fun h => ?_
    rw [← hblk h]
    exact ⟨fun h' => ⟨psd_of_eps heps h, h', fun i hi => absurd hi (hz i)⟩, fun h' => h'.2.1⟩

/-- C51: on the parameter vector of a body the constraints on a `(10,)` variable say the same thing. -/
theorem C51_vec (e : Ellipsoid ℝ 3) (hR : Spec.Orthogonal e.rotation)
    (he : ∀ i, Spec.Resolved (e.halfExtents i)) (p : IP ℝ) (hH : p.Hᵀ = p.H) (eps : ℝ) (heps : 0 ≤ eps)
    (useTrace : Bool) :
    ∃ c, e.momentConstraints (.vec p.vec) eps useTrace = .ok c ∧
      (c ↔ Spec.PSD (p.J - eps • (1 : Matrix (Fin 4) (Fin 4) ℝ)) ∧
        Spec.Realizable (Spec.ellipsoid e.halfExtents e.rotation e.center) p.mass p.h p.H) := by
  obtain ⟨c, hc, hc'⟩ := C51_mat e hR he p.J eps heps useTrace
  obtain ⟨c1, c2, h1, h2, h3, -⟩ := C19_vec p hH eps heps
  obtain ⟨e1, e2, -, e4⟩ : (Matrix.of fun i j : Fin 3 => p.J i.castSucc j.castSucc) = p.H ∧
      (fun i : Fin 3 => p.J i.castSucc (Fin.last 3)) = p.h ∧
      (fun i : Fin 3 => p.J (Fin.last 3) i.castSucc) = p.h ∧ p.J (Fin.last 3) (Fin.last 3) = p.mass := by
    have := bordered_self p.J
    conv_rhs at this => rw [IP.J]
    rwa [bordered_inj] at this
  have hr : (Spec.Realizable (Spec.ellipsoid e.halfExtents e.rotation e.center) (p.J 3 3)
      (fun i => p.J i.castSucc 3) (Matrix.of fun i j => p.J i.castSucc j.castSucc)) ↔
      Spec.Realizable (Spec.ellipsoid e.halfExtents e.rotation e.center) p.mass p.h p.H := by
    change Spec.Realizable _ (p.J (Fin.last 3) (Fin.last 3)) (fun i : Fin 3 => p.J i.castSucc (Fin.last 3)) _ ↔ _
    rw [e1, e2, e4]
  rw [hr] at hc'
  have hcc : (c1 : Prop) = c2 := propext h3
  refine ⟨c, ?_, hc'⟩
  rw [← hc]
  unfold Ellipsoid.momentConstraints
  rw [h1, h2, hcc]

/-- C51: the constraints agree with `can_realize` on a non-degenerate ellipsoid. -/
theorem C51_agrees (e : Ellipsoid ℝ 3) (hR : Spec.Orthogonal e.rotation)
    (he : ∀ i, 1 / 100000000 < e.halfExtents i) (p : IP ℝ) (hH : p.Hᵀ = p.H) (eps : ℝ) (heps : 0 ≤ eps)
    (useTrace : Bool) :
    Py.Holds (e.momentConstraints (.vec p.vec) eps useTrace) ↔ e.canRealize p eps = .ok true := by
  obtain ⟨c, hc, hc'⟩ := C51_vec e hR (fun i => Or.inr (he i)) p hH eps heps useTrace
  obtain ⟨b, hb, hb'⟩ := C50_exact_eps e hR he p hH eps heps
  rw [hc, hb]
  simp only [Py.Holds, Except.ok.injEq]
  constructor
  · rintro ⟨q, rfl, hq⟩
    rw [hb']; exact (hc'.mp hq).symm
  · intro h
    exact ⟨c, rfl, hc'.mpr (hb'.mp h).symm⟩

/-- C51: with `eps > 0` the constraints of a degenerate ellipsoid cannot be satisfied at all. -/
theorem C51_degenerate_eps (e : Ellipsoid ℝ 3) (hR : Spec.Orthogonal e.rotation)
    (he : ∀ i, Spec.Resolved (e.halfExtents i)) (hz : ∃ i, e.halfExtents i = 0)
    (J : Matrix (Fin 4) (Fin 4) ℝ) (eps : ℝ) (heps : 0 < eps) (useTrace : Bool) :
    ¬ Py.Holds (e.momentConstraints (.mat J) eps useTrace) := by
  rintro ⟨c, hc, hcc⟩
  obtain ⟨c', hc', h⟩ := C51_mat e hR he J eps heps.le useTrace
  rw [hc] at hc'
  obtain rfl := Except.ok.inj hc'
  obtain ⟨h1, h2⟩ := h.mp hcc
  obtain ⟨i, hi⟩ := hz
  rw [realizable_ellipsoid_iff hR] at h2
  have h3 := h2.2.2 i hi
  have hs := (psd_of_eps heps.le h1).1
  have hblk : bordered (Matrix.of fun i j : Fin 3 => J i.castSucc j.castSucc) (fun i : Fin 3 => J i.castSucc 3)
        (fun i : Fin 3 => J i.castSucc 3) (J 3 3) = J := by
    conv_rhs => rw [← bordered_self J]
    rw [bordered_inj]
    refine ⟨rfl, rfl, ?_, rfl⟩
    ext j; exact (congrFun (congrFun hs j.castSucc) (Fin.last _)).symm
  rw [hblk] at h3
  have h4 := h1.2 (shifted (colv e.rotation i) e.center)
  rw [sub_mulVec, smul_mulVec, one_mulVec, dotProduct_sub, dotProduct_smul, smul_eq_mul, h3] at h4
  have h5 := shifted_self e.rotation hR e.center i
  nlinarith

/-- C51: half extents in `(0, 1e-8]` make the constraint builder fail. -/
theorem C51_unresolved (e : Ellipsoid ℝ 3) (i : Fin 3) (hi : |e.halfExtents i| ≤ 1 / 100000000)
    (hi0 : e.halfExtents i ≠ 0) (J : Matrix (Fin 4) (Fin 4) ℝ) (eps : ℝ) (heps : 0 ≤ eps) :
    e.momentConstraints (.mat J) eps =
      .error (if ∃ k, e.halfExtents k = 0 then .value else .nonfinite) := by
  obtain ⟨psd, hpsd, -⟩ := C19_mat J eps heps
  have hzi : e.z i = true := (e.z_iff i).mpr hi
  unfold Ellipsoid.momentConstraints
  rw [hpsd]
  simp only [bind, Except.bind]
  by_cases hk : ∃ k, e.halfExtents k = 0
  · rw [if_pos hk]
    obtain ⟨k, hk⟩ := hk
    rw [e.degenerate hk]
    simp only [Bool.not_true, Bool.false_eq_true, if_false]
    unfold Ellipsoid.qvConstraint
    rw [dif_neg]
    unfold Ellipsoid.rank
    apply Nat.ne_of_lt
    apply Finset.card_lt_card
    rw [Finset.ssubset_iff_of_subset]
    · exact ⟨i, by simp [hi0], by simp [hzi]⟩
    · intro k hk
      rw [Finset.mem_filter] at hk ⊢
      refine ⟨hk.1, fun h0 => ?_⟩
      have : e.z k = true := (e.z_iff k).mpr (by rw [h0, abs_zero]; exact tol8_pos.le)
      rw [this] at hk; simp at hk
  · rw [if_neg hk]
    push Not at hk
    have hF : e.hInvFin = .error .nonfinite := by
      unfold Ellipsoid.hInvFin
      rw [if_neg]
      intro h
      have := h i
      rw [Option.isSome_iff_ne_none] at this
      exact this ((e.hInv_eq_none i).mpr hzi)
    rw [e.nondegenerate hk]
    simp [Ellipsoid.Q, Ellipsoid.S, hF, bind, Except.bind]

end Rigeo
