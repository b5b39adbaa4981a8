import Verif.Lemmas.Inertial
import Verif.Spec.Basic

/-!
# Properties of `util.py`: C01, C02, C03, C06, C07, C08, C71
-/

namespace Rigeo

open Matrix

/-! ## C01: half-vectorisation round trip -/

/-- C01: `unvech(vech(A)) == A` for every symmetric matrix of every size `n >= 1`. -/
theorem C01_unvech_vech {K : Type} [Zero K] {n : ℕ} (hn : 1 ≤ n) (A : Matrix (Fin n) (Fin n) K)
    (hA : ∀ i j, A i j = A j i) : unvech (vech A) = .ok ⟨n, A⟩ := by
  have hlen : (vech A).length = (triuIndices n 0).length := by simp [vech]
  have ht := isTriangularNumber_nat n hn (vech A).length (by rw [hlen]; exact length_triuIndices n)
  have hmap := assignAt_map (triuIndices n 0) (nodup_triuIndices n 0) (vech A) hlen.symm
    (0 : Matrix (Fin n) (Fin n) K)
  have hent : ∀ i j : Fin n, i ≤ j →
      assignAt (0 : Matrix (Fin n) (Fin n) K) (triuIndices n 0) (vech A) i j = A i j := by
    intro i j hij
    have hm := mem_triuIndices.mpr hij
    have := List.map_inj_left.mp (hmap.trans (rfl : vech A = (triuIndices n 0).map fun p => A p.1 p.2))
      _ hm
    simpa using this
  unfold unvech
  simp only [ht, Bool.true_eq_false, if_false, Int.toNat_natCast]
  unfold unvechFill
  rw [if_neg (by simp [hlen])]
  refine congrArg (fun B => Except.ok (ε := PyErr) (⟨n, B⟩ : Σ n : ℕ, Matrix (Fin n) (Fin n) K)) ?_
  ext i j
  simp only [Matrix.of_apply]
  split_ifs with hij
  · rw [hent j i hij.le, hA]
  · exact hent i j (not_lt.mp hij)

/-- C01: whatever `unvech` returns is symmetric, has the right size, and `vech` gives the input back. -/
theorem C01_vech_unvech {K : Type} [Zero K] (a : List K) (n : ℕ) (M : Matrix (Fin n) (Fin n) K)
    (h : unvech a = .ok ⟨n, M⟩) : vech M = a ∧ Mᵀ = M ∧ 1 ≤ n ∧ 2 * a.length = n * (n + 1) := by
  unfold unvech at h
  simp only at h
  split_ifs at h with h1
  rw [Bool.not_eq_false] at h1
  obtain ⟨k, hk1, hk2, hk3⟩ := isTriangularNumber_true h1
  rw [hk3] at h
  generalize hN : k.toNat = N at h
  unfold unvechFill at h
  simp only [ne_eq, ite_not] at h
  split_ifs at h with h2
  simp only [Except.ok.injEq, Sigma.mk.injEq] at h
  obtain ⟨hn, hM⟩ := h
  subst hn
  rw [heq_eq_eq] at hM
  subst hM
  have hmap := assignAt_map _ (nodup_triuIndices N 0) a h2 0
  refine ⟨?_, ?_, ?_, ?_⟩
  · refine Eq.trans ?_ hmap
    unfold vech
    refine List.map_congr_left fun p hp => ?_
    have : p.1 ≤ p.2 := mem_triuIndices.mp (by simpa using hp)
    simp [not_lt.mpr this]
  · ext i j
    simp only [Matrix.transpose_apply, Matrix.of_apply]
    rcases lt_trichotomy i j with hij | hij | hij
    · simp [hij, hij.le]
    · simp [hij]
    · simp [hij, hij.le]
  · omega
  · rw [← h2]; exact length_triuIndices _

/-- C01: `unvech` succeeds on every vector of triangular length. -/
theorem C01_unvech_ok {K : Type} [Zero K] (a : List K) (n : ℕ) (hn : 1 ≤ n)
    (h : 2 * a.length = n * (n + 1)) : ∃ M, unvech a = .ok ⟨n, M⟩ := by
  have ht := isTriangularNumber_nat n hn a.length h
  have hl : (triuIndices n 0).length = a.length := by
    have := length_triuIndices n; omega
  unfold unvech
  simp only [ht, Bool.true_eq_false, if_false, Int.toNat_natCast]
  unfold unvechFill
  rw [if_neg (by simp [hl])]
  exact ⟨_, rfl⟩

/-- C01: `unvech` raises AssertionError on every vector whose length is not triangular. -/
theorem C01_unvech_error {K : Type} [Zero K] (a : List K)
    (h : ∀ n : ℕ, 1 ≤ n → 2 * a.length ≠ n * (n + 1)) : unvech a = .error .assertion := by
  unfold unvech
  rw [if_pos]
  by_contra hc
  rw [Bool.not_eq_false] at hc
  obtain ⟨k, hk1, hk2, -⟩ := isTriangularNumber_true hc
  obtain ⟨m, rfl⟩ := Int.eq_ofNat_of_zero_le (by omega : 0 ≤ k)
  refine h m (by omega) ?_
  have : (2 : ℝ) * a.length = m * (m + 1) := by rw [hk2]; push_cast; ring
  exact_mod_cast this

example : unvech (vech !![(1 : ℚ), 2; 2, 5]) = .ok ⟨2, !![1, 2; 2, 5]⟩ :=
  C01_unvech_vech (by norm_num) _ (by intro i j; fin_cases i <;> fin_cases j <;> rfl)

example : unvech [(1 : ℚ), 2] = .error .assertion :=
  C01_unvech_error _ (by
    intro n hn
    simp only [List.length_cons, List.length_nil]
    rcases Nat.lt_or_ge n 2 with h | h
    · interval_cases n; decide
    · nlinarith)

/-! ## C02: triangular numbers -/

/-- C02: the first component is `True` exactly on the triangular numbers, and the second is then the
index `n` with `x == n * (n + 1) / 2`. Holds for every real number `x` (ints and floats). -/
theorem C02_isTriangularNumber (x : ℝ) (n : ℤ) :
    isTriangularNumber x = (true, n) ↔ 1 ≤ n ∧ x = n * (n + 1) / 2 := by
  constructor
  · intro h
    obtain ⟨k, h1, h2, h3⟩ := isTriangularNumber_true (x := x) (by rw [h])
    rw [h] at h3
    simp only at h3
    subst h3
    exact ⟨h1, h2⟩
  · rintro ⟨h1, h2⟩
    obtain ⟨m, rfl⟩ := Int.eq_ofNat_of_zero_le (by omega : 0 ≤ n)
    have he : 2 ∣ m * (m + 1) := (Nat.even_mul_succ_self m).two_dvd
    obtain ⟨s, hs⟩ := he
    have hx : x = (s : ℝ) := by
      rw [h2]
      have : ((m : ℝ) * (m + 1)) = 2 * s := by exact_mod_cast hs
      push_cast
      linarith
    rw [hx]
    exact isTriangularNumber_nat m (by omega) s hs.symm

/-- C02: on every number that is not triangular the first component is `False`. -/
theorem C02_not_triangular (x : ℝ) (h : ∀ n : ℤ, 1 ≤ n → x ≠ n * (n + 1) / 2) :
    (isTriangularNumber x).1 = false := by
  by_contra hc
  rw [Bool.not_eq_false] at hc
  obtain ⟨n, h1, h2, -⟩ := isTriangularNumber_true hc
  exact h n h1 h2

example : isTriangularNumber 10 = (true, 4) := (C02_isTriangularNumber 10 4).mpr (by norm_num)

/-! ## C03: cross-product matrix and contact Jacobian -/

/-- C03: `skew3(a) @ b == cross(a, b)`. -/
theorem C03_skew3_mulVec {K : Type} [Field K] (a b : Fin 3 → K) : skew3 a *ᵥ b = a ⨯₃ b := by
  ext i
  fin_cases i <;> simp [skew3, Matrix.mulVec, dotProduct, Fin.sum_univ_three, cross_apply] <;> ring

/-- C03: `skew3` is antisymmetric. -/
theorem C03_skew3_transpose {K : Type} [Field K] (a : Fin 3 → K) : (skew3 a)ᵀ = -skew3 a := by
  ext i j
  fin_cases i <;> fin_cases j <;> simp [skew3]

theorem contactJacobian_eq {K : Type} [Field K] (p : Fin 3 → K) :
    contactJacobian p = !![0, -(p 2), p 1; p 2, 0, -(p 0); -(p 1), p 0, 0; 1, 0, 0; 0, 1, 0; 0, 0, 1] := by
  ext i j
  fin_cases i <;> fin_cases j <;> rfl

/-- C03: the contact Jacobian maps a force `f` at `p` to the wrench `(p × f, f)`. -/
theorem C03_contactJacobian_wrench {K : Type} [Field K] (p f : Fin 3 → K) :
    SV.angular ⟨contactJacobian p *ᵥ f⟩ = p ⨯₃ f ∧ SV.linear ⟨contactJacobian p *ᵥ f⟩ = f := by
  rw [contactJacobian_eq]
  constructor <;> ext i <;> fin_cases i <;>
    simp [SV.angular, SV.linear, Matrix.mulVec, dotProduct, Fin.sum_univ_three, cross_apply] <;> ring

/-- C03: virtual work: the transpose of the contact Jacobian maps a twist to the velocity
`v + ω × p` of the contact point. -/
theorem C03_contactJacobian_velocity {K : Type} [Field K] (p : Fin 3 → K) (V : SV K) :
    (contactJacobian p)ᵀ *ᵥ V.vec = V.linear + V.angular ⨯₃ p := by
  rw [contactJacobian_eq]
  ext i
  fin_cases i <;>
    simp [SV.angular, SV.linear, Matrix.mulVec, dotProduct, Fin.sum_univ_six, cross_apply] <;> ring

example : skew3 ![(1 : ℚ), 2, 3] *ᵥ ![4, 5, 6] = ![-3, 6, -3] := by
  rw [C03_skew3_mulVec]; simp [cross_apply]; norm_num

/-! ## C06: homogeneous transforms -/

/-- C06: `transform_matrix(R, t)` acts on homogeneous coordinates as the rigid motion. -/
theorem C06_transformMatrix_acts {K : Type} [Field K] {d : ℕ} (R : Matrix (Fin d) (Fin d) K)
    (t p : Fin d → K) :
    transformMatrix R t *ᵥ (Fin.snoc (α := fun _ => K) p 1) =
      Fin.snoc (α := fun _ => K) (Spec.rigid R t p) 1 := by
  rw [transformMatrix, bordered_mulVec_snoc]
  simp [Spec.rigid]

/-- C06: composition of homogeneous transforms. -/
theorem C06_transformMatrix_mul {K : Type} [Field K] {d : ℕ} (R R' : Matrix (Fin d) (Fin d) K)
    (t t' : Fin d → K) :
    transformMatrix R t * transformMatrix R' t' = transformMatrix (R * R') (R *ᵥ t' + t) := by
  rw [transformMatrix, transformMatrix, transformMatrix, bordered_mul]
  congr 1 <;> simp

theorem transformMatrix_one_zero {K : Type} [Field K] {d : ℕ} :
    transformMatrix (1 : Matrix (Fin d) (Fin d) K) 0 = 1 := bordered_one

/-- C06: `transform_matrix_inv(R, t)` is the two-sided inverse for orthogonal `R`. -/
theorem C06_transformMatrixInv {K : Type} [Field K] {d : ℕ} (R : Matrix (Fin d) (Fin d) K)
    (t : Fin d → K) (hR : Spec.Orthogonal R) :
    transformMatrixInv R t * transformMatrix R t = 1 ∧
    transformMatrix R t * transformMatrixInv R t = 1 := by
  have hR' : R * Rᵀ = 1 := mul_eq_one_comm.mp hR
  constructor
  · rw [transformMatrixInv, C06_transformMatrix_mul, hR]
    simp [Matrix.neg_mulVec, transformMatrix_one_zero]
  · rw [transformMatrixInv, C06_transformMatrix_mul, hR', ← transformMatrix_one_zero]
    congr 1
    simp [Matrix.neg_mulVec, Matrix.mulVec_neg, hR']

/-- C06 (call with explicit arrays): in dimension three `transform_matrix_inv` returns the matrix
above. -/
theorem C06_transformMatrixInv_dim3 {K : Type} [Field K] (R : Matrix (Fin 3) (Fin 3) K)
    (t : Fin 3 → K) :
    transformMatrixInvDyn (some ⟨3, 3, R⟩) (some ⟨3, t⟩) 3 = .ok (transformMatrixInv R t) := by
  simp [transformMatrixInvDyn, transformMatrixDyn, cleanTransform, transformMatrixInv, pure,
    Except.pure, bind, Except.bind]
  rfl

/-- C06 (defect): in every other dimension `transform_matrix_inv` raises AssertionError although the
arguments are valid, because it does not pass `dim` on. -/
theorem C06_transformMatrixInv_other_dim {K : Type} [Field K] (d : ℕ) (hd : d ≠ 3)
    (R : Matrix (Fin d) (Fin d) K) (t : Fin d → K) :
    (∃ T, transformMatrixDyn (some ⟨d, d, R⟩) (some ⟨d, t⟩) d = .ok T) ∧
    transformMatrixInvDyn (some ⟨d, d, R⟩) (some ⟨d, t⟩) d = .error .assertion := by
  constructor
  · simp [transformMatrixDyn, cleanTransform, pure, Except.pure, bind, Except.bind]
  · simp [transformMatrixInvDyn, transformMatrixDyn, cleanTransform, pure, Except.pure, bind,
      Except.bind, hd]

example : Spec.Orthogonal !![(0 : ℚ), -1, 0; 1, 0, 0; 0, 0, 1] := by
  unfold Spec.Orthogonal; decide +kernel

/-! ## C07: evaluation times -/

/-- C07: the times start at zero, are equally spaced, lie in `[0, duration)`, and the next one would
not be before the end. -/
theorem C07_computeEvaluationTimes {K : Type} [Field K] [LinearOrder K] [IsStrictOrderedRing K]
    [FloorSemiring K] (duration step : K) (hd : 0 < duration) (hs : 0 < step) :
    ∃ n times, computeEvaluationTimes duration step = .ok (n, times) ∧ 1 ≤ n ∧ times.length = n ∧
      (∀ i, (hi : i < times.length) → times[i] = i * step) ∧
      (∀ t ∈ times, 0 ≤ t ∧ t < duration) ∧ duration ≤ n * step := by
  refine ⟨⌈duration / step⌉₊, (List.range ⌈duration / step⌉₊).map fun i : ℕ => step * (i : K),
    ?_, ?_, ?_, ?_, ?_, ?_⟩
  · simp [computeEvaluationTimes, pyAssert, hd, hs, bind, Except.bind, pure, Except.pure]
  · exact Nat.one_le_ceil_iff.mpr (div_pos hd hs)
  · simp
  · intro i hi; simp [mul_comm]
  · intro t ht
    simp only [List.mem_map, List.mem_range] at ht
    obtain ⟨i, hi, rfl⟩ := ht
    have := Nat.lt_ceil.mp hi
    rw [lt_div_iff₀ hs] at this
    exact ⟨by positivity, by rw [mul_comm]; exact this⟩
  · have := Nat.le_ceil (duration / step)
    rwa [div_le_iff₀ hs] at this

/-- C07: a non-positive duration or step raises AssertionError. -/
theorem C07_error {K : Type} [Field K] [LinearOrder K] [FloorSemiring K] (duration step : K)
    (h : duration ≤ 0 ∨ step ≤ 0) : computeEvaluationTimes duration step = .error .assertion := by
  by_cases hd : 0 < duration
  · have hs : ¬ 0 < step := by
      rcases h with h | h
      · exact absurd hd (not_lt.mpr h)
      · exact not_lt.mpr h
    simp [computeEvaluationTimes, pyAssert, hd, hs, bind, Except.bind]
  · simp [computeEvaluationTimes, pyAssert, hd, bind, Except.bind]

example : (0 : ℚ) < 1 ∧ (0 : ℚ) < 3 / 10 := by norm_num

/-! ## C08: box corners -/

theorem mem_signCombos {K : Type} [Field K] {dim : ℕ} (c : Fin dim → K) :
    c ∈ signCombos K dim ↔ ∀ i, c i = 1 ∨ c i = -1 := by
  induction dim with
  | zero =>
    simp only [signCombos, List.mem_singleton]
    exact ⟨fun _ i => i.elim0, fun _ => Subsingleton.elim _ _⟩
  | succ d ih =>
    simp only [signCombos, List.flatMap_cons, List.flatMap_nil, List.append_nil, List.mem_append,
      List.mem_map, Fin.forall_fin_succ]
    constructor
    · rintro (⟨a, ha, rfl⟩ | ⟨a, ha, rfl⟩)
      · exact ⟨Or.inl (by simp), fun i => by simpa using (ih a).mp ha i⟩
      · exact ⟨Or.inr (by simp), fun i => by simpa using (ih a).mp ha i⟩
    · rintro ⟨h0, hs⟩
      have ht := (ih (Fin.tail c)).mpr hs
      rcases h0 with h | h
      · exact Or.inl ⟨Fin.tail c, ht, by rw [← h, Fin.cons_self_tail]⟩
      · exact Or.inr ⟨Fin.tail c, ht, by rw [← h, Fin.cons_self_tail]⟩

theorem length_signCombos {K : Type} [Field K] (dim : ℕ) : (signCombos K dim).length = 2 ^ dim := by
  induction dim with
  | zero => simp [signCombos]
  | succ d ih => simp [signCombos, ih]; ring

theorem nodup_signCombos {K : Type} [Field K] (h2 : (1 : K) ≠ -1) (dim : ℕ) :
    (signCombos K dim).Nodup := by
  induction dim with
  | zero => simp [signCombos]
  | succ d ih =>
    simp only [signCombos, List.flatMap_cons, List.flatMap_nil, List.append_nil]
    have hinj : ∀ s : K, Function.Injective (fun c : Fin d → K => (Fin.cons s c : Fin (d + 1) → K)) :=
      fun s a b h => Fin.cons_right_injective (α := fun _ => K) s h
    refine (ih.map (hinj 1)).append (ih.map (hinj (-1))) ?_
    intro x hx hy
    simp only [List.mem_map] at hx hy
    obtain ⟨a, -, rfl⟩ := hx
    obtain ⟨b, -, hb⟩ := hy
    have := congrFun hb 0
    simp only [Fin.cons_zero] at this
    exact h2 this.symm

/-- C08: `box_vertices` lists `2**dim` points ... -/
theorem C08_length {K : Type} [Field K] {dim : ℕ} (h : Fin dim → K) :
    (boxVertices h).length = 2 ^ dim := by
  simp [boxVertices, length_signCombos]

/-- C08: ... which are exactly the points with every coordinate `± h_i`. -/
theorem C08_mem {K : Type} [Field K] {dim : ℕ} (h v : Fin dim → K) :
    v ∈ boxVertices h ↔ ∀ i, v i = h i ∨ v i = -h i := by
  simp only [boxVertices, List.mem_map, mem_signCombos]
  constructor
  · rintro ⟨c, hc, rfl⟩ i
    rcases hc i with h1 | h1 <;> simp [h1]
  · intro hv
    classical
    refine ⟨fun i => if v i = h i then 1 else -1, fun i => ?_, ?_⟩
    · by_cases hi : v i = h i <;> simp [hi]
    · ext i
      by_cases hi : v i = h i
      · simp [hi]
      · simp only [Pi.mul_apply, if_neg hi]
        rw [(hv i).resolve_left hi]
        ring

/-- C08: ... without repetition if all half extents are nonzero. -/
theorem C08_nodup {K : Type} [Field K] [LinearOrder K] [IsStrictOrderedRing K] {dim : ℕ}
    (h : Fin dim → K) (hpos : ∀ i, h i ≠ 0) : (boxVertices h).Nodup := by
  refine (nodup_signCombos (by norm_num) dim).map ?_
  intro a b hab
  ext i
  have := congrFun hab i
  simpa [hpos i] using this

example : boxVertices ![(1 : ℚ), 2] = [![1, 2], ![1, -2], ![-1, 2], ![-1, -2]] := by
  decide +kernel

/-! ## C71: validation error -/

/-- C71: for at least one sample the result is the root of the mean squared error norm ... -/
theorem C71_value {n m p : ℕ} (hn : 0 < n) (Ys : Fin n → Matrix (Fin m) (Fin p) ℝ)
    (ws : Fin n → Fin m → ℝ) (θ : Fin p → ℝ) (W : Option (Matrix (Fin m) (Fin m) ℝ)) :
    ∃ r, validationRmse Ys ws θ W = .ok r ∧ 0 ≤ r ∧
      r ^ 2 * n = ∑ i, (Ys i *ᵥ θ - ws i) ⬝ᵥ (Ys i *ᵥ θ - ws i) := by
  have hn' : (n : ℝ) ≠ 0 := by positivity
  refine ⟨_, by simp only [validationRmse, hn.ne', if_false]; rfl, Real.sqrt_nonneg _, ?_⟩
  rw [Real.sq_sqrt (by positivity), div_mul_cancel₀ _ hn']
  refine Finset.sum_congr rfl fun i _ => ?_
  simp [dotProduct, sq]

/-- C71: ... it is zero exactly when every prediction is exact ... -/
theorem C71_zero_iff {n m p : ℕ} (hn : 0 < n) (Ys : Fin n → Matrix (Fin m) (Fin p) ℝ)
    (ws : Fin n → Fin m → ℝ) (θ : Fin p → ℝ) (W : Option (Matrix (Fin m) (Fin m) ℝ)) :
    validationRmse Ys ws θ W = .ok 0 ↔ ∀ i, Ys i *ᵥ θ = ws i := by
  have hn' : (0 : ℝ) < n := by positivity
  simp only [validationRmse, hn.ne', if_false, Except.ok.injEq]
  rw [Real.sqrt_eq_zero (by positivity), div_eq_zero_iff]
  simp only [hn'.ne', or_false]
  rw [Finset.sum_eq_zero_iff_of_nonneg (fun i _ => by positivity)]
  simp only [Finset.mem_univ, true_imp_iff]
  refine forall_congr' fun i => ?_
  rw [Finset.sum_eq_zero_iff_of_nonneg (fun i _ => by positivity)]
  simp only [Finset.mem_univ, true_imp_iff, pow_eq_zero_iff two_ne_zero, Pi.sub_apply, sub_eq_zero]
  exact funext_iff.symm

/-- C71 (defect): ... and the documented weight `W` has no effect. -/
theorem C71_weight_ignored {n m p : ℕ} (Ys : Fin n → Matrix (Fin m) (Fin p) ℝ)
    (ws : Fin n → Fin m → ℝ) (θ : Fin p → ℝ) (W W' : Option (Matrix (Fin m) (Fin m) ℝ)) :
    validationRmse Ys ws θ W = validationRmse Ys ws θ W' := rfl

end Rigeo
