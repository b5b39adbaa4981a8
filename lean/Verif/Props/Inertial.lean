import Verif.Props.Dynamics
import Verif.Model.Constraint
import Verif.Lemmas.PSD

/-!
# Properties of `inertial.py` and `constraint.py`: C09 - C19
-/

namespace Rigeo

open Matrix

section Field
variable {K : Type} [Field K] [LinearOrder K] [IsStrictOrderedRing K]

/-! ## C09 -/

/-- C09: `H2I` and `I2H` are mutually inverse. -/
theorem C09_inverse (X : Matrix (Fin 3) (Fin 3) K) : I2H (H2I X) = X ∧ H2I (I2H X) = X := by
  have e : ∀ c : K, (c • (1 : Matrix (Fin 3) (Fin 3) K)).trace = 3 * c := by
    intro c; simp [Matrix.trace, Fin.sum_univ_three]; try ring
  constructor
  · unfold H2I I2H
    rw [Matrix.trace_sub, e, show (1 : K) / 2 * (3 * X.trace - X.trace) = X.trace by ring]
    abel
  · unfold H2I I2H
    rw [Matrix.trace_sub, e, show 3 * ((1 : K) / 2 * X.trace) - X.trace = 1 / 2 * X.trace by ring]
    abel

omit [LinearOrder K] [IsStrictOrderedRing K] in
/-- C09: both conversions are linear and preserve symmetry. -/
theorem C09_linear (X Y : Matrix (Fin 3) (Fin 3) K) (c : K) :
    H2I (X + Y) = H2I X + H2I Y ∧ H2I (c • X) = c • H2I X ∧
    I2H (X + Y) = I2H X + I2H Y ∧ I2H (c • X) = c • I2H X ∧
    (Xᵀ = X → (H2I X)ᵀ = H2I X ∧ (I2H X)ᵀ = I2H X) := by
  refine ⟨?_, ?_, ?_, ?_, ?_⟩
  · simp only [H2I, Matrix.trace_add, add_smul]; abel
  · simp only [H2I, Matrix.trace_smul, smul_sub, smul_eq_mul, mul_smul]
  · simp only [I2H, Matrix.trace_add, mul_add, add_smul]; abel
  · simp only [I2H, Matrix.trace_smul, smul_sub, smul_eq_mul, smul_smul]
    rw [show (1 : K) / 2 * (c * X.trace) = c * (1 / 2 * X.trace) by ring]
  · intro h
    simp [H2I, I2H, h]

/-- C09: the meaning of the inertia matrix: the moment about the unit axis `u` of the second moment
`H`, i.e. `uᵀ I u = tr(H) |u|² - uᵀ H u`. -/
theorem C09_moment_about_axis (H : Matrix (Fin 3) (Fin 3) K) (u : Fin 3 → K) :
    u ⬝ᵥ (H2I H *ᵥ u) = H.trace * (u ⬝ᵥ u) - u ⬝ᵥ (H *ᵥ u) := by
  simp [H2I, sub_mulVec, smul_mulVec, dotProduct_sub]

/-- C09: triangle inequality. In any orthonormal frame `R` (in particular the principal axes) every
diagonal moment of `H2I(H)` is at most the sum of the other two, for PSD `H`. -/
theorem C09_triangle (H R : Matrix (Fin 3) (Fin 3) K) (hH : Spec.PSD H) (hR : Spec.Orthogonal R)
    (i : Fin 3) :
    let D := Rᵀ * H2I H * R
    2 * D i i ≤ D.trace := by
  intro D
  have hD : D = H2I (Rᵀ * H * R) := by
    simp only [D, H2I]
    have ht : (Rᵀ * H * R).trace = H.trace := by
      rw [Matrix.mul_assoc, Matrix.trace_mul_comm, Matrix.mul_assoc]
      have : R * Rᵀ = 1 := mul_eq_one_comm.mp hR
      rw [this, Matrix.mul_one]
    rw [ht, Matrix.mul_sub, Matrix.sub_mul, Matrix.mul_smul, Matrix.mul_one, Matrix.smul_mul]
    rw [show Rᵀ * R = 1 from hR]
  have hP : Spec.PSD (Rᵀ * H * R) := by simpa using hH.congr Rᵀ
  have := hP.diag_nonneg i
  rw [hD]
  generalize Rᵀ * H * R = X at *
  have e : (H2I X).trace = 2 * X.trace := by
    simp [H2I, Matrix.trace, Fin.sum_univ_three]; ring
  rw [e]
  simp [H2I]
  linarith

example : ∃ H R : Matrix (Fin 3) (Fin 3) ℚ, Spec.PSD H ∧ Spec.Orthogonal R ∧ R ≠ 1 ∧ H ≠ 0 := by
  refine ⟨outer ![1, 2, 3] ![1, 2, 3], !![0, -1, 0; 1, 0, 0; 0, 0, 1], Spec.PSD.outer _, ?_, ?_, ?_⟩
  · ext i j; fin_cases i <;> fin_cases j <;> simp [Matrix.mul_apply, Fin.sum_univ_three]
  · intro h; simpa using congrFun (congrFun h 0) 0
  · intro h; simpa [outer] using congrFun (congrFun h 0) 0

/-! ## C10: round trips -/

/-- C10: `from_vec(p.vec)` rebuilds `p`. -/
theorem C10_fromVec_vec (p : IP K) (hm : 0 < p.mass) (hH : p.Hᵀ = p.H) :
    IP.fromVec p.vec = .ok p := by
  have hI := p.I_symm hH
  have s01 : p.I 1 0 = p.I 0 1 := congrFun (congrFun hI 0) 1
  have s02 : p.I 2 0 = p.I 0 2 := congrFun (congrFun hI 0) 2
  have s12 : p.I 2 1 = p.I 1 2 := congrFun (congrFun hI 1) 2
  have e : (!![p.vec 4, p.vec 5, p.vec 6; p.vec 5, p.vec 7, p.vec 8; p.vec 6, p.vec 8, p.vec 9] :
      Matrix (Fin 3) (Fin 3) K) = p.I := by
    ext i j
    fin_cases i <;> fin_cases j <;> simp [IP.vec, s01, s02, s12]
  have e2 : (![p.vec 1, p.vec 2, p.vec 3] : Fin 3 → K) = p.h := by
    ext i; fin_cases i <;> simp [IP.vec]
  have e3 : p.vec 0 = p.mass := rfl
  unfold IP.fromVec
  rw [e, e2, e3]
  simp only [IP.init, pyAssert, hm.le, decide_true, if_true, bind, Except.bind, vdiv, hm.ne', if_false,
    Option.isSome_none, Option.isSome_some, Bool.and_false, Bool.false_and, Bool.false_eq_true, pure, Except.pure]
  congr 1
  ext1
  · rfl
  · ext i; simp [IP.h, hm.ne']
  · exact (C09_inverse p.H).1

/-- C10: `from_pim(p.J)` rebuilds `p`, for every (not necessarily symmetric) `H`. -/
theorem C10_fromPim_J (p : IP K) (hm : 0 < p.mass) : IP.fromPim p.J = .ok p := by
  rw [IP.J, IP.fromPim_bordered _ _ _ _ hm]
  congr 1
  ext1
  · rfl
  · ext i; simp [IP.h, hm.ne']
  · rfl

/-- C10: the pair (centre of mass, inertia matrix) rebuilds `p`, and so does (com, H). -/
theorem C10_init_com_I (p : IP K) (hm : 0 ≤ p.mass) :
    IP.init p.mass (com := some p.com) (I := some p.I) = .ok p ∧
    IP.init p.mass (com := some p.com) (H := some p.H) = .ok p ∧
    IP.init p.mass (com := some p.com) (I := some p.Ic) (translateFromCom := true) = .ok p := by
  refine ⟨?_, ?_, ?_⟩
  · simp only [IP.init, pyAssert, hm, decide_true, if_true, bind, Except.bind,
      Option.isSome_none, Option.isSome_some, Bool.and_true, Bool.false_and, Bool.false_eq_true, pure, Except.pure,
      if_false]
    congr 1
    ext1
    · rfl
    · rfl
    · exact (C09_inverse p.H).1
  · exact IP.init_com_H _ hm _ _
  · simp only [IP.init, pyAssert, hm, decide_true, if_true, bind, Except.bind,
      Option.isSome_none, Option.isSome_some, Bool.and_true, Bool.false_and, Bool.false_eq_true, pure, Except.pure,
      if_false]
    congr 1
    ext1
    · rfl
    · rfl
    · simp only [IP.Ic, (C09_inverse p.Hc).1]
      simp [IP.Hc]

omit [IsStrictOrderedRing K] in
/-- C10: with mass zero and `h` given the centre of mass is `0/0`: both round trips of the zero
parameters produce non-finite numbers. -/
theorem C10_zero_mass (p : IP K) (hm : p.mass = 0) :
    IP.fromPim p.J = .error .nonfinite ∧ IP.fromVec p.vec = .error .nonfinite := by
  constructor
  · rw [IP.J, hm, IP.fromPim_bordered_zero]
  · have e3 : p.vec 0 = 0 := hm
    unfold IP.fromVec
    rw [e3]
    simp [IP.init, pyAssert, bind, Except.bind, vdiv]

example : ∃ p : IP ℚ, 0 < p.mass ∧ p.Hᵀ = p.H ∧ p.com ≠ 0 :=
  ⟨⟨2, ![1, 2, 3], 1⟩, by norm_num, by simp, fun h => by simpa using congrFun h 0⟩

/-! ## C11: constructor -/

/-- C11: the constructor succeeds exactly on the documented combinations: non-negative mass, not both
`h` and `com`, not both `H` and `I`, and (for finite results) `h` only with a nonzero mass. -/
theorem C11_ok_iff (m : K) (h c : Option (Fin 3 → K)) (H I : Option (Matrix (Fin 3) (Fin 3) K))
    (b : Bool) :
    (∃ p, IP.init m h c H I b = .ok p) ↔
      0 ≤ m ∧ ¬(h.isSome ∧ c.isSome) ∧ ¬(H.isSome ∧ I.isSome) ∧ (h.isSome → m ≠ 0) := by
  by_cases hm : 0 ≤ m
  · rcases h with _ | h <;> rcases c with _ | c <;> rcases H with _ | H <;> rcases I with _ | I <;>
      by_cases h0 : m = 0 <;>
      simp [IP.init, pyAssert, hm, h0, bind, Except.bind, pure, Except.pure, throw, throwThe,
        MonadExceptOf.throw, vdiv]
  · simp [IP.init, pyAssert, hm, bind, Except.bind]

/-- C11: negative mass raises AssertionError, redundant arguments raise ValueError. -/
theorem C11_errors (m : K) (h c : Option (Fin 3 → K)) (H I : Option (Matrix (Fin 3) (Fin 3) K))
    (b : Bool) :
    (m < 0 → IP.init m h c H I b = .error .assertion) ∧
    (0 ≤ m → ((h.isSome ∧ c.isSome) ∨ (H.isSome ∧ I.isSome)) → IP.init m h c H I b = .error .value) := by
  refine ⟨fun hm => IP.init_neg m hm h c H I b, fun hm hh => ?_⟩
  rcases h with _ | h <;> rcases c with _ | c <;> rcases H with _ | H <;> rcases I with _ | I <;>
    simp at hh <;>
    simp [IP.init, pyAssert, hm, bind, Except.bind, throw, throwThe, MonadExceptOf.throw]

/-- C11: the values of a successfully constructed object. -/
theorem C11_values (m : K) (h c : Option (Fin 3 → K)) (H I : Option (Matrix (Fin 3) (Fin 3) K))
    (b : Bool) (p : IP K) (hp : IP.init m h c H I b = .ok p) :
    p.mass = m ∧
    (∀ c', c = some c' → p.com = c') ∧ (∀ h', h = some h' → p.h = h') ∧
    (h = none → c = none → p.com = 0) ∧
    -- about the origin
    (b = false → (∀ H', H = some H' → p.H = H') ∧ (∀ I', I = some I' → p.I = I')) ∧
    -- `translate_from_com`: the supplied matrix is the one about the centre of mass
    (b = true → (∀ H', H = some H' → p.Hc = H') ∧ (∀ I', I = some I' → p.Ic = I')) ∧
    -- neither given: a point mass at the centre of mass
    (H = none → I = none → p.H = m • vecMulVec p.com p.com ∧ p.Hc = 0) := by
  have hok := (C11_ok_iff m h c H I b).mp ⟨p, hp⟩
  obtain ⟨hm, h1, h2, h3⟩ := hok
  have hI : ∀ X : Matrix (Fin 3) (Fin 3) K, H2I (I2H X) = X := fun X => (C09_inverse X).2
  rcases h with _ | h <;> rcases c with _ | c <;> rcases H with _ | H <;> rcases I with _ | I <;>
    simp at h1 h2 h3 <;> cases b <;>
    simp [IP.init, pyAssert, hm, h3, bind, Except.bind, pure, Except.pure, vdiv] at hp <;>
    subst hp <;> simp [IP.h, IP.I, IP.Hc, IP.Ic, hI, outer_eq_vecMulVec] <;>
    (try (ext i; simp; field_simp))

/-- C11: parallel-axis theorem for the inertia matrix, `I = Ic + m (|c|² 1 - c cᵀ)`. -/
theorem C11_parallel_axis (p : IP K) :
    p.I = p.Ic + p.mass • ((p.com ⬝ᵥ p.com) • (1 : Matrix (Fin 3) (Fin 3) K) - vecMulVec p.com p.com) := by
  have h : p.H = p.Hc + p.mass • outer p.com p.com := by simp [IP.Hc]
  have : p.I = H2I p.Hc + p.mass • H2I (outer p.com p.com) := by
    rw [IP.I, h, (C09_linear _ _ 0).1, (C09_linear (outer p.com p.com) 0 p.mass).2.1]
  rw [this, IP.Ic]
  have e : H2I (outer p.com p.com) = (p.com ⬝ᵥ p.com) • 1 - vecMulVec p.com p.com := by
    rw [H2I, outer_trace, outer_eq_vecMulVec]
  rw [e]

example : ∃ p : IP ℚ, IP.init 2 (h := some ![2, 4, 6]) (I := some 1) (translateFromCom := true) = .ok p :=
  (C11_ok_iff _ _ _ _ _ _).mpr (by simp)

/-! ## C12 -/

omit [LinearOrder K] [IsStrictOrderedRing K] in
/-- C12: for nonzero mass the pseudo-inertia matrix determines the body. -/
theorem C12_J_injective (p q : IP K) (hm : p.mass ≠ 0) : p.J = q.J ↔ p = q := by
  refine ⟨fun h => ?_, fun h => by rw [h]⟩
  rw [IP.J, IP.J, bordered_inj] at h
  obtain ⟨hH, hh, -, hm'⟩ := h
  ext1
  · exact hm'
  · have : p.mass • p.com = p.mass • q.com := by simpa [IP.h, hm'] using hh
    exact smul_right_injective _ hm this
  · exact hH

theorem pimMustEqualVec_eq (θ : Fin 10 → K) : pimMustEqualVec θ =
    bordered (I2H !![θ 4, θ 5, θ 6; θ 5, θ 7, θ 8; θ 6, θ 8, θ 9]) ![θ 1, θ 2, θ 3] ![θ 1, θ 2, θ 3] (θ 0) := by
  have e : bordered (I2H !![θ 4, θ 5, θ 6; θ 5, θ 7, θ 8; θ 6, θ 8, θ 9]) ![θ 1, θ 2, θ 3] ![θ 1, θ 2, θ 3] (θ 0) =
    !![(θ 7 + θ 9 - θ 4) / 2, -θ 5, -θ 6, θ 1; -θ 5, (θ 4 + θ 9 - θ 7) / 2, -θ 8, θ 2;
       -θ 6, -θ 8, (θ 4 + θ 7 - θ 9) / 2, θ 3; θ 1, θ 2, θ 3, θ 0] := by
    have e1 : I2H !![θ 4, θ 5, θ 6; θ 5, θ 7, θ 8; θ 6, θ 8, θ 9] =
      !![(θ 7 + θ 9 - θ 4) / 2, -θ 5, -θ 6; -θ 5, (θ 4 + θ 9 - θ 7) / 2, -θ 8;
       -θ 6, -θ 8, (θ 4 + θ 7 - θ 9) / 2] := by
      ext i j
      fin_cases i <;> fin_cases j <;> simp [I2H, Matrix.trace, Fin.sum_univ_three] <;> ring
    rw [e1]
    ext i j
    fin_cases i <;> fin_cases j <;> rfl
  rw [e]
  unfold pimMustEqualVec pimSumVecMatrices
  simp only [List.ofFn_succ, List.ofFn_zero, List.zip_cons_cons, List.zip_nil_right, List.map_cons,
    List.map_nil, List.sum_cons, List.sum_nil]
  ext i j
  fin_cases i <;> fin_cases j <;> simp [Matrix.single] <;> ring

/-- C12: `pim_sum_vec_matrices`/`pim_must_equal_vec` give exactly `J` as a linear combination of the
entries of the parameter vector. -/
theorem C12_pim_of_vec (p : IP K) (hH : p.Hᵀ = p.H) : pimMustEqualVec p.vec = p.J := by
  have hI := p.I_symm hH
  have s01 : p.I 1 0 = p.I 0 1 := congrFun (congrFun hI 0) 1
  have s02 : p.I 2 0 = p.I 0 2 := congrFun (congrFun hI 0) 2
  have s12 : p.I 2 1 = p.I 1 2 := congrFun (congrFun hI 1) 2
  have e : (!![p.vec 4, p.vec 5, p.vec 6; p.vec 5, p.vec 7, p.vec 8; p.vec 6, p.vec 8, p.vec 9] :
      Matrix (Fin 3) (Fin 3) K) = p.I := by
    ext i j
    fin_cases i <;> fin_cases j <;> simp [IP.vec, s01, s02, s12]
  have e2 : (![p.vec 1, p.vec 2, p.vec 3] : Fin 3 → K) = p.h := by
    ext i; fin_cases i <;> simp [IP.vec]
  have e3 : p.vec 0 = p.mass := rfl
  rw [pimMustEqualVec_eq, e, e2, e3, IP.J, IP.I, (C09_inverse p.H).1]

/-- C12: parameter vector and pseudo-inertia matrix determine each other. -/
theorem C12_vec_iff_J (p q : IP K) (hp : p.Hᵀ = p.H) (hq : q.Hᵀ = q.H) :
    p.vec = q.vec ↔ p.J = q.J := by
  constructor
  · intro h; rw [← C12_pim_of_vec p hp, ← C12_pim_of_vec q hq, h]
  · intro h
    rw [IP.J, IP.J, bordered_inj] at h
    obtain ⟨hH, hh, -, hm⟩ := h
    unfold IP.vec IP.I
    rw [hH, hh, hm]

/-- C12: a parameter vector is recovered from the matrix that `pim_must_equal_vec` assembles. -/
theorem C12_fromPim_of_vec (θ : Fin 10 → K) (hm : 0 < θ 0) :
    ∃ p, IP.fromPim (pimMustEqualVec θ) = .ok p ∧ IP.fromVec θ = .ok p ∧ p.vec = θ := by
  rw [pimMustEqualVec_eq]
  have e1 : ∀ p : IP K, p.mass = θ 0 → p.h = ![θ 1, θ 2, θ 3] →
      p.I = !![θ 4, θ 5, θ 6; θ 5, θ 7, θ 8; θ 6, θ 8, θ 9] → p.vec = θ := by
    intro p a b c
    unfold IP.vec
    rw [a, b, c]
    ext i; fin_cases i <;> rfl
  refine ⟨⟨θ 0, fun i => ![θ 1, θ 2, θ 3] i / θ 0, I2H !![θ 4, θ 5, θ 6; θ 5, θ 7, θ 8; θ 6, θ 8, θ 9]⟩,
    ?_, ?_, ?_⟩
  · exact IP.fromPim_bordered _ _ _ _ hm
  · unfold IP.fromVec
    simp [IP.init, pyAssert, hm.le, hm.ne', bind, Except.bind, pure, Except.pure, vdiv]
  · apply e1
    · rfl
    · ext i; simp only [IP.h, Pi.smul_apply, smul_eq_mul]; field_simp
    · exact (C09_inverse _).2

example : ∃ θ : Fin 10 → ℚ, 0 < θ 0 ∧ θ 5 ≠ 0 := ⟨![1, 2, 3, 4, 5, 6, 7, 8, 9, 10], by norm_num, by
  show (6 : ℚ) ≠ 0; norm_num⟩

end Field
end Rigeo
