import Verif.Props.Util
import Verif.Model.Inertial
import Mathlib.Analysis.Calculus.Deriv.Mul
import Mathlib.Analysis.Calculus.Deriv.Prod
import Mathlib.Analysis.SpecialFunctions.Trigonometric.Deriv
import Mathlib.Analysis.Calculus.Deriv.Add

/-!
# Spatial vectors, regressor and Newton-Euler equations: C04, C05, C70
-/

namespace Rigeo

open Matrix

section Field
variable {K : Type} [Field K]

/-! ## Explicit forms of the block matrices -/

theorem SV.adjoint_eq (V : SV K) : V.adjoint =
    !![0, -(V.vec 2), V.vec 1, 0, 0, 0;
       V.vec 2, 0, -(V.vec 0), 0, 0, 0;
       -(V.vec 1), V.vec 0, 0, 0, 0, 0;
       0, -(V.vec 5), V.vec 4, 0, -(V.vec 2), V.vec 1;
       V.vec 5, 0, -(V.vec 3), V.vec 2, 0, -(V.vec 0);
       -(V.vec 4), V.vec 3, 0, -(V.vec 1), V.vec 0, 0] := by
  ext i j
  fin_cases i <;> fin_cases j <;> rfl

theorem IP.M_eq (p : IP K) : p.M =
    !![p.I 0 0, p.I 0 1, p.I 0 2, 0, -(p.h 2), p.h 1;
       p.I 1 0, p.I 1 1, p.I 1 2, p.h 2, 0, -(p.h 0);
       p.I 2 0, p.I 2 1, p.I 2 2, -(p.h 1), p.h 0, 0;
       0, p.h 2, -(p.h 1), p.mass, 0, 0;
       -(p.h 2), 0, p.h 0, 0, p.mass, 0;
       p.h 1, -(p.h 0), 0, 0, 0, p.mass] := by
  have e : p.mass • (1 : Matrix (Fin 3) (Fin 3) K) = !![p.mass, 0, 0; 0, p.mass, 0; 0, 0, p.mass] := by
    ext i j
    fin_cases i <;> fin_cases j <;> simp
  have e2 : -skew3 p.h = !![0, p.h 2, -(p.h 1); -(p.h 2), 0, p.h 0; p.h 1, -(p.h 0), 0] := by
    ext i j
    fin_cases i <;> fin_cases j <;> simp [skew3]
  unfold IP.M
  dsimp only
  rw [e, e2]
  ext i j
  fin_cases i <;> fin_cases j <;> rfl

theorem lift6_eq (V : SV K) : lift6 V =
    !![0, 0, V.vec 5, -(V.vec 4), V.vec 0, V.vec 1, V.vec 2, 0, 0, 0;
       0, -(V.vec 5), 0, V.vec 3, 0, V.vec 0, 0, V.vec 1, V.vec 2, 0;
       0, V.vec 4, -(V.vec 3), 0, 0, 0, V.vec 0, 0, V.vec 1, V.vec 2;
       V.vec 3, 0, -(V.vec 2), V.vec 1, 0, 0, 0, 0, 0, 0;
       V.vec 4, V.vec 2, 0, -(V.vec 0), 0, 0, 0, 0, 0, 0;
       V.vec 5, -(V.vec 1), V.vec 0, 0, 0, 0, 0, 0, 0, 0] := by
  have e2 : -skew3 V.linear = !![0, V.vec 5, -(V.vec 4); -(V.vec 5), 0, V.vec 3; V.vec 4, -(V.vec 3), 0] := by
    ext i j
    fin_cases i <;> fin_cases j <;> simp [skew3, SV.linear]
  unfold lift6
  dsimp only
  rw [e2]
  ext i j
  fin_cases i <;> fin_cases j <;> rfl

theorem SV.fromVec_vec (w : Fin 6 → K) : (SV.fromVec w).vec = w := by
  ext i; fin_cases i <;> rfl

/-- `vech` of a 3x3 matrix lists its upper-triangular entries row by row. -/
theorem vech_three (A : Matrix (Fin 3) (Fin 3) K) :
    vech A = [A 0 0, A 0 1, A 0 2, A 1 1, A 1 2, A 2 2] := by
  have : triuIndices 3 0 = [(0, 0), (0, 1), (0, 2), (1, 1), (1, 2), (2, 2)] := by decide
  simp [vech, this]

/-- The parameter vector is the concatenation of `[mass]`, `h` and `vech(I)`. -/
theorem IP.vec_eq_concat (p : IP K) :
    List.ofFn p.vec = p.mass :: (List.ofFn p.h ++ vech p.I) := by
  rw [vech_three]
  simp [IP.vec, List.ofFn_succ]

/-! ## C04 -/

/-- C04: `lift3(x) @ vech(A) == A @ x` for symmetric `A`. -/
theorem C04_lift3 (x : Fin 3 → K) (A : Matrix (Fin 3) (Fin 3) K) (hA : Aᵀ = A) (a : Fin 6 → K)
    (ha : List.ofFn a = vech A) : lift3 x *ᵥ a = A *ᵥ x := by
  rw [vech_three] at ha
  simp only [List.ofFn_succ, List.ofFn_zero, List.cons.injEq] at ha
  obtain ⟨h0, h1, h2, h3, h4, h5, -⟩ := ha
  have s01 : A 1 0 = A 0 1 := congrFun (congrFun hA 0) 1
  have s02 : A 2 0 = A 0 2 := congrFun (congrFun hA 0) 2
  have s12 : A 2 1 = A 1 2 := congrFun (congrFun hA 1) 2
  have e : a = ![A 0 0, A 0 1, A 0 2, A 1 1, A 1 2, A 2 2] := by
    ext i; fin_cases i
    · exact h0
    · exact h1
    · exact h2
    · exact h3
    · exact h4
    · exact h5
  rw [e]
  ext i
  fin_cases i <;>
    simp [lift3, mulVec, dotProduct, Fin.sum_univ_six, Fin.sum_univ_three, s01, s02, s12] <;> ring

theorem IP.I_symm (p : IP K) (hH : p.Hᵀ = p.H) : p.Iᵀ = p.I := by
  simp [IP.I, H2I, hH]

/-- C04: `lift6(V) @ params.vec == params.M @ V.vec` for every spatial vector and every parameters
with symmetric second moment matrix. -/
theorem C04_lift6 (p : IP K) (hH : p.Hᵀ = p.H) (V : SV K) : lift6 V *ᵥ p.vec = p.M *ᵥ V.vec := by
  have hI := p.I_symm hH
  have s01 : p.I 1 0 = p.I 0 1 := congrFun (congrFun hI 0) 1
  have s02 : p.I 2 0 = p.I 0 2 := congrFun (congrFun hI 0) 2
  have s12 : p.I 2 1 = p.I 1 2 := congrFun (congrFun hI 1) 2
  rw [lift6_eq, IP.M_eq]
  ext i
  fin_cases i <;>
    simp [IP.vec, mulVec, dotProduct, Fin.sum_univ_succ, s01, s02, s12] <;> ring

/-- C04: the regressor times the parameter vector is the body wrench. -/
theorem C04_regressor (p : IP K) (hH : p.Hᵀ = p.H) (V A : SV K) :
    regressor V A *ᵥ p.vec = (p.bodyWrench V A).vec := by
  unfold regressor IP.bodyWrench
  rw [sub_mulVec, ← mulVec_mulVec, C04_lift6 p hH, C04_lift6 p hH, SV.fromVec_vec, mulVec_mulVec]

/-- The hypotheses are satisfiable, and symmetry is needed: with a non-symmetric `H` the lifted
product differs from `M @ V`. -/
example : ∃ (p : IP ℚ) (V : SV ℚ), lift6 V *ᵥ p.vec ≠ p.M *ᵥ V.vec := by
  refine ⟨⟨1, 0, !![0, 1, 0; 0, 0, 0; 0, 0, 0]⟩, ⟨![1, 0, 0, 0, 0, 0]⟩, fun h => ?_⟩
  have := congrFun h 1
  rw [lift6_eq, IP.M_eq] at this
  simp [IP.vec, IP.I, H2I, IP.h, mulVec, dotProduct, Fin.sum_univ_succ] at this

example : ∃ p : IP ℚ, p.Hᵀ = p.H ∧ p.H ≠ 0 ∧ p.mass = 2 :=
  ⟨⟨2, ![1, 2, 3], !![1, 2, 3; 2, 4, 5; 3, 5, 6]⟩, by
    constructor
    · ext i j; fin_cases i <;> fin_cases j <;> rfl
    · refine ⟨fun h => ?_, rfl⟩
      have := congrFun (congrFun h 0) 0
      simp at this⟩

/-! ## C05: Newton-Euler -/

private theorem wrench_parts (p : IP K) (V A : SV K) :
    (p.bodyWrench V A).linear =
        p.mass • A.linear + A.angular ⨯₃ p.h + V.angular ⨯₃ (p.mass • V.linear + V.angular ⨯₃ p.h) ∧
    (p.bodyWrench V A).angular =
        p.I *ᵥ A.angular + p.h ⨯₃ A.linear + V.angular ⨯₃ (p.I *ᵥ V.angular + p.h ⨯₃ V.linear)
          + V.linear ⨯₃ (p.mass • V.linear + V.angular ⨯₃ p.h) := by
  unfold IP.bodyWrench
  rw [SV.adjoint_eq, IP.M_eq]
  constructor <;> ext i <;> fin_cases i <;>
    simp [SV.linear, SV.angular, SV.fromVec_vec, mulVec, Matrix.mul_apply, dotProduct, Fin.sum_univ_six,
      Fin.sum_univ_three, cross_apply, vecHead, vecTail] <;> ring

/-- C05: `body_wrench(V, A)` in closed form, with `P = m v + ω × h` the linear momentum and
`L = I ω + h × v` the angular momentum about the reference point:
`force = m a + α × h + ω × P` and `torque = I α + h × a + ω × L + v × P`. -/
theorem C05_newton_euler (p : IP K) (v ω a α : Fin 3 → K) :
    let P := p.mass • v + ω ⨯₃ p.h
    let L := p.I *ᵥ ω + p.h ⨯₃ v
    let w := p.bodyWrench (SV.mk' (some v) (some ω)) (SV.mk' (some a) (some α))
    w.linear = p.mass • a + α ⨯₃ p.h + ω ⨯₃ P ∧
    w.angular = p.I *ᵥ α + p.h ⨯₃ a + ω ⨯₃ L + v ⨯₃ P := by
  have h1 : ∀ x y : Fin 3 → K, (SV.mk' (some x) (some y)).linear = x := by
    intro x y; ext i; fin_cases i <;> rfl
  have h2 : ∀ x y : Fin 3 → K, (SV.mk' (some x) (some y)).angular = y := by
    intro x y; ext i; fin_cases i <;> rfl
  have := wrench_parts p (SV.mk' (some v) (some ω)) (SV.mk' (some a) (some α))
  simpa only [h1, h2] using this

/-- C05: passivity, the velocity-product wrench does no work: `V . body_wrench(V, 0) = 0`. -/
theorem C05_passive (p : IP K) (hH : p.Hᵀ = p.H) (V : SV K) :
    V.vec ⬝ᵥ (p.bodyWrench V SV.zero).vec = 0 := by
  have hI := p.I_symm hH
  have s01 : p.I 1 0 = p.I 0 1 := congrFun (congrFun hI 0) 1
  have s02 : p.I 2 0 = p.I 0 2 := congrFun (congrFun hI 0) 2
  have s12 : p.I 2 1 = p.I 1 2 := congrFun (congrFun hI 1) 2
  unfold IP.bodyWrench
  rw [SV.adjoint_eq, IP.M_eq, SV.fromVec_vec]
  simp [SV.zero, SV.mk', mulVec, Matrix.mul_apply, dotProduct, Fin.sum_univ_six, s01, s02, s12]
  ring

/-- Acceleration, in body coordinates, of the material point `x` of a body with twist `(v, ω)` and
twist derivative `(a, α)`. -/
theorem wrench_of_point_masses (s : Spec.PointMasses K 3) (p : IP K) (hm : p.mass = s.mass)
    (hh : p.h = s.first) (hI : p.I = s.inertia) (V A : SV K) :
    let acc := fun x : Fin 3 → K => A.linear + A.angular ⨯₃ x + V.angular ⨯₃ (V.linear + V.angular ⨯₃ x)
    (p.bodyWrench V A).linear = (s.map fun mp => mp.1 • acc mp.2).sum ∧
    (p.bodyWrench V A).angular = (s.map fun mp => mp.1 • (mp.2 ⨯₃ acc mp.2)).sum := by
  intro acc
  obtain ⟨h1, h2⟩ := wrench_parts p V A
  rw [h1, h2, hm, hh, hI]
  clear h1 h2 hm hh hI p
  induction s with
  | nil => simp [Spec.PointMasses.mass, Spec.PointMasses.first, Spec.PointMasses.inertia]
  | cons mp s ih =>
    obtain ⟨m, x⟩ := mp
    have e1 : Spec.PointMasses.mass ((m, x) :: s) = m + Spec.PointMasses.mass s := by
      simp [Spec.PointMasses.mass]
    have e2 : Spec.PointMasses.first ((m, x) :: s) = m • x + Spec.PointMasses.first s := by
      simp [Spec.PointMasses.first]
    have e3 : Spec.PointMasses.inertia ((m, x) :: s) =
        m • ((x ⬝ᵥ x) • 1 - vecMulVec x x) + Spec.PointMasses.inertia s := by
      simp [Spec.PointMasses.inertia]
    rw [List.map_cons, List.sum_cons, List.map_cons, List.sum_cons, ← ih.1, ← ih.2, e1, e2, e3]
    constructor
    · simp only [acc, add_smul, map_add, LinearMap.add_apply, smul_add, map_smul]
      abel
    · have key : (m • ((x ⬝ᵥ x) • (1 : Matrix (Fin 3) (Fin 3) K) - vecMulVec x x)) *ᵥ A.angular =
          m • (x ⨯₃ (A.angular ⨯₃ x)) := by
        rw [smul_mulVec]
        congr 1
        ext i
        fin_cases i <;> simp [mulVec, dotProduct, Fin.sum_univ_three, cross_apply, vecMulVec_apply, Matrix.one_apply] <;> ring
      have key2 : (m • ((x ⬝ᵥ x) • (1 : Matrix (Fin 3) (Fin 3) K) - vecMulVec x x)) *ᵥ V.angular =
          m • (x ⨯₃ (V.angular ⨯₃ x)) := by
        rw [smul_mulVec]
        congr 1
        ext i
        fin_cases i <;> simp [mulVec, dotProduct, Fin.sum_univ_three, cross_apply, vecMulVec_apply, Matrix.one_apply] <;> ring
      rw [add_mulVec, add_mulVec, key, key2]
      simp only [acc]
      generalize V.angular = ω
      generalize V.linear = v
      generalize A.angular = α
      generalize A.linear = a
      simp only [add_smul, map_add, LinearMap.add_apply, smul_add, map_smul, LinearMap.smul_apply, cross_self,
        smul_zero]
      have j1 : ω ⨯₃ (x ⨯₃ v) + v ⨯₃ (ω ⨯₃ x) = x ⨯₃ (ω ⨯₃ v) := by
        ext i; fin_cases i <;> simp [cross_apply] <;> ring
      have j2 : ω ⨯₃ (x ⨯₃ (ω ⨯₃ x)) = x ⨯₃ (ω ⨯₃ (ω ⨯₃ x)) := by
        ext i; fin_cases i <;> simp [cross_apply] <;> ring
      rw [← j1, ← j2, smul_add]
      abel

end Field

/-- C05: **Newton's second law.** Take any finite system of point masses fixed in a moving body frame
with pose `x ↦ R(τ) x + r(τ)`, body twist `(v, ω)` (so `(R x)' = R (ω × x)`, `r' = R v`) and body
accelerations `a = v'`, `α = ω'`. Then each point has a world acceleration `ddx`, and
`body_wrench` evaluated with the system's inertial parameters is exactly the total force
`Σ mᵢ Rᵀ ẍᵢ` and total moment `Σ mᵢ xᵢ × (Rᵀ ẍᵢ)`, expressed in the body frame. -/
theorem C05_newton_second_law (s : Spec.PointMasses ℝ 3) (p : IP ℝ) (hm : p.mass = s.mass)
    (hh : p.h = s.first) (hI : p.I = s.inertia)
    (R : ℝ → Matrix (Fin 3) (Fin 3) ℝ) (r v ω a α : ℝ → Fin 3 → ℝ)
    (hR : ∀ τ, Spec.Orthogonal (R τ))
    (hRx : ∀ τ x, HasDerivAt (fun t => R t *ᵥ x) (R τ *ᵥ (ω τ ⨯₃ x)) τ)
    (hr' : ∀ τ, HasDerivAt r (R τ *ᵥ v τ) τ)
    (hv' : ∀ τ, HasDerivAt v (a τ) τ) (hω' : ∀ τ, HasDerivAt ω (α τ) τ) :
    ∃ (dx ddx : (Fin 3 → ℝ) → ℝ → Fin 3 → ℝ),
      (∀ x τ, HasDerivAt (fun t => R t *ᵥ x + r t) (dx x τ) τ) ∧
      (∀ x τ, HasDerivAt (dx x) (ddx x τ) τ) ∧
      ∀ τ,
        let w := p.bodyWrench (SV.mk' (some (v τ)) (some (ω τ))) (SV.mk' (some (a τ)) (some (α τ)))
        w.linear = (s.map fun mp => mp.1 • ((R τ)ᵀ *ᵥ ddx mp.2 τ)).sum ∧
        w.angular = (s.map fun mp => mp.1 • (mp.2 ⨯₃ ((R τ)ᵀ *ᵥ ddx mp.2 τ))).sum := by
  have hR' : ∀ τ i j, HasDerivAt (fun t => R t i j) ((R τ * skew3 (ω τ)) i j) τ := by
    intro τ i j
    have := (hasDerivAt_pi.mp (hRx τ (Pi.single j 1))) i
    simp only [mulVec_single_one, Matrix.col_apply] at this
    rw [← C03_skew3_mulVec, mulVec_mulVec, mulVec_single_one, Matrix.col_apply] at this
    exact this
  have hRu : ∀ (u du : ℝ → Fin 3 → ℝ), (∀ τ, HasDerivAt u (du τ) τ) → ∀ τ,
      HasDerivAt (fun t => R t *ᵥ u t) (R τ *ᵥ (ω τ ⨯₃ u τ + du τ)) τ := by
    intro u du hu τ
    rw [hasDerivAt_pi]
    intro i
    have hu' := fun j => (hasDerivAt_pi.mp (hu τ)) j
    have := HasDerivAt.fun_sum (u := Finset.univ) fun j _ => (hR' τ i j).fun_mul (hu' j)
    have e2 : ∑ j, ((R τ * skew3 (ω τ)) i j * u τ j + R τ i j * du τ j) =
        (R τ *ᵥ (ω τ ⨯₃ u τ + du τ)) i := by
      rw [mulVec_add, Pi.add_apply, ← C03_skew3_mulVec, mulVec_mulVec, Finset.sum_add_distrib]
      rfl
    rw [e2] at this
    exact this
  have hconst : ∀ (x : Fin 3 → ℝ) τ, HasDerivAt (fun _ : ℝ => x) 0 τ := fun x τ => hasDerivAt_const τ x
  have hω1 : ∀ (x : Fin 3 → ℝ) τ, HasDerivAt (fun t => v t + ω t ⨯₃ x) (a τ + α τ ⨯₃ x) τ := by
    intro x τ
    refine (hv' τ).add ?_
    have hω'' := fun j => (hasDerivAt_pi.mp (hω' τ)) j
    rw [hasDerivAt_pi]
    intro i
    fin_cases i
    · simpa [cross_apply] using ((hω'' 1).mul_const (x 2)).fun_sub ((hω'' 2).mul_const (x 1))
    · simpa [cross_apply] using ((hω'' 2).mul_const (x 0)).fun_sub ((hω'' 0).mul_const (x 2))
    · simpa [cross_apply] using ((hω'' 0).mul_const (x 1)).fun_sub ((hω'' 1).mul_const (x 0))
  refine ⟨fun x t => R t *ᵥ (v t + ω t ⨯₃ x),
    fun x t => R t *ᵥ (ω t ⨯₃ (v t + ω t ⨯₃ x) + (a t + α t ⨯₃ x)), ?_, ?_, ?_⟩
  · intro x τ
    have := (hRu (fun _ => x) (fun _ => 0) (hconst x) τ).add (hr' τ)
    have e : R τ *ᵥ (ω τ ⨯₃ x + 0) + R τ *ᵥ v τ = R τ *ᵥ (v τ + ω τ ⨯₃ x) := by
      rw [add_zero, ← mulVec_add, add_comm]
    rw [e] at this
    exact this
  · intro x τ
    exact hRu _ _ (hω1 x) τ
  · intro τ
    have h1 : ∀ x y : Fin 3 → ℝ, (SV.mk' (some x) (some y)).linear = x := by
      intro x y; ext i; fin_cases i <;> rfl
    have h2 : ∀ x y : Fin 3 → ℝ, (SV.mk' (some x) (some y)).angular = y := by
      intro x y; ext i; fin_cases i <;> rfl
    have key := wrench_of_point_masses s p hm hh hI
      (SV.mk' (some (v τ)) (some (ω τ))) (SV.mk' (some (a τ)) (some (α τ)))
    simp only [h1, h2] at key
    have hRR : ∀ y, (R τ)ᵀ *ᵥ (R τ *ᵥ y) = y := by
      intro y; rw [mulVec_mulVec, hR τ, one_mulVec]
    simp only [hRR]
    refine ⟨key.1.trans ?_, key.2.trans ?_⟩
    · refine congrArg List.sum (List.map_congr_left fun mp _ => ?_)
      congr 1; abel
    · refine congrArg List.sum (List.map_congr_left fun mp _ => ?_)
      congr 2; abel

/-- The hypotheses of `C05_newton_second_law` are met by a spinning, accelerating two-point body:
rotation about the z axis with angle `τ`, so `ω = e_z`. -/
example : ∃ (R : ℝ → Matrix (Fin 3) (Fin 3) ℝ) (r v ω a α : ℝ → Fin 3 → ℝ),
    (∀ τ, Spec.Orthogonal (R τ)) ∧
    (∀ τ x, HasDerivAt (fun t => R t *ᵥ x) (R τ *ᵥ (ω τ ⨯₃ x)) τ) ∧
    (∀ τ, HasDerivAt r (R τ *ᵥ v τ) τ) ∧ (∀ τ, HasDerivAt v (a τ) τ) ∧
    (∀ τ, HasDerivAt ω (α τ) τ) ∧ (∀ τ, ω τ = ![0, 0, 1]) := by
  refine ⟨fun t => !![Real.cos t, -Real.sin t, 0; Real.sin t, Real.cos t, 0; 0, 0, 1],
    fun t => ![0, 0, t], fun _ => ![0, 0, 1], fun _ => ![0, 0, 1], 0, 0, ?_, ?_, ?_, ?_, ?_, fun _ => rfl⟩
  · intro τ
    have := Real.sin_sq_add_cos_sq τ
    ext i j
    fin_cases i <;> fin_cases j <;> simp [Matrix.mul_apply, Fin.sum_univ_three] <;> nlinarith
  · intro τ x
    have hc := Real.hasDerivAt_cos τ
    have hs := Real.hasDerivAt_sin τ
    rw [hasDerivAt_pi]
    intro i
    fin_cases i
    · convert (hc.mul_const (x 0)).fun_sub (hs.mul_const (x 1)) using 1
      · ext t; simp [mulVec, dotProduct, Fin.sum_univ_three]; ring
      · simp [mulVec, dotProduct, Fin.sum_univ_three, cross_apply]; ring
    · convert (hs.mul_const (x 0)).fun_add (hc.mul_const (x 1)) using 1
      · ext t; simp [mulVec, dotProduct, Fin.sum_univ_three]
      · simp [mulVec, dotProduct, Fin.sum_univ_three, cross_apply]; ring
    · convert hasDerivAt_const τ (x 2) using 1
      · ext t; simp [mulVec, dotProduct, Fin.sum_univ_three]
      · simp [mulVec, dotProduct, Fin.sum_univ_three, cross_apply]
  · intro τ
    rw [hasDerivAt_pi]
    intro i
    fin_cases i <;> simp [mulVec, dotProduct, Fin.sum_univ_three, hasDerivAt_const]
    exact hasDerivAt_id τ
  · intro τ; exact hasDerivAt_const τ _
  · intro τ; exact hasDerivAt_const τ _

/-! ## C70: spatial vectors -/

section Field
variable {K : Type} [Field K]

/-- C70: `from_vec` and the `linear`/`angular` constructor are inverse to the accessors, and `vec`
lists the angular part first. -/
theorem C70_representation (V : SV K) (l a : Fin 3 → K) :
    SV.fromVec V.vec = V ∧ SV.mk' (some V.linear) (some V.angular) = V ∧
    (SV.mk' (some l) (some a)).linear = l ∧ (SV.mk' (some l) (some a)).angular = a ∧
    (SV.mk' none none : SV K).vec = 0 ∧ (SV.zero : SV K).vec = 0 ∧
    List.ofFn V.vec = List.ofFn V.angular ++ List.ofFn V.linear := by
  refine ⟨?_, ?_, ?_, ?_, ?_, ?_, ?_⟩
  · ext i; fin_cases i <;> rfl
  · ext i; fin_cases i <;> rfl
  · ext i; fin_cases i <;> rfl
  · ext i; fin_cases i <;> rfl
  · ext i; fin_cases i <;> rfl
  · ext i; fin_cases i <;> rfl
  · simp [List.ofFn_succ, SV.angular, SV.linear]

/-- C70: arithmetic acts componentwise on the 6-vector. Together with injectivity of `vec`
(`SV.ext`) this makes spatial vectors a vector space. -/
theorem C70_componentwise [DecidableEq K] (V W : SV K) (c : K) :
    (V.add W).vec = V.vec + W.vec ∧ (V.sub W).vec = V.vec - W.vec ∧ (V.mul c).vec = c • V.vec ∧
    (c ≠ 0 → V.truediv c = .ok ⟨c⁻¹ • V.vec⟩) ∧ V.truediv 0 = .error .nonfinite := by
  refine ⟨?_, ?_, ?_, fun hc => ?_, ?_⟩
  · ext i; fin_cases i <;> rfl
  · ext i; fin_cases i <;> rfl
  · ext i; fin_cases i <;> simp [SV.mul, SV.mk', SV.linear, SV.angular, mul_comm]
  · simp only [SV.truediv, if_neg hc]
    congr 2
    ext i; fin_cases i <;> simp [SV.mk', SV.linear, SV.angular, div_eq_inv_mul]
  · simp [SV.truediv]

theorem SV.adjoint_mulVec (V W : SV K) : SV.adjoint V *ᵥ W.vec =
    (SV.mk' (some (V.linear ⨯₃ W.angular + V.angular ⨯₃ W.linear)) (some (V.angular ⨯₃ W.angular))).vec := by
  rw [SV.adjoint_eq]
  ext i
  fin_cases i <;> simp [SV.mk', SV.linear, SV.angular, mulVec, dotProduct, Fin.sum_univ_six, cross_apply] <;> ring

/-- C70: the adjoint is the spatial cross product: `(ω, v) ↦ (ω × ω', v × ω' + ω × v')`; it is linear
in the spatial vector, alternating, and satisfies the Jacobi identity, i.e. it is the Lie bracket of
rigid-body velocities. -/
theorem C70_adjoint [DecidableEq K] (V W U : SV K) (c : K) :
    SV.angular ⟨V.adjoint *ᵥ W.vec⟩ = V.angular ⨯₃ W.angular ∧
    SV.linear ⟨V.adjoint *ᵥ W.vec⟩ = V.linear ⨯₃ W.angular + V.angular ⨯₃ W.linear ∧
    (V.add W).adjoint = V.adjoint + W.adjoint ∧ (V.mul c).adjoint = c • V.adjoint ∧
    V.adjoint *ᵥ V.vec = 0 ∧ V.adjoint *ᵥ W.vec = -(W.adjoint *ᵥ V.vec) ∧
    V.adjoint *ᵥ (W.adjoint *ᵥ U.vec) =
      (SV.fromVec (V.adjoint *ᵥ W.vec)).adjoint *ᵥ U.vec + W.adjoint *ᵥ (V.adjoint *ᵥ U.vec) := by
  have hc := C70_componentwise V W c
  refine ⟨?_, ?_, ?_, ?_, ?_, ?_, ?_⟩
  · rw [SV.adjoint_mulVec]; ext i; fin_cases i <;> rfl
  · rw [SV.adjoint_mulVec]; ext i; fin_cases i <;> rfl
  · simp only [SV.adjoint_eq, hc.1]
    ext i j; fin_cases i <;> fin_cases j <;> simp <;> ring
  · simp only [SV.adjoint_eq, hc.2.2.1]
    ext i j; fin_cases i <;> fin_cases j <;> simp
  · rw [SV.adjoint_eq]
    ext i; fin_cases i <;> simp [mulVec, dotProduct, Fin.sum_univ_six] <;> ring
  · rw [SV.adjoint_eq, SV.adjoint_eq]
    ext i; fin_cases i <;> simp [mulVec, dotProduct, Fin.sum_univ_six] <;> ring
  · simp only [SV.adjoint_eq, SV.fromVec_vec]
    ext i; fin_cases i <;> simp [mulVec, dotProduct, Fin.sum_univ_six] <;> ring

example : (SV.mk' (some ![(1 : ℚ), 2, 3]) (some ![4, 5, 6])).vec = ![4, 5, 6, 1, 2, 3] := rfl

end Field
end Rigeo
