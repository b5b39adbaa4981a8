import Verif.Props.Identify2

/-!
# C80: identification with point masses at given points
-/

namespace Rigeo

open Matrix

namespace DiscretizedIdentificationProblem
variable {no k : ℕ}

theorem cost_eq (P : IdentificationProblem 1 no k) (hno : no ≠ 0) (θ : Fin 10 → ℝ) :
    cost P θ = .ok (1 / 2 / no * Spec.lsq P.As P.bs (P.W0.getD 1) fun _ => θ) := by
  unfold cost
  rw [C78_value _ _ _ _ hno one_ne_zero]
  rfl

/-- The matrices of the point masses add up to the pseudo-inertia matrix of their distribution. -/
theorem pointMasses_iff (points : List (Fin 3 → ℝ)) (q : IP ℝ) :
    (∃ μs : List ℝ, μs.length = points.length ∧ (∀ μ ∈ μs, 0 ≤ μ) ∧
      q.J = ((μs.zip (points.map IP.hom)).map fun mp => mp.1 • outer mp.2 mp.2).sum) ↔
    Spec.Realizable {p | p ∈ points} q.mass q.h q.H := by
  have e : ∀ μs : List ℝ, ((μs.zip (points.map IP.hom)).map fun mp => mp.1 • outer mp.2 mp.2) =
      ((μs.zip points).map fun mp => mp.1 • outer (Fin.snoc (α := fun _ => ℝ) mp.2 1) (Fin.snoc (α := fun _ => ℝ) mp.2 1)) := by
    intro μs
    rw [List.zip_map_right, List.map_map]
    rfl
  constructor
  · rintro ⟨μs, -, hμ, hJ⟩
    rw [e, ← pm_bordered] at hJ
    obtain ⟨h1, h2, -, h4⟩ := bordered_inj.mp hJ
    exact ⟨μs.zip points, fun mp h => hμ _ (List.of_mem_zip h).1, fun mp h => (List.of_mem_zip h).2, h4.symm, h2.symm, h1.symm⟩
  · rintro ⟨s, hs, hw, h1, h2, h3⟩
    obtain ⟨w, hw0, hwJ⟩ : ∃ w : Fin points.length → ℝ, (∀ i, 0 ≤ w i) ∧
        bordered s.second s.first s.first s.mass = ∑ i, w i • outer (IP.hom points[i]) (IP.hom points[i]) := by
      rw [pm_bordered]
      clear h1 h2 h3
      induction s with
      | nil => exact ⟨0, fun _ => le_rfl, by simp⟩
      | cons mp s ih =>
        obtain ⟨w, hw0, hwJ⟩ := ih (fun x hx => hs x (List.mem_cons_of_mem _ hx)) fun x hx => hw x (List.mem_cons_of_mem _ hx)
        obtain ⟨i, hi, hp⟩ := List.mem_iff_getElem.mp (hw mp (by simp))
        refine ⟨w + Pi.single ⟨i, hi⟩ mp.1, fun j => add_nonneg (hw0 j) ?_, ?_⟩
        · by_cases hj : j = ⟨i, hi⟩
          · subst hj; rw [Pi.single_eq_same]; exact hs mp (by simp)
          · rw [Pi.single_eq_of_ne hj]
        · rw [List.map_cons, List.sum_cons, hwJ]
          simp only [Pi.add_apply, add_smul, Finset.sum_add_distrib]
          refine (add_comm _ _).trans (congrArg₂ _ rfl ?_)
          rw [Finset.sum_eq_single ⟨i, hi⟩]
          · rw [Pi.single_eq_same]
            simp only [Fin.getElem_fin, hp]
            rfl
          · intro j _ hj; rw [Pi.single_eq_of_ne hj, zero_smul]
          · simp
    refine ⟨List.ofFn w, by simp, ?_, ?_⟩
    · intro μ hμ
      obtain ⟨i, rfl⟩ := List.mem_ofFn.mp hμ
      exact hw0 i
    · rw [IP.J, ← h1, ← h2, ← h3, hwJ, ← List.sum_ofFn]
      congr 1
      apply List.ext_getElem
      · simp
      · intro i h1 h2; simp

theorem constraints_holds (points : List (Fin 3 → ℝ)) (hne : points ≠ []) (com : Option (AnyShape ℝ))
    (hcom : ∀ s, com = some s → s.Valid) (q : IP ℝ) (hm : 0 < q.mass) (hH : q.Hᵀ = q.H) :
    Py.Holds (constraints points com q.vec) ↔
      Spec.Realizable {p | p ∈ points} q.mass q.h q.H ∧ ∀ s, com = some s → q.com ∈ Spec.region s := by
  unfold constraints
  rw [← pointMasses_iff, C12_pim_of_vec q hH, List.isEmpty_eq_false_iff.mpr hne]
  cases com with
  | none => exact holds_ok.trans (by simp)
  | some s =>
    have h1 := IdentificationProblem.comConstraint_iff (hcom s rfl) q hm
    have h2 : ∃ c, comConstraint s q.J = .ok c := mustContainScaled_ok (hcom s rfl) _ _
    obtain ⟨c, hc⟩ := h2
    rw [hc, holds_ok] at h1
    unfold comConstraintOpt
    dsimp only
    rw [hc]
    exact holds_ok.trans (by simp [h1])

/-- The objective handed to the solver. -/
noncomputable def objective (P : IdentificationProblem 1 no k) : (Fin 10 → ℝ) → ℝ :=
  fun θ => (cost P θ).toOption.getD 0

theorem objective_eq (P : IdentificationProblem 1 no k) (hno : no ≠ 0) (θ : Fin 10 → ℝ) :
    objective P θ = 1 / 2 / no * Spec.lsq P.As P.bs (P.W0.getD 1) fun _ => θ := by
  unfold objective
  rw [cost_eq P hno]
  rfl

theorem constraints_ok (points : List (Fin 3 → ℝ)) (hne : points ≠ []) (com : Option (AnyShape ℝ))
    (hcom : ∀ s, com = some s → s.Valid) : ∃ c, constraints points com 0 = .ok c := by
  unfold constraints
  rw [List.isEmpty_eq_false_iff.mpr hne]
  cases com with
  | none => exact ⟨_, rfl⟩
  | some s =>
    obtain ⟨c, hc⟩ : ∃ c, comConstraint s (pimMustEqualVec 0) = .ok c := mustContainScaled_ok (hcom s rfl) _ _
    unfold comConstraintOpt
    dsimp only
    rw [hc]
    exact ⟨_, rfl⟩

theorem solve_eq {solver : ((Fin 10 → ℝ) → ℝ) → ((Fin 10 → ℝ) → Prop) → Option (Fin 10 → ℝ)}
    {P : IdentificationProblem 1 no k} (hno : no ≠ 0) {points : List (Fin 3 → ℝ)} (hne : points ≠ [])
    {com : Option (AnyShape ℝ)} (hcom : ∀ s, com = some s → s.Valid) :
    solve solver P points com =
      match solver (objective P) (fun θ => Py.Holds (constraints points com θ)) with
      | none => .error .assertion
      | some θ => (IP.fromVec θ).map fun p => ⟨[p], objective P θ⟩ := by
  unfold solve
  obtain ⟨c, hc⟩ := constraints_ok points hne com hcom
  rw [cost_eq P hno, hc]
  show (match solver (objective P) fun θ => Py.Holds (constraints points com θ) with
      | none => throw PyErr.assertion
      | some θ => do
        let p ← IP.fromVec θ
        pure ({ params := [p], objective := objective P θ } : IdentificationResult)) = _
  cases solver (objective P) (fun θ => Py.Holds (constraints points com θ)) with
  | none => rfl
  | some θ =>
    show (IP.fromVec θ >>= fun p =>
            pure ({ params := [p], objective := objective P θ } : IdentificationResult)) =
          (IP.fromVec θ).map fun p => ⟨[p], objective P θ⟩
    cases IP.fromVec θ <;> rfl

end DiscretizedIdentificationProblem

/-! ## C80 -/

section C80
variable {no k : ℕ} (solver : ((Fin 10 → ℝ) → ℝ) → ((Fin 10 → ℝ) → Prop) → Option (Fin 10 → ℝ))
  (hsolver : Spec.IsSolver solver) (P : IdentificationProblem 1 no k) (points : List (Fin 3 → ℝ))
  (com : Option (AnyShape ℝ)) (hcom : ∀ s, com = some s → s.Valid)
include hsolver hcom

/-- C80: what the discretized problem returns is a body with positive mass made of non-negative masses at the given
points, with its center of mass in the bounding shape, and of all such bodies it has the smallest weighted squared
error, which is the returned objective. -/
theorem C80_result (hno : no ≠ 0) (hne : points ≠ []) (res : IdentificationResult)
    (h : DiscretizedIdentificationProblem.solve solver P points com = .ok res) :
    ∃ p, res.params = [p] ∧ 0 < p.mass ∧ Spec.Realizable {x | x ∈ points} p.mass p.h p.H ∧
      (∀ s, com = some s → p.com ∈ Spec.region s) ∧
      res.objective = 1 / 2 / no * Spec.lsq P.As P.bs (P.W0.getD 1) (fun _ => p.vec) ∧
      ∀ q : IP ℝ, 0 < q.mass → Spec.Realizable {x | x ∈ points} q.mass q.h q.H →
        (∀ s, com = some s → q.com ∈ Spec.region s) →
        res.objective ≤ 1 / 2 / no * Spec.lsq P.As P.bs (P.W0.getD 1) (fun _ => q.vec) := by
  rw [DiscretizedIdentificationProblem.solve_eq hno hne hcom] at h
  cases hθ : solver (DiscretizedIdentificationProblem.objective P)
      (fun θ => Py.Holds (DiscretizedIdentificationProblem.constraints points com θ)) with
  | none => rw [hθ] at h; cases h
  | some θ =>
    rw [hθ] at h
    dsimp only at h
    cases hp : IP.fromVec θ with
    | error e => rw [hp] at h; cases h
    | ok p =>
      rw [hp] at h
      obtain rfl : (⟨[p], _⟩ : IdentificationResult) = res := Except.ok.inj h
      obtain ⟨hm, hH, hv, -⟩ := fromVec_ok hp
      obtain ⟨hf, hopt⟩ := hsolver _ _ _ hθ
      rw [← hv, DiscretizedIdentificationProblem.constraints_holds points hne com hcom p hm hH] at hf
      refine ⟨p, rfl, hm, hf.1, hf.2, ?_, fun q hq hr hc => ?_⟩
      · dsimp only
        rw [DiscretizedIdentificationProblem.objective_eq P hno, hv]
      · dsimp only
        rw [← DiscretizedIdentificationProblem.objective_eq P hno]
        exact hopt _ ((DiscretizedIdentificationProblem.constraints_holds points hne com hcom q hq hr.symm).mpr ⟨hr, hc⟩)

/-- C80: noise-free data that determine the parameters give back the true parameters. -/
theorem C80_recovers (hfinds : Spec.FindsOptimum solver) (hno : no ≠ 0) (hne : points ≠ [])
    (hW : Spec.PD (P.W0.getD 1)) (q : IP ℝ) (hq : 0 < q.mass) (hr : Spec.Realizable {x | x ∈ points} q.mass q.h q.H)
    (hc : ∀ s, com = some s → q.com ∈ Spec.region s)
    (hexact : ∀ o, Spec.residual (P.As o) (P.bs o) (fun _ => q.vec) = 0)
    (hident : ∀ θ, (∀ o, Spec.residual (P.As o) (P.bs o) (fun _ => θ) = 0) → θ = q.vec) :
    DiscretizedIdentificationProblem.solve solver P points com = .ok ⟨[q], 0⟩ := by
  have hpos : (0 : ℝ) < 1 / 2 / no := by
    have : (0 : ℝ) < no := by exact_mod_cast Nat.pos_of_ne_zero hno
    positivity
  have hnn : ∀ θ, 0 ≤ DiscretizedIdentificationProblem.objective P θ := fun θ => by
    rw [DiscretizedIdentificationProblem.objective_eq P hno]; exact mul_nonneg hpos.le (lsq_nonneg _ _ _ hW _)
  have hz : DiscretizedIdentificationProblem.objective P q.vec = 0 := by
    rw [DiscretizedIdentificationProblem.objective_eq P hno, Spec.lsq]; simp [hexact]
  have hfeas := (DiscretizedIdentificationProblem.constraints_holds points hne com hcom q hq hr.symm).mpr ⟨hr, hc⟩
  rw [DiscretizedIdentificationProblem.solve_eq hno hne hcom]
  cases hθ : solver (DiscretizedIdentificationProblem.objective P)
      (fun θ => Py.Holds (DiscretizedIdentificationProblem.constraints points com θ)) with
  | none => exact absurd hθ (hfinds _ _ _ hfeas fun θ _ => by rw [hz]; exact hnn θ)
  | some θ =>
    obtain ⟨-, hopt⟩ := hsolver _ _ _ hθ
    have h1 : DiscretizedIdentificationProblem.objective P θ = 0 := le_antisymm (hz ▸ hopt _ hfeas) (hnn θ)
    have h2 : Spec.lsq P.As P.bs (P.W0.getD 1) (fun _ => θ) = 0 := by
      have := DiscretizedIdentificationProblem.objective_eq P hno θ
      rw [h1] at this
      exact (mul_eq_zero.mp this.symm).resolve_left hpos.ne'
    have h3 := (C78_zero_iff (fun _ : Fin 1 => θ) P.As P.bs P.W0 hW hno one_ne_zero).mp
      (by rw [C78_value _ _ _ _ hno one_ne_zero, h2])
    obtain rfl := hident θ h3
    dsimp only
    rw [C10_fromVec_vec q hq hr.symm, hz]
    rfl

omit hsolver hcom in
/-- C80: the regularization weight `γ` and the lower bound `ε` of the problem have no effect. -/
theorem C80_ignored (γ ε : ℝ) : DiscretizedIdentificationProblem.solve solver { P with γ := γ, ε := ε } points com =
    DiscretizedIdentificationProblem.solve solver P points com := rfl

omit hsolver in
/-- C80: without observations or points, and when the solver reports no optimum, the call fails. -/
theorem C80_errors :
    (no = 0 → DiscretizedIdentificationProblem.solve solver P points com = .error .value) ∧
    (no ≠ 0 → points = [] → DiscretizedIdentificationProblem.solve solver P points com = .error .value) ∧
    (no ≠ 0 → points ≠ [] → (∀ obj feas, solver obj feas = none) →
      DiscretizedIdentificationProblem.solve solver P points com = .error .assertion) := by
  refine ⟨fun h => ?_, fun hno h => ?_, fun hno hne h => ?_⟩
  · unfold DiscretizedIdentificationProblem.solve DiscretizedIdentificationProblem.cost
    rw [C78_empty _ _ _ _ (Or.inl h)]; rfl
  · unfold DiscretizedIdentificationProblem.solve
    rw [DiscretizedIdentificationProblem.cost_eq P hno, h]
    rfl
  · rw [DiscretizedIdentificationProblem.solve_eq hno hne hcom, h]

end C80

/-- C80: the hypotheses are met by direct measurements of the parameters of two unit masses. -/
example : ∃ (solver : ((Fin 10 → ℝ) → ℝ) → ((Fin 10 → ℝ) → Prop) → Option (Fin 10 → ℝ)) (q : IP ℝ), q.mass = 2 ∧
    DiscretizedIdentificationProblem.solve solver
      ⟨fun _ : Fin 1 => (1 : Matrix (Fin 10) (Fin 10) ℝ), fun _ => q.vec, 0, 0, none⟩ [![1, 0, 0], ![0, 1, 0], ![0, 0, 5]] =
      .ok ⟨[q], 0⟩ := by
  obtain ⟨solver, h1, h2⟩ := exists_solver (Fin 10 → ℝ)
  have r1 := Spec.Realizable.point (K := ℝ) (S := {x | x ∈ [![1, 0, 0], ![0, 1, 0], ![0, 0, 5]]}) (a := 1)
    (p := ![1, 0, 0]) zero_le_one (by simp)
  have r2 := Spec.Realizable.point (K := ℝ) (S := {x | x ∈ [![1, 0, 0], ![0, 1, 0], ![0, 0, 5]]}) (a := 1)
    (p := ![0, 1, 0]) zero_le_one (by simp)
  have r := r1.add r2
  obtain ⟨q, hm, hr⟩ : ∃ q : IP ℝ, q.mass = 2 ∧
      Spec.Realizable {x | x ∈ [![1, 0, 0], ![0, 1, 0], ![0, 0, 5]]} q.mass q.h q.H := by
    refine ⟨⟨2, (2 : ℝ)⁻¹ • ((1 : ℝ) • ![1, 0, 0] + (1 : ℝ) • ![0, 1, 0]),
      (1 : ℝ) • outer ![1, 0, 0] ![1, 0, 0] + (1 : ℝ) • outer ![0, 1, 0] ![0, 1, 0]⟩, rfl, ?_⟩
    rw [IP.h]
    dsimp only
    rw [smul_smul, mul_inv_cancel₀ two_ne_zero, one_smul]
    convert r using 1
    norm_num
  refine ⟨solver, q, hm, C80_recovers solver h1 _ _ none (by simp) h2 one_ne_zero (by simp) ?_ q (by rw [hm]; exact two_pos)
    hr (by simp) ?_ ?_⟩
  · exact Spec.PD.one
  · intro o; exact (residual_one _ _).trans (sub_self _)
  · intro θ h
    exact sub_eq_zero.mp ((residual_one _ _).symm.trans (h 0))

end Rigeo
