import Verif.Model.Identify
import Verif.Lemmas.PosDef
import Verif.Props.Dynamics
import Verif.Props.Inertial2

/-!
# C77, C78: the regularizer and the least squares objective of parameter identification
-/

namespace Rigeo

open Matrix

/-! ### C77: entropic regularizer -/

section LogDet
variable {n : ℕ}

theorem logDet_eq {J J0 G : Matrix (Fin n) (Fin n) ℝ} {l : Fin n → ℝ} (hG : G.det ≠ 0) (hl : ∀ i, 0 < l i)
    (h0 : J0 = G * Gᵀ) (h1 : J = G * Matrix.diagonal l * Gᵀ) :
    Spec.logDet J J0 = ∑ i, (l i - 1 - Real.log (l i)) := by
  have hd0 : J0.det = G.det ^ 2 := by rw [h0, det_mul, det_transpose]; ring
  have hp : ∏ i, l i ≠ 0 := Finset.prod_ne_zero_iff.mpr fun i _ => (hl i).ne'
  rw [Spec.logDet, simul_trace hG h0 h1, simul_det h1, hd0, Real.log_mul (pow_ne_zero 2 hG) hp,
    Real.log_prod fun i _ => (hl i).ne']
  simp only [Finset.sum_sub_distrib, Finset.sum_const, Finset.card_univ, Fintype.card_fin, nsmul_eq_mul, mul_one]
  ring

theorem logDet_nonneg {J J0 : Matrix (Fin n) (Fin n) ℝ} (hJ : Spec.PD J) (h0 : Spec.PD J0) : 0 ≤ Spec.logDet J J0 := by
  obtain ⟨G, l, hG, hl, e0, e1⟩ := h0.simul hJ
  rw [logDet_eq hG hl e0 e1]
  refine Finset.sum_nonneg fun i _ => ?_
  have := Real.log_le_sub_one_of_pos (hl i)
  linarith

theorem logDet_eq_zero {J J0 : Matrix (Fin n) (Fin n) ℝ} (hJ : Spec.PD J) (h0 : Spec.PD J0) :
    Spec.logDet J J0 = 0 ↔ J = J0 := by
  obtain ⟨G, l, hG, hl, e0, e1⟩ := h0.simul hJ
  constructor
  · rw [logDet_eq hG hl e0 e1]
    intro h
    rw [Finset.sum_eq_zero_iff_of_nonneg fun i _ => by
      have := Real.log_le_sub_one_of_pos (hl i)
      linarith] at h
    have : l = 1 := by
      funext i
      by_contra hne
      have := Real.log_lt_sub_one_of_pos (hl i) hne
      have := h i (Finset.mem_univ i)
      linarith
    rw [e1, e0, this]; simp
  · rintro rfl
    rw [Spec.logDet, inv_mul_cancel_det hJ.det_pos.ne', trace_one]
    simp

theorem _root_.Spec.PD.combine {X Y : Matrix (Fin n) (Fin n) ℝ} (hX : Spec.PD X) (hY : Spec.PD Y) {a b : ℝ}
    (ha : 0 ≤ a) (hb : 0 ≤ b) (hab : a + b = 1) : Spec.PD (a • X + b • Y) := by
  refine ⟨by simp [hX.1, hY.1], fun v hv => ?_⟩
  rw [add_mulVec, smul_mulVec, smul_mulVec, dotProduct_add, dotProduct_smul, dotProduct_smul]
  have h1 := hX.2 v hv
  have h2 := hY.2 v hv
  simp only [smul_eq_mul]
  rcases ha.eq_or_lt with rfl | h
  · have : b = 1 := by linarith
    subst this; linarith
  · nlinarith [mul_pos h h1, mul_nonneg hb h2.le]

/-- `J ↦ -log det J` lies above its tangents, hence is convex. -/
theorem neg_log_det_convex {X Y : Matrix (Fin n) (Fin n) ℝ} (hX : Spec.PD X) (hY : Spec.PD Y) {a b : ℝ}
    (ha : 0 ≤ a) (hb : 0 ≤ b) (hab : a + b = 1) :
    -Real.log (a • X + b • Y).det ≤ a * -Real.log X.det + b * -Real.log Y.det := by
  have hZ := hX.combine hY ha hb hab
  have h1 := logDet_nonneg hX hZ
  have h2 := logDet_nonneg hY hZ
  have h3 : a * ((a • X + b • Y)⁻¹ * X).trace + b * ((a • X + b • Y)⁻¹ * Y).trace = n := by
    have : ((a • X + b • Y)⁻¹ * (a • X + b • Y)).trace = n := by
      rw [inv_mul_cancel_det hZ.det_pos.ne', trace_one, Fintype.card_fin]
    rw [Matrix.mul_add, Matrix.mul_smul, Matrix.mul_smul, trace_add, trace_smul, trace_smul] at this
    exact this
  unfold Spec.logDet at h1 h2
  have e : b = 1 - a := by linarith
  subst e
  nlinarith [mul_nonneg ha h1, mul_nonneg hb h2]

theorem logDet_congr {J J0 T : Matrix (Fin n) (Fin n) ℝ} (hJ : Spec.PD J) (h0 : Spec.PD J0) (hT : T.det ≠ 0) :
    Spec.logDet (T * J * Tᵀ) (T * J0 * Tᵀ) = Spec.logDet J J0 := by
  obtain ⟨G, l, hG, hl, e0, e1⟩ := h0.simul hJ
  rw [logDet_eq hG hl e0 e1, logDet_eq (G := T * G) (l := l) (by rw [det_mul]; exact mul_ne_zero hT hG) hl]
  · rw [e0, transpose_mul]; simp only [Matrix.mul_assoc]
  · rw [e1, transpose_mul]; simp only [Matrix.mul_assoc]

end LogDet

theorem entropicRegularizer_ok (Js J0s : List (Matrix (Fin 4) (Fin 4) ℝ)) (hlen : Js.length = J0s.length)
    (hne : Js ≠ []) (h0 : ∀ J0 ∈ J0s, J0.det ≠ 0) : entropicRegularizer Js J0s =
      .ok ((Js.zip J0s).map fun JJ => -Real.log JJ.1.det + (JJ.2⁻¹ * JJ.1).trace).sum := by
  have h1 : ¬ ∃ J0 ∈ J0s, J0.det = 0 := by push Not; exact h0
  have h2 : Js.isEmpty = false := by simpa using hne
  simp only [entropicRegularizer, pyAssert, hlen, beq_self_eq_true, if_true, h2, h1, if_false]
  rfl

/-- Up to a constant that does not depend on the variables, the regularizer is the sum of the log-determinant
divergences from the nominal matrices. -/
theorem C77_divergence (Js J0s : List (Matrix (Fin 4) (Fin 4) ℝ)) (hlen : Js.length = J0s.length) (hne : Js ≠ [])
    (h0 : ∀ J0 ∈ J0s, J0.det ≠ 0) : entropicRegularizer Js J0s =
      .ok (((Js.zip J0s).map fun JJ => Spec.logDet JJ.1 JJ.2).sum + (J0s.map fun J0 => 4 - Real.log J0.det).sum) := by
  rw [entropicRegularizer_ok Js J0s hlen hne h0]
  congr 1
  clear hne h0
  induction Js generalizing J0s with
  | nil =>
    cases J0s with
    | nil => simp
    | cons _ _ => simp at hlen
  | cons J Js ih =>
    cases J0s with
    | nil => simp at hlen
    | cons J0 J0s =>
      simp only [List.zip_cons_cons, List.map_cons, List.sum_cons]
      rw [ih J0s (by simpa using hlen), Spec.logDet]
      push_cast
      ring

/-- The regularizer has exactly one minimiser over the positive definite matrices: the nominal values. -/
theorem C77_minimum (Js J0s : List (Matrix (Fin 4) (Fin 4) ℝ)) (hlen : Js.length = J0s.length) (hne : Js ≠ [])
    (hJ : ∀ J ∈ Js, Spec.PD J) (h0 : ∀ J0 ∈ J0s, Spec.PD J0) :
    ∃ r r0, entropicRegularizer Js J0s = .ok r ∧ entropicRegularizer J0s J0s = .ok r0 ∧ r0 ≤ r ∧ (r = r0 ↔ Js = J0s) := by
  have hd : ∀ J0 ∈ J0s, J0.det ≠ 0 := fun J0 h => (h0 J0 h).det_pos.ne'
  have hne0 : J0s ≠ [] := by
    rintro rfl
    exact hne (List.length_eq_zero_iff.mp hlen)
  refine ⟨_, _, C77_divergence Js J0s hlen hne hd, C77_divergence J0s J0s rfl hne0 hd, ?_, ?_⟩
  all_goals
    have hz : ((J0s.zip J0s).map fun JJ => Spec.logDet JJ.1 JJ.2).sum = 0 := by
      apply List.sum_eq_zero
      intro x hx
      obtain ⟨JJ, hJJ, rfl⟩ := List.mem_map.mp hx
      have : JJ.1 = JJ.2 := by
        clear hlen hne hJ h0 hd hne0 hx
        induction J0s with
        | nil => simp at hJJ
        | cons a l ih =>
          rcases List.mem_cons.mp hJJ with rfl | h
          · rfl
          · exact ih h
      have hm := h0 JJ.2 (List.of_mem_zip hJJ).2
      rw [this]
      exact (logDet_eq_zero hm hm).mpr rfl
    rw [hz]
  · have : 0 ≤ ((Js.zip J0s).map fun JJ => Spec.logDet JJ.1 JJ.2).sum := by
      apply List.sum_nonneg
      intro x hx
      obtain ⟨JJ, hJJ, rfl⟩ := List.mem_map.mp hx
      exact logDet_nonneg (hJ _ (List.of_mem_zip hJJ).1) (h0 _ (List.of_mem_zip hJJ).2)
    linarith
  · rw [add_left_inj]
    clear hz hne0 hd hne
    induction Js generalizing J0s with
    | nil =>
      cases J0s with
      | nil => simp
      | cons _ _ => simp at hlen
    | cons J Js ih =>
      cases J0s with
      | nil => simp at hlen
      | cons J0 J0s =>
        have hl' : Js.length = J0s.length := by simpa using hlen
        have hJ' : ∀ J ∈ Js, Spec.PD J := fun J h => hJ J (List.mem_cons_of_mem _ h)
        have h0' : ∀ J ∈ J0s, Spec.PD J := fun J h => h0 J (List.mem_cons_of_mem _ h)
        have p1 := hJ J (by simp)
        have p2 := h0 J0 (by simp)
        have ih' := ih J0s hl' hJ' h0'
        have n1 := logDet_nonneg p1 p2
        have n2 : 0 ≤ ((Js.zip J0s).map fun JJ => Spec.logDet JJ.1 JJ.2).sum := by
          apply List.sum_nonneg
          intro x hx
          obtain ⟨JJ, hJJ, rfl⟩ := List.mem_map.mp hx
          exact logDet_nonneg (hJ' _ (List.of_mem_zip hJJ).1) (h0' _ (List.of_mem_zip hJJ).2)
        simp only [List.zip_cons_cons, List.map_cons, List.sum_cons, List.cons.injEq]
        constructor
        · intro h
          exact ⟨(logDet_eq_zero p1 p2).mp (by linarith), ih'.mp (by linarith)⟩
        · rintro ⟨h1, h2⟩
          rw [(logDet_eq_zero p1 p2).mpr h1, ih'.mpr h2, add_zero]

/-- The regularizer is convex in the matrices (as its documentation says). -/
theorem C77_convex (Js Ks J0s : List (Matrix (Fin 4) (Fin 4) ℝ)) (hlen : Js.length = J0s.length)
    (hlen' : Ks.length = J0s.length) (hne : Js ≠ []) (hJ : ∀ J ∈ Js, Spec.PD J) (hK : ∀ K ∈ Ks, Spec.PD K)
    (h0 : ∀ J0 ∈ J0s, J0.det ≠ 0) (a b : ℝ) (ha : 0 ≤ a) (hb : 0 ≤ b) (hab : a + b = 1) :
    ∃ r s m, entropicRegularizer Js J0s = .ok r ∧ entropicRegularizer Ks J0s = .ok s ∧
      entropicRegularizer (List.zipWith (fun J K => a • J + b • K) Js Ks) J0s = .ok m ∧ m ≤ a * r + b * s := by
  have hne' : Ks ≠ [] := by
    rintro rfl
    exact hne (List.length_eq_zero_iff.mp (by rw [hlen, ← hlen']; rfl))
  have hl : (List.zipWith (fun J K => a • J + b • K) Js Ks).length = J0s.length := by simp [hlen, hlen']
  have hne'' : List.zipWith (fun J K => a • J + b • K) Js Ks ≠ [] := by
    intro h
    have := congrArg List.length h
    rw [hl, ← hlen] at this
    exact hne (List.length_eq_zero_iff.mp this)
  refine ⟨_, _, _, entropicRegularizer_ok _ _ hlen hne h0, entropicRegularizer_ok _ _ hlen' hne' h0,
    entropicRegularizer_ok _ _ hl hne'' h0, ?_⟩
  clear hne hne' hne'' hl h0
  induction Js generalizing Ks J0s with
  | nil => simp only [List.length_nil] at hlen; simp [List.length_eq_zero_iff.mp hlen.symm]
  | cons J Js ih =>
    cases J0s with
    | nil => simp at hlen
    | cons J0 J0s =>
      cases Ks with
      | nil => simp at hlen'
      | cons K Ks =>
        have := ih Ks J0s (by simpa using hlen) (by simpa using hlen') (fun J h => hJ J (List.mem_cons_of_mem _ h))
          (fun J h => hK J (List.mem_cons_of_mem _ h))
        simp only [List.zipWith_cons_cons, List.zip_cons_cons, List.map_cons, List.sum_cons]
        have c := neg_log_det_convex (hJ J (by simp)) (hK K (by simp)) ha hb hab
        have t : (J0⁻¹ * (a • J + b • K)).trace = a * (J0⁻¹ * J).trace + b * (J0⁻¹ * K).trace := by
          rw [Matrix.mul_add, Matrix.mul_smul, Matrix.mul_smul, trace_add, trace_smul, trace_smul]; rfl
        rw [t]
        linarith

/-- What the regularizer measures does not depend on the frame: expressing all bodies in another frame adds a
constant. -/
theorem C77_frame (Js J0s : List (Matrix (Fin 4) (Fin 4) ℝ)) (hlen : Js.length = J0s.length) (hne : Js ≠ [])
    (hJ : ∀ J ∈ Js, Spec.PD J) (h0 : ∀ J0 ∈ J0s, Spec.PD J0) (T : Matrix (Fin 4) (Fin 4) ℝ) (hT : T.det ≠ 0) :
    ∃ r r' c, entropicRegularizer Js J0s = .ok r ∧
      entropicRegularizer (Js.map fun J => T * J * Tᵀ) (J0s.map fun J => T * J * Tᵀ) = .ok r' ∧ r' = r + c ∧
      c = -(J0s.length * Real.log (T.det ^ 2)) := by
  have hd : ∀ J0 ∈ J0s, J0.det ≠ 0 := fun J0 h => (h0 J0 h).det_pos.ne'
  have hd' : ∀ J0 ∈ J0s.map fun J => T * J * Tᵀ, J0.det ≠ 0 := by
    intro J0 h
    obtain ⟨J, hJ, rfl⟩ := List.mem_map.mp h
    exact ((h0 J hJ).congr hT).det_pos.ne'
  refine ⟨_, _, _, C77_divergence _ _ hlen hne hd, C77_divergence _ _ (by simpa using hlen) (by simpa using hne) hd',
    ?_, rfl⟩
  clear hne hd hd'
  induction Js generalizing J0s with
  | nil => simp only [List.length_nil] at hlen; simp [List.length_eq_zero_iff.mp hlen.symm]
  | cons J Js ih =>
    cases J0s with
    | nil => simp at hlen
    | cons J0 J0s =>
      have := ih J0s (by simpa using hlen) (fun J h => hJ J (List.mem_cons_of_mem _ h))
        (fun J h => h0 J (List.mem_cons_of_mem _ h))
      simp only [List.zip_cons_cons, List.map_cons, List.sum_cons, List.length_cons] at this ⊢
      rw [logDet_congr (hJ J (by simp)) (h0 J0 (by simp)) hT]
      have e : Real.log (T * J0 * Tᵀ).det = Real.log (T.det ^ 2) + Real.log J0.det := by
        rw [det_mul, det_mul, det_transpose, show T.det * J0.det * T.det = T.det ^ 2 * J0.det by ring,
          Real.log_mul (pow_ne_zero 2 hT) (h0 J0 (by simp)).det_pos.ne']
      rw [e]
      push_cast
      linarith

/-- Exceptions: lists of different lengths, empty lists, a singular nominal matrix (for instance that of the
massless default body). -/
theorem C77_errors (Js J0s : List (Matrix (Fin 4) (Fin 4) ℝ)) :
    (Js.length ≠ J0s.length → entropicRegularizer Js J0s = .error .assertion) ∧
    entropicRegularizer [] [] = .error .index ∧
    (Js.length = J0s.length → (0 : Matrix (Fin 4) (Fin 4) ℝ) ∈ J0s → entropicRegularizer Js J0s = .error .value) := by
  refine ⟨fun h => ?_, ?_, fun h h0 => ?_⟩
  · have : (Js.length == J0s.length) = false := by simpa using h
    rw [entropicRegularizer, this]; rfl
  · rfl
  · have h1 : ∃ J0 ∈ J0s, J0.det = 0 := ⟨0, h0, by simp⟩
    have h2 : Js.isEmpty = false := by
      cases Js with
      | nil =>
        rw [List.length_eq_zero_iff.mp h.symm] at h0
        simp at h0
      | cons _ _ => rfl
    simp only [entropicRegularizer, pyAssert, h, beq_self_eq_true, if_true, h2, h1]
    rfl

/-- Concrete case: at the nominal value `J0 = 1` the regularizer of one body is `4`. -/
example : entropicRegularizerOne 1 1 = .ok 4 := by
  rw [entropicRegularizerOne, entropicRegularizer_ok _ _ rfl (by simp) (by simp)]
  simp [trace_one]

/-- Concrete case for the hypotheses: two bodies with different positive definite matrices. -/
example : (∀ J ∈ [(1 : Matrix (Fin 4) (Fin 4) ℝ), Matrix.diagonal ![1, 2, 3, 4]], Spec.PD J) ∧
    ∀ J ∈ [Matrix.diagonal (fun _ => 2), (1 : Matrix (Fin 4) (Fin 4) ℝ)], Spec.PD J := by
  have h1 : Spec.PD (1 : Matrix (Fin 4) (Fin 4) ℝ) := by
    rw [← diagonal_one]; exact Spec.PD.diagonal fun _ => one_pos
  constructor
  · simp only [List.mem_cons, List.not_mem_nil, or_false, forall_eq_or_imp, forall_eq]
    refine ⟨h1, Spec.PD.diagonal fun i => ?_⟩
    fin_cases i <;> norm_num
  · simp only [List.mem_cons, List.not_mem_nil, or_false, forall_eq_or_imp, forall_eq]
    exact ⟨Spec.PD.diagonal fun _ => two_pos, h1⟩

/-! ### C78: least squares objective -/

section Lsq
variable {n no k : ℕ}

theorem vstack_mulVec (As : Fin no → Matrix (Fin k) (Fin (n * 10)) ℝ) (bs : Fin no → Fin k → ℝ)
    (θs : Fin n → Fin 10 → ℝ) (o : Fin no) (j : Fin k) :
    (vstack As *ᵥ concat θs - concat bs) (finProdFinEquiv (o, j)) = Spec.residual (As o) (bs o) θs j := by
  have e : ∀ {a b : ℕ} (x : Fin a) (y : Fin b), (finProdFinEquiv (x, y)).divNat = x ∧ (finProdFinEquiv (x, y)).modNat = y := by
    intro a b x y
    have := finProdFinEquiv.symm_apply_apply (x, y)
    exact ⟨congrArg Prod.fst this, congrArg Prod.snd this⟩
  simp only [Pi.sub_apply, mulVec, dotProduct, vstack, concat, Matrix.of_apply, (e o j).1, (e o j).2, Spec.residual]
  congr 1
  rw [← finProdFinEquiv.sum_comp, Fintype.sum_prod_type]
  simp only [(e _ _).1, (e _ _).2]

theorem sum_concat (f : Fin (no * k) → ℝ) : ∑ r, f r = ∑ o : Fin no, ∑ j : Fin k, f (finProdFinEquiv (o, j)) := by
  rw [← finProdFinEquiv.sum_comp, Fintype.sum_prod_type]

/-- The objective is the sum over the observations of the weighted squared residuals; the weight defaults to the
identity. -/
theorem C78_value (θs : Fin n → Fin 10 → ℝ) (As : Fin no → Matrix (Fin k) (Fin (n * 10)) ℝ) (bs : Fin no → Fin k → ℝ)
    (W0 : Option (Matrix (Fin k) (Fin k) ℝ)) (hno : no ≠ 0) (hn : n ≠ 0) :
    leastSquaresObjective θs As bs W0 = .ok (Spec.lsq As bs (W0.getD 1) θs) := by
  have e : ∀ {a b : ℕ} (x : Fin a) (y : Fin b), (finProdFinEquiv (x, y)).divNat = x ∧ (finProdFinEquiv (x, y)).modNat = y := by
    intro a b x y
    have := finProdFinEquiv.symm_apply_apply (x, y)
    exact ⟨congrArg Prod.fst this, congrArg Prod.snd this⟩
  unfold leastSquaresObjective
  rw [if_neg hno, if_neg hn]
  cases W0 with
  | none =>
    simp only [Option.getD_none, Spec.lsq, one_mulVec]
    refine congrArg Except.ok ?_
    rw [dotProduct, sum_concat]
    simp only [vstack_mulVec]
    rfl
  | some W =>
    simp only [Option.getD_some, Spec.lsq]
    refine congrArg Except.ok ?_
    rw [dotProduct, sum_concat]
    refine Finset.sum_congr rfl fun o _ => Finset.sum_congr rfl fun j _ => ?_
    rw [vstack_mulVec]
    congr 1
    rw [mulVec, dotProduct, sum_concat, Finset.sum_eq_single o]
    · simp only [vstack_mulVec, kron, Matrix.of_apply, Matrix.one_apply, (e _ _).1, (e _ _).2, if_true, one_mul]
      rfl
    · intro o' _ ho
      refine Finset.sum_eq_zero fun j' _ => ?_
      simp only [kron, Matrix.of_apply, Matrix.one_apply, (e _ _).1, ho.symm, if_false, zero_mul]
    · simp

/-- Without observations or without bodies the call raises an exception. -/
theorem C78_empty (θs : Fin n → Fin 10 → ℝ) (As : Fin no → Matrix (Fin k) (Fin (n * 10)) ℝ) (bs : Fin no → Fin k → ℝ)
    (W0 : Option (Matrix (Fin k) (Fin k) ℝ)) (h : no = 0 ∨ n = 0) :
    leastSquaresObjective θs As bs W0 = .error .value := by
  unfold leastSquaresObjective
  rcases h with h | h
  · rw [if_pos h]; rfl
  · rw [if_pos h]
    split_ifs <;> rfl

theorem lsq_nonneg (As : Fin no → Matrix (Fin k) (Fin (n * 10)) ℝ) (bs : Fin no → Fin k → ℝ)
    (W : Matrix (Fin k) (Fin k) ℝ) (hW : Spec.PD W) (θs : Fin n → Fin 10 → ℝ) : 0 ≤ Spec.lsq As bs W θs :=
  Finset.sum_nonneg fun _ _ => hW.psd.2 _

theorem _root_.Spec.PD.one : Spec.PD (1 : Matrix (Fin n) (Fin n) ℝ) := by
  rw [← diagonal_one]; exact Spec.PD.diagonal fun _ => one_pos

/-- With a positive definite weight the objective is zero exactly when every observation is explained exactly. -/
theorem C78_zero_iff (θs : Fin n → Fin 10 → ℝ) (As : Fin no → Matrix (Fin k) (Fin (n * 10)) ℝ) (bs : Fin no → Fin k → ℝ)
    (W0 : Option (Matrix (Fin k) (Fin k) ℝ)) (hW : Spec.PD (W0.getD 1)) (hno : no ≠ 0) (hn : n ≠ 0) :
    leastSquaresObjective θs As bs W0 = .ok 0 ↔ ∀ o, Spec.residual (As o) (bs o) θs = 0 := by
  rw [C78_value θs As bs W0 hno hn]
  constructor
  · intro h o
    have h1 := Except.ok.inj h
    rw [Spec.lsq, Finset.sum_eq_zero_iff_of_nonneg fun o _ => hW.psd.2 _] at h1
    by_contra hne
    exact (hW.2 _ hne).ne' (h1 o (Finset.mem_univ o))
  · intro h
    simp [Spec.lsq, h]

/-- For one body whose regressors are those of `RigidBody.regressor`, the objective at the parameter vector of a
body is the sum of the squared errors of the wrenches it predicts. -/
theorem C78_wrench (p : IP ℝ) (hH : p.Hᵀ = p.H) (Vs As : Fin no → SV ℝ) (ws : Fin no → Fin 6 → ℝ) (hno : no ≠ 0) :
    leastSquaresObjective (n := 1) (fun _ => p.vec) (fun o => regressor (Vs o) (As o)) ws =
      .ok (∑ o, ((p.bodyWrench (Vs o) (As o)).vec - ws o) ⬝ᵥ ((p.bodyWrench (Vs o) (As o)).vec - ws o)) := by
  rw [C78_value _ _ _ _ hno one_ne_zero]
  refine congrArg Except.ok ?_
  simp only [Option.getD_none, Spec.lsq, one_mulVec]
  refine Finset.sum_congr rfl fun o _ => ?_
  have : Spec.residual (n := 1) (regressor (Vs o) (As o)) (ws o) (fun _ => p.vec) =
      (p.bodyWrench (Vs o) (As o)).vec - ws o := by
    rw [← C04_regressor p hH]
    ext j
    simp only [Spec.residual, Finset.univ_unique, Fin.default_eq_zero, Finset.sum_singleton, Pi.sub_apply, mulVec,
      dotProduct]
    congr 1
  rw [this]

end Lsq
end Rigeo
