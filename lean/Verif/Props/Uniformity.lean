import Verif.Model.Uniformity
import Verif.Props.Laws
import Verif.Props.Density
import Verif.Props.DensityRealizable
import Verif.Props.Shapes4
import Mathlib.Probability.Moments.SubGaussian
import Mathlib.Probability.Moments.Variance
import Mathlib.Probability.Independence.Basic

/-!
# What the uniformity checks of the tests show (C102)

The check passes with a probability that depends only on the probability of the box under the law of the sampler. For
the samplers of the project, which are uniform, it fails with a small probability that decreases with the number of
points. It passes equally often for samplers that only ever return two points.
-/

namespace Rigeo

open MeasureTheory ProbabilityTheory Matrix

/-! ### Coins -/

/-- The number of successes in a list of trials. -/
def successes {N : ℕ} (t : Fin N → Bool) : ℕ := (List.ofFn t).countP id

theorem successes_eq {N : ℕ} (t : Fin N → Bool) : (successes t : ℝ) = ∑ k, if t k then (1 : ℝ) else 0 := by
  induction N with
  | zero => simp [successes]
  | succ N ih =>
    have := ih fun k => t k.succ
    unfold successes at this ⊢
    rw [List.ofFn_succ, List.countP_cons, Nat.cast_add, this, Fin.sum_univ_succ, add_comm]
    cases t 0 <;> simp

section Coin

variable (κ : Measure Bool) [IsProbabilityMeasure κ]

theorem coin_integral : ∫ t, (if t then (1 : ℝ) else 0) ∂κ = κ.real {true} := by
  rw [integral_fintype .of_finite]
  simp

theorem coin_integral_eval {N : ℕ} (k : Fin N) :
    ∫ t, (if t k then (1 : ℝ) else 0) ∂(Measure.pi fun _ : Fin N => κ) = κ.real {true} := by
  rw [← coin_integral κ]
  have h := (measurePreserving_eval (fun _ : Fin N => κ) k).map_eq
  conv_rhs => rw [← h]
  rw [integral_map (measurable_pi_apply k).aemeasurable (measurable_of_finite _).aestronglyMeasurable]

theorem coin_tail (N : ℕ) (hN : 0 < N) (ε : ℝ) (hε : 0 < ε) :
    (Measure.pi fun _ : Fin N => κ).real {t | ε ≤ |(successes t : ℝ) / N - κ.real {true}|} ≤
      κ.real {true} * (1 - κ.real {true}) / (N * ε ^ 2) ∧
    (Measure.pi fun _ : Fin N => κ).real {t | ε ≤ |(successes t : ℝ) / N - κ.real {true}|} ≤ 2 * Real.exp (-2 * N * ε ^ 2) := by
  set p := κ.real {true} with hp
  set P := Measure.pi fun _ : Fin N => κ with hP
  set X : Bool → ℝ := fun t => if t then 1 else 0 with hX
  have hNr : (0 : ℝ) < N := Nat.cast_pos.mpr hN
  have hXm : Measurable X := measurable_of_finite X
  have hX01 : ∀ t, X t ∈ Set.Icc (0 : ℝ) 1 := fun t => by cases t <;> simp [hX]
  have hXL : MemLp X 2 κ := MemLp.of_bound hXm.aestronglyMeasurable 1 (ae_of_all _ fun t => by cases t <;> simp [hX])
  have hint : ∀ k, ∫ t, X (t k) ∂P = p := fun k => coin_integral_eval κ k
  have hset : {t : Fin N → Bool | ε ≤ |(successes t : ℝ) / N - p|} = {t | N * ε ≤ |∑ k, X (t k) - N * p|} := by
    ext t
    simp only [Set.mem_ofPred_eq, successes_eq]
    rw [← mul_le_mul_iff_right₀ hNr, ← abs_of_pos hNr, ← abs_mul, abs_of_pos hNr, mul_sub, mul_div_cancel₀ _ hNr.ne']
  rw [hset]
  constructor
  · have hmean : ∫ t, (∑ k : Fin N, fun t : Fin N → Bool => X (t k)) t ∂P = N * p := by
      simp only [Finset.sum_apply]
      rw [integral_finsetSum _ fun k _ => .of_finite]
      simp [hint]
    have hvar : Var[∑ k : Fin N, fun t : Fin N → Bool => X (t k); P] ≤ N * (p * (1 - p)) := by
      rw [hP, variance_sum_pi fun _ => hXL]
      refine (Finset.sum_le_sum fun k _ => variance_le_sub_mul_sub (ae_of_all _ hX01) hXm.aemeasurable).trans ?_
      have : ∫ t, X t ∂κ = p := coin_integral κ
      rw [this]
      simp
      linarith
    have hL : MemLp (∑ k : Fin N, fun t : Fin N → Bool => X (t k)) 2 P :=
      memLp_finsetSum' _ fun k _ => hXL.comp_measurePreserving (measurePreserving_eval _ k)
    have := meas_ge_le_variance_div_sq hL (mul_pos hNr hε)
    rw [hmean] at this
    simp only [Finset.sum_apply] at this
    have h2 := ENNReal.toReal_mono ENNReal.ofReal_ne_top this
    rw [ENNReal.toReal_ofReal (div_nonneg (variance_nonneg _ _) (sq_nonneg _))] at h2
    refine h2.trans ((div_le_div_of_nonneg_right hvar (sq_nonneg _)).trans_eq ?_)
    field_simp
  · have hsub : ∀ k ∈ (Finset.univ : Finset (Fin N)), HasSubgaussianMGF (fun t : Fin N → Bool => X (t k) - p) ((‖(1 : ℝ) - 0‖₊ / 2) ^ 2) P := by
      intro k _
      have := hasSubgaussianMGF_of_mem_Icc (μ := P) (X := fun t : Fin N → Bool => X (t k)) (a := 0) (b := 1)
        (measurable_of_finite _).aemeasurable (ae_of_all _ fun t => hX01 _)
      simpa only [hint k] using this
    have hind : iIndepFun (fun (k : Fin N) (t : Fin N → Bool) => X (t k) - p) P :=
      iIndepFun_pi (X := fun _ t => X t - p) fun _ => (measurable_of_finite _).aemeasurable
    have hind' : iIndepFun (fun (k : Fin N) (t : Fin N → Bool) => -(X (t k) - p)) P :=
      iIndepFun_pi (X := fun _ t => -(X t - p)) fun _ => (measurable_of_finite _).aemeasurable
    have u1 := HasSubgaussianMGF.measure_sum_ge_le_of_iIndepFun hind hsub (mul_pos hNr hε).le
    have u2 := HasSubgaussianMGF.measure_sum_ge_le_of_iIndepFun hind' (fun k hk => (hsub k hk).neg) (mul_pos hNr hε).le
    have hexp : Real.exp (-(N * ε) ^ 2 / (2 * ((∑ _k : Fin N, (‖(1 : ℝ) - 0‖₊ / 2) ^ 2 : NNReal) : ℝ))) = Real.exp (-2 * N * ε ^ 2) := by
      congr 1
      simp
      field_simp
    rw [hexp] at u1 u2
    calc P.real {t | N * ε ≤ |∑ k, X (t k) - N * p|}
        ≤ P.real ({t | N * ε ≤ ∑ k, (X (t k) - p)} ∪ {t | N * ε ≤ ∑ k, -(X (t k) - p)}) := by
          refine measureReal_mono ?_
          intro t ht
          have e : ∑ k, (X (t k) - p) = ∑ k, X (t k) - N * p := by simp
          simp only [Set.mem_union, Set.mem_ofPred_eq, Finset.sum_neg_distrib, e] at ht ⊢
          exact le_abs.mp ht
      _ ≤ _ := measureReal_union_le _ _
      _ ≤ _ := by linarith

theorem coin_eq {κ' : Measure Bool} [IsProbabilityMeasure κ'] (h : κ {true} = κ' {true}) : κ = κ' := by
  refine Measure.ext_of_singleton fun b => ?_
  cases b
  · have e : ∀ m : Measure Bool, IsProbabilityMeasure m → m {false} = 1 - m {true} := fun m hm => by
      rw [← prob_compl_eq_one_sub (measurableSet_singleton true)]
      congr 1
      ext b
      cases b <;> simp
    rw [e κ ‹_›, e κ' ‹_›, h]
  · exact h

end Coin

/-! ### Samplers -/

section Sampler

variable {Ω : Type} [MeasurableSpace Ω] {P : Measure Ω} [IsProbabilityMeasure P] {f : Ω → Py (Fin 3 → ℝ)}
  {μ : Measure (Fin 3 → ℝ)}

theorem samples_probability (h : Spec.Samples P f μ) : IsProbabilityMeasure μ := by
  refine ⟨?_⟩
  rw [← h.law Set.univ .univ, ← measure_univ (μ := P)]
  refine measure_congr ?_
  filter_upwards [h.ok] with ω hω
  exact propext ⟨fun _ => trivial, fun _ => hω.elim fun x hx => ⟨x, trivial, hx⟩⟩

/-- Up to an event of probability zero, a sampler returns a value in a measurable set on a measurable event. -/
theorem samples_event (h : Spec.Samples P f μ) {S : Set (Fin 3 → ℝ)} (hS : MeasurableSet S) :
    ∃ A, MeasurableSet A ∧ P A = μ S ∧ ∀ᵐ ω ∂P, ω ∈ A ↔ ∃ x ∈ S, f ω = .ok x := by
  have hμ := samples_probability h
  set E := {ω | ∃ x ∈ S, f ω = .ok x} with hE
  set E' := {ω | ∃ x ∈ Sᶜ, f ω = .ok x} with hE'
  have h1 : P (toMeasurable P E) = μ S := by rw [measure_toMeasurable]; exact h.law S hS
  have h2 : P (toMeasurable P E') = 1 - μ S := by
    rw [measure_toMeasurable, ← prob_compl_eq_one_sub hS]; exact h.law Sᶜ hS.compl
  have hcov : P (toMeasurable P E ∪ toMeasurable P E') = 1 := by
    rw [← measure_univ (μ := P)]
    refine measure_congr ?_
    filter_upwards [h.ok] with ω hω
    refine propext ⟨fun _ => trivial, fun _ => ?_⟩
    obtain ⟨x, hx⟩ := hω
    by_cases hxS : x ∈ S
    · exact Or.inl (subset_toMeasurable P E ⟨x, hxS, hx⟩)
    · exact Or.inr (subset_toMeasurable P E' ⟨x, hxS, hx⟩)
  have hint : P (toMeasurable P E ∩ toMeasurable P E') = 0 := by
    have := measure_union_add_inter (μ := P) (toMeasurable P E) (measurableSet_toMeasurable P E')
    rw [hcov, h1, h2, add_tsub_cancel_of_le prob_le_one] at this
    have h3 : (1 : ENNReal) + P (toMeasurable P E ∩ toMeasurable P E') = 1 + 0 := by rw [this, add_zero]
    exact (ENNReal.add_right_inj ENNReal.one_ne_top).mp h3
  refine ⟨toMeasurable P E, measurableSet_toMeasurable P E, h1, ?_⟩
  have h0 : ∀ᵐ ω ∂P, ω ∉ toMeasurable P E ∩ toMeasurable P E' := measure_eq_zero_iff_ae_notMem.mp hint
  filter_upwards [h.ok, h0] with ω hω hni
  refine ⟨fun hA => ?_, fun hx => subset_toMeasurable P E hx⟩
  obtain ⟨x, hx⟩ := hω
  by_contra hno
  exact hni ⟨hA, subset_toMeasurable P E' ⟨x, fun hxS => hno ⟨x, hxS, hx⟩, hx⟩⟩

theorem mapM_of_ok {α β : Type} (f : α → Py β) (g : α → β) : ∀ l : List α, (∀ a ∈ l, f a = .ok (g a)) → l.mapM f = .ok (l.map g)
  | [], _ => rfl
  | a :: l, h => by
    rw [List.mapM_cons, h a (by simp), mapM_of_ok f g l fun b hb => h b (by simp [hb])]
    rfl

/-- The points a box contains, with the default tolerance. -/
def tolBox (b : Box ℝ) : Set (Fin 3 → ℝ) := {p | b.contains p = true}

theorem tolBox_measurable (b : Box ℝ) : MeasurableSet (tolBox b) := by
  have : tolBox b = ⋂ i, {p | |(b.rotationᵀ *ᵥ (p - b.center)) i| ≤ b.halfExtents i + tol8} := by
    ext p
    simp only [tolBox, Set.mem_ofPred_eq, Set.mem_iInter]
    exact Box.contains_iff b p tol8
  rw [this]
  refine MeasurableSet.iInter fun i => measurableSet_le ?_ measurable_const
  have : Continuous fun p : Fin 3 → ℝ => |(b.rotationᵀ *ᵥ (p - b.center)) i| := by
    refine Continuous.abs ?_
    exact (continuous_apply i).comp (Continuous.matrix_mulVec continuous_const (continuous_id.sub continuous_const))
  exact this.measurable

/-- The check is a series of coin tosses. -/
theorem test_coin (h : Spec.Samples P f μ) (b : Box ℝ) (ratio atol : ℝ) (N : ℕ) :
    ∃ κ : Measure Bool, IsProbabilityMeasure κ ∧ κ {true} = μ (tolBox b) ∧
      ∃ χ : Ω → Bool, Measurable χ ∧ P.map χ = κ ∧ ∀ᵐ ω ∂(Measure.pi fun _ : Fin N => P),
        uniformityTest f b ratio atol (List.ofFn ω) =
          .ok (isclose ((successes fun k => χ (ω k) : ℕ) / (N : ℝ)) ratio 0 atol) := by
  classical
  obtain ⟨A, hA, hPA, hAe⟩ := samples_event h (tolBox_measurable b)
  set χ : Ω → Bool := fun ω => decide (ω ∈ A) with hχ
  have hχm : Measurable χ := by
    refine measurable_to_bool ?_
    convert hA using 1
    ext ω
    simp [hχ]
  refine ⟨P.map χ, Measure.isProbabilityMeasure_map hχm.aemeasurable, ?_, χ, hχm, rfl, ?_⟩
  · rw [Measure.map_apply hχm (measurableSet_singleton true), ← hPA]
    congr 1
    ext ω
    simp [hχ]
  have hall : ∀ᵐ ω ∂(Measure.pi fun _ : Fin N => P), ∀ k, (∃ x, f (ω k) = .ok x) ∧ (ω k ∈ A ↔ ∃ x ∈ tolBox b, f (ω k) = .ok x) := by
    rw [ae_all_iff]
    intro k
    exact (measurePreserving_eval (fun _ : Fin N => P) k).quasiMeasurePreserving.ae (h.ok.and hAe)
  filter_upwards [hall] with ω hω
  choose x hx using fun k => (hω k).1
  set g : Ω → Fin 3 → ℝ := fun a => match f a with
    | .ok x => x
    | .error _ => 0 with hg
  have hgx : ∀ k, f (ω k) = .ok (g (ω k)) := fun k => by rw [hg]; dsimp only; rw [hx k]
  have hmap : (List.ofFn ω).mapM f = .ok ((List.ofFn ω).map g) := mapM_of_ok f g _ fun a ha => by
    obtain ⟨k, rfl⟩ := (List.mem_ofFn' ω a).mp ha
    exact hgx k
  unfold uniformityTest
  rw [hmap]
  have hcount : ((List.ofFn ω).map g).countP (fun p => b.contains p) = successes fun k => χ (ω k) := by
    unfold successes
    rw [show List.ofFn (fun k => χ (ω k)) = (List.ofFn ω).map χ by rw [List.map_ofFn]; rfl, List.countP_map, List.countP_map]
    refine List.countP_congr fun a ha => ?_
    obtain ⟨k, rfl⟩ := (List.mem_ofFn' ω a).mp ha
    simp only [Function.comp_apply, id_eq, hχ, decide_eq_true_eq]
    rw [(hω k).2]
    constructor
    · exact fun hc => ⟨_, hc, hgx k⟩
    · rintro ⟨x, hxb, hxf⟩
      rw [hgx k] at hxf
      rw [Except.ok.inj hxf]
      exact hxb
  show Except.ok _ = _
  rw [hcount, List.length_ofFn]

/-- The probability that the check passes is that of a series of coin tosses. -/
theorem pass_coin (h : Spec.Samples P f μ) (b : Box ℝ) (ratio atol : ℝ) (N : ℕ) :
    ∃ κ : Measure Bool, IsProbabilityMeasure κ ∧ κ {true} = μ (tolBox b) ∧ ∀ v : Bool,
      Measure.pi (fun _ : Fin N => P) {ω | uniformityTest f b ratio atol (List.ofFn ω) = .ok v} =
        Measure.pi (fun _ : Fin N => κ) {t | isclose ((successes t : ℕ) / (N : ℝ)) ratio 0 atol = v} := by
  obtain ⟨κ, hκ, hκt, χ, hχ, hχκ, hae⟩ := test_coin h b ratio atol N
  refine ⟨κ, hκ, hκt, fun v => ?_⟩
  have hmap : (Measure.pi fun _ : Fin N => P).map (fun ω k => χ (ω k)) = Measure.pi fun _ : Fin N => κ := by
    rw [Measure.pi_map_pi fun _ => hχ.aemeasurable, hχκ]
  have hm : Measurable fun (ω : Fin N → Ω) k => χ (ω k) := measurable_pi_lambda _ fun k => hχ.comp (measurable_pi_apply k)
  rw [← hmap, Measure.map_apply hm (Set.toFinite _).measurableSet]
  refine measure_congr ?_
  filter_upwards [hae] with ω hω
  refine propext ?_
  show uniformityTest f b ratio atol (List.ofFn ω) = .ok v ↔ _
  rw [hω]
  exact ⟨fun e => Except.ok.inj e, fun e => congrArg Except.ok e⟩

theorem fail_measure (h : Spec.Samples P f μ) (b : Box ℝ) (ratio atol : ℝ) (N : ℕ) :
    Measure.pi (fun _ : Fin N => P) {ω | uniformityTest f b ratio atol (List.ofFn ω) ≠ .ok true} =
      Measure.pi (fun _ : Fin N => P) {ω | uniformityTest f b ratio atol (List.ofFn ω) = .ok false} := by
  obtain ⟨κ, hκ, hκt, χ, hχ, hχκ, hae⟩ := test_coin h b ratio atol N
  refine measure_congr ?_
  filter_upwards [hae] with ω hω
  refine propext ?_
  show uniformityTest f b ratio atol (List.ofFn ω) ≠ .ok true ↔ uniformityTest f b ratio atol (List.ofFn ω) = .ok false
  rw [hω]
  cases isclose ((successes fun k => χ (ω k) : ℕ) / (N : ℝ)) ratio 0 atol <;> simp

/-- C102: for a sampler whose law gives the box about the expected probability, the check of `N` points fails with a
probability that is small if `N` is large. -/
theorem C102_passes (h : Spec.Samples P f μ) (b : Box ℝ) (ratio atol : ℝ) (N : ℕ) (hN : 0 < N)
    (hp : |μ.real (tolBox b) - ratio| < atol) :
    (Measure.pi fun _ : Fin N => P).real {ω | uniformityTest f b ratio atol (List.ofFn ω) ≠ .ok true} ≤
      μ.real (tolBox b) * (1 - μ.real (tolBox b)) / (N * (atol - |μ.real (tolBox b) - ratio|) ^ 2) ∧
    (Measure.pi fun _ : Fin N => P).real {ω | uniformityTest f b ratio atol (List.ofFn ω) ≠ .ok true} ≤
      2 * Real.exp (-2 * N * (atol - |μ.real (tolBox b) - ratio|) ^ 2) := by
  obtain ⟨κ, hκ, hκt, hv⟩ := pass_coin h b ratio atol N
  have hreal : κ.real {true} = μ.real (tolBox b) := congrArg ENNReal.toReal hκt
  have ht := coin_tail κ N hN (atol - |μ.real (tolBox b) - ratio|) (by linarith)
  rw [hreal] at ht
  have hle : (Measure.pi fun _ : Fin N => P).real {ω | uniformityTest f b ratio atol (List.ofFn ω) ≠ .ok true} ≤
      (Measure.pi fun _ : Fin N => κ).real
        {t | atol - |μ.real (tolBox b) - ratio| ≤ |(successes t : ℝ) / N - μ.real (tolBox b)|} := by
    rw [Measure.real, fail_measure h, hv false]
    refine measureReal_mono ?_
    intro t ht
    simp only [Set.mem_ofPred_eq, isclose, zero_mul, add_zero, decide_eq_false_iff_not, not_le] at ht ⊢
    have := abs_sub_le ((successes t : ℝ) / N) (μ.real (tolBox b)) ratio
    linarith
  exact ⟨hle.trans ht.1, hle.trans ht.2⟩

/-- C102: for a sampler whose law does not give the box about the expected probability, the check passes with a small
probability. -/
theorem C102_detects (h : Spec.Samples P f μ) (b : Box ℝ) (ratio atol : ℝ) (N : ℕ) (hN : 0 < N)
    (hp : atol < |μ.real (tolBox b) - ratio|) :
    (Measure.pi fun _ : Fin N => P).real {ω | uniformityTest f b ratio atol (List.ofFn ω) = .ok true} ≤
      μ.real (tolBox b) * (1 - μ.real (tolBox b)) / (N * (|μ.real (tolBox b) - ratio| - atol) ^ 2) ∧
    (Measure.pi fun _ : Fin N => P).real {ω | uniformityTest f b ratio atol (List.ofFn ω) = .ok true} ≤
      2 * Real.exp (-2 * N * (|μ.real (tolBox b) - ratio| - atol) ^ 2) := by
  obtain ⟨κ, hκ, hκt, hv⟩ := pass_coin h b ratio atol N
  have hreal : κ.real {true} = μ.real (tolBox b) := congrArg ENNReal.toReal hκt
  have ht := coin_tail κ N hN (|μ.real (tolBox b) - ratio| - atol) (by linarith)
  rw [hreal] at ht
  have hle : (Measure.pi fun _ : Fin N => P).real {ω | uniformityTest f b ratio atol (List.ofFn ω) = .ok true} ≤
      (Measure.pi fun _ : Fin N => κ).real
        {t | |μ.real (tolBox b) - ratio| - atol ≤ |(successes t : ℝ) / N - μ.real (tolBox b)|} := by
    rw [Measure.real, hv true]
    refine measureReal_mono ?_
    intro t ht
    simp only [Set.mem_ofPred_eq, isclose, zero_mul, add_zero, decide_eq_true_eq] at ht ⊢
    have := abs_sub_le (μ.real (tolBox b)) ((successes t : ℝ) / N) ratio
    rw [abs_sub_comm (μ.real (tolBox b)) ((successes t : ℝ) / N)] at this
    linarith
  exact ⟨hle.trans ht.1, hle.trans ht.2⟩

/-- C102: the check cannot tell two samplers apart whose laws agree on the box. -/
theorem C102_same {Ω' : Type} [MeasurableSpace Ω'] {P' : Measure Ω'} [IsProbabilityMeasure P'] {f' : Ω' → Py (Fin 3 → ℝ)}
    {μ' : Measure (Fin 3 → ℝ)} (h : Spec.Samples P f μ) (h' : Spec.Samples P' f' μ') (b : Box ℝ)
    (hb : μ (tolBox b) = μ' (tolBox b)) (ratio atol : ℝ) (N : ℕ) :
    Measure.pi (fun _ : Fin N => P) {ω | uniformityTest f b ratio atol (List.ofFn ω) = .ok true} =
      Measure.pi (fun _ : Fin N => P') {ω | uniformityTest f' b ratio atol (List.ofFn ω) = .ok true} := by
  obtain ⟨κ, hκ, hκt, hv⟩ := pass_coin h b ratio atol N
  obtain ⟨κ', hκ', hκt', hv'⟩ := pass_coin h' b ratio atol N
  rw [hv true, hv' true, coin_eq κ (κ' := κ') (by rw [hκt, hκt', hb])]

/-- C102: whatever the sampler, a sampler that returns only two points, one in the box and one outside, passes the
check equally often. -/
theorem C102_two_points (h : Spec.Samples P f μ) (b : Box ℝ) (x y : Fin 3 → ℝ) (hx : b.contains x = true)
    (hy : b.contains y = false) (ratio atol : ℝ) (N : ℕ) :
    Measure.pi (fun _ : Fin N => P) {ω | uniformityTest f b ratio atol (List.ofFn ω) = .ok true} =
      Measure.pi (fun _ : Fin N => Spec.draw 0 1)
        {ω | uniformityTest (fun u => .ok (if u ≤ μ.real (tolBox b) then x else y)) b ratio atol (List.ofFn ω) = .ok true} := by
  have hμ := samples_probability h
  have hd := draw_probability (zero_lt_one (α := ℝ))
  have hm : Measurable fun u : ℝ => if u ≤ μ.real (tolBox b) then x else y :=
    Measurable.ite measurableSet_Iic measurable_const measurable_const
  have hs : Spec.Samples (Spec.draw 0 1) (fun u : ℝ => (.ok (if u ≤ μ.real (tolBox b) then x else y) : Py (Fin 3 → ℝ))) _ :=
    samples_of_ae hm (ae_of_all _ fun _ => rfl) rfl
  refine C102_same h hs b ?_ ratio atol N
  rw [Measure.map_apply hm (tolBox_measurable b)]
  have : (fun u : ℝ => if u ≤ μ.real (tolBox b) then x else y) ⁻¹' tolBox b = Set.Iic (μ.real (tolBox b)) := by
    ext u
    simp only [Set.mem_preimage, tolBox, Set.mem_ofPred_eq, Set.mem_Iic]
    split_ifs with hu <;> simp [hx, hy, hu]
  rw [this, Spec.draw, sub_zero, div_one, ENNReal.ofReal_one, one_smul, Measure.restrict_apply measurableSet_Iic,
    show Set.Iic (μ.real (tolBox b)) ∩ Set.Icc 0 1 = Set.Icc 0 (μ.real (tolBox b)) by
      ext u
      simp only [Set.mem_inter_iff, Set.mem_Iic, Set.mem_Icc]
      have : μ.real (tolBox b) ≤ 1 := measureReal_le_one
      constructor
      · rintro ⟨h1, h2, -⟩; exact ⟨h2, h1⟩
      · rintro ⟨h1, h2⟩; exact ⟨h2, h1, h2.trans this⟩, Real.volume_Icc, sub_zero]
  exact (ENNReal.ofReal_toReal (measure_ne_top _ _)).symm

end Sampler

/-! ### The samplers of the project -/

/-- The uniform law over a solid around a box gives the box about the ratio of the volumes, up to the tolerance of
`contains`. -/
theorem uniform_tolBox {S : Set (Fin 3 → ℝ)} (hS0 : volume S ≠ 0) (hSt : volume S ≠ ⊤) (b : Box ℝ)
    (hR : Spec.Orthogonal b.rotation) (hb : ∀ i, 0 ≤ b.halfExtents i) (hsub : Spec.box b.halfExtents b.rotation b.center ⊆ S) :
    |(Spec.uniform 1 S).real (tolBox b) - b.volume / volume.real S| ≤
      ((⟨fun i => b.halfExtents i + tol8, b.rotation, b.center⟩ : Box ℝ).volume - b.volume) / volume.real S := by
  have ht : (0 : ℝ) ≤ tol8 := by norm_num [tol8]
  have hVS : 0 < volume.real S := ENNReal.toReal_pos hS0 hSt
  have hbox : tolBox b = Spec.box (fun i => b.halfExtents i + tol8) b.rotation b.center := by
    ext p
    exact C25_contains_tol b hR p tol8
  have hp : (Spec.uniform 1 S).real (tolBox b) = volume.real (tolBox b ∩ S) / volume.real S := by
    rw [Spec.uniform, Measure.real, Measure.smul_apply, Measure.restrict_apply (tolBox_measurable b), smul_eq_mul, ENNReal.toReal_mul,
      ENNReal.toReal_ofReal (by positivity), one_div, inv_mul_eq_div]
    rfl
  have e1 := C73_box b hb hR
  have e2 := C73_box ⟨fun i => b.halfExtents i + tol8, b.rotation, b.center⟩ (fun i => add_nonneg (hb i) ht) hR
  have hfin : volume (tolBox b) ≠ ⊤ := by
    rw [hbox]
    exact (box_compact _ (fun i => add_nonneg (hb i) ht) hR _).measure_lt_top.ne
  have h1 : b.volume ≤ volume.real (tolBox b ∩ S) := by
    rw [e1]
    refine measureReal_mono (Set.subset_inter ?_ hsub) (ne_top_of_le_ne_top hfin (measure_mono Set.inter_subset_left))
    rw [hbox]
    rintro _ ⟨y, hy, rfl⟩
    exact ⟨y, fun i => (hy i).trans (by linarith), rfl⟩
  have h2 : volume.real (tolBox b ∩ S) ≤ (⟨fun i => b.halfExtents i + tol8, b.rotation, b.center⟩ : Box ℝ).volume := by
    rw [e2]
    dsimp only
    rw [← hbox]
    exact measureReal_mono Set.inter_subset_left hfin
  rw [hp, ← sub_div, abs_of_nonneg (div_nonneg (by linarith) hVS.le)]
  exact div_le_div_of_nonneg_right (by linarith) hVS.le

/-- The check of a uniform sampler. -/
theorem uniform_passes {Ω : Type} [MeasurableSpace Ω] {P : Measure Ω} [IsProbabilityMeasure P] {f : Ω → Py (Fin 3 → ℝ)}
    {S : Set (Fin 3 → ℝ)} (h : Spec.Samples P f (Spec.uniform 1 S)) (hS0 : volume S ≠ 0) (hSt : volume S ≠ ⊤) (b : Box ℝ)
    (hR : Spec.Orthogonal b.rotation) (hb : ∀ i, 0 ≤ b.halfExtents i) (hsub : Spec.box b.halfExtents b.rotation b.center ⊆ S)
    (V : ℝ) (hV : V = volume.real S) (atol δ : ℝ)
    (hδ : ((⟨fun i => b.halfExtents i + tol8, b.rotation, b.center⟩ : Box ℝ).volume - b.volume) / V ≤ δ) (hδa : δ < atol)
    (N : ℕ) (hN : 0 < N) :
    (Measure.pi fun _ : Fin N => P).real {ω | uniformityTest f b (b.volume / V) atol (List.ofFn ω) ≠ .ok true} ≤
      min (1 / (4 * N * (atol - δ) ^ 2)) (2 * Real.exp (-2 * N * (atol - δ) ^ 2)) := by
  subst hV
  have hμ := samples_probability h
  have hle := (uniform_tolBox hS0 hSt b hR hb hsub).trans hδ
  obtain ⟨h1, h2⟩ := C102_passes h b (b.volume / volume.real S) atol N hN (hle.trans_lt hδa)
  have hNr : (0 : ℝ) < N := Nat.cast_pos.mpr hN
  have hsq : (atol - δ) ^ 2 ≤ (atol - |(Spec.uniform 1 S).real (tolBox b) - b.volume / volume.real S|) ^ 2 :=
    pow_le_pow_left₀ (by linarith) (by linarith) 2
  have hpos : 0 < (atol - δ) ^ 2 := by have : 0 < atol - δ := by linarith
                                       positivity
  refine le_min (h1.trans ?_) (h2.trans ?_)
  · generalize (Spec.uniform 1 S).real (tolBox b) = p at *
    calc p * (1 - p) / (N * (atol - |p - b.volume / volume.real S|) ^ 2)
        ≤ (1 / 4) / (N * (atol - |p - b.volume / volume.real S|) ^ 2) :=
          div_le_div_of_nonneg_right (by nlinarith [sq_nonneg (p - 1 / 2)]) (by positivity)
      _ ≤ (1 / 4) / (N * (atol - δ) ^ 2) := div_le_div_of_nonneg_left (by norm_num) (by positivity)
          (mul_le_mul_of_nonneg_left hsq hNr.le)
      _ = _ := by field_simp
  · refine mul_le_mul_of_nonneg_left (Real.exp_le_exp.mpr ?_) zero_le_two
    nlinarith

/-- C102: the check of `Cylinder.random_points` in the tests, with fresh randomness. -/
theorem C102_cylinder (c : Cylinder ℝ) (hR : Spec.Orthogonal c.rotation) (hL : 0 < c.length) (hr : 0 < c.radius) :
    ∃ b, c.mib = .ok b ∧ ∀ atol δ : ℝ,
      ((⟨fun i => b.halfExtents i + tol8, b.rotation, b.center⟩ : Box ℝ).volume - b.volume) / c.volume ≤ δ → δ < atol →
      ∀ N : ℕ, 0 < N →
        (Measure.pi fun _ : Fin N => (Spec.draw (-1 / 2) (1 / 2)).prod ((Spec.normals 2).prod (Spec.draw 0 1))).real
          {ω | uniformityTest (fun q => c.randomPoints q.1 q.2.1 q.2.2) b (b.volume / c.volume) atol (List.ofFn ω) ≠ .ok true} ≤
        min (1 / (4 * N * (atol - δ) ^ 2)) (2 * Real.exp (-2 * N * (atol - δ) ^ 2)) := by
  have hp0 := draw_probability (zero_lt_one (α := ℝ))
  have hp1 : IsProbabilityMeasure (Spec.draw (-1 / 2) (1 / 2)) := draw_probability (by norm_num)
  have hp2 : IsProbabilityMeasure (Spec.normals 2) := by unfold Spec.normals; infer_instance
  obtain ⟨b, bb, e, s, h1, h2, h3, h4, h5, -⟩ := C35_cylinder c hR hL.le hr.le
  refine ⟨b, h1, fun atol δ hδ hδa N hN => ?_⟩
  have hn : ∀ i, 0 ≤ (![c.radius / Real.sqrt 2, c.radius / Real.sqrt 2, c.length / 2] : Fin 3 → ℝ) i := by
    intro i
    fin_cases i
    · exact div_nonneg hr.le (Real.sqrt_nonneg _)
    · exact div_nonneg hr.le (Real.sqrt_nonneg _)
    · exact div_nonneg hL.le zero_le_two
  have hbi : b = ⟨![c.radius / Real.sqrt 2, c.radius / Real.sqrt 2, c.length / 2], c.rotation, c.center⟩ := by
    unfold Cylinder.mib at h1
    dsimp only at h1
    rw [Box.init_ok _ hn] at h1
    exact (Except.ok.inj h1).symm
  have hV := C73_cylinder c hL.le hr.le hR
  have hpos : 0 < c.volume := by unfold Cylinder.volume; have := Real.pi_pos; positivity
  rw [hV] at hpos
  have hfin := (ENNReal.toReal_pos_iff.mp hpos)
  exact uniform_passes (C90_cylinder c hR hL hr) hfin.1.ne' hfin.2.ne b (by rw [hbi]; exact hR) (by rw [hbi]; exact hn) h5
    c.volume hV atol δ hδ hδa N hN

/-- C102: the check of `Ellipsoid.random_points` in the tests, with fresh randomness. -/
theorem C102_ellipsoid (e : Ellipsoid ℝ 3) (hR : Spec.Orthogonal e.rotation) (he : ∀ i, 0 < e.halfExtents i) :
    ∃ b, e.mib = .ok b ∧ ∀ atol δ : ℝ,
      ((⟨fun i => b.halfExtents i + tol8, b.rotation, b.center⟩ : Box ℝ).volume - b.volume) / e.volume ≤ δ → δ < atol →
      ∀ N : ℕ, 0 < N →
        (Measure.pi fun _ : Fin N => (Spec.normals 3).prod (Spec.draw 0 1)).real
          {ω | uniformityTest (fun q => e.randomPoints q.1 q.2) b (b.volume / e.volume) atol (List.ofFn ω) ≠ .ok true} ≤
        min (1 / (4 * N * (atol - δ) ^ 2)) (2 * Real.exp (-2 * N * (atol - δ) ^ 2)) := by
  have hp0 := draw_probability (zero_lt_one (α := ℝ))
  have hp2 : IsProbabilityMeasure (Spec.normals 3) := by unfold Spec.normals; infer_instance
  obtain ⟨b, bb, h1, h2, h5, -⟩ := C35_ellipsoid e (fun i => (he i).le) hR
  refine ⟨b, h1, fun atol δ hδ hδa N hN => ?_⟩
  have hn : ∀ i, 0 ≤ e.halfExtents i / Real.sqrt 3 := fun i => div_nonneg (he i).le (Real.sqrt_nonneg _)
  have hbi : b = ⟨fun i => e.halfExtents i / Real.sqrt 3, e.rotation, e.center⟩ := by
    unfold Ellipsoid.mib at h1
    rw [Box.init_ok _ hn] at h1
    exact (Except.ok.inj h1).symm
  have hV := C73_ellipsoid e (fun i => (he i).le) hR
  have hpos : 0 < e.volume := by
    unfold Ellipsoid.volume
    have := Real.pi_pos
    have := Finset.prod_pos fun i (_ : i ∈ Finset.univ) => he i
    positivity
  rw [hV] at hpos
  have hfin := (ENNReal.toReal_pos_iff.mp hpos)
  exact uniform_passes (C90_ellipsoid (by norm_num) e hR he) hfin.1.ne' hfin.2.ne b (by rw [hbi]; exact hR) (by rw [hbi]; exact hn) h5
    e.volume hV atol δ hδ hδa N hN

/-- C102: the check of `random_points_in_ball` in the tests, with fresh randomness. -/
theorem C102_ball : ∃ b : Box ℝ, Box.cube (1 / Real.sqrt 3) = .ok b ∧ ∀ atol δ : ℝ,
      ((⟨fun i => b.halfExtents i + tol8, b.rotation, b.center⟩ : Box ℝ).volume - b.volume) / (4 * Real.pi / 3) ≤ δ → δ < atol →
      ∀ N : ℕ, 0 < N →
        (Measure.pi fun _ : Fin N => (Spec.normals 3).prod (Spec.draw 0 1)).real
          {ω | uniformityTest (fun q => ballPoint 3 q.1 q.2) b (b.volume / (4 * Real.pi / 3)) atol (List.ofFn ω) ≠ .ok true} ≤
        min (1 / (4 * N * (atol - δ) ^ 2)) (2 * Real.exp (-2 * N * (atol - δ) ^ 2)) := by
  have hp0 := draw_probability (zero_lt_one (α := ℝ))
  have hp2 : IsProbabilityMeasure (Spec.normals 3) := by unfold Spec.normals; infer_instance
  have h0 : (0 : ℝ) ≤ 1 / Real.sqrt 3 := by positivity
  have hR : Spec.Orthogonal (1 : Matrix (Fin 3) (Fin 3) ℝ) := by simp [Spec.Orthogonal]
  refine ⟨⟨fun _ => 1 / Real.sqrt 3, 1, 0⟩, ?_, fun atol δ hδ hδa N hN => ?_⟩
  · simp only [Box.cube, mul_one]
    rw [Box.init_ok _ fun _ => h0]
    simp [pyAssert, h0, bind, Except.bind]
  have hset : {x : Fin 3 → ℝ | x ⬝ᵥ x ≤ 1} = Spec.ellipsoid (1 : Fin 3 → ℝ) 1 0 := by
    ext x
    simp only [Spec.ellipsoid, Set.mem_ofPred_eq, Spec.rigid, Matrix.one_mulVec, Pi.one_apply, one_mul, add_zero]
    exact ⟨fun h => ⟨x, h, rfl⟩, by rintro ⟨u, h, rfl⟩; exact h⟩
  have hV := C73_ellipsoid (⟨1, 1, 0⟩ : Ellipsoid ℝ 3) (fun i => zero_le_one) hR
  have hV' : 4 * Real.pi / 3 = volume.real {x : Fin 3 → ℝ | x ⬝ᵥ x ≤ 1} := by
    rw [hset, ← hV]
    simp [Ellipsoid.volume]
  have hpos : 0 < 4 * Real.pi / 3 := by have := Real.pi_pos; positivity
  rw [hV'] at hpos
  have hfin := (ENNReal.toReal_pos_iff.mp hpos)
  refine uniform_passes (C90_ball 2 (by norm_num)) hfin.1.ne' hfin.2.ne _ hR (fun _ => h0) ?_ _ hV' atol δ hδ hδa N hN
  rintro _ ⟨y, hy, rfl⟩
  simp only [Set.mem_ofPred_eq, Spec.rigid, Matrix.one_mulVec, add_zero]
  have hs : ∀ i, y i * y i ≤ 1 / 3 := fun i => by
    have h2 : y i ^ 2 ≤ (1 / Real.sqrt 3) ^ 2 := sq_le_sq.mpr (by rw [abs_of_nonneg h0]; exact hy i)
    rw [div_pow, Real.sq_sqrt (by norm_num)] at h2
    linarith
  change ∑ i : Fin 3, y i * y i ≤ 1
  rw [Fin.sum_univ_three]
  linarith [hs 0, hs 1, hs 2]

/-- The bound for the cylinder of tests/test_cylinder.py:58 with the 10000 points and the tolerance of the test, which
does not exclude that the test fails for one seed in four. -/
example : ∃ b, (⟨2, 1 / 2, 1, ![1, 0, 1]⟩ : Cylinder ℝ).mib = .ok b ∧
    (Measure.pi fun _ : Fin 10000 => (Spec.draw (-1 / 2) (1 / 2)).prod ((Spec.normals 2).prod (Spec.draw 0 1))).real
      {ω | uniformityTest (fun q => (⟨2, 1 / 2, 1, ![1, 0, 1]⟩ : Cylinder ℝ).randomPoints q.1 q.2.1 q.2.2) b
        (b.volume / (⟨2, 1 / 2, 1, ![1, 0, 1]⟩ : Cylinder ℝ).volume) (1 / 100) (List.ofFn ω) ≠ .ok true} ≤ 26 / 100 := by
  have hR : Spec.Orthogonal (1 : Matrix (Fin 3) (Fin 3) ℝ) := by simp [Spec.Orthogonal]
  obtain ⟨b, hb, h⟩ := C102_cylinder (⟨2, 1 / 2, 1, ![1, 0, 1]⟩ : Cylinder ℝ) hR (by norm_num) (by norm_num)
  refine ⟨b, hb, (h (1 / 100) (1 / 1000000) ?_ (by norm_num) 10000 (by norm_num)).trans ((min_le_left _ _).trans (by norm_num))⟩
  have h2 : (0 : ℝ) ≤ 1 / 2 / Real.sqrt 2 := by positivity
  have hn : ∀ i, 0 ≤ (![1 / 2 / Real.sqrt 2, 1 / 2 / Real.sqrt 2, 2 / 2] : Fin 3 → ℝ) i := by
    intro i
    fin_cases i
    · exact h2
    · exact h2
    · norm_num
  have hle : 1 / 2 / Real.sqrt 2 ≤ 1 / 2 := div_le_self (by norm_num) (by
    rw [show (1 : ℝ) = Real.sqrt 1 by simp]; exact Real.sqrt_le_sqrt (by norm_num))
  unfold Cylinder.mib at hb
  dsimp only at hb
  rw [Box.init_ok _ hn] at hb
  rw [← Except.ok.inj hb]
  generalize 1 / 2 / Real.sqrt 2 = s at *
  have hpi := Real.pi_gt_three
  simp only [Box.volume, Box.sideLengths, Cylinder.volume, Fin.prod_univ_three, tol8]
  rw [div_le_iff₀ (by positivity)]
  simp
  nlinarith

end Rigeo
