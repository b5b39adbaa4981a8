import Verif.Model.Random
import Verif.Spec.Random
import Mathlib.Algebra.BigOperators.Fin
import Mathlib.MeasureTheory.Constructions.Pi
import Mathlib.MeasureTheory.Measure.Prod
import Mathlib.Probability.ConditionalProbability

/-!
# Lemmas on rejection sampling with random candidates
-/

namespace Rigeo

open MeasureTheory ProbabilityTheory Set

/-! ### The loop, for candidates of any type -/

/-- `rejectionLoop` for candidates of any type. -/
def loopG {α : Type} (accept : α → Bool) (draw : ℕ → ℕ → List α) (n : ℕ) :
    (fuel : ℕ) → (round : ℕ) → (acc : List α) → Py (List α)
  | fuel, round, acc =>
    if acc.length < n then
      match fuel with
      | 0 => .error .value
      | fuel + 1 => loopG accept draw n fuel (round + 1) (acc ++ (draw round (n - acc.length)).filter accept)
    else .ok acc

theorem rejectionLoop_eq_loopG {K : Type} [Field K] [LinearOrder K] (accept : (Fin 3 → K) → Bool)
    (draw : ℕ → ℕ → List (Fin 3 → K)) (n fuel : ℕ) : ∀ round acc,
    rejectionLoop accept draw n fuel round acc = loopG accept draw n fuel round acc := by
  induction fuel with
  | zero => intro round acc; rw [rejectionLoop, loopG]
  | succ fuel ih => intro round acc; rw [rejectionLoop, loopG]; simp only [ih]

theorem loopG_done {α : Type} (accept : α → Bool) (draw : ℕ → ℕ → List α) (n fuel round : ℕ) (acc : List α)
    (h : ¬ acc.length < n) : loopG accept draw n fuel round acc = .ok acc := by
  rw [loopG.eq_def]
  exact if_neg h

theorem loopG_zero {α : Type} (accept : α → Bool) (draw : ℕ → ℕ → List α) (n round : ℕ) (acc : List α)
    (h : acc.length < n) : loopG accept draw n 0 round acc = .error .value := by
  rw [loopG, if_pos h]

theorem loopG_succ {α : Type} (accept : α → Bool) (draw : ℕ → ℕ → List α) (n fuel round : ℕ) (acc : List α)
    (h : acc.length < n) : loopG accept draw n (fuel + 1) round acc =
      loopG accept draw n fuel (round + 1) (acc ++ (draw round (n - acc.length)).filter accept) := by
  rw [loopG, if_pos h]

theorem loopG_map {α β : Type} (f : α → β) (accept : β → Bool) (draw : ℕ → ℕ → List α) (n fuel : ℕ) : ∀ round acc,
    loopG accept (fun k c => (draw k c).map f) n fuel round (acc.map f) =
      (loopG (fun a => accept (f a)) draw n fuel round acc).map (List.map f) := by
  induction fuel with
  | zero =>
    intro round acc
    by_cases h : acc.length < n
    · rw [loopG_zero _ _ _ _ _ (by rwa [List.length_map]), loopG_zero _ _ _ _ _ h]
      rfl
    · rw [loopG_done _ _ _ _ _ _ (by rwa [List.length_map]), loopG_done _ _ _ _ _ _ h]
      rfl
  | succ fuel ih =>
    intro round acc
    by_cases h : acc.length < n
    · rw [loopG_succ _ _ _ _ _ _ (by rwa [List.length_map]), loopG_succ _ _ _ _ _ _ h, ← ih, List.map_append,
        List.length_map, List.filter_map]
      rfl
    · rw [loopG_done _ _ _ _ _ _ (by rwa [List.length_map]), loopG_done _ _ _ _ _ _ h]
      rfl

theorem loopG_shift {α : Type} (accept : α → Bool) (draw : ℕ → ℕ → List α) (n fuel : ℕ) : ∀ round acc,
    loopG accept draw n fuel (round + 1) acc = loopG accept (fun k => draw (k + 1)) n fuel round acc := by
  induction fuel with
  | zero => intro round acc; rw [loopG, loopG]
  | succ fuel ih => intro round acc; rw [loopG, loopG]; simp only [ih]

/-! ### Where the returned points come from -/

/-- The positions of the candidates of a round. -/
def slots (T n : ℕ) (k c : ℕ) : List (Fin T × Fin n) :=
  if h : k < T then (List.ofFn fun i => ((⟨k, h⟩ : Fin T), i)).take c else []

theorem candidates_slots {α : Type} {T n : ℕ} (x : Fin T → Fin n → α) :
    Spec.candidates x = fun k c => (slots T n k c).map fun s => x s.1 s.2 := by
  funext k c
  unfold Spec.candidates slots
  split_ifs with h
  · rw [List.map_take, List.map_ofFn]
    rfl
  · rfl

theorem slots_spec (T n k c : ℕ) : (slots T n k c).Nodup ∧ (slots T n k c).length ≤ c ∧
    ∀ s ∈ slots T n k c, (s.1 : ℕ) = k := by
  unfold slots
  split_ifs with h
  · refine ⟨List.Nodup.sublist (List.take_sublist _ _) ?_, ?_, fun s hs => ?_⟩
    · rw [List.nodup_ofFn]
      intro i j hij
      exact (Prod.ext_iff.1 hij).2
    · rw [List.length_take]
      exact min_le_left _ _
    · obtain ⟨i, rfl⟩ := List.mem_ofFn.1 (List.mem_of_mem_take hs)
      rfl
  · simp

theorem loopG_slots {T n : ℕ} (accept : Fin T × Fin n → Bool) (fuel : ℕ) : ∀ (round : ℕ) (acc l : List (Fin T × Fin n)),
    acc.length ≤ n → acc.Nodup → (∀ s ∈ acc, (s.1 : ℕ) < round ∧ accept s = true) →
    loopG accept (slots T n) n fuel round acc = .ok l → l.Nodup ∧ l.length = n ∧ ∀ s ∈ l, accept s = true := by
  induction fuel with
  | zero =>
    intro round acc l hl hn ha h
    by_cases hlt : acc.length < n
    · rw [loopG_zero _ _ _ _ _ hlt] at h
      cases h
    · rw [loopG_done _ _ _ _ _ _ hlt] at h
      cases h
      exact ⟨hn, by omega, fun s hs => (ha s hs).2⟩
  | succ fuel ih =>
    intro round acc l hl hn ha h
    by_cases hlt : acc.length < n
    · rw [loopG_succ _ _ _ _ _ _ hlt] at h
      obtain ⟨s1, s2, s3⟩ := slots_spec T n round (n - acc.length)
      refine ih (round + 1) _ l ?_ ?_ ?_ h
      · rw [List.length_append]
        have := List.length_filter_le accept (slots T n round (n - acc.length))
        omega
      · refine List.Nodup.append hn (s1.filter _) fun s hs hs' => ?_
        have h1 := (ha s hs).1
        have h2 := s3 s (List.mem_filter.1 hs').1
        omega
      · intro s hs
        rcases List.mem_append.1 hs with hs | hs
        · exact ⟨(ha s hs).1.trans (Nat.lt_succ_self _), (ha s hs).2⟩
        · exact ⟨by have := s3 s (List.mem_filter.1 hs).1; omega, (List.mem_filter.1 hs).2⟩
    · rw [loopG_done _ _ _ _ _ _ hlt] at h
      cases h
      exact ⟨hn, by omega, fun s hs => (ha s hs).2⟩

/-! ### Independent candidates -/

theorem lintegral_pi_prod {α : Type} [MeasurableSpace α] (μ : Measure α) [SigmaFinite μ] : ∀ (n : ℕ)
    (f : Fin n → α → ENNReal), (∀ i, Measurable (f i)) →
    ∫⁻ x, ∏ i, f i (x i) ∂(Measure.pi fun _ : Fin n => μ) = ∏ i, ∫⁻ a, f i a ∂μ
  | 0, f, _ => by
    simp
  | n + 1, f, hf => by
    have hmp := measurePreserving_piFinSuccAbove (fun _ : Fin (n + 1) => μ) 0
    have hm : Measurable fun q : α × (Fin n → α) => f 0 q.1 * ∏ i, f i.succ (q.2 i) :=
      ((hf 0).comp measurable_fst).mul
        (Finset.measurable_prod _ fun i _ => (hf _).comp ((measurable_pi_apply i).comp measurable_snd))
    have hg : Measurable fun y : Fin n → α => ∏ i, f i.succ (y i) :=
      Finset.measurable_prod _ fun i _ => (hf _).comp (measurable_pi_apply i)
    have h1 := hmp.lintegral_comp hm
    have h2 : ∀ x : Fin (n + 1) → α, ∏ i, f i (x i) = f 0 ((MeasurableEquiv.piFinSuccAbove (fun _ => α) 0 x).1) *
        ∏ i : Fin n, f i.succ ((MeasurableEquiv.piFinSuccAbove (fun _ => α) 0 x).2 i) := by
      intro x
      rw [Fin.prod_univ_succ]
      rfl
    simp only [h2]
    rw [h1, lintegral_prod_mul (hf 0).aemeasurable hg.aemeasurable, Fin.prod_univ_succ,
      lintegral_pi_prod μ n _ fun i => hf i.succ]

section Law

variable {α : Type} [MeasurableSpace α] (μ : Measure α) [IsProbabilityMeasure μ] (accept : α → Bool)

instance rounds_probability (T n : ℕ) : IsProbabilityMeasure (Spec.rounds T n μ) := by
  unfold Spec.rounds
  infer_instance

/-- Which candidates are accepted. -/
def pattern {T n : ℕ} (x : Fin T → Fin n → α) : Fin T → Fin n → Bool := fun k i => accept (x k i)

omit [MeasurableSpace α] in
theorem candidates_pattern {T n : ℕ} (x : Fin T → Fin n → α) :
    Spec.candidates (pattern accept x) = fun k c => (Spec.candidates x k c).map accept := by
  funext k c
  unfold Spec.candidates
  split_ifs with h
  · rw [List.map_take, List.map_ofFn]
    rfl
  · rfl

theorem except_map_ok {α β : Type} (f : α → β) (m : Py α) : (∃ l, m.map f = .ok l) ↔ ∃ l, m = .ok l := by
  rcases m with e | a
  · refine ⟨?_, ?_⟩ <;> (rintro ⟨l, h⟩; cases h)
  · exact ⟨fun _ => ⟨a, rfl⟩, fun _ => ⟨f a, rfl⟩⟩

omit [MeasurableSpace α] in
theorem success_pattern {T n : ℕ} (fuel round : ℕ) (acc : List α) (x : Fin T → Fin n → α) :
    (∃ l, loopG accept (Spec.candidates x) n fuel round acc = .ok l) ↔
      ∃ l, loopG id (Spec.candidates (pattern accept x)) n fuel round (acc.map accept) = .ok l := by
  rw [candidates_pattern, loopG_map accept id, except_map_ok]
  exact Iff.rfl

variable {accept} (hS : Measurable accept)
include hS

theorem measurableSet_accept (b : Bool) : MeasurableSet {a | accept a = b} := hS (measurableSet_singleton b)

theorem measurable_pattern (T n : ℕ) : Measurable (pattern accept : (Fin T → Fin n → α) → Fin T → Fin n → Bool) :=
  measurable_pi_lambda _ fun k => measurable_pi_lambda _ fun i =>
    hS.comp ((measurable_pi_apply i).comp (measurable_pi_apply k))

theorem measurableSet_success {T n : ℕ} (fuel round : ℕ) (acc : List α) :
    MeasurableSet {x : Fin T → Fin n → α | ∃ l, loopG accept (Spec.candidates x) n fuel round acc = .ok l} := by
  have : {x : Fin T → Fin n → α | ∃ l, loopG accept (Spec.candidates x) n fuel round acc = .ok l} =
      pattern accept ⁻¹' {A | ∃ l, loopG id (Spec.candidates A) n fuel round (acc.map accept) = .ok l} := by
    ext x
    exact success_pattern accept fuel round acc x
  rw [this]
  exact measurable_pattern hS T n (Set.toFinite _).measurableSet

omit [MeasurableSpace α] hS in
theorem pow_rejected (a : ENNReal) (l : List α) :
    a ^ (l.length - (l.filter accept).length) = (l.map fun z => if accept z = true then 1 else a).prod := by
  induction l with
  | nil => simp
  | cons z l ih =>
    have hle := List.length_filter_le accept l
    by_cases h : accept z = true
    · rw [List.filter_cons_of_pos h, List.length_cons, List.length_cons, Nat.add_sub_add_right, ih, List.map_cons,
        List.prod_cons, if_pos h, one_mul]
    · rw [List.filter_cons_of_neg h, List.length_cons, Nat.sub_add_comm hle, pow_succ, ih, List.map_cons, List.prod_cons,
        if_neg h, mul_comm]

/-- The probability of success. -/
theorem success_probability (n : ℕ) : ∀ (T : ℕ) (acc : List α), acc.length ≤ n →
    Spec.rounds T n μ {x | ∃ l, loopG accept (Spec.candidates x) n T 0 acc = .ok l} =
      (1 - μ {a | accept a = false} ^ T) ^ (n - acc.length)
  | 0, acc, hacc => by
    by_cases h : acc.length < n
    · have : {x : Fin 0 → Fin n → α | ∃ l, loopG accept (Spec.candidates x) n 0 0 acc = .ok l} = ∅ := by
        ext x
        simp [loopG_zero _ _ _ _ _ h]
      rw [this, measure_empty, pow_zero, tsub_self, zero_pow (by omega)]
    · have : {x : Fin 0 → Fin n → α | ∃ l, loopG accept (Spec.candidates x) n 0 0 acc = .ok l} = univ := by
        ext x
        simp [loopG_done _ _ _ _ _ _ h]
      rw [this, measure_univ, show n - acc.length = 0 by omega, pow_zero]
  | T + 1, acc, hacc => by
    by_cases h : acc.length < n
    swap
    · have : {x : Fin (T + 1) → Fin n → α | ∃ l, loopG accept (Spec.candidates x) n (T + 1) 0 acc = .ok l} = univ := by
        ext x
        simp [loopG_done _ _ _ _ _ _ h]
      rw [this, measure_univ, show n - acc.length = 0 by omega, pow_zero]
    set m := n - acc.length with hm
    set q := μ {a | accept a = false} with hq
    set a := 1 - q ^ T with ha
    have hmp := measurePreserving_piFinSuccAbove (fun _ : Fin (T + 1) => Measure.pi fun _ : Fin n => μ) 0
    let next : (Fin n → α) → List α := fun y => acc ++ ((List.ofFn y).take m).filter accept
    have hset : {x : Fin (T + 1) → Fin n → α | ∃ l, loopG accept (Spec.candidates x) n (T + 1) 0 acc = .ok l} =
        MeasurableEquiv.piFinSuccAbove (fun _ : Fin (T + 1) => Fin n → α) 0 ⁻¹'
          {p | ∃ l, loopG accept (Spec.candidates p.2) n T 0 (next p.1) = .ok l} := by
      ext x
      show (∃ l, _ = Except.ok l) ↔ ∃ l, loopG accept (Spec.candidates fun k => x k.succ) n T 0 (next (x 0)) = .ok l
      rw [loopG_succ _ _ _ _ _ _ h, loopG_shift]
      have h1 : Spec.candidates x 0 m = (List.ofFn (x 0)).take m := by
        unfold Spec.candidates
        rw [dif_pos (Nat.succ_pos T)]
        rfl
      have h2 : (fun k => Spec.candidates x (k + 1)) = Spec.candidates fun k => x k.succ := by
        funext k c
        unfold Spec.candidates
        by_cases hk : k < T
        · rw [dif_pos hk, dif_pos (Nat.succ_lt_succ hk)]
          rfl
        · rw [dif_neg hk, dif_neg (by omega)]
      rw [h1, h2]
    have hms : MeasurableSet {p : (Fin n → α) × (Fin T → Fin n → α) |
        ∃ l, loopG accept (Spec.candidates p.2) n T 0 (next p.1) = .ok l} := by
      have hM := measurableSet_success (T := T + 1) (n := n) hS (T + 1) 0 acc
      rw [hset] at hM
      have := (MeasurableEquiv.piFinSuccAbove (fun _ : Fin (T + 1) => Fin n → α) 0).symm.measurable hM
      rwa [← preimage_comp, MeasurableEquiv.self_comp_symm, preimage_id] at this
    have hlen : ∀ y : Fin n → α, ((List.ofFn y).take m).length = m := by
      intro y
      rw [List.length_take, List.length_ofFn]
      omega
    have hsec : ∀ y : Fin n → α, Spec.rounds T n μ (Prod.mk y ⁻¹'
        {p : (Fin n → α) × (Fin T → Fin n → α) | ∃ l, loopG accept (Spec.candidates p.2) n T 0 (next p.1) = .ok l}) =
        ∏ i : Fin n, if (i : ℕ) < m then (if accept (y i) = true then 1 else a) else 1 := by
      intro y
      have hnl : (next y).length ≤ n := by
        have := List.length_filter_le accept ((List.ofFn y).take m)
        rw [hlen] at this
        show (acc ++ _).length ≤ n
        rw [List.length_append]
        omega
      have h1 := success_probability n T (next y) hnl
      refine h1.trans ?_
      have h2 : n - (next y).length = ((List.ofFn y).take m).length - (((List.ofFn y).take m).filter accept).length := by
        show n - (acc ++ _).length = _
        rw [List.length_append, hlen]
        omega
      rw [h2, ← ha, pow_rejected, List.map_take, List.map_ofFn, List.prod_take_ofFn, Finset.prod_filter]
      rfl
    have hq1 : μ {a | accept a = true} + q = 1 := by
      have hc : {a | accept a = false} = {a | accept a = true}ᶜ := by
        ext z
        simp
      rw [hq, hc, measure_add_measure_compl (measurableSet_accept hS true), measure_univ]
    have hint : ∀ i : Fin n, ∫⁻ z, (if (i : ℕ) < m then (if accept z = true then 1 else a) else 1) ∂μ =
        if (i : ℕ) < m then 1 - q ^ (T + 1) else 1 := by
      intro i
      split_ifs with hi
      · have : ∀ z, (if accept z = true then 1 else a) = ({a | accept a = true}.indicator 1 z : ENNReal) +
            {a | accept a = false}.indicator (fun _ => a) z := by
          intro z
          by_cases hz : accept z = true
          · simp [hz]
          · simp [hz]
        simp only [this]
        rw [lintegral_add_left (measurable_one.indicator (measurableSet_accept hS true)),
          lintegral_indicator_one (measurableSet_accept hS true),
          lintegral_indicator_const (measurableSet_accept hS false), ← hq, ha]
        have hqle : q ≤ 1 := prob_le_one
        have hqt : q ≠ ⊤ := ne_top_of_le_ne_top ENNReal.one_ne_top hqle
        rw [ENNReal.sub_mul fun _ _ => hqt, one_mul, ← pow_succ]
        have : q ^ (T + 1) ≤ q := by
          calc q ^ (T + 1) = q ^ T * q := pow_succ _ _
            _ ≤ 1 * q := by gcongr; exact pow_le_one' hqle T
            _ = q := one_mul q
        rw [← AddLECancellable.add_tsub_assoc_of_le (ENNReal.cancel_of_ne (ne_top_of_le_ne_top hqt this)) this, hq1]
      · rw [lintegral_one, measure_univ]
    rw [hset, Spec.rounds, hmp.measure_preimage hms.nullMeasurableSet, Measure.prod_apply hms]
    have hsec' : ∀ y : Fin n → α, (Measure.pi fun j : Fin T => Measure.pi fun _ : Fin n => μ) (Prod.mk y ⁻¹'
        {p : (Fin n → α) × (Fin T → Fin n → α) | ∃ l, loopG accept (Spec.candidates p.2) n T 0 (next p.1) = .ok l}) =
        ∏ i : Fin n, if (i : ℕ) < m then (if accept (y i) = true then 1 else a) else 1 := hsec
    rw [lintegral_congr hsec', lintegral_pi_prod μ n fun i z =>
      if (i : ℕ) < m then (if accept z = true then 1 else a) else 1]
    · simp only [hint]
      rw [Finset.prod_ite, Finset.prod_const_one, mul_one, Finset.prod_const]
      congr 1
      have : m ≤ n := Nat.sub_le _ _
      rw [Fin.card_filter_val_lt, min_eq_right this]
    · intro i
      by_cases hi : (i : ℕ) < m
      · simp only [hi, if_true]
        exact Measurable.ite (measurableSet_accept hS true) measurable_const measurable_const
      · simp only [hi, if_false]
        exact measurable_const

/-- Given the accept pattern, the points at accepted positions are independent. -/
theorem pattern_product {T n : ℕ} (A : Fin T → Fin n → Bool) (σ : Fin n → Fin T × Fin n) (hσ : Function.Injective σ)
    (hA : ∀ i, A (σ i).1 (σ i).2 = true) (B : Fin n → Set α) (hB : ∀ i, MeasurableSet (B i)) :
    Spec.rounds T n μ (pattern accept ⁻¹' {A} ∩ {x | ∀ i, x (σ i).1 (σ i).2 ∈ B i}) =
      Spec.rounds T n μ (pattern accept ⁻¹' {A}) * ∏ i, μ[B i | {a | accept a = true}] := by
  have e1 : (pattern accept ⁻¹' {A} : Set (Fin T → Fin n → α)) =
      univ.pi fun k => univ.pi fun i => {a | accept a = A k i} := by
    ext x
    simp only [mem_preimage, mem_singleton_iff, mem_pi, mem_univ, true_imp_iff, mem_ofPred_eq, funext_iff, pattern]
  have e2 : (pattern accept ⁻¹' {A} ∩ {x | ∀ i, x (σ i).1 (σ i).2 ∈ B i} : Set (Fin T → Fin n → α)) =
      univ.pi fun k => univ.pi fun i => {a | accept a = A k i} ∩ {a | ∀ j, σ j = (k, i) → a ∈ B j} := by
    rw [e1]
    ext x
    simp only [mem_inter_iff, mem_pi, mem_univ, true_imp_iff, mem_ofPred_eq]
    constructor
    · rintro ⟨h1, h2⟩ k i
      refine ⟨h1 k i, fun j hj => ?_⟩
      have := h2 j
      rwa [hj] at this
    · intro h
      exact ⟨fun k i => (h k i).1, fun j => (h (σ j).1 (σ j).2).2 j rfl⟩
  have e3 : ∀ k i, μ ({a | accept a = A k i} ∩ {a | ∀ j, σ j = (k, i) → a ∈ B j}) =
      μ {a | accept a = A k i} * ∏ j ∈ Finset.univ.filter (fun j => σ j = (k, i)), μ[B j | {a | accept a = true}] := by
    intro k i
    by_cases h : ∃ j, σ j = (k, i)
    · obtain ⟨j, hj⟩ := h
      have hf : Finset.univ.filter (fun j => σ j = (k, i)) = {j} := by
        ext j'
        simp only [Finset.mem_filter, Finset.mem_univ, true_and, Finset.mem_singleton]
        exact ⟨fun h' => hσ (h'.trans hj.symm), fun h' => h' ▸ hj⟩
      have hb : {a | ∀ j, σ j = (k, i) → a ∈ B j} = B j := by
        ext a
        exact ⟨fun h' => h' j hj, fun h' j' hj' => hσ (hj'.trans hj.symm) ▸ h'⟩
      have ht : A k i = true := by
        have := hA j
        rwa [hj] at this
      rw [hf, Finset.prod_singleton, hb, ht, mul_comm, cond_mul_eq_inter (measurableSet_accept hS true)]
    · have hf : Finset.univ.filter (fun j => σ j = (k, i)) = ∅ := by
        ext j'
        simp only [Finset.mem_filter, Finset.mem_univ, true_and, Finset.notMem_empty, iff_false]
        exact fun h' => h ⟨j', h'⟩
      have hb : {a | ∀ j, σ j = (k, i) → a ∈ B j} = univ := by
        ext a
        exact ⟨fun _ => mem_univ _, fun _ j' hj' => absurd ⟨j', hj'⟩ h⟩
      rw [hf, Finset.prod_empty, hb, inter_univ, mul_one]
  rw [e2, e1, Spec.rounds, Measure.pi_pi, Measure.pi_pi]
  simp only [Measure.pi_pi, e3, Finset.prod_mul_distrib]
  congr 1
  rw [← Finset.prod_product', Finset.univ_product_univ]
  exact Finset.prod_fiberwise _ _ _

theorem pattern_law {T n : ℕ} (h0 : μ {a | accept a = true} ≠ 0) (A : Fin T → Fin n → Bool) (σ : Fin n → Fin T × Fin n)
    (hσ : Function.Injective σ) (hA : ∀ i, A (σ i).1 (σ i).2 = true) (D : Set (Fin n → α)) (hD : MeasurableSet D) :
    Spec.rounds T n μ (pattern accept ⁻¹' {A} ∩ {x | (fun i => x (σ i).1 (σ i).2) ∈ D}) =
      Spec.rounds T n μ (pattern accept ⁻¹' {A}) * (Measure.pi fun _ => μ[|{a | accept a = true}]) D := by
  have hP : MeasurableSet (pattern accept ⁻¹' {A} : Set (Fin T → Fin n → α)) :=
    measurable_pattern hS T n (measurableSet_singleton A)
  have hpr : Measurable fun x : Fin T → Fin n → α => fun i => x (σ i).1 (σ i).2 :=
    measurable_pi_lambda _ fun i => (measurable_pi_apply _).comp (measurable_pi_apply _)
  have : IsProbabilityMeasure μ[|{a | accept a = true}] := cond_isProbabilityMeasure h0
  set p := Spec.rounds T n μ (pattern accept ⁻¹' {A}) with hp
  by_cases hp0 : p = 0
  · rw [hp0, zero_mul]
    exact measure_mono_null inter_subset_left hp0
  have hpt : p ≠ ⊤ := measure_ne_top _ _
  have key : (Measure.pi fun _ : Fin n => μ[|{a | accept a = true}]) =
      p⁻¹ • ((Spec.rounds T n μ).restrict (pattern accept ⁻¹' {A})).map fun x i => x (σ i).1 (σ i).2 := by
    refine Measure.pi_eq fun B hB => ?_
    rw [Measure.smul_apply, Measure.map_apply hpr (MeasurableSet.univ_pi hB),
      Measure.restrict_apply (hpr (MeasurableSet.univ_pi hB)), inter_comm]
    have hset : (fun (x : Fin T → Fin n → α) i => x (σ i).1 (σ i).2) ⁻¹' univ.pi B =
        {x | ∀ i, x (σ i).1 (σ i).2 ∈ B i} := by
      ext x
      simp only [mem_preimage, mem_pi, mem_univ, true_imp_iff, mem_ofPred_eq]
    rw [hset, pattern_product μ hS A σ hσ hA B hB, ← hp, smul_eq_mul, ← mul_assoc, ENNReal.inv_mul_cancel hp0 hpt, one_mul]
  rw [key, Measure.smul_apply, Measure.map_apply hpr hD, Measure.restrict_apply (hpr hD), smul_eq_mul, ← mul_assoc,
    ENNReal.mul_inv_cancel hp0 hpt, one_mul, inter_comm]
  rfl

/-- The law of the returned points. -/
theorem loop_law {T n : ℕ} (h0 : μ {a | accept a = true} ≠ 0) (D : Set (Fin n → α)) (hD : MeasurableSet D) :
    Spec.rounds T n μ {x | ∃ y ∈ D, loopG accept (Spec.candidates x) n T 0 [] = .ok (List.ofFn y)} =
      Spec.rounds T n μ {x | ∃ l, loopG accept (Spec.candidates x) n T 0 [] = .ok l} *
        (Measure.pi fun _ => μ[|{a | accept a = true}]) D := by
  have hsum : ∀ s : Set (Fin T → Fin n → α), Spec.rounds T n μ s =
      ∑ A : Fin T → Fin n → Bool, Spec.rounds T n μ (pattern accept ⁻¹' {A} ∩ s) := by
    intro s
    have h1 := sum_measure_preimage_singleton (μ := (Spec.rounds T n μ).restrict s) (f := pattern accept)
      (Finset.univ : Finset (Fin T → Fin n → Bool)) fun A _ => measurable_pattern hS T n (measurableSet_singleton A)
    rw [Finset.coe_univ, preimage_univ, Measure.restrict_apply_univ] at h1
    rw [← h1]
    exact Finset.sum_congr rfl fun A _ => Measure.restrict_apply (measurable_pattern hS T n (measurableSet_singleton A))
  have hrun : ∀ x : Fin T → Fin n → α, loopG accept (Spec.candidates x) n T 0 [] =
      (loopG (fun s => pattern accept x s.1 s.2) (slots T n) n T 0 []).map (List.map fun s => x s.1 s.2) := by
    intro x
    rw [candidates_slots]
    exact loopG_map (fun s => x s.1 s.2) accept (slots T n) n T 0 []
  rw [hsum {x | ∃ y ∈ D, _}, hsum {x | ∃ l, _}, Finset.sum_mul]
  refine Finset.sum_congr rfl fun A _ => ?_
  rcases hl : loopG (fun s => A s.1 s.2) (slots T n) n T 0 [] with e | l
  · have hne : ∀ x ∈ (pattern accept ⁻¹' {A} : Set (Fin T → Fin n → α)), ∀ l,
        loopG accept (Spec.candidates x) n T 0 [] ≠ .ok l := by
      intro x hx l h
      have hx' : pattern accept x = A := hx
      rw [hrun, hx', hl] at h
      cases h
    have e1 : (pattern accept ⁻¹' {A} ∩ {x | ∃ y ∈ D, loopG accept (Spec.candidates x) n T 0 [] = .ok (List.ofFn y)} :
        Set (Fin T → Fin n → α)) = ∅ := by
      refine eq_empty_of_forall_notMem ?_
      rintro x ⟨hx, y, _, h⟩
      exact hne x hx _ h
    have e2 : (pattern accept ⁻¹' {A} ∩ {x | ∃ l, loopG accept (Spec.candidates x) n T 0 [] = .ok l} :
        Set (Fin T → Fin n → α)) = ∅ := by
      refine eq_empty_of_forall_notMem ?_
      rintro x ⟨hx, l, h⟩
      exact hne x hx _ h
    rw [e1, e2, measure_empty, zero_mul]
  · obtain ⟨hnd, hlen, hacc⟩ := loopG_slots _ _ _ _ _ (Nat.zero_le n) List.nodup_nil (by simp) hl
    let σ : Fin n → Fin T × Fin n := fun i => l.get (i.cast hlen.symm)
    have hσ : Function.Injective σ := fun i j h => Fin.cast_injective _ (List.nodup_iff_injective_get.1 hnd h)
    have hval : ∀ x ∈ (pattern accept ⁻¹' {A} : Set (Fin T → Fin n → α)),
        loopG accept (Spec.candidates x) n T 0 [] = .ok (List.ofFn fun i => x (σ i).1 (σ i).2) := by
      intro x hx
      have hx' : pattern accept x = A := hx
      rw [hrun, hx', hl]
      show Except.ok _ = _
      congr 1
      refine List.ext_getElem (by rw [List.length_map, hlen, List.length_ofFn]) fun i h1 h2 => ?_
      rw [List.getElem_map, List.getElem_ofFn]
      rfl
    have e1 : (pattern accept ⁻¹' {A} ∩ {x | ∃ y ∈ D, loopG accept (Spec.candidates x) n T 0 [] = .ok (List.ofFn y)} :
        Set (Fin T → Fin n → α)) = pattern accept ⁻¹' {A} ∩ {x | (fun i => x (σ i).1 (σ i).2) ∈ D} := by
      ext x
      refine and_congr_right fun hx => ⟨?_, fun h => ⟨_, h, hval x hx⟩⟩
      rintro ⟨y, hy, h⟩
      rw [hval x hx] at h
      have := List.ofFn_injective (Except.ok.inj h)
      show _ ∈ D
      rw [this]
      exact hy
    have e2 : (pattern accept ⁻¹' {A} ∩ {x | ∃ l, loopG accept (Spec.candidates x) n T 0 [] = .ok l} :
        Set (Fin T → Fin n → α)) = pattern accept ⁻¹' {A} :=
      inter_eq_left.2 fun x hx => ⟨_, hval x hx⟩
    rw [e1, e2, pattern_law μ hS h0 A σ hσ (fun i => hacc _ (List.get_mem _ _)) D hD]

end Law

end Rigeo
