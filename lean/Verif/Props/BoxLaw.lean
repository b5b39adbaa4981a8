import Verif.Lemmas.Multinomial
import Verif.Props.Laws
import Verif.Props.Shells
import Verif.Props.Sampling2

/-!
# C93: the laws of the samplers on the edges and on the surface of a box
-/

namespace Rigeo

open MeasureTheory ProbabilityTheory Matrix Set

theorem measurableSet_block {k : ℕ} (h : Fin k → ℝ) : MeasurableSet {y : Fin k → ℝ | ∀ j, |y j| ≤ h j} := by
  have : {y : Fin k → ℝ | ∀ j, |y j| ≤ h j} = ⋂ j, {y | |y j| ≤ h j} := by ext; simp
  rw [this]
  exact MeasurableSet.iInter fun j => measurableSet_le (measurable_pi_apply j).abs measurable_const

theorem block_volume {k : ℕ} (h : Fin k → ℝ) (hh : ∀ j, 0 ≤ h j) :
    volume {y : Fin k → ℝ | ∀ j, |y j| ≤ h j} = ENNReal.ofReal (∏ j, (2 * h j)) := by
  have : {y : Fin k → ℝ | ∀ j, |y j| ≤ h j} = univ.pi fun j => Icc (-h j) (h j) := by
    ext y
    simp only [mem_ofPred_eq, mem_univ_pi, abs_le, mem_Icc]
  rw [this, volume_pi_pi, ENNReal.ofReal_prod_of_nonneg fun j _ => by have := hh j; positivity]
  refine Finset.prod_congr rfl fun j _ => ?_
  rw [Real.volume_Icc]
  congr 1
  ring

/-- Uniform draws, scaled. -/
theorem scaled_draws {k : ℕ} (h : Fin k → ℝ) (hh : ∀ j, 0 ≤ h j) :
    ENNReal.ofReal (∏ j, (2 * h j)) • (Spec.draws k (-1) 1).map (fun w => h * w) =
      volume.restrict {y : Fin k → ℝ | ∀ j, |y j| ≤ h j} := by
  by_cases hpos : ∀ j, 0 < h j
  · have hdet : (diagonal h).det ≠ 0 := by
      rw [det_diagonal]; exact Finset.prod_ne_zero_iff.mpr fun j _ => (hpos j).ne'
    have himg : (fun p => diagonal h *ᵥ p + (0 : Fin k → ℝ)) '' unitCube k = {y | ∀ j, |y j| ≤ h j} := by
      ext y
      constructor
      · rintro ⟨w, hw, rfl⟩ j
        have := abs_le.mpr (hw j (mem_univ j))
        show |(diagonal h *ᵥ w + 0) j| ≤ h j
        rw [add_zero, mulVec_diagonal, abs_mul, abs_of_pos (hpos j)]
        exact mul_le_of_le_one_right (hpos j).le this
      · intro hy
        refine ⟨fun j => y j / h j, fun j _ => abs_le.mp ?_, ?_⟩
        · rw [abs_div, abs_of_pos (hpos j)]
          exact div_le_one_of_le₀ (hy j) (hpos j).le
        · ext j
          simp only [add_zero, mulVec_diagonal]
          exact mul_div_cancel₀ _ (hpos j).ne'
    have hfun : (fun w : Fin k → ℝ => h * w) = fun p => diagonal h *ᵥ p + (0 : Fin k → ℝ) := by
      funext w
      ext j
      simp [mulVec_diagonal]
    have hP : 0 < ∏ j, (2 * h j) := Finset.prod_pos fun j _ => by have := hpos j; positivity
    rw [draws_cube, hfun, ← uniform_affine _ hdet, himg, Spec.uniform, smul_smul, measureReal_def, block_volume h hh,
      ENNReal.toReal_ofReal hP.le, ← ENNReal.ofReal_mul hP.le, mul_one_div_cancel hP.ne', ENNReal.ofReal_one, one_smul]
  · push Not at hpos
    obtain ⟨j, hj⟩ := hpos
    have hz : ∏ j, (2 * h j) = 0 := Finset.prod_eq_zero (Finset.mem_univ j) (by rw [le_antisymm hj (hh j), mul_zero])
    have hv := block_volume h hh
    rw [hz, ENNReal.ofReal_zero] at hv ⊢
    rw [zero_smul, Measure.restrict_eq_zero.mpr hv]

section
variable (b : Box ℝ)

/-! ## Edges -/

/-- The row `i` before the shuffle, for given counts and a given draw. -/
noncomputable def edgeRow (c : Fin 12 → ℕ) (i : ℕ) (v : ℝ) : Fin 3 → ℝ :=
  let x := b.halfExtents 0
  let y := b.halfExtents 1
  let z := b.halfExtents 2
  let idx : ℕ → ℕ := fun k => ∑ i ∈ Finset.univ.filter (fun i : Fin 12 => (i : ℕ) < k), c i
  if i < idx 4 then
    let yz : ℝ × ℝ := if i < idx 1 then (y, z) else if i < idx 2 then (y, -z)
      else if i < idx 3 then (-y, -z) else (-y, z)
    ![x * v, yz.1, yz.2]
  else if i < idx 8 then
    let xz : ℝ × ℝ := if i < idx 5 then (x, z) else if i < idx 6 then (x, -z)
      else if i < idx 7 then (-x, -z) else (-x, z)
    ![xz.1, y * v, xz.2]
  else
    let xy : ℝ × ℝ := if i < idx 9 then (x, y) else if i < idx 10 then (x, -y)
      else if i < idx 11 then (-x, -y) else (-x, y)
    ![xy.1, xy.2, z * v]

/-- The point on edge `j` for a given draw. -/
noncomputable def edgePoint : Fin 12 → ℝ → Fin 3 → ℝ :=
  let x := b.halfExtents 0
  let y := b.halfExtents 1
  let z := b.halfExtents 2
  ![fun v => ![x * v, y, z], fun v => ![x * v, y, -z], fun v => ![x * v, -y, -z], fun v => ![x * v, -y, z],
    fun v => ![x, y * v, z], fun v => ![x, y * v, -z], fun v => ![-x, y * v, -z], fun v => ![-x, y * v, z],
    fun v => ![x, y, z * v], fun v => ![x, -y, z * v], fun v => ![-x, -y, z * v], fun v => ![-x, y, z * v]]

variable {b}

theorem idx_iff {m : ℕ} (c : Fin m → ℕ) (i : ℕ) (j : Fin m) (h1 : ∑ l ∈ Finset.univ.filter (· < j), c l ≤ i)
    (h2 : i < ∑ l ∈ Finset.univ.filter (· ≤ j), c l) (a : ℕ) :
    i < ∑ l ∈ Finset.univ.filter (fun l : Fin m => (l : ℕ) < a), c l ↔ (j : ℕ) < a := by
  constructor
  · intro h
    by_contra hja
    push Not at hja
    have : ∑ l ∈ Finset.univ.filter (fun l : Fin m => (l : ℕ) < a), c l ≤ ∑ l ∈ Finset.univ.filter (· < j), c l := by
      refine Finset.sum_le_sum_of_subset fun l hl => ?_
      simp only [Finset.mem_filter, Finset.mem_univ, true_and] at hl ⊢
      exact Fin.lt_def.mpr (by omega)
    omega
  · intro h
    refine h2.trans_le (Finset.sum_le_sum_of_subset fun l hl => ?_)
    simp only [Finset.mem_filter, Finset.mem_univ, true_and] at hl ⊢
    have := Fin.le_def.mp hl
    omega

theorem edgeRow_eq (c : Fin 12 → ℕ) (i : ℕ) (j : Fin 12) (h1 : ∑ l ∈ Finset.univ.filter (· < j), c l ≤ i)
    (h2 : i < ∑ l ∈ Finset.univ.filter (· ≤ j), c l) : edgeRow b c i = edgePoint b j := by
  funext v
  unfold edgeRow edgePoint
  simp only [idx_iff c i j h1 h2]
  clear h1 h2
  fin_cases j <;> rfl

theorem measurable_edgeRow (c : Fin 12 → ℕ) (i : ℕ) : Measurable (edgeRow b c i) := by
  unfold edgeRow
  dsimp only
  split_ifs <;> exact measurable_pi_lambda _ fun k => by fin_cases k <;> simp <;> fun_prop

theorem measurable_edgePoint (j : Fin 12) : Measurable (edgePoint b j) := by
  unfold edgePoint
  refine measurable_pi_lambda _ fun k => ?_
  fin_cases j <;> fin_cases k <;> simp <;> fun_prop

theorem shuffle_ofFn {α : Type} {n : ℕ} (σ : Equiv.Perm (Fin n)) (f : Fin n → α) :
    Spec.shuffle σ (List.ofFn f) = List.ofFn fun i => f (σ i) := by
  unfold Spec.shuffle
  rw [dif_pos (List.length_ofFn)]
  congr 1
  funext i
  simp

theorem randomPointsOnEdges_eq (hb : ∀ i, 0 ≤ b.halfExtents i) (hne : b.halfExtents ≠ 0) (n : ℕ) (c : Fin 12 → ℕ)
    (u : Fin n → ℝ) (σ : Equiv.Perm (Fin n)) :
    b.randomPointsOnEdges n c (Spec.sequence u) (Spec.shuffle σ) =
      .ok (List.ofFn fun i => Spec.rigid b.rotation b.center (edgeRow b c (σ i) (u (σ i)))) := by
  have h0 : ¬ 4 * (b.halfExtents 0 + b.halfExtents 1 + b.halfExtents 2) = 0 := by
    intro h0
    apply hne
    have := hb 0; have := hb 1; have := hb 2
    ext i; fin_cases i
    · change b.halfExtents 0 = 0; linarith
    · change b.halfExtents 1 = 0; linarith
    · change b.halfExtents 2 = 0; linarith
  unfold Box.randomPointsOnEdges
  dsimp only
  rw [if_neg h0]
  have hrows : (List.range n).map (fun i => edgeRow b c i (Spec.sequence u i)) =
      List.ofFn fun i : Fin n => edgeRow b c i (u i) := by
    refine List.ext_getElem (by simp) fun i h1 h2 => ?_
    have hi : i < n := by simpa using h1
    simp [Spec.sequence, hi]
  have h2 : (Spec.shuffle σ ((List.range n).map fun i => edgeRow b c i (Spec.sequence u i))).map
      (fun p => b.rotation *ᵥ p + b.center) =
      List.ofFn fun i => Spec.rigid b.rotation b.center (edgeRow b c (σ i) (u (σ i))) := by
    rw [hrows, shuffle_ofFn, List.map_ofFn]
    rfl
  exact congrArg Except.ok h2

theorem edge_piece (h : Fin 3 → ℝ) (hh : ∀ i, 0 ≤ h i) (i : Fin 3) (w : Fin 2 → ℝ) :
    (volume.restrict {y : Fin 1 → ℝ | |y 0| ≤ h i}).map (fun y => (i.insertNth (y 0) w : Fin 3 → ℝ)) =
      ENNReal.ofReal (2 * h i) • (Spec.draw (-1) 1).map (fun v => (i.insertNth (h i * v) w : Fin 3 → ℝ)) := by
  have hp : IsProbabilityMeasure (Spec.draw (-1) 1) := draw_probability (by norm_num)
  have h1 := scaled_draws (fun _ : Fin 1 => h i) fun _ => hh i
  have hset : {y : Fin 1 → ℝ | |y 0| ≤ h i} = {y | ∀ j, |y j| ≤ (fun _ => h i) j} := by
    ext y
    simp
  have hins : Measurable fun v : ℝ => (i.insertNth v w : Fin 3 → ℝ) := by
    refine measurable_pi_lambda _ fun k => ?_
    rcases Fin.eq_self_or_eq_succAbove i k with rfl | ⟨j, rfl⟩
    · simp only [Fin.insertNth_apply_same]; exact measurable_id
    · simp only [Fin.insertNth_apply_succAbove]; exact measurable_const
  have hdraw : (Spec.draws 1 (-1) 1).map (fun w => w 0) = Spec.draw (-1) 1 := by
    rw [Spec.draws, Measure.pi_map_eval]
    simp
  rw [hset, ← h1, Measure.map_smul, ← hdraw, Measure.map_map (by fun_prop) (by fun_prop),
    Measure.map_map (by fun_prop) (by fun_prop), Fin.prod_univ_one]
  rfl

theorem edges_sum (h : Fin 3 → ℝ) (hh : ∀ i, 0 ≤ h i) : Spec.boxEdges h =
    ∑ i : Fin 3, ∑ s : Bool, ∑ t : Bool, ENNReal.ofReal (2 * h i) • (Spec.draw (-1) 1).map (fun v =>
      (i.insertNth (h i * v) ![if s then h (i.succAbove 0) else -h (i.succAbove 0),
        if t then h (i.succAbove 1) else -h (i.succAbove 1)] : Fin 3 → ℝ)) := by
  rw [Spec.boxEdges]
  refine Finset.sum_congr rfl fun i _ => Finset.sum_congr rfl fun s _ => Finset.sum_congr rfl fun t _ => ?_
  exact edge_piece h hh i _

theorem sum_twelve {M : Type} [AddCommMonoid M] (F : Fin 12 → M) : ∑ j, F j =
    F 0 + F 1 + F 2 + F 3 + F 4 + F 5 + F 6 + F 7 + F 8 + F 9 + F 10 + F 11 := by
  simp only [Fin.sum_univ_castSucc, Fin.sum_univ_zero, zero_add]
  rfl

theorem edges_evenly (hb : ∀ i, 0 ≤ b.halfExtents i) (hne : b.halfExtents ≠ 0) :
    ∑ j, ENNReal.ofReal (b.edgePvals j) • (Spec.draw (-1) 1).map (edgePoint b j) =
      Spec.evenly 1 (Spec.boxEdges b.halfExtents) := by
  have h0 := hb 0
  have h1 := hb 1
  have h2 := hb 2
  have hpos : 0 < b.halfExtents 0 + b.halfExtents 1 + b.halfExtents 2 := by
    refine lt_of_le_of_ne (by positivity) fun h => hne ?_
    ext i; fin_cases i
    · change b.halfExtents 0 = 0; linarith
    · change b.halfExtents 1 = 0; linarith
    · change b.halfExtents 2 = 0; linarith
  have hw : ∀ i, ENNReal.ofReal (1 / (8 * (b.halfExtents 0 + b.halfExtents 1 + b.halfExtents 2))) *
      ENNReal.ofReal (2 * b.halfExtents i) =
      ENNReal.ofReal (b.halfExtents i / (4 * (b.halfExtents 0 + b.halfExtents 1 + b.halfExtents 2))) := by
    intro i
    rw [← ENNReal.ofReal_mul (by positivity)]
    congr 1
    field_simp
    ring
  rw [Spec.evenly, (boxEdges_moments _ hb).mass, edges_sum _ hb]
  simp only [Finset.smul_sum, smul_smul, hw]
  rw [sum_twelve, Fin.sum_univ_three]
  simp only [Fintype.sum_bool]
  have key : ∀ (j : Fin 12) (i : Fin 3) (s t : Bool), b.edgePvals j =
        b.halfExtents i / (4 * (b.halfExtents 0 + b.halfExtents 1 + b.halfExtents 2)) →
      (∀ v, edgePoint b j v = (i.insertNth (b.halfExtents i * v)
        ![if s then b.halfExtents (i.succAbove 0) else -b.halfExtents (i.succAbove 0),
          if t then b.halfExtents (i.succAbove 1) else -b.halfExtents (i.succAbove 1)] : Fin 3 → ℝ)) →
      ENNReal.ofReal (b.edgePvals j) • (Spec.draw (-1) 1).map (edgePoint b j) =
      ENNReal.ofReal (b.halfExtents i / (4 * (b.halfExtents 0 + b.halfExtents 1 + b.halfExtents 2))) •
        (Spec.draw (-1) 1).map (fun v => (i.insertNth (b.halfExtents i * v)
        ![if s then b.halfExtents (i.succAbove 0) else -b.halfExtents (i.succAbove 0),
          if t then b.halfExtents (i.succAbove 1) else -b.halfExtents (i.succAbove 1)] : Fin 3 → ℝ)) := by
    intro j i s t h1 h2
    rw [h1, funext h2]
  rw [key 0 0 true true rfl fun v => by ext k; fin_cases k <;> rfl,
    key 1 0 true false rfl fun v => by ext k; fin_cases k <;> rfl,
    key 2 0 false false rfl fun v => by ext k; fin_cases k <;> rfl,
    key 3 0 false true rfl fun v => by ext k; fin_cases k <;> rfl,
    key 4 1 true true rfl fun v => by ext k; fin_cases k <;> rfl,
    key 5 1 true false rfl fun v => by ext k; fin_cases k <;> rfl,
    key 6 1 false false rfl fun v => by ext k; fin_cases k <;> rfl,
    key 7 1 false true rfl fun v => by ext k; fin_cases k <;> rfl,
    key 8 2 true true rfl fun v => by ext k; fin_cases k <;> rfl,
    key 9 2 true false rfl fun v => by ext k; fin_cases k <;> rfl,
    key 10 2 false false rfl fun v => by ext k; fin_cases k <;> rfl,
    key 11 2 false true rfl fun v => by ext k; fin_cases k <;> rfl]
  abel_nf

/-- C93: `Box.random_points_on_edges` returns `n` independent points, each uniformly distributed by length over the edges of
the box. -/
theorem C93_edges (hb : ∀ i, 0 ≤ b.halfExtents i) (hne : b.halfExtents ≠ 0) (n : ℕ) (D : Set (Fin n → Fin 3 → ℝ))
    (hD : MeasurableSet D) :
    ((Spec.multinomial n b.edgePvals).prod ((Spec.draws n (-1) 1).prod (Spec.shuffles n)))
        {ω | ∃ y ∈ D, b.randomPointsOnEdges n ω.1 (Spec.sequence ω.2.1) (Spec.shuffle ω.2.2) = .ok (List.ofFn y)} =
      (Measure.pi fun _ => (Spec.evenly 1 (Spec.boxEdges b.halfExtents)).map (Spec.rigid b.rotation b.center)) D := by
  have hp : IsProbabilityMeasure (Spec.draw (-1) 1) := draw_probability (by norm_num)
  have hrig : Measurable (Spec.rigid b.rotation b.center) := by
    unfold Spec.rigid
    have : Measurable fun x : Fin 3 → ℝ => b.rotation *ᵥ x := by
      unfold mulVec dotProduct
      fun_prop
    exact this.add_const _
  have hps : (∀ j, 0 ≤ b.edgePvals j) ∧ ∑ j, b.edgePvals j = 1 := by
    have h0 := hb 0
    have h1 := hb 1
    have h2 := hb 2
    have hpos : 0 < b.halfExtents 0 + b.halfExtents 1 + b.halfExtents 2 := by
      refine lt_of_le_of_ne (by positivity) fun h => hne ?_
      ext i; fin_cases i
      · change b.halfExtents 0 = 0; linarith
      · change b.halfExtents 1 = 0; linarith
      · change b.halfExtents 2 = 0; linarith
    unfold Box.edgePvals
    refine ⟨fun j => div_nonneg ?_ (by positivity), ?_⟩
    · fin_cases j <;> assumption
    · rw [← Finset.sum_div, div_eq_one_iff_eq (by positivity)]
      simp [Fin.sum_univ_succ]
      ring
  have := rows_law b.edgePvals hps.1 hps.2 (Spec.draw (-1) 1)
    (fun j v => Spec.rigid b.rotation b.center (edgePoint b j v)) (fun j => hrig.comp (measurable_edgePoint j))
    (fun c (i : Fin n) v => Spec.rigid b.rotation b.center (edgeRow b c i v))
    (fun c i => hrig.comp (measurable_edgeRow c i))
    (fun c i j _ h1 h2 => by rw [edgeRow_eq c i j h1 h2]) D hD
  have hlaw : ∑ j, ENNReal.ofReal (b.edgePvals j) • (Spec.draw (-1) 1).map
      (fun v => Spec.rigid b.rotation b.center (edgePoint b j v)) =
      (Spec.evenly 1 (Spec.boxEdges b.halfExtents)).map (Spec.rigid b.rotation b.center) := by
    rw [← edges_evenly hb hne, Measure.map_finset_sum hrig.aemeasurable]
    refine Finset.sum_congr rfl fun j _ => ?_
    rw [Measure.map_smul, Measure.map_map hrig (measurable_edgePoint j)]
    rfl
  rw [hlaw] at this
  rw [← this, Spec.draws]
  congr 1
  ext ω
  simp only [mem_ofPred_eq, randomPointsOnEdges_eq hb hne, Except.ok.injEq]
  constructor
  · rintro ⟨y, hy, h⟩
    rwa [List.ofFn_injective h]
  · intro h
    exact ⟨_, h, rfl⟩

/-! ## Faces -/

variable (b) in
/-- The point on face `j` for a given draw, before the pose is applied once more. -/
noncomputable def facePoint : Fin 6 → (Fin 3 → ℝ) → Fin 3 → ℝ :=
  let x := b.halfExtents 0
  let y := b.halfExtents 1
  let z := b.halfExtents 2
  ![fun v => Function.update (b.randomPoint v) 0 x, fun v => Function.update (b.randomPoint v) 0 (-x),
    fun v => Function.update (b.randomPoint v) 1 y, fun v => Function.update (b.randomPoint v) 1 (-y),
    fun v => Function.update (b.randomPoint v) 2 z, fun v => Function.update (b.randomPoint v) 2 (-z)]

variable (b) in
/-- The row `i` before the shuffle, for given counts and a given draw; `n` is the number of rows. -/
noncomputable def faceRow (n : ℕ) (c : Fin 6 → ℕ) (i : ℕ) (v : Fin 3 → ℝ) : Fin 3 → ℝ :=
  let x := b.halfExtents 0
  let y := b.halfExtents 1
  let z := b.halfExtents 2
  let idx : Fin 6 → ℕ := fun k => ∑ i ∈ Finset.univ.filter (· ≤ k), c i
  let set := fun (p : Fin 3 → ℝ) (lo hi : ℕ) (k : Fin 3) (w : ℝ) =>
    if lo ≤ i ∧ i < hi then Function.update p k w else p
  let p := set (b.randomPoint v) 0 (idx 0) 0 x
  let p := set p (idx 0) (idx 1) 0 (-x)
  let p := set p (idx 1) (idx 2) 1 y
  let p := set p (idx 2) (idx 3) 1 (-y)
  let p := set p (idx 3) (idx 4) 2 z
  set p (idx 4) n 2 (-z)

theorem idx_le_iff {m : ℕ} (c : Fin m → ℕ) (i : ℕ) (j : Fin m) (h1 : ∑ l ∈ Finset.univ.filter (· < j), c l ≤ i)
    (h2 : i < ∑ l ∈ Finset.univ.filter (· ≤ j), c l) (a : Fin m) :
    i < ∑ l ∈ Finset.univ.filter (· ≤ a), c l ↔ j ≤ a := by
  have := idx_iff c i j h1 h2 (a + 1)
  rw [show (Finset.univ.filter fun l : Fin m => (l : ℕ) < a + 1) = Finset.univ.filter (· ≤ a) from by
    ext l; simp only [Finset.mem_filter, Finset.mem_univ, true_and, Fin.le_iff_val_le_val, Nat.lt_succ_iff]] at this
  rw [this, Fin.le_iff_val_le_val]
  omega

theorem faceRow_eq (n : ℕ) (c : Fin 6 → ℕ) (i : ℕ) (hi : i < n) (j : Fin 6)
    (h1 : ∑ l ∈ Finset.univ.filter (· < j), c l ≤ i) (h2 : i < ∑ l ∈ Finset.univ.filter (· ≤ j), c l) :
    faceRow b n c i = facePoint b j := by
  funext v
  unfold faceRow facePoint
  have hle : ∀ a : Fin 6, (∑ l ∈ Finset.univ.filter (· ≤ a), c l ≤ i) ↔ a < j := fun a => by
    rw [← not_lt, idx_le_iff c i j h1 h2, not_le]
  simp only [idx_le_iff c i j h1 h2, hle, hi, Nat.zero_le, true_and, and_true]
  clear h1 h2 hle
  fin_cases j <;> rfl

theorem measurable_randomPoint : Measurable b.randomPoint := by
  unfold Box.randomPoint mulVec dotProduct
  fun_prop

theorem measurable_update (k : Fin 3) (w : ℝ) {f : (Fin 3 → ℝ) → Fin 3 → ℝ} (hf : Measurable f) :
    Measurable fun v => Function.update (f v) k w := by
  refine measurable_pi_lambda _ fun l => ?_
  by_cases h : l = k
  · subst h; simp only [Function.update_self]; exact measurable_const
  · simp only [Function.update_of_ne h]; exact (measurable_pi_apply l).comp hf

theorem measurable_facePoint (j : Fin 6) : Measurable (facePoint b j) := by
  unfold facePoint
  fin_cases j <;> exact measurable_update _ _ measurable_randomPoint

theorem measurable_faceRow (n : ℕ) (c : Fin 6 → ℕ) (i : ℕ) : Measurable (faceRow b n c i) := by
  have hset : ∀ (lo hi : ℕ) (k : Fin 3) (w : ℝ) {f : (Fin 3 → ℝ) → Fin 3 → ℝ}, Measurable f →
      Measurable fun v => if lo ≤ i ∧ i < hi then Function.update (f v) k w else f v := by
    intro lo hi k w f hf
    split_ifs
    · exact measurable_update k w hf
    · exact hf
  unfold faceRow
  exact hset _ _ _ _ (hset _ _ _ _ (hset _ _ _ _ (hset _ _ _ _ (hset _ _ _ _ (hset _ _ _ _ measurable_randomPoint)))))

theorem randomPointsOnSurface_eq (hb : ∀ i, 0 ≤ b.halfExtents i)
    (hpos : 0 < b.halfExtents 1 * b.halfExtents 2 + b.halfExtents 0 * b.halfExtents 2 + b.halfExtents 0 * b.halfExtents 1)
    (n : ℕ) (hn : n ≠ 1) (c : Fin 6 → ℕ) (u : Fin n → Fin 3 → ℝ) (σ : Equiv.Perm (Fin n)) :
    b.randomPointsOnSurface (List.ofFn u) c (Spec.shuffle σ) =
      .ok (List.ofFn fun i => Spec.rigid b.rotation b.center (faceRow b n c (σ i) (u (σ i)))) := by
  unfold Box.randomPointsOnSurface
  dsimp only
  rw [if_neg (by nlinarith), if_neg (by simpa using hn)]
  congr 1
  have hrows : Box.setCoord (Box.setCoord (Box.setCoord (Box.setCoord (Box.setCoord (Box.setCoord
      ((List.ofFn u).map b.randomPoint) 0 (∑ i ∈ Finset.univ.filter (· ≤ (0 : Fin 6)), c i) 0 (b.halfExtents 0))
      (∑ i ∈ Finset.univ.filter (· ≤ (0 : Fin 6)), c i) (∑ i ∈ Finset.univ.filter (· ≤ (1 : Fin 6)), c i) 0 (-b.halfExtents 0))
      (∑ i ∈ Finset.univ.filter (· ≤ (1 : Fin 6)), c i) (∑ i ∈ Finset.univ.filter (· ≤ (2 : Fin 6)), c i) 1 (b.halfExtents 1))
      (∑ i ∈ Finset.univ.filter (· ≤ (2 : Fin 6)), c i) (∑ i ∈ Finset.univ.filter (· ≤ (3 : Fin 6)), c i) 1 (-b.halfExtents 1))
      (∑ i ∈ Finset.univ.filter (· ≤ (3 : Fin 6)), c i) (∑ i ∈ Finset.univ.filter (· ≤ (4 : Fin 6)), c i) 2 (b.halfExtents 2))
      (∑ i ∈ Finset.univ.filter (· ≤ (4 : Fin 6)), c i) n 2 (-b.halfExtents 2) =
      List.ofFn fun i : Fin n => faceRow b n c i (u i) := by
    refine List.ext_getElem (by simp [setCoord_length]) fun i h1 h2 => ?_
    simp only [setCoord_getElem, List.getElem_map, List.getElem_ofFn]
    rfl
  have hlen : ∀ l : List (Fin 3 → ℝ), l.length = n → ∀ lo hi k w, (Box.setCoord l lo hi k w).length = n := by
    intro l hl lo hi k w
    rw [setCoord_length, hl]
  have hl0 : ((List.ofFn u).map b.randomPoint).length = n := by simp
  rw [hlen _ (hlen _ (hlen _ (hlen _ (hlen _ hl0 _ _ _ _) _ _ _ _) _ _ _ _) _ _ _ _) _ _ _ _, hrows, shuffle_ofFn,
    List.map_ofFn]
  rfl

theorem marginal_draws (k : Fin 3) :
    (Spec.draws 3 (-1) 1).map (fun v (j : Fin 2) => v (k.succAbove j)) = Spec.draws 2 (-1) 1 := by
  have hp : IsProbabilityMeasure (Spec.draw (-1) 1) := draw_probability (by norm_num)
  have h1 := (measurePreserving_piFinSuccAbove (fun _ : Fin 3 => Spec.draw (-1) 1) k).map_eq
  have h2 : ((Spec.draw (-1) 1).prod (Measure.pi fun _ : Fin 2 => Spec.draw (-1) 1)).map Prod.snd =
      Measure.pi fun _ : Fin 2 => Spec.draw (-1) 1 := by
    rw [Measure.map_snd_prod]; simp
  rw [Spec.draws, Spec.draws, ← h2, ← h1, Measure.map_map measurable_snd (MeasurableEquiv.measurable _)]
  rfl

theorem measurable_insertNth (k : Fin 3) (w : ℝ) : Measurable fun y : Fin 2 → ℝ => (k.insertNth w y : Fin 3 → ℝ) := by
  refine measurable_pi_lambda _ fun l => ?_
  rcases Fin.eq_self_or_eq_succAbove k l with rfl | ⟨j, rfl⟩
  · simp only [Fin.insertNth_apply_same]; exact measurable_const
  · simp only [Fin.insertNth_apply_succAbove]; exact measurable_pi_apply j

theorem face_piece (h : Fin 3 → ℝ) (hh : ∀ i, 0 ≤ h i) (k : Fin 3) (w : ℝ) :
    (volume.restrict {y : Fin 2 → ℝ | ∀ j, |y j| ≤ h (k.succAbove j)}).map
        (fun y => (k.insertNth w y : Fin 3 → ℝ)) =
      ENNReal.ofReal (4 * (h (k.succAbove 0) * h (k.succAbove 1))) •
        (Spec.draws 3 (-1) 1).map (fun v => Function.update (h * v) k w) := by
  have hpar : Measurable fun (v : Fin 3 → ℝ) (j : Fin 2) => v (k.succAbove j) := by fun_prop
  have hmul : Measurable fun y : Fin 2 → ℝ => (fun j => h (k.succAbove j)) * y := by fun_prop
  rw [← scaled_draws (fun j => h (k.succAbove j)) fun j => hh _, Measure.map_smul, ← marginal_draws k,
    Measure.map_map hmul hpar, Measure.map_map (measurable_insertNth k w) (hmul.comp hpar), Fin.prod_univ_two]
  congr 1
  · congr 1; ring
  · congr 1
    funext v
    ext l
    rcases Fin.eq_self_or_eq_succAbove k l with rfl | ⟨j, rfl⟩
    · simp
    · simp [Fin.succAbove_ne]

theorem sum_six {M : Type} [AddCommMonoid M] (F : Fin 6 → M) : ∑ j, F j = F 0 + F 1 + F 2 + F 3 + F 4 + F 5 := by
  simp only [Fin.sum_univ_castSucc, Fin.sum_univ_zero, zero_add]
  rfl

theorem faces_evenly (hb : ∀ i, 0 ≤ b.halfExtents i)
    (hpos : 0 < b.halfExtents 0 * b.halfExtents 1 + b.halfExtents 0 * b.halfExtents 2 + b.halfExtents 1 * b.halfExtents 2)
    (hR : b.rotation = 1) (hc : b.center = 0) :
    ∑ j, ENNReal.ofReal (b.facePvals j) • (Spec.draws 3 (-1) 1).map (facePoint b j) =
      Spec.evenly 1 (Spec.boxFaces b.halfExtents) := by
  have hrp : ∀ v, b.randomPoint v = b.halfExtents * v := by
    intro v
    unfold Box.randomPoint
    rw [hR, hc, one_mulVec, add_zero, mul_comm]
  have hw : ∀ a c, 0 ≤ a → 0 ≤ c → ENNReal.ofReal (1 / (8 * (b.halfExtents 0 * b.halfExtents 1 +
      b.halfExtents 0 * b.halfExtents 2 + b.halfExtents 1 * b.halfExtents 2))) * ENNReal.ofReal (4 * (a * c)) =
      ENNReal.ofReal ((4 * a * c) / (2 * (4 * b.halfExtents 1 * b.halfExtents 2 + 4 * b.halfExtents 0 * b.halfExtents 2 +
        4 * b.halfExtents 0 * b.halfExtents 1))) := by
    intro a c ha hc
    rw [← ENNReal.ofReal_mul (by positivity)]
    congr 1
    rw [show 2 * (4 * b.halfExtents 1 * b.halfExtents 2 + 4 * b.halfExtents 0 * b.halfExtents 2 +
      4 * b.halfExtents 0 * b.halfExtents 1) = 8 * (b.halfExtents 0 * b.halfExtents 1 +
      b.halfExtents 0 * b.halfExtents 2 + b.halfExtents 1 * b.halfExtents 2) by ring]
    ring
  rw [Spec.evenly, (boxFaces_moments _ hb).mass, Spec.boxFaces]
  simp only [face_piece _ hb, Finset.smul_sum, smul_smul, hw _ _ (hb _) (hb _)]
  rw [sum_six, Fin.sum_univ_three]
  simp only [Fintype.sum_bool]
  have hf : ∀ j, facePoint b j = (![fun v => Function.update (b.halfExtents * v) 0 (b.halfExtents 0),
      fun v => Function.update (b.halfExtents * v) 0 (-b.halfExtents 0),
      fun v => Function.update (b.halfExtents * v) 1 (b.halfExtents 1),
      fun v => Function.update (b.halfExtents * v) 1 (-b.halfExtents 1),
      fun v => Function.update (b.halfExtents * v) 2 (b.halfExtents 2),
      fun v => Function.update (b.halfExtents * v) 2 (-b.halfExtents 2)] : Fin 6 → (Fin 3 → ℝ) → Fin 3 → ℝ) j := by
    intro j
    unfold facePoint
    simp only [hrp]
  simp only [hf, ← add_assoc]
  rfl

/-- The rows produced by `Box.random_points_on_surface` are independent and identically distributed for every pose, but for a
box that is not axis-aligned at the origin their law is that of the points moved by the pose, flattened onto the coordinate planes,
and moved once more. -/
theorem C93_surface_posed (hb : ∀ i, 0 ≤ b.halfExtents i)
    (hpos : 0 < b.halfExtents 0 * b.halfExtents 1 + b.halfExtents 0 * b.halfExtents 2 + b.halfExtents 1 * b.halfExtents 2)
    (n : ℕ) (hn : n ≠ 1) (D : Set (Fin n → Fin 3 → ℝ)) (hD : MeasurableSet D) :
    ((Spec.multinomial n b.facePvals).prod ((Measure.pi fun _ : Fin n => Spec.draws 3 (-1) 1).prod (Spec.shuffles n)))
        {ω | ∃ y ∈ D, b.randomPointsOnSurface (List.ofFn ω.2.1) ω.1 (Spec.shuffle ω.2.2) = .ok (List.ofFn y)} =
      (Measure.pi fun _ => (∑ j, ENNReal.ofReal (b.facePvals j) • (Spec.draws 3 (-1) 1).map (facePoint b j)).map
        (Spec.rigid b.rotation b.center)) D := by
  have hp : IsProbabilityMeasure (Spec.draw (-1) 1) := draw_probability (by norm_num)
  have hps : IsProbabilityMeasure (Spec.draws 3 (-1) 1) := by unfold Spec.draws; infer_instance
  have hrig : Measurable (Spec.rigid b.rotation b.center) := by
    unfold Spec.rigid
    have : Measurable fun x : Fin 3 → ℝ => b.rotation *ᵥ x := by
      unfold mulVec dotProduct
      fun_prop
    exact this.add_const _
  have hpv : (∀ j, 0 ≤ b.facePvals j) ∧ ∑ j, b.facePvals j = 1 := by
    have h0 := hb 0
    have h1 := hb 1
    have h2 := hb 2
    unfold Box.facePvals
    refine ⟨fun j => div_nonneg ?_ (by positivity), ?_⟩
    · fin_cases j <;> simp <;> positivity
    · rw [← Finset.sum_div, div_eq_one_iff_eq (by nlinarith)]
      rw [sum_six]
      show 4 * b.halfExtents 1 * b.halfExtents 2 + 4 * b.halfExtents 1 * b.halfExtents 2 +
        4 * b.halfExtents 0 * b.halfExtents 2 + 4 * b.halfExtents 0 * b.halfExtents 2 +
        4 * b.halfExtents 0 * b.halfExtents 1 + 4 * b.halfExtents 0 * b.halfExtents 1 = _
      ring
  have := rows_law b.facePvals hpv.1 hpv.2 (Spec.draws 3 (-1) 1)
    (fun j v => Spec.rigid b.rotation b.center (facePoint b j v)) (fun j => hrig.comp (measurable_facePoint j))
    (fun c (i : Fin n) v => Spec.rigid b.rotation b.center (faceRow b n c i v))
    (fun c i => hrig.comp (measurable_faceRow n c i))
    (fun c i j _ h1 h2 => by rw [faceRow_eq n c i i.isLt j h1 h2]) D hD
  have hlaw : ∑ j, ENNReal.ofReal (b.facePvals j) • (Spec.draws 3 (-1) 1).map
      (fun v => Spec.rigid b.rotation b.center (facePoint b j v)) =
      (∑ j, ENNReal.ofReal (b.facePvals j) • (Spec.draws 3 (-1) 1).map (facePoint b j)).map
        (Spec.rigid b.rotation b.center) := by
    rw [Measure.map_finset_sum hrig.aemeasurable]
    refine Finset.sum_congr rfl fun j _ => ?_
    rw [Measure.map_smul, Measure.map_map hrig (measurable_facePoint j)]
    rfl
  rw [hlaw] at this
  rw [← this]
  congr 1
  ext ω
  simp only [mem_ofPred_eq, randomPointsOnSurface_eq hb (by linarith) n hn, Except.ok.injEq]
  constructor
  · rintro ⟨y, hy, h⟩
    rwa [List.ofFn_injective h]
  · intro h
    exact ⟨_, h, rfl⟩

/-- C93: for an axis-aligned box at the origin `Box.random_points_on_surface` returns `n` independent points, each uniformly
distributed by area over the surface of the box. -/
theorem C93_surface (hb : ∀ i, 0 ≤ b.halfExtents i)
    (hpos : 0 < b.halfExtents 0 * b.halfExtents 1 + b.halfExtents 0 * b.halfExtents 2 + b.halfExtents 1 * b.halfExtents 2)
    (hR : b.rotation = 1) (hc : b.center = 0) (n : ℕ) (hn : n ≠ 1) (D : Set (Fin n → Fin 3 → ℝ))
    (hD : MeasurableSet D) :
    ((Spec.multinomial n b.facePvals).prod ((Measure.pi fun _ : Fin n => Spec.draws 3 (-1) 1).prod (Spec.shuffles n)))
        {ω | ∃ y ∈ D, b.randomPointsOnSurface (List.ofFn ω.2.1) ω.1 (Spec.shuffle ω.2.2) = .ok (List.ofFn y)} =
      (Measure.pi fun _ => Spec.evenly 1 (Spec.boxFaces b.halfExtents)) D := by
  rw [C93_surface_posed hb hpos n hn D hD, faces_evenly hb hpos hR hc]
  congr 2
  funext i
  have : Spec.rigid b.rotation b.center = id := by
    funext x
    simp [Spec.rigid, hR, hc]
  rw [this, Measure.map_id]

/-- The box of the examples: half extents 1, 2, 3. -/
example : ∃ b : Box ℝ, (∀ i, 0 ≤ b.halfExtents i) ∧ b.halfExtents ≠ 0 ∧
    0 < b.halfExtents 0 * b.halfExtents 1 + b.halfExtents 0 * b.halfExtents 2 + b.halfExtents 1 * b.halfExtents 2 ∧
    b.rotation = 1 ∧ b.center = 0 :=
  ⟨⟨![1, 2, 3], 1, 0⟩, fun i => by fin_cases i <;> simp, fun h => by simpa using congrFun h 0, by simp; norm_num, rfl, rfl⟩

end

end Rigeo
