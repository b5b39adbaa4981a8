import Verif.Lemmas.Cdd
import Verif.Props.Realize2

/-!
# A `cdd` that satisfies its contract exists
-/

namespace Rigeo

open Matrix

variable {K : Type} [Field K] [LinearOrder K] [IsStrictOrderedRing K] {n d : ℕ}

theorem coneHull_append (A B : List (Fin n → K)) (x : Fin n → K) :
    x ∈ Spec.coneHull (A ++ B) ↔ ∃ a ∈ Spec.coneHull A, ∃ b ∈ Spec.coneHull B, x = a + b := by
  induction A generalizing x with
  | nil =>
    constructor
    · intro h; exact ⟨0, (mem_coneHull_nil _).mpr rfl, x, h, by simp⟩
    · rintro ⟨a, ha, b, hb, rfl⟩
      rw [(mem_coneHull_nil a).mp ha]
      simpa using hb
  | cons g A ih =>
    rw [List.cons_append, mem_coneHull_cons]
    constructor
    · rintro ⟨c, hc, h⟩
      obtain ⟨a, ha, b, hb, e⟩ := (ih _).mp h
      refine ⟨c • g + a, (mem_coneHull_cons _ _ _).mpr ⟨c, hc, by simpa using ha⟩, b, hb, ?_⟩
      rw [add_assoc, ← e]; abel
    · rintro ⟨a, ha, b, hb, rfl⟩
      obtain ⟨c, hc, h⟩ := (mem_coneHull_cons _ _ _).mp ha
      exact ⟨c, hc, (ih _).mpr ⟨_, h, b, hb, by abel⟩⟩

theorem coneHull_map {m : ℕ} (f : (Fin m → K) → (Fin n → K)) (G : List (Fin m → K)) (x : Fin n → K) :
    x ∈ Spec.coneHull (G.map f) ↔ ∃ w : Fin G.length → K, (∀ k, 0 ≤ w k) ∧ x = ∑ k, w k • f (G.get k) := by
  have hl : (G.map f).length = G.length := List.length_map f
  constructor
  · rintro ⟨w, hw, rfl⟩
    refine ⟨fun k => w (Fin.cast hl.symm k), fun k => hw _, ?_⟩
    rw [← (finCongr hl).sum_comp]
    refine Finset.sum_congr rfl fun k _ => ?_
    simp
  · rintro ⟨w, hw, rfl⟩
    refine ⟨fun k => w (Fin.cast hl k), fun k => hw _, ?_⟩
    rw [← (finCongr hl).sum_comp]
    refine Finset.sum_congr rfl fun k _ => ?_
    simp

theorem lineHull_eq (L : List (Fin n → K)) : Spec.lineHull L = Spec.coneHull (L ++ L.map fun v => -v) := by
  ext x
  rw [coneHull_append]
  constructor
  · rintro ⟨w, rfl⟩
    refine ⟨∑ k, max (w k) 0 • L.get k, ⟨fun k => max (w k) 0, fun k => le_max_right _ _, rfl⟩,
      ∑ k, max (-w k) 0 • -L.get k, (coneHull_map _ _ _).mpr ⟨fun k => max (-w k) 0, fun k => le_max_right _ _, rfl⟩, ?_⟩
    rw [← Finset.sum_add_distrib]
    refine Finset.sum_congr rfl fun k _ => ?_
    rw [smul_neg, ← sub_eq_add_neg, ← sub_smul]
    congr 1
    rcases le_total 0 (w k) with h | h
    · rw [max_eq_left h, max_eq_right (by linarith), sub_zero]
    · rw [max_eq_right h, max_eq_left (by linarith)]; ring
  · rintro ⟨a, ⟨w, -, rfl⟩, b, hb, rfl⟩
    obtain ⟨w', -, rfl⟩ := (coneHull_map _ _ _).mp hb
    refine ⟨fun k => w k - w' k, ?_⟩
    rw [← Finset.sum_add_distrib]
    refine Finset.sum_congr rfl fun k _ => ?_
    module

/-- The homogeneous coordinates `(x, t)`. -/
def hsnoc (t : K) (x : Fin d → K) : Fin (d + 1) → K := Fin.snoc (α := fun _ => K) x t

omit [LinearOrder K] [IsStrictOrderedRing K] in
theorem hsnoc_last (t : K) (x : Fin d → K) : hsnoc t x (Fin.last d) = t := by simp [hsnoc]

omit [LinearOrder K] [IsStrictOrderedRing K] in
theorem hsnoc_cast (t : K) (x : Fin d → K) (i : Fin d) : hsnoc t x i.castSucc = x i := by simp [hsnoc]

omit [LinearOrder K] [IsStrictOrderedRing K] in
theorem hsnoc_ext {t : K} {x : Fin d → K} {y : Fin (d + 1) → K} (h1 : t = y (Fin.last d))
    (h2 : ∀ i : Fin d, x i = y i.castSucc) : hsnoc t x = y := by
  ext i
  refine Fin.lastCases ?_ (fun j => ?_) i
  · rw [hsnoc_last, h1]
  · rw [hsnoc_cast, h2]

omit [LinearOrder K] [IsStrictOrderedRing K] in
theorem hsnoc_dot (s t : K) (a x : Fin d → K) : hsnoc s a ⬝ᵥ hsnoc t x = a ⬝ᵥ x + s * t := by
  simp [hsnoc, dotProduct, Fin.sum_univ_castSucc]

omit [LinearOrder K] [IsStrictOrderedRing K] in
theorem hsnoc_sum {ι : Type} [Fintype ι] (w : ι → K) (t : ι → K) (v : ι → Fin d → K) :
    ∑ k, w k • hsnoc (t k) (v k) = hsnoc (∑ k, w k * t k) (∑ k, w k • v k) := by
  symm
  refine hsnoc_ext ?_ fun i => ?_
  · simp [Finset.sum_apply, hsnoc_last]
  · simp [Finset.sum_apply, hsnoc_cast]

omit [LinearOrder K] [IsStrictOrderedRing K] in
theorem hsnoc_inj {s t : K} {x y : Fin d → K} : hsnoc s x = hsnoc t y ↔ s = t ∧ x = y := by
  constructor
  · intro h
    refine ⟨?_, ?_⟩
    · have := congrFun h (Fin.last d); rwa [hsnoc_last, hsnoc_last] at this
    · ext i; have := congrFun h i.castSucc; rwa [hsnoc_cast, hsnoc_cast] at this
  · rintro ⟨rfl, rfl⟩; rfl

omit [LinearOrder K] [IsStrictOrderedRing K] in
theorem hsnoc_add (s t : K) (x y : Fin d → K) : hsnoc s x + hsnoc t y = hsnoc (s + t) (x + y) := by
  symm
  refine hsnoc_ext ?_ fun i => ?_
  · simp [hsnoc_last]
  · simp [hsnoc_cast]

/-- Cones over a list at a fixed height. -/
theorem cone_level (t : K) (V : List (Fin d → K)) (y : Fin (d + 1) → K) :
    y ∈ Spec.coneHull (V.map (hsnoc t)) ↔ ∃ w : Fin V.length → K, (∀ k, 0 ≤ w k) ∧
      y = hsnoc ((∑ k, w k) * t) (∑ k, w k • V.get k) := by
  rw [coneHull_map]
  simp only [hsnoc_sum, Finset.sum_mul]

/-- The generators of the cone over a polyhedron. -/
def homGens (V R L : List (Fin d → K)) : List (Fin (d + 1) → K) :=
  (if V = [] then [0] else V).map (hsnoc 1) ++ (R ++ (L ++ L.map fun v => -v)).map (hsnoc 0)

theorem mem_generated_iff (V R L : List (Fin d → K)) (x : Fin d → K) :
    x ∈ Spec.generated V R L ↔ hsnoc 1 x ∈ Spec.coneHull (homGens V R L) := by
  have hv : ∀ v : Fin d → K, (if V = [] then v = 0 else v ∈ Spec.hull V) ↔
      v ∈ Spec.hull (if V = [] then [0] else V) := by
    intro v
    split_ifs with h
    · have : {u : Fin d → K | u ∈ [(0 : Fin d → K)]} = {0} := by ext; simp
      rw [Spec.hull, this]; simp
    · rfl
  unfold homGens
  rw [coneHull_append]
  constructor
  · rintro ⟨v, r, l, h1, h2, h3, rfl⟩
    obtain ⟨w, hw, hw1, rfl⟩ := (hull_weights _ _).mp ((hv v).mp h1)
    rw [lineHull_eq] at h3
    have h4 : r + l ∈ Spec.coneHull (R ++ (L ++ L.map fun v => -v)) := (coneHull_append _ _ _).mpr ⟨r, h2, l, h3, rfl⟩
    obtain ⟨u, hu, e⟩ := h4
    refine ⟨hsnoc 1 (∑ k, w k • _), (cone_level _ _ _).mpr ⟨w, hw, by rw [hw1, mul_one]⟩, hsnoc 0 (r + l), ?_, ?_⟩
    · exact (cone_level _ _ _).mpr ⟨u, hu, by rw [mul_zero, e]⟩
    · rw [hsnoc_add, add_zero, add_assoc]
  · rintro ⟨a, ha, b, hb, e⟩
    obtain ⟨w, hw, rfl⟩ := (cone_level _ _ _).mp ha
    obtain ⟨u, hu, rfl⟩ := (cone_level _ _ _).mp hb
    rw [hsnoc_add, mul_one, mul_zero, add_zero, hsnoc_inj] at e
    obtain ⟨e1, e2⟩ := e
    have h4 : (∑ k, u k • (R ++ (L ++ L.map fun v => -v)).get k) ∈ Spec.coneHull (R ++ (L ++ L.map fun v => -v)) := ⟨u, hu, rfl⟩
    obtain ⟨r, hr, l, hl, e3⟩ := (coneHull_append _ _ _).mp h4
    rw [← lineHull_eq] at hl
    refine ⟨_, r, l, (hv _).mpr ((hull_weights _ _).mpr ⟨w, hw, e1.symm, rfl⟩), hr, hl, ?_⟩
    rw [e2, e3, add_assoc]

theorem generated_nonempty (V R L : List (Fin d → K)) : (Spec.generated V R L).Nonempty := by
  by_cases h : V = []
  · exact ⟨0, 0, 0, 0, by simp [h], coneHull_zero _, ⟨0, by simp⟩, by simp⟩
  · obtain ⟨v, hv⟩ := List.exists_mem_of_ne_nil V h
    refine ⟨v, v, 0, 0, ?_, coneHull_zero _, ⟨0, by simp⟩, by simp⟩
    rw [if_neg h]
    exact subset_convexHull K _ hv

/-! ### Matrices without linearity -/

omit [Field K] [LinearOrder K] [IsStrictOrderedRing K] in
theorem plainRows_nil (rows : List (K × (Fin d → K))) : Spec.plainRows ⟨rows, []⟩ = rows := by
  unfold Spec.plainRows
  have : (rows.zipIdx.filter fun rk => !decide (rk.2 ∈ ([] : List ℕ))) = rows.zipIdx := by
    rw [List.filter_eq_self]; simp
  rw [this, List.zipIdx_map_fst]

omit [Field K] [LinearOrder K] [IsStrictOrderedRing K] in
theorem linRows_nil (rows : List (K × (Fin d → K))) : Spec.linRows ⟨rows, []⟩ = [] := by
  unfold Spec.linRows
  simp

omit [Field K] [LinearOrder K] [IsStrictOrderedRing K] in
theorem plainRows_sub (m : CddMat K d) {r : K × (Fin d → K)} (h : r ∈ Spec.plainRows m) : r ∈ m.rows := by
  obtain ⟨rk, h1, rfl⟩ := List.mem_map.mp h
  exact List.fst_mem_of_mem_zipIdx (List.mem_of_mem_filter h1)

omit [Field K] [LinearOrder K] [IsStrictOrderedRing K] in
theorem linRows_sub (m : CddMat K d) {r : K × (Fin d → K)} (h : r ∈ Spec.linRows m) : r ∈ m.rows := by
  obtain ⟨rk, h1, rfl⟩ := List.mem_map.mp h
  exact List.fst_mem_of_mem_zipIdx (List.mem_of_mem_filter h1)

omit [IsStrictOrderedRing K] in
theorem ineqSet_nil (rows : List (K × (Fin d → K))) (x : Fin d → K) :
    x ∈ Spec.ineqSet ⟨rows, []⟩ ↔ ∀ r ∈ rows, 0 ≤ r.1 + r.2 ⬝ᵥ x := by
  unfold Spec.ineqSet
  rw [plainRows_nil, linRows_nil]
  simp

omit [IsStrictOrderedRing K] in
theorem filter_levels (V R : List (Fin d → K)) :
    ((V.map fun v => ((1 : K), v)) ++ R.map fun v => ((0 : K), v)).filter (fun r => decide (r.1 = 1)) =
      V.map (fun v => ((1 : K), v)) ∧
    ((V.map fun v => ((1 : K), v)) ++ R.map fun v => ((0 : K), v)).filter (fun r => decide (r.1 = 0)) =
      R.map fun v => ((0 : K), v) := by
  constructor
  · rw [List.filter_append, List.filter_eq_self.mpr, List.filter_eq_nil_iff.mpr, List.append_nil]
    · simp
    · simp
  · rw [List.filter_append, List.filter_eq_nil_iff.mpr, List.filter_eq_self.mpr, List.nil_append]
    · simp
    · simp

omit [IsStrictOrderedRing K] in
theorem genSet_levels (V R : List (Fin d → K)) (x : Fin d → K) :
    x ∈ Spec.genSet ⟨V.map (fun v => ((1 : K), v)) ++ R.map (fun v => ((0 : K), v)), []⟩ ↔
      (V ≠ [] ∨ R ≠ []) ∧ x ∈ Spec.generated V R [] := by
  unfold Spec.genSet
  rw [plainRows_nil, linRows_nil, (filter_levels V R).1, (filter_levels V R).2, List.map_map, List.map_map]
  have e1 : V.map (Prod.snd ∘ fun v => ((1 : K), v)) = V := by simp [Function.comp_def]
  have e2 : R.map (Prod.snd ∘ fun v => ((0 : K), v)) = R := by simp [Function.comp_def]
  rw [e1, e2]
  simp only [Set.mem_ofPred_eq, List.map_nil]
  simp only [ne_eq, List.append_eq_nil_iff, List.map_eq_nil_iff, not_and_or]

/-- Generators to inequalities. -/
theorem exists_inequalities (m : CddMat K d) (hne : m.rows ≠ []) : ∃ m' : CddMat K d,
    Spec.LinInRange m' ∧ Spec.plainRows m' ≠ [] ∧ Spec.ineqSet m' = Spec.genSet m := by
  obtain ⟨A, hA⟩ := weyl (homGens (((Spec.plainRows m).filter fun r : K × (Fin d → K) => decide (r.1 = 1)).map Prod.snd)
    (((Spec.plainRows m).filter fun r : K × (Fin d → K) => decide (r.1 = 0)).map Prod.snd) ((Spec.linRows m).map Prod.snd))
  refine ⟨⟨(1, 0) :: A.map (fun a => (a (Fin.last d), fun i => a i.castSucc)), []⟩, ?_, ?_, ?_⟩
  · intro k hk; simp at hk
  · rw [plainRows_nil]; simp
  · ext x
    rw [ineqSet_nil]
    simp only [Spec.genSet, Set.mem_ofPred_eq]
    rw [mem_generated_iff, hA]
    have key : ∀ a : Fin (d + 1) → K, a ⬝ᵥ hsnoc 1 x = a (Fin.last d) + (fun i => a i.castSucc) ⬝ᵥ x := by
      intro a
      have : a = hsnoc (a (Fin.last d)) fun i => a i.castSucc := (hsnoc_ext rfl fun i => rfl).symm
      conv_lhs => rw [this]
      rw [hsnoc_dot]; ring
    simp only [key]
    constructor
    · intro h
      exact ⟨hne, fun a ha => h _ (List.mem_cons_of_mem _ (List.mem_map.mpr ⟨a, ha, rfl⟩))⟩
    · rintro ⟨-, h⟩ r hr
      rcases List.mem_cons.mp hr with rfl | hr
      · simp
      · obtain ⟨a, ha, rfl⟩ := List.mem_map.mp hr
        exact h a ha

/-- Inequalities to generators. -/
theorem exists_generators (m : CddMat K d) : ∃ m' : CddMat K d,
    Spec.WfGen m' ∧ Spec.NonzeroRays m' ∧ Spec.genSet m' = Spec.ineqSet m := by
  obtain ⟨G, hG⟩ := minkowski (hsnoc (1 : K) (0 : Fin d → K) :: (Spec.plainRows m).map (fun r => hsnoc r.1 r.2) ++
    ((Spec.linRows m).map (fun r => hsnoc r.1 r.2) ++ (Spec.linRows m).map (fun r => hsnoc (-r.1) (-r.2))))
  have hmem : ∀ x, x ∈ Spec.ineqSet m ↔ hsnoc 1 x ∈ Spec.coneHull G := by
    intro x
    rw [hG]
    simp only [List.forall_mem_append, List.forall_mem_cons, List.forall_mem_map, hsnoc_dot, Spec.ineqSet,
      Set.mem_ofPred_eq, mul_one, zero_dotProduct, zero_add, neg_dotProduct]
    constructor
    · rintro ⟨h1, h2⟩
      refine ⟨⟨zero_le_one, fun r hr => ?_⟩, fun r hr => ?_, fun r hr => ?_⟩
      · have := h1 r hr; linarith
      · have := h2 r hr; linarith
      · have := h2 r hr; linarith
    · rintro ⟨⟨-, h1⟩, h2, h3⟩
      refine ⟨fun r hr => ?_, fun r hr => ?_⟩
      · have := h1 r hr; linarith
      · have := h2 r hr; have := h3 r hr; linarith
  have hlast : ∀ g ∈ G, 0 ≤ g (Fin.last d) := by
    intro g hg
    have := (hG g).mp (coneHull_mem hg) (hsnoc 1 0) (by simp)
    have e : g = hsnoc (g (Fin.last d)) fun i => g i.castSucc := (hsnoc_ext rfl fun i => rfl).symm
    rw [e, hsnoc_dot] at this
    simpa using this
  let V : List (Fin d → K) := (G.filter fun g => decide (g (Fin.last d) ≠ 0)).map
    fun g i => (g (Fin.last d))⁻¹ * g i.castSucc
  let R : List (Fin d → K) := (G.filter fun g => decide (g (Fin.last d) = 0 ∧ (fun i : Fin d => g i.castSucc) ≠ 0)).map
    fun g i => g i.castSucc
  by_cases hV : V = []
  · refine ⟨⟨[], []⟩, ⟨fun k hk => by simp at hk, fun r hr => ?_, fun r hr => ?_⟩, ⟨fun r hr => ?_, fun r hr => ?_⟩, ?_⟩
    · rw [plainRows_nil] at hr; simp at hr
    · rw [linRows_nil] at hr; simp at hr
    · rw [plainRows_nil] at hr; simp at hr
    · rw [linRows_nil] at hr; simp at hr
    · ext x
      constructor
      · rintro ⟨h, -⟩; exact absurd rfl h
      · intro h
        exfalso
        have hx := (hmem x).mp h
        have h0 : ∀ g ∈ G, g (Fin.last d) = 0 := by
          intro g hg
          by_contra hne
          have : (fun i => (g (Fin.last d))⁻¹ * g i.castSucc) ∈ V :=
            List.mem_map.mpr ⟨g, List.mem_filter.mpr ⟨hg, by simpa using hne⟩, rfl⟩
          rw [hV] at this
          simp at this
        have : hsnoc 1 x ∈ {y : Fin (d + 1) → K | y (Fin.last d) = 0} :=
          coneHull_min (T := {y : Fin (d + 1) → K | y (Fin.last d) = 0}) (by simp)
            (fun x hx y hy => by simp only [Set.mem_ofPred_eq, Pi.add_apply] at *; rw [hx, hy, add_zero])
            (fun c _ x hx => by simp only [Set.mem_ofPred_eq, Pi.smul_apply] at *; rw [hx, smul_zero]) h0 hx
        simp only [Set.mem_ofPred_eq, hsnoc_last] at this
        exact one_ne_zero this
  · refine ⟨⟨V.map (fun v => ((1 : K), v)) ++ R.map (fun v => ((0 : K), v)), []⟩, ⟨fun k hk => by simp at hk, fun r hr => ?_, fun r hr => ?_⟩,
      ⟨fun r hr h0 => ?_, fun r hr => ?_⟩, ?_⟩
    · rw [plainRows_nil] at hr
      rcases List.mem_append.mp hr with h | h
      · obtain ⟨v, -, rfl⟩ := List.mem_map.mp h; exact Or.inr rfl
      · obtain ⟨v, -, rfl⟩ := List.mem_map.mp h; exact Or.inl rfl
    · rw [linRows_nil] at hr; simp at hr
    · rw [plainRows_nil] at hr
      rcases List.mem_append.mp hr with h | h
      · obtain ⟨v, -, rfl⟩ := List.mem_map.mp h; simp at h0
      · obtain ⟨v, hv, rfl⟩ := List.mem_map.mp h
        obtain ⟨g, hg, rfl⟩ := List.mem_map.mp hv
        have := (List.mem_filter.mp hg).2
        simp only [ne_eq, decide_eq_true_eq] at this
        exact this.2
    · rw [linRows_nil] at hr; simp at hr
    · ext x
      rw [genSet_levels, hmem, mem_generated_iff]
      have hsub1 : Spec.coneHull (homGens V R []) ⊆ Spec.coneHull G := by
        refine coneHull_mono fun g hg => ?_
        unfold homGens at hg
        rw [if_neg hV] at hg
        rcases List.mem_append.mp hg with h | h
        · obtain ⟨v, hv, rfl⟩ := List.mem_map.mp h
          obtain ⟨g, hg', rfl⟩ := List.mem_map.mp hv
          obtain ⟨hg1, hg2⟩ := List.mem_filter.mp hg'
          have hg2 : g (Fin.last d) ≠ 0 := by simpa using hg2
          have : hsnoc 1 (fun i => (g (Fin.last d))⁻¹ * g i.castSucc) = (g (Fin.last d))⁻¹ • g :=
            hsnoc_ext (by simp [hg2]) fun i => by simp
          rw [this]
          exact coneHull_smul (inv_nonneg.mpr (hlast g hg1)) (coneHull_mem hg1)
        · simp only [List.map_nil, List.append_nil] at h
          obtain ⟨v, hv, rfl⟩ := List.mem_map.mp h
          obtain ⟨g, hg', rfl⟩ := List.mem_map.mp hv
          obtain ⟨hg1, hg2⟩ := List.mem_filter.mp hg'
          simp only [ne_eq, decide_eq_true_eq] at hg2
          have : hsnoc 0 (fun i => g i.castSucc) = g := hsnoc_ext hg2.1.symm fun i => rfl
          rw [this]
          exact coneHull_mem hg1
      have hsub2 : Spec.coneHull G ⊆ Spec.coneHull (homGens V R []) := by
        refine coneHull_mono fun g hg => ?_
        unfold homGens
        rw [if_neg hV]
        by_cases h : g (Fin.last d) = 0
        · by_cases h0 : (fun i : Fin d => g i.castSucc) = 0
          · have : g = 0 := by
              rw [← hsnoc_ext h.symm (x := fun i => g i.castSucc) fun i => rfl, h0]
              exact hsnoc_ext rfl fun i => rfl
            rw [this]; exact coneHull_zero _
          · have : hsnoc 0 (fun i => g i.castSucc) = g := hsnoc_ext h.symm fun i => rfl
            rw [← this]
            refine coneHull_mem (List.mem_append_right _ (List.mem_map.mpr ⟨_, ?_, rfl⟩))
            simp only [List.map_nil, List.append_nil]
            exact List.mem_map.mpr ⟨g, List.mem_filter.mpr ⟨hg, by simp only [ne_eq, decide_eq_true_eq]; exact ⟨h, h0⟩⟩, rfl⟩
        · have : g = g (Fin.last d) • hsnoc 1 (fun i => (g (Fin.last d))⁻¹ * g i.castSucc) := by
            rw [show hsnoc 1 (fun i => (g (Fin.last d))⁻¹ * g i.castSucc) = (g (Fin.last d))⁻¹ • g from
              hsnoc_ext (by simp [h]) fun i => by simp, smul_smul, mul_inv_cancel₀ h, one_smul]
          rw [this]
          refine coneHull_smul (hlast g hg) (coneHull_mem (List.mem_append_left _ (List.mem_map.mpr ⟨_, ?_, rfl⟩)))
          exact List.mem_map.mpr ⟨g, List.mem_filter.mpr ⟨hg, by simpa using h⟩, rfl⟩
      constructor
      · rintro ⟨-, h⟩; exact hsub1 h
      · intro h; exact ⟨Or.inl hV, hsub2 h⟩

/-- Any list of points has an irredundant sublist with the same hull. -/
theorem exists_irredundant (V : List (Fin d → K)) : ∃ V' : List (Fin d → K), (∀ v ∈ V', v ∈ V) ∧
    Spec.hull V' = Spec.hull V ∧ Spec.Irredundant V' := by
  have aux : ∀ (k : ℕ) (V : List (Fin d → K)), V.length = k → V.Nodup → ∃ V' : List (Fin d → K), (∀ v ∈ V', v ∈ V) ∧
      Spec.hull V' = Spec.hull V ∧ Spec.Irredundant V' := by
    intro k
    induction k with
    | zero =>
      intro V hV _
      rw [List.length_eq_zero_iff] at hV
      subst hV
      exact ⟨[], by simp, rfl, by simp, by simp⟩
    | succ k ih =>
      intro V hV hnd
      by_cases h : ∀ v ∈ V, v ∉ Spec.hull (V.erase v)
      · exact ⟨V, fun v hv => hv, rfl, hnd, h⟩
      · push Not at h
        obtain ⟨v, hv, hmem⟩ := h
        obtain ⟨V', h1, h2, h3⟩ := ih (V.erase v) (by rw [List.length_erase_of_mem hv, hV]; rfl) (hnd.erase v)
        refine ⟨V', fun u hu => List.mem_of_mem_erase (h1 u hu), ?_, h3⟩
        rw [h2]
        apply Set.Subset.antisymm
        · exact convexHull_mono fun u hu => List.mem_of_mem_erase hu
        · refine convexHull_min (fun u hu => ?_) (convex_convexHull K _)
          by_cases e : u = v
          · rw [e]; exact hmem
          · exact subset_convexHull K _ ((List.mem_erase_of_ne e).mpr hu)
  obtain ⟨V', h1, h2, h3⟩ := aux _ V.dedup rfl V.nodup_dedup
  refine ⟨V', fun v hv => List.mem_dedup.mp (h1 v hv), ?_, h3⟩
  rw [h2]
  unfold Spec.hull
  simp only [List.mem_dedup]

theorem exists_canonicalizeGen (m : CddMat K d) (hm : Spec.WfGen m) (hne : m.rows ≠ []) : ∃ m' : CddMat K d,
    (Spec.WfGen m' ∧ (∀ r ∈ m'.rows, r ∈ m.rows) ∧ Spec.genSet m' = Spec.genSet m) ∧
    ∀ V : List (Fin d → K), m = ⟨V.map fun v => (1, v), []⟩ → Spec.Irredundant (m'.rows.map Prod.snd) := by
  by_cases h : ∃ V : List (Fin d → K), m = ⟨V.map fun v => (1, v), []⟩
  · obtain ⟨V, rfl⟩ := h
    have hV : V ≠ [] := by rintro rfl; exact hne rfl
    obtain ⟨V', h1, h2, h3⟩ := exists_irredundant V
    have hV' : V' ≠ [] := by
      rintro rfl
      obtain ⟨v, hv⟩ := List.exists_mem_of_ne_nil V hV
      have : v ∈ Spec.hull V := subset_convexHull K _ hv
      rw [← h2] at this
      simp [Spec.hull] at this
    refine ⟨⟨V'.map fun v => (1, v), []⟩, ⟨⟨fun k hk => by simp at hk, fun r hr => ?_, fun r hr => ?_⟩, ?_, ?_⟩, ?_⟩
    · rw [plainRows_nil] at hr
      obtain ⟨v, -, rfl⟩ := List.mem_map.mp hr; exact Or.inr rfl
    · rw [linRows_nil] at hr; simp at hr
    · intro r hr
      obtain ⟨v, hv, rfl⟩ := List.mem_map.mp hr
      exact List.mem_map.mpr ⟨v, h1 v hv, rfl⟩
    · ext x
      have e := genSet_levels V' [] x
      have e' := genSet_levels V [] x
      simp only [List.map_nil, List.append_nil] at e e'
      rw [e, e']
      simp only [Spec.generated, if_neg hV, if_neg hV', h2]
      simp [hV, hV']
    · intro W hW
      have : (V'.map fun v => ((1 : K), v)).map Prod.snd = V' := by simp [Function.comp_def]
      rw [this]
      exact h3
  · exact ⟨m, ⟨hm, fun r hr => hr, rfl⟩, fun V hV => absurd ⟨V, hV⟩ h⟩

/-- The contract of `cdd` can be met. -/
theorem exists_cdd : ∃ cdd : CddLib K, Spec.IsCdd cdd := by
  classical
  refine ⟨{
    inequalities := fun {d} m => if h : m.rows ≠ [] then (exists_inequalities m h).choose else m
    generators := fun {d} m => (exists_generators m).choose
    canonicalizeGen := fun {d} m => if h : Spec.WfGen m ∧ m.rows ≠ [] then
      (exists_canonicalizeGen m h.1 h.2).choose else m
    canonicalizeIneq := fun {d} m => m }, ?_, ?_, ?_, ?_, ?_⟩
  · intro d m _ h
    simp only [dif_pos h]
    exact (exists_inequalities m h).choose_spec
  · intro d m _ _
    exact (exists_generators m).choose_spec
  · intro d m h1 h2
    simp only [dif_pos (And.intro h1 h2)]
    exact (exists_canonicalizeGen m h1 h2).choose_spec.1
  · intro d V hV
    have h1 : Spec.WfGen (⟨V.map fun v => ((1 : K), v), []⟩ : CddMat K d) := by
      refine ⟨fun k hk => by simp at hk, fun r hr => ?_, fun r hr => ?_⟩
      · rw [plainRows_nil] at hr
        obtain ⟨v, -, rfl⟩ := List.mem_map.mp hr; exact Or.inr rfl
      · rw [linRows_nil] at hr; simp at hr
    have h2 : (V.map fun v => ((1 : K), v)) ≠ [] := by simpa using hV
    simp only [dif_pos (And.intro h1 h2)]
    exact (exists_canonicalizeGen _ h1 h2).choose_spec.2 V rfl
  · intro d m h _ _
    exact ⟨h, rfl⟩

end Rigeo
