import Verif.Spec.Cdd
import Verif.Lemmas.PSD

/-!
# Finitely generated cones, Minkowski-Weyl, and a `cdd` that satisfies its contract
-/

namespace Rigeo

open Matrix

variable {K : Type} [Field K] [LinearOrder K] {n d : ℕ}

/-! ### Cones and lines, one generator at a time -/

theorem mem_coneHull_nil (x : Fin n → K) : x ∈ Spec.coneHull ([] : List (Fin n → K)) ↔ x = 0 := by
  constructor
  · rintro ⟨w, -, rfl⟩; simp
  · rintro rfl; exact ⟨fun k => k.elim0, fun k => k.elim0, by simp⟩

theorem mem_coneHull_cons (g : Fin n → K) (G : List (Fin n → K)) (x : Fin n → K) :
    x ∈ Spec.coneHull (g :: G) ↔ ∃ c : K, 0 ≤ c ∧ x - c • g ∈ Spec.coneHull G := by
  constructor
  · rintro ⟨w, hw, rfl⟩
    refine ⟨w 0, hw 0, fun k => w k.succ, fun k => hw _, ?_⟩
    have := Fin.sum_univ_succ (n := G.length) (fun k : Fin (G.length + 1) => w k • (g :: G).get k)
    rw [show (∑ k : Fin (g :: G).length, w k • (g :: G).get k) =
      ∑ k : Fin (G.length + 1), w k • (g :: G).get k from rfl, this]
    simp
  · rintro ⟨c, hc, w, hw, h⟩
    refine ⟨Fin.cons (α := fun _ => K) c w, ?_, ?_⟩
    · intro k
      refine Fin.cases ?_ (fun j => ?_) k
      · exact hc
      · exact hw j
    · have := Fin.sum_univ_succ (n := G.length)
        (fun k : Fin (G.length + 1) => (Fin.cons (α := fun _ => K) c w : Fin (G.length + 1) → K) k • (g :: G).get k)
      rw [show (∑ k : Fin (g :: G).length, (Fin.cons (α := fun _ => K) c w : Fin (G.length + 1) → K) k • (g :: G).get k) =
        ∑ k : Fin (G.length + 1), (Fin.cons (α := fun _ => K) c w : Fin (G.length + 1) → K) k • (g :: G).get k from rfl, this]
      simp only [Fin.cons_zero, Fin.cons_succ]
      have h2 : x = c • g + ∑ k, w k • G.get k := by rw [← h]; abel
      rw [h2]
      rfl

theorem mem_lineHull_nil (x : Fin n → K) : x ∈ Spec.lineHull ([] : List (Fin n → K)) ↔ x = 0 := by
  constructor
  · rintro ⟨w, rfl⟩; simp
  · rintro rfl; exact ⟨fun k => k.elim0, by simp⟩

theorem mem_lineHull_cons (g : Fin n → K) (G : List (Fin n → K)) (x : Fin n → K) :
    x ∈ Spec.lineHull (g :: G) ↔ ∃ c : K, x - c • g ∈ Spec.lineHull G := by
  constructor
  · rintro ⟨w, rfl⟩
    refine ⟨w 0, fun k => w k.succ, ?_⟩
    have := Fin.sum_univ_succ (n := G.length) (fun k : Fin (G.length + 1) => w k • (g :: G).get k)
    rw [show (∑ k : Fin (g :: G).length, w k • (g :: G).get k) =
      ∑ k : Fin (G.length + 1), w k • (g :: G).get k from rfl, this]
    simp
  · rintro ⟨c, w, h⟩
    refine ⟨Fin.cons (α := fun _ => K) c w, ?_⟩
    have := Fin.sum_univ_succ (n := G.length)
        (fun k : Fin (G.length + 1) => (Fin.cons (α := fun _ => K) c w : Fin (G.length + 1) → K) k • (g :: G).get k)
    rw [show (∑ k : Fin (g :: G).length, (Fin.cons (α := fun _ => K) c w : Fin (G.length + 1) → K) k • (g :: G).get k) =
        ∑ k : Fin (G.length + 1), (Fin.cons (α := fun _ => K) c w : Fin (G.length + 1) → K) k • (g :: G).get k from rfl, this]
    simp only [Fin.cons_zero, Fin.cons_succ]
    have h2 : x = c • g + ∑ k, w k • G.get k := by rw [← h]; abel
    rw [h2]
    rfl

variable [IsStrictOrderedRing K]

theorem coneHull_zero (G : List (Fin n → K)) : (0 : Fin n → K) ∈ Spec.coneHull G :=
  ⟨0, fun _ => le_rfl, by simp⟩

theorem coneHull_add {G : List (Fin n → K)} {x y : Fin n → K} (hx : x ∈ Spec.coneHull G)
    (hy : y ∈ Spec.coneHull G) : x + y ∈ Spec.coneHull G := by
  obtain ⟨w, hw, rfl⟩ := hx
  obtain ⟨w', hw', rfl⟩ := hy
  exact ⟨w + w', fun k => add_nonneg (hw k) (hw' k), by simp [add_smul, Finset.sum_add_distrib]⟩

theorem coneHull_smul {G : List (Fin n → K)} {x : Fin n → K} {c : K} (hc : 0 ≤ c) (hx : x ∈ Spec.coneHull G) :
    c • x ∈ Spec.coneHull G := by
  obtain ⟨w, hw, rfl⟩ := hx
  exact ⟨fun k => c * w k, fun k => mul_nonneg hc (hw k), by simp [mul_smul, Finset.smul_sum]⟩

theorem coneHull_mem {G : List (Fin n → K)} {g : Fin n → K} (hg : g ∈ G) : g ∈ Spec.coneHull G := by
  obtain ⟨k, rfl⟩ := List.get_of_mem hg
  refine ⟨Pi.single k 1, fun j => ?_, ?_⟩
  · by_cases h : j = k
    · subst h; simp
    · simp [h]
  · rw [Finset.sum_eq_single k] <;> simp +contextual

theorem coneHull_min {G : List (Fin n → K)} {T : Set (Fin n → K)} (h0 : (0 : Fin n → K) ∈ T)
    (hadd : ∀ x ∈ T, ∀ y ∈ T, x + y ∈ T) (hsmul : ∀ c : K, 0 ≤ c → ∀ x ∈ T, c • x ∈ T) (hG : ∀ g ∈ G, g ∈ T) :
    Spec.coneHull G ⊆ T := by
  rintro x ⟨w, hw, rfl⟩
  have : ∀ s : Finset (Fin G.length), ∑ k ∈ s, w k • G.get k ∈ T := by
    intro s
    induction s using Finset.induction_on with
    | empty => simpa using h0
    | insert a s ha ih =>
      rw [Finset.sum_insert ha]
      exact hadd _ (hsmul _ (hw a) _ (hG _ (List.get_mem G a))) _ ih
  exact this _

theorem coneHull_mono {G G' : List (Fin n → K)} (h : ∀ g ∈ G, g ∈ Spec.coneHull G') :
    Spec.coneHull G ⊆ Spec.coneHull G' :=
  coneHull_min (coneHull_zero _) (fun _ hx _ hy => coneHull_add hx hy) (fun _ hc _ hx => coneHull_smul hc hx) h

/-- A number between finitely many lower bounds (one of which is zero) and upper bounds. -/
theorem exists_between_lists (L U : List K) (h : ∀ l ∈ L, ∀ u ∈ U, l ≤ u) (hU : ∀ u ∈ U, 0 ≤ u) :
    ∃ c : K, 0 ≤ c ∧ (∀ l ∈ L, l ≤ c) ∧ ∀ u ∈ U, c ≤ u := by
  induction L with
  | nil => exact ⟨0, le_rfl, by simp, hU⟩
  | cons a L ih =>
    obtain ⟨c, h0, h1, h2⟩ := ih fun l hl => h l (by simp [hl])
    refine ⟨max a c, le_max_of_le_right h0, ?_, fun u hu => max_le (h a (by simp) u hu) (h2 u hu)⟩
    intro l hl
    rcases List.mem_cons.mp hl with rfl | hl
    · exact le_max_left _ _
    · exact le_max_of_le_right (h1 l hl)

/-- One step of Fourier-Motzkin elimination. -/
def fmStep (g : Fin n → K) (A : List (Fin n → K)) : List (Fin n → K) :=
  A.filter (fun a => decide (0 ≤ a ⬝ᵥ g)) ++
    (A.filter fun a => decide (a ⬝ᵥ g < 0)).flatMap fun b =>
      (A.filter fun a => decide (0 < a ⬝ᵥ g)).map fun a => (a ⬝ᵥ g) • b - (b ⬝ᵥ g) • a

theorem fmStep_spec (g : Fin n → K) (A : List (Fin n → K)) (x : Fin n → K) :
    (∀ a ∈ fmStep g A, 0 ≤ a ⬝ᵥ x) ↔ ∃ c : K, 0 ≤ c ∧ ∀ a ∈ A, 0 ≤ a ⬝ᵥ (x - c • g) := by
  have hdot : ∀ (a : Fin n → K) (c : K), a ⬝ᵥ (x - c • g) = a ⬝ᵥ x - c * (a ⬝ᵥ g) := fun a c => by
    rw [dotProduct_sub, dotProduct_smul, smul_eq_mul]
  have hcomb : ∀ a b : Fin n → K, ((a ⬝ᵥ g) • b - (b ⬝ᵥ g) • a) ⬝ᵥ x = (a ⬝ᵥ g) * (b ⬝ᵥ x) - (b ⬝ᵥ g) * (a ⬝ᵥ x) :=
    fun a b => by rw [sub_dotProduct, smul_dotProduct, smul_dotProduct, smul_eq_mul, smul_eq_mul]
  constructor
  · intro h
    have h1 : ∀ a ∈ A, 0 ≤ a ⬝ᵥ g → 0 ≤ a ⬝ᵥ x := fun a ha hag =>
      h a (List.mem_append_left _ (List.mem_filter.mpr ⟨ha, by simpa using hag⟩))
    have h2 : ∀ b ∈ A, b ⬝ᵥ g < 0 → ∀ a ∈ A, 0 < a ⬝ᵥ g → 0 ≤ (a ⬝ᵥ g) * (b ⬝ᵥ x) - (b ⬝ᵥ g) * (a ⬝ᵥ x) := by
      intro b hb hbg a ha hag
      rw [← hcomb]
      refine h _ (List.mem_append_right _ (List.mem_flatMap.mpr ⟨b, List.mem_filter.mpr ⟨hb, by simpa using hbg⟩, ?_⟩))
      exact List.mem_map.mpr ⟨a, List.mem_filter.mpr ⟨ha, by simpa using hag⟩, rfl⟩
    obtain ⟨c, h0, hl, hu⟩ := exists_between_lists
      ((A.filter fun a => decide (a ⬝ᵥ g < 0)).map fun b => (b ⬝ᵥ x) / (b ⬝ᵥ g))
      ((A.filter fun a => decide (0 < a ⬝ᵥ g)).map fun a => (a ⬝ᵥ x) / (a ⬝ᵥ g)) (by
        intro l hl u hu
        obtain ⟨b, hb, rfl⟩ := List.mem_map.mp hl
        obtain ⟨a, ha, rfl⟩ := List.mem_map.mp hu
        obtain ⟨hb, hbg⟩ := List.mem_filter.mp hb
        obtain ⟨ha, hag⟩ := List.mem_filter.mp ha
        have hbg : b ⬝ᵥ g < 0 := by simpa using hbg
        have hag : 0 < a ⬝ᵥ g := by simpa using hag
        have := h2 b hb hbg a ha hag
        rw [le_div_iff₀ hag, div_mul_eq_mul_div, div_le_iff_of_neg hbg]
        linarith) (by
        intro u hu
        obtain ⟨a, ha, rfl⟩ := List.mem_map.mp hu
        obtain ⟨ha, hag⟩ := List.mem_filter.mp ha
        have hag : 0 < a ⬝ᵥ g := by simpa using hag
        exact div_nonneg (h1 a ha hag.le) hag.le)
    refine ⟨c, h0, fun a ha => ?_⟩
    rw [hdot]
    rcases lt_trichotomy (a ⬝ᵥ g) 0 with hlt | heq | hgt
    · have := hl ((a ⬝ᵥ x) / (a ⬝ᵥ g)) (List.mem_map.mpr ⟨a, List.mem_filter.mpr ⟨ha, by simpa using hlt⟩, rfl⟩)
      rw [div_le_iff_of_neg hlt] at this
      linarith
    · rw [heq, mul_zero, sub_zero]; exact h1 a ha heq.ge
    · have := hu ((a ⬝ᵥ x) / (a ⬝ᵥ g)) (List.mem_map.mpr ⟨a, List.mem_filter.mpr ⟨ha, by simpa using hgt⟩, rfl⟩)
      rw [le_div_iff₀ hgt] at this
      linarith
  · rintro ⟨c, h0, h⟩ a ha
    have h' : ∀ a ∈ A, 0 ≤ a ⬝ᵥ x - c * (a ⬝ᵥ g) := fun a ha => by rw [← hdot]; exact h a ha
    rcases List.mem_append.mp ha with ha | ha
    · obtain ⟨ha, hag⟩ := List.mem_filter.mp ha
      have hag : 0 ≤ a ⬝ᵥ g := by simpa using hag
      have := h' a ha
      have := mul_nonneg h0 hag
      linarith
    · obtain ⟨b, hb, hab⟩ := List.mem_flatMap.mp ha
      obtain ⟨a, ha1, rfl⟩ := List.mem_map.mp hab
      obtain ⟨hb, hbg⟩ := List.mem_filter.mp hb
      obtain ⟨ha, hag⟩ := List.mem_filter.mp ha1
      have hbg : b ⬝ᵥ g < 0 := by simpa using hbg
      have hag : 0 < a ⬝ᵥ g := by simpa using hag
      rw [hcomb]
      have k1 := mul_nonneg hag.le (h' b hb)
      have k2 := mul_nonneg (neg_nonneg.mpr hbg.le) (h' a ha)
      nlinarith

/-- Weyl: a finitely generated cone is an intersection of finitely many half-spaces. -/
theorem weyl (G : List (Fin n → K)) : ∃ A : List (Fin n → K),
    ∀ x, x ∈ Spec.coneHull G ↔ ∀ a ∈ A, 0 ≤ a ⬝ᵥ x := by
  induction G with
  | nil =>
    refine ⟨(List.finRange n).flatMap fun i => [Pi.single i 1, -Pi.single i 1], fun x => ?_⟩
    rw [mem_coneHull_nil]
    constructor
    · rintro rfl; simp
    · intro h
      ext i
      have h1 := h (Pi.single i 1) (by simp only [List.mem_flatMap]; exact ⟨i, by simp, by simp⟩)
      have h2 := h (-Pi.single i 1) (by simp only [List.mem_flatMap]; exact ⟨i, by simp, by simp⟩)
      simp at h1 h2
      exact le_antisymm h2 h1
  | cons g G ih =>
    obtain ⟨A, hA⟩ := ih
    refine ⟨fmStep g A, fun x => ?_⟩
    rw [mem_coneHull_cons, fmStep_spec]
    simp only [hA]

/-- Minkowski: an intersection of finitely many linear half-spaces is finitely generated. -/
theorem minkowski (A : List (Fin n → K)) : ∃ G : List (Fin n → K),
    ∀ x, x ∈ Spec.coneHull G ↔ ∀ a ∈ A, 0 ≤ a ⬝ᵥ x := by
  obtain ⟨B, hB⟩ := weyl A
  obtain ⟨C, hC⟩ := weyl B
  refine ⟨B, fun x => ⟨fun hx a ha => ?_, fun hx => ?_⟩⟩
  · have hmem : ∀ b ∈ B, 0 ≤ a ⬝ᵥ b := fun b hb => by
      rw [dotProduct_comm]; exact (hB a).mp (coneHull_mem ha) b hb
    refine coneHull_min (T := {x | 0 ≤ a ⬝ᵥ x}) (by simp) ?_ ?_ hmem hx
    · intro x hx y hy
      simp only [Set.mem_ofPred_eq, dotProduct_add] at *
      exact add_nonneg hx hy
    · intro c hc x hx
      simp only [Set.mem_ofPred_eq, dotProduct_smul, smul_eq_mul] at *
      exact mul_nonneg hc hx
  · rw [hC]
    intro c hc
    have hcA : c ∈ Spec.coneHull A := by
      rw [hB]
      intro b hb
      rw [dotProduct_comm]
      exact (hC b).mp (coneHull_mem hb) c hc
    refine coneHull_min (T := {c | 0 ≤ c ⬝ᵥ x}) (by simp) ?_ ?_ hx hcA
    · intro u hu v hv
      simp only [Set.mem_ofPred_eq, add_dotProduct] at *
      exact add_nonneg hu hv
    · intro r hr u hu
      simp only [Set.mem_ofPred_eq, smul_dotProduct, smul_eq_mul] at *
      exact mul_nonneg hr hu

end Rigeo
