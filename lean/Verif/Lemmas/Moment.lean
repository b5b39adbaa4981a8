import Verif.Model.Moment
import Verif.Lemmas.Shapes

/-!
# Lemmas about dictionaries, the monomial basis and polynomials
-/

namespace Rigeo

open Matrix

/-! ### Dictionaries -/
section Dict
variable {α β : Type} [DecidableEq α]

theorem dictGet_set (l : List (α × β)) (k k' : α) (v : β) :
    dictGet (dictSet l k v) k' = if k = k' then some v else dictGet l k' := by
  induction l with
  | nil => simp [dictSet, dictGet]
  | cons kv l ih =>
    simp only [dictSet]
    by_cases h : kv.1 = k
    · simp only [h, if_true, dictGet]
      split_ifs <;> rfl
    · simp only [h, if_false, dictGet, ih]
      by_cases h' : kv.1 = k'
      · have : k ≠ k' := fun e => h (h'.trans e.symm)
        simp [h', this]
      · simp [h']

theorem dictSet_of_not_mem (l : List (α × β)) (k : α) (v : β) (h : k ∉ l.map Prod.fst) :
    dictSet l k v = l ++ [(k, v)] := by
  induction l with
  | nil => rfl
  | cons kv l ih =>
    simp only [List.map_cons, List.mem_cons, not_or] at h
    simp only [dictSet, if_neg (Ne.symm h.1), ih h.2, List.cons_append]

theorem dictSet_keys (l : List (α × β)) (k : α) (v : β) :
    (dictSet l k v).map Prod.fst = if k ∈ l.map Prod.fst then l.map Prod.fst else l.map Prod.fst ++ [k] := by
  induction l with
  | nil => simp [dictSet]
  | cons kv l ih =>
    simp only [dictSet]
    by_cases h : kv.1 = k
    · simp [h]
    · simp only [if_neg h, List.map_cons, ih, List.mem_cons]
      have : ¬ k = kv.1 := fun e => h e.symm
      by_cases h' : k ∈ l.map Prod.fst
      · simp [h']
      · simp [h', this]

theorem dictSet_nodup (l : List (α × β)) (k : α) (v : β) (h : (l.map Prod.fst).Nodup) :
    ((dictSet l k v).map Prod.fst).Nodup := by
  rw [dictSet_keys]
  split_ifs with hk
  · exact h
  · exact List.nodup_append'.mpr ⟨h, List.nodup_singleton _, by simpa using hk⟩

theorem dictGet_eq_none (l : List (α × β)) (k : α) : dictGet l k = none ↔ k ∉ l.map Prod.fst := by
  induction l with
  | nil => simp [dictGet]
  | cons kv l ih =>
    simp only [dictGet, List.map_cons, List.mem_cons, not_or]
    by_cases h : kv.1 = k
    · simp [h]
    · simp [h, ih, Ne.symm h]

theorem dictGet_eq_some {l : List (α × β)} (hl : (l.map Prod.fst).Nodup) (k : α) (v : β) :
    dictGet l k = some v ↔ (k, v) ∈ l := by
  induction l with
  | nil => simp [dictGet]
  | cons kv l ih =>
    obtain ⟨a, b⟩ := kv
    simp only [List.map_cons, List.nodup_cons] at hl
    simp only [dictGet, List.mem_cons, Prod.mk.injEq]
    by_cases h : a = k
    · subst h
      have : (a, v) ∉ l := fun h' => hl.1 (List.mem_map.mpr ⟨_, h', rfl⟩)
      simp [this, eq_comm]
    · simp [h, ih hl.2, Ne.symm h]

theorem dictSet_mem {l : List (α × β)} {k : α} {v : β} {x : α × β} (h : x ∈ dictSet l k v) :
    x = (k, v) ∨ x ∈ l := by
  induction l with
  | nil => simp only [dictSet, List.mem_singleton] at h; exact Or.inl h
  | cons kv l ih =>
    simp only [dictSet] at h
    split_ifs at h with hk
    · rcases List.mem_cons.mp h with h | h
      · exact Or.inl h
      · exact Or.inr (List.mem_cons_of_mem _ h)
    · rcases List.mem_cons.mp h with h | h
      · exact Or.inr (h ▸ List.mem_cons_self)
      · rcases ih h with h | h
        · exact Or.inl h
        · exact Or.inr (List.mem_cons_of_mem _ h)

/-- Filling a dictionary from a list with distinct keys keeps the list. -/
theorem foldl_dictSet {γ : Type} (f : γ → α) (g : γ → β) (xs : List γ) (acc : List (α × β))
    (h : (acc.map Prod.fst ++ xs.map f).Nodup) :
    xs.foldl (fun acc x => dictSet acc (f x) (g x)) acc = acc ++ xs.map fun x => (f x, g x) := by
  induction xs generalizing acc with
  | nil => simp
  | cons x xs ih =>
    have hx : f x ∉ acc.map Prod.fst := by
      intro hmem
      have := (List.nodup_append'.mp h).2.2
      exact this hmem (by simp)
    rw [List.foldl_cons, dictSet_of_not_mem _ _ _ hx, ih]
    · simp
    · simpa using h

/-- What is stored under a key after filling a dictionary with possibly repeated keys. -/
theorem dictGet_foldl {γ : Type} (f : γ → α) (g : γ → β) (xs : List γ) (acc : List (α × β)) (k : α) :
    (dictGet (xs.foldl (fun acc x => dictSet acc (f x) (g x)) acc) k = dictGet acc k ∧ ∀ x ∈ xs, f x ≠ k) ∨
      ∃ x ∈ xs, f x = k ∧
        dictGet (xs.foldl (fun acc x => dictSet acc (f x) (g x)) acc) k = some (g x) := by
  induction xs generalizing acc with
  | nil => simp
  | cons x xs ih =>
    rw [List.foldl_cons]
    rcases ih (dictSet acc (f x) (g x)) with ⟨h1, h2⟩ | ⟨y, hy, h1, h2⟩
    · rw [dictGet_set] at h1
      by_cases hx : f x = k
      · rw [if_pos hx] at h1
        exact Or.inr ⟨x, by simp, hx, h1⟩
      · rw [if_neg hx] at h1
        refine Or.inl ⟨h1, ?_⟩
        intro z hz
        rcases List.mem_cons.mp hz with rfl | hz
        exacts [hx, h2 z hz]
    · exact Or.inr ⟨y, by simp [hy], h1, h2⟩

end Dict

/-! ### The basis -/

theorem foldl_sumIndices {n : ℕ} (g : List (Fin n → ℕ)) (a : Fin n → ℕ) :
    g.foldl (fun acc idx => some ((acc.getD 0) + idx)) (some a) = some (a + g.sum) := by
  induction g generalizing a with
  | nil => simp
  | cons x g ih => simp [ih, add_assoc]

theorem sumIndices_cons {n : ℕ} (a : Fin n → ℕ) (g : List (Fin n → ℕ)) :
    sumIndices (a :: g) = some (a :: g).sum := by
  simp only [sumIndices, List.foldl_cons, Option.getD_none, zero_add]
  rw [foldl_sumIndices]; simp

theorem cwr_length {α : Type} (l : List α) (k : ℕ) :
    (combosWithReplacement l k).length = Nat.multichoose l.length k := by
  induction l, k using combosWithReplacement.induct with
  | case1 l => simp [combosWithReplacement]
  | case2 k => simp [combosWithReplacement]
  | case3 a l k h1 h2 =>
    rw [combosWithReplacement, List.length_append, List.length_map, h1, h2]
    simp only [List.length_cons]
    rw [Nat.multichoose_succ_succ, add_comm]

theorem cwr_mem_length {α : Type} (l : List α) (k : ℕ) : ∀ g ∈ combosWithReplacement l k, g.length = k := by
  induction l, k using combosWithReplacement.induct with
  | case1 l => simp [combosWithReplacement]
  | case2 k => simp [combosWithReplacement]
  | case3 a l k h1 h2 =>
    rw [combosWithReplacement]
    intro g hg
    rcases List.mem_append.mp hg with h | h
    · obtain ⟨g', hg', rfl⟩ := List.mem_map.mp h
      simp [h1 g' hg']
    · exact h2 g h

/-- The sums of the groups. -/
def cwrSums {n : ℕ} (l : List (Fin n → ℕ)) (k : ℕ) : List (Fin n → ℕ) :=
  (combosWithReplacement l k).map List.sum

theorem cwrSums_zero {n : ℕ} (l : List (Fin n → ℕ)) : cwrSums l 0 = [0] := by
  simp [cwrSums, combosWithReplacement]

theorem cwrSums_nil {n : ℕ} (k : ℕ) : cwrSums ([] : List (Fin n → ℕ)) (k + 1) = [] := by
  simp [cwrSums, combosWithReplacement]

theorem cwrSums_cons {n : ℕ} (a : Fin n → ℕ) (l : List (Fin n → ℕ)) (k : ℕ) :
    cwrSums (a :: l) (k + 1) = (cwrSums (a :: l) k).map (a + ·) ++ cwrSums l (k + 1) := by
  simp [cwrSums, combosWithReplacement, List.map_map, Function.comp_def]

/-- The unit multi-indices of a list of variables. -/
def units {n : ℕ} (l : List (Fin n)) : List (Fin n → ℕ) := l.map fun i => Pi.single i 1

theorem basis_eq (n d : ℕ) (hd : 1 ≤ d) :
    Polynomial.basis n d = (cwrSums (0 :: units (List.finRange n)) d).map some := by
  unfold Polynomial.basis cwrSums units
  rw [List.map_map]
  refine List.map_congr_left fun g hg => ?_
  have := cwr_mem_length _ _ g hg
  match g, this with
  | [], h => simp at h; omega
  | a :: g, _ => exact sumIndices_cons a g

theorem mem_cwrSums_units {n : ℕ} (l : List (Fin n)) (k : ℕ) (hl : l.Nodup) (α : Fin n → ℕ) :
    α ∈ cwrSums (units l) k ↔ (∀ i, i ∉ l → α i = 0) ∧ ∑ i, α i = k := by
  induction l generalizing k α with
  | nil =>
    cases k with
    | zero =>
      rw [cwrSums_zero]
      simp only [List.mem_singleton, List.not_mem_nil, not_false_eq_true, true_imp_iff, Finset.sum_eq_zero_iff,
        Finset.mem_univ]
      exact ⟨fun h => by subst h; simp, fun h => funext h.1⟩
    | succ k =>
      rw [units, List.map_nil, cwrSums_nil]
      simp only [List.not_mem_nil, not_false_eq_true, true_imp_iff, false_iff, not_and]
      intro h; simp [h]
  | cons i l ih =>
    obtain ⟨hi, hl'⟩ := List.nodup_cons.mp hl
    induction k generalizing α with
    | zero =>
      rw [cwrSums_zero]
      simp only [List.mem_singleton, Finset.sum_eq_zero_iff, Finset.mem_univ, true_imp_iff]
      exact ⟨fun h => by subst h; simp, fun h => funext h.2⟩
    | succ k ihk =>
      rw [units, List.map_cons, cwrSums_cons, List.mem_append, List.mem_map]
      change (∃ a, a ∈ cwrSums (units (i :: l)) k ∧ _) ∨ α ∈ cwrSums (units l) (k + 1) ↔ _
      rw [ih _ hl']
      constructor
      · rintro (⟨γ, hγ, rfl⟩ | ⟨h1, h2⟩)
        · rw [ihk] at hγ
          refine ⟨fun j hj => ?_, ?_⟩
          · have hji : j ≠ i := fun e => hj (by simp [e])
            simp [hji, hγ.1 j hj]
          · simp only [Pi.add_apply, Finset.sum_add_distrib, hγ.2]
            rw [Finset.sum_pi_single']
            simp [add_comm]
        · exact ⟨fun j hj => h1 j fun h => hj (List.mem_cons_of_mem _ h), h2⟩
      · rintro ⟨h1, h2⟩
        by_cases h0 : α i = 0
        · right
          refine ⟨fun j hj => ?_, h2⟩
          by_cases hji : j = i
          · rw [hji, h0]
          · exact h1 j (by simp [hji, hj])
        · left
          refine ⟨α - Pi.single i 1, ?_, ?_⟩
          · rw [ihk]
            refine ⟨fun j hj => by simp [h1 j hj], ?_⟩
            have e : α = Pi.single i 1 + (α - Pi.single i 1) := by
              ext j
              by_cases hji : j = i
              · subst hji; simp; omega
              · simp [hji]
            have h2' := h2
            rw [e] at h2'
            simp only [Pi.add_apply, Finset.sum_add_distrib] at h2'
            rw [Finset.sum_pi_single'] at h2'
            simp only [Finset.mem_univ, if_true] at h2'
            omega
          · ext j
            by_cases hji : j = i
            · subst hji; simp; omega
            · simp [hji]

theorem cwrSums_units_nodup {n : ℕ} (l : List (Fin n)) (k : ℕ) (hl : l.Nodup) : (cwrSums (units l) k).Nodup := by
  induction l generalizing k with
  | nil =>
    cases k with
    | zero => simp [cwrSums_zero]
    | succ k => rw [units, List.map_nil, cwrSums_nil]; exact List.nodup_nil
  | cons i l ih =>
    obtain ⟨hi, hl'⟩ := List.nodup_cons.mp hl
    induction k with
    | zero => simp [cwrSums_zero]
    | succ k ihk =>
      rw [units, List.map_cons, cwrSums_cons, List.nodup_append']
      refine ⟨(List.nodup_map_iff (add_right_injective _)).mpr ihk, ih (k + 1) hl', ?_⟩
      intro α h1 h2
      obtain ⟨γ, -, rfl⟩ := List.mem_map.mp h1
      have := ((mem_cwrSums_units l (k + 1) hl' _).mp h2).1 i hi
      simp at this

theorem mem_cwrSums_basis {n : ℕ} (l : List (Fin n)) (k : ℕ) (hl : l.Nodup) (α : Fin n → ℕ) :
    α ∈ cwrSums (0 :: units l) k ↔ (∀ i, i ∉ l → α i = 0) ∧ ∑ i, α i ≤ k := by
  induction k with
  | zero =>
    rw [cwrSums_zero]
    simp only [List.mem_singleton, Nat.le_zero, Finset.sum_eq_zero_iff, Finset.mem_univ, true_imp_iff]
    exact ⟨fun h => by subst h; simp, fun h => funext h.2⟩
  | succ k ih =>
    rw [cwrSums_cons, List.mem_append, mem_cwrSums_units l _ hl]
    simp only [zero_add, List.map_id', ih]
    constructor
    · rintro (⟨h1, h2⟩ | ⟨h1, h2⟩)
      exacts [⟨h1, by omega⟩, ⟨h1, by omega⟩]
    · rintro ⟨h1, h2⟩
      by_cases h : ∑ i, α i ≤ k
      exacts [Or.inl ⟨h1, h⟩, Or.inr ⟨h1, by omega⟩]

theorem cwrSums_basis_nodup {n : ℕ} (l : List (Fin n)) (k : ℕ) (hl : l.Nodup) :
    (cwrSums (0 :: units l) k).Nodup := by
  induction k with
  | zero => simp [cwrSums_zero]
  | succ k ih =>
    rw [cwrSums_cons, List.nodup_append']
    simp only [zero_add, List.map_id']
    refine ⟨ih, cwrSums_units_nodup l _ hl, ?_⟩
    intro α h1 h2
    have e1 := ((mem_cwrSums_basis l k hl α).mp h1).2
    have e2 := ((mem_cwrSums_units l (k + 1) hl α).mp h2).2
    omega

theorem cwrSums_prefix {n : ℕ} (l : List (Fin n → ℕ)) {k k' : ℕ} (h : k ≤ k') :
    cwrSums (0 :: l) k <+: cwrSums (0 :: l) k' := by
  induction k', h using Nat.le_induction with
  | base => exact List.prefix_rfl
  | succ m _ ih =>
    refine ih.trans ?_
    rw [cwrSums_cons]
    simp only [zero_add, List.map_id']
    exact List.prefix_append _ _

theorem cwrSums_one {n : ℕ} (l : List (Fin n → ℕ)) : cwrSums l 1 = l := by
  induction l with
  | nil => rw [cwrSums_nil]
  | cons a l ih => rw [cwrSums_cons, cwrSums_zero, ih]; simp

theorem cwrSums_length (n d : ℕ) : (cwrSums (0 :: units (List.finRange n)) d).length = (n + d).choose d := by
  rw [cwrSums, List.length_map, cwr_length, Nat.multichoose_eq]
  simp [units]

end Rigeo
