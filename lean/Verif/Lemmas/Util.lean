import Verif.Model.Util
import Mathlib.Order.Interval.Finset.Fin
import Mathlib.Algebra.BigOperators.Fin
import Mathlib.Algebra.BigOperators.Intervals
import Mathlib.Algebra.Order.Floor.Ring
import Mathlib.Tactic

/-! # Auxiliary facts about the model of `util.py` -/

namespace Rigeo

open Matrix

theorem mem_triuIndices {n : ℕ} {i j : Fin n} : (i, j) ∈ triuIndices n 0 ↔ i ≤ j := by
  simp [triuIndices, List.mem_flatMap]

theorem nodup_triuIndices (n : ℕ) (k : ℤ) : (triuIndices n k).Nodup := by
  unfold triuIndices
  rw [List.nodup_flatMap]
  refine ⟨fun i _ => ?_, ?_⟩
  · exact ((List.nodup_finRange n).filter _).map (fun a b h => (Prod.mk.inj h).2)
  · refine (List.nodup_finRange n).imp ?_
    intro a b hab
    simp only [Function.onFun]
    intro x hx hy
    simp only [List.mem_map, List.mem_filter] at hx hy
    obtain ⟨_, _, rfl⟩ := hx
    obtain ⟨_, _, h⟩ := hy
    exact hab (Prod.mk.inj h).1.symm

theorem length_triuIndices (n : ℕ) : 2 * (triuIndices n 0).length = n * (n + 1) := by
  have h1 : (triuIndices n 0).length = ∑ i : Fin n, (n - i : ℕ) := by
    unfold triuIndices
    rw [List.length_flatMap, ← List.ofFn_id, List.map_ofFn, List.sum_ofFn]
    refine Finset.sum_congr rfl fun i _ => ?_
    simp only [Function.comp, List.length_map, id]
    rw [← Fin.card_Ici]
    have : (Finset.Ici i) = ((List.ofFn id).filter fun j : Fin n =>
        decide (((i : ℕ) : ℤ) + 0 ≤ ((j : ℕ) : ℤ))).toFinset := by
      ext j
      simp
    rw [this, List.toFinset_card_of_nodup]
    rw [List.ofFn_id]
    exact (List.nodup_finRange n).filter _
  rw [h1, Fin.sum_univ_eq_sum_range (fun i => n - i) n]
  clear h1
  induction n with
  | zero => simp
  | succ m ih =>
    rw [Finset.sum_range_succ']
    simp only [Nat.add_sub_add_right, Nat.sub_zero]
    rw [mul_add, ih]; ring

/-- Assigning along a list of distinct index pairs stores exactly the given values there and leaves
all other entries alone. -/
theorem assignAt_of_notMem {K : Type} {n : ℕ} (idx : List (Fin n × Fin n)) (a : List K)
    (A : Matrix (Fin n) (Fin n) K) (i j : Fin n) (h : (i, j) ∉ idx) :
    assignAt A idx a i j = A i j := by
  induction idx generalizing a A with
  | nil => simp [assignAt]
  | cons p t ih =>
    cases a with
    | nil => simp [assignAt]
    | cons x xs =>
      have h2 : (i, j) ∉ t := fun h' => h (List.mem_cons_of_mem _ h')
      have h1 : ¬ (i = p.1 ∧ j = p.2) := by
        rintro ⟨rfl, rfl⟩
        exact h List.mem_cons_self
      have := ih xs (Matrix.of fun i j => if i = p.1 ∧ j = p.2 then x else A i j) h2
      simp only [assignAt, List.zip_cons_cons, List.foldl_cons] at this ⊢
      rw [this]
      simp [h1]

theorem assignAt_map {K : Type} {n : ℕ} (idx : List (Fin n × Fin n)) (hn : idx.Nodup) (a : List K)
    (hl : idx.length = a.length) (A : Matrix (Fin n) (Fin n) K) :
    idx.map (fun p => assignAt A idx a p.1 p.2) = a := by
  induction idx generalizing a A with
  | nil => simpa using (List.length_eq_zero_iff.mp hl.symm).symm
  | cons p t ih =>
    cases a with
    | nil => simp at hl
    | cons x xs =>
      rw [List.nodup_cons] at hn
      set B : Matrix (Fin n) (Fin n) K :=
        Matrix.of fun i j => if i = p.1 ∧ j = p.2 then x else A i j with hB
      have e : assignAt A (p :: t) (x :: xs) = assignAt B t xs := by
        simp [assignAt, hB]
      rw [List.map_cons, e]
      congr 1
      · rw [assignAt_of_notMem t xs B p.1 p.2 hn.1]
        simp [hB]
      · exact ih hn.2 xs (by simpa using hl) B

theorem isTriangularNumber_nat (n : ℕ) (hn : 1 ≤ n) (s : ℕ) (hs : 2 * s = n * (n + 1)) :
    isTriangularNumber (s : ℝ) = (true, (n : ℤ)) := by
  have hs' : (2 : ℝ) * s = n * (n + 1) := by exact_mod_cast hs
  have hn' : (1 : ℝ) ≤ n := by exact_mod_cast hn
  have hsq : Real.sqrt (1 + 8 * (s : ℝ)) = 2 * n + 1 := by
    rw [show (1 + 8 * (s : ℝ)) = (2 * n + 1) ^ 2 by nlinarith]
    exact Real.sqrt_sq (by positivity)
  have hx : ¬ (¬ (∃ k : ℤ, (s : ℝ) = k) ∨ (s : ℝ) < 1) := by
    push Not
    exact ⟨⟨s, by simp⟩, by nlinarith⟩
  have h2 : (1 / 2 : ℝ) * (2 * n + 1 - 1) = ((n : ℤ) : ℝ) := by push_cast; ring
  unfold isTriangularNumber
  rw [if_neg hx]
  simp only [hsq, h2, Int.floor_intCast, Prod.mk.injEq, decide_eq_true_eq, and_true]
  exact ⟨n, rfl⟩

theorem isTriangularNumber_true {x : ℝ} (h : (isTriangularNumber x).1 = true) :
    ∃ n : ℤ, 1 ≤ n ∧ x = n * (n + 1) / 2 ∧ (isTriangularNumber x).2 = n := by
  unfold isTriangularNumber at h ⊢
  split_ifs at h ⊢ with hx
  push Not at hx
  obtain ⟨⟨k, hk⟩, h1⟩ := hx
  simp only [decide_eq_true_eq] at h
  obtain ⟨n, hn⟩ := h
  have h0 : 0 ≤ 1 + 8 * x := by linarith
  have hsq := Real.sq_sqrt h0
  have hs : Real.sqrt (1 + 8 * x) = 2 * n + 1 := by linarith
  have h3 : (3 : ℝ) ≤ Real.sqrt (1 + 8 * x) := by
    apply Real.le_sqrt_of_sq_le; linarith
  refine ⟨n, ?_, ?_, ?_⟩
  · have : (1 : ℝ) ≤ n := by linarith
    exact_mod_cast this
  · rw [hs] at hsq; nlinarith
  · simp only [hn, Int.floor_intCast]

end Rigeo
