import Verif.Spec.Broadcast
import Mathlib.Data.List.GetD

/-!
# C99: operations on two arrays of any shapes
-/

namespace Rigeo

open Spec NdArray

theorem broadcastRev_spec : ∀ s t : List ℕ,
    ((∀ k, s.getD k 1 = t.getD k 1 ∨ s.getD k 1 = 1 ∨ t.getD k 1 = 1) →
      ∃ r, broadcastRev s t = .ok r ∧ r.length = max s.length t.length ∧
        ∀ k, r.getD k 1 = if s.getD k 1 = 1 then t.getD k 1 else s.getD k 1) ∧
    ((¬ ∀ k, s.getD k 1 = t.getD k 1 ∨ s.getD k 1 = 1 ∨ t.getD k 1 = 1) → broadcastRev s t = .error .value)
  | [], t => ⟨fun _ => ⟨t, by simp [broadcastRev], by simp, by simp⟩, fun h => absurd (fun k => by simp) h⟩
  | a :: s, [] => ⟨fun _ => ⟨a :: s, by simp [broadcastRev], by simp, fun k => by split <;> simp_all⟩,
      fun h => absurd (fun k => by simp) h⟩
  | a :: s, b :: t => by
    obtain ⟨h1, h2⟩ := broadcastRev_spec s t
    have hsplit : (∀ k, (a :: s).getD k 1 = (b :: t).getD k 1 ∨ (a :: s).getD k 1 = 1 ∨ (b :: t).getD k 1 = 1) ↔
        (a = b ∨ a = 1 ∨ b = 1) ∧ ∀ k, s.getD k 1 = t.getD k 1 ∨ s.getD k 1 = 1 ∨ t.getD k 1 = 1 :=
      ⟨fun h => ⟨h 0, fun k => h (k + 1)⟩, fun h k => by
        cases k with
        | zero => exact h.1
        | succ k => exact h.2 k⟩
    rw [hsplit]
    constructor
    · rintro ⟨hab, hst⟩
      obtain ⟨r, hr, hl, hk⟩ := h1 hst
      refine ⟨(if a = 1 then b else a) :: r, ?_, by simp [hl], fun k => ?_⟩
      · simp only [broadcastRev, hr, bind, Except.bind]
        by_cases e1 : a = 1
        · by_cases e2 : a = b
          · rw [if_pos e2, if_pos e1, ← e2]; rfl
          · rw [if_neg e2, if_pos e1, if_pos e1]; rfl
        · by_cases e2 : a = b
          · rw [if_pos e2, if_neg e1]; rfl
          · rw [if_neg e2, if_neg e1, if_pos (by tauto), if_neg e1]; rfl
      · cases k with
        | zero => rfl
        | succ k => exact hk k
    · intro hn
      by_cases hst : ∀ k, s.getD k 1 = t.getD k 1 ∨ s.getD k 1 = 1 ∨ t.getD k 1 = 1
      · obtain ⟨r, hr, -, -⟩ := h1 hst
        have hab : ¬ (a = b ∨ a = 1 ∨ b = 1) := fun h => hn ⟨h, hst⟩
        push Not at hab
        simp only [broadcastRev, hr, bind, Except.bind, if_neg hab.1, if_neg hab.2.1, if_neg hab.2.2]
        rfl
      · simp only [broadcastRev, h2 hst, bind, Except.bind]

theorem clip_spec (s i : List ℕ) (h : s.length ≤ i.length) : OperandIndex s i (clip s i) := by
  refine ⟨by simp [clip, h], fun k hk => ?_⟩
  unfold clip axisFromEnd
  rw [List.reverse_reverse]
  have hk1 : k < s.reverse.length := by simpa using hk
  have hk2 : k < i.reverse.length := by rw [List.length_reverse]; omega
  have hk3 : k < (List.zipWith (fun n k => if n = 1 then 0 else k) s.reverse i.reverse).length := by
    rw [List.length_zipWith]; omega
  rw [List.getD_eq_getElem _ _ hk3, List.getD_eq_getElem _ _ hk1, List.getD_eq_getElem _ _ hk2, List.getElem_zipWith]

theorem operandIndex_unique {s i j j' : List ℕ} (h : OperandIndex s i j) (h' : OperandIndex s i j') : j = j' := by
  rw [← List.reverse_inj]
  refine List.ext_getElem (by simp [h.1, h'.1]) fun k hk hk' => ?_
  have hks : k < s.length := by rw [List.length_reverse, h.1] at hk; exact hk
  have := (h.2 k hks).trans (h'.2 k hks).symm
  rwa [List.getD_eq_getElem _ _ hk, List.getD_eq_getElem _ _ hk'] at this

/-- An index of the right length is in the shape if it is on every axis, counted from the last one. -/
theorem inShape_iff (i s : List ℕ) : InShape i s ↔ i.length = s.length ∧ ∀ k < s.length, i.reverse.getD k 0 < axisFromEnd s k := by
  unfold InShape axisFromEnd
  rw [← List.forall₂_reverse_iff, List.forall₂_iff_get]
  simp only [List.length_reverse, List.get_eq_getElem]
  refine and_congr_right fun hl => ⟨fun h k hk => ?_, fun h k h1 h2 => ?_⟩
  · rw [List.getD_eq_getElem _ _ (by simp; omega), List.getD_eq_getElem _ _ (by simpa using hk)]
    exact h k (by omega) hk
  · have := h k h2
    rwa [List.getD_eq_getElem _ _ (by simpa using h1), List.getD_eq_getElem _ _ (by simpa using h2)] at this

/-- C99: An operation on two arrays of any shapes returns exactly if the shapes can be broadcast together, and raises `ValueError`
otherwise. Every axis of the result has the length of the operand where it is not 1. The entry at `i` is the value at the entries of
the operands that belong to `i`, and these exist. -/
theorem C99_broadcast {α β γ : Type} (f : α → β → γ) (a : NdArray α) (b : NdArray β) :
    (Broadcastable a.shape b.shape → ∃ c, a.zip f b = .ok c ∧ c.shape.length = max a.shape.length b.shape.length ∧
      (∀ k, axisFromEnd c.shape k = if axisFromEnd a.shape k = 1 then axisFromEnd b.shape k else axisFromEnd a.shape k) ∧
      ∀ i, InShape i c.shape → ∃ j j', OperandIndex a.shape i j ∧ OperandIndex b.shape i j' ∧ InShape j a.shape ∧
        InShape j' b.shape ∧ c.data i = f (a.data j) (b.data j')) ∧
    (¬ Broadcastable a.shape b.shape → a.zip f b = .error .value) := by
  obtain ⟨h1, h2⟩ := broadcastRev_spec a.shape.reverse b.shape.reverse
  refine ⟨fun h => ?_, fun h => by unfold NdArray.zip; rw [h2 h]; rfl⟩
  obtain ⟨r, hr, hl, hk⟩ := h1 h
  simp only [List.length_reverse] at hl
  refine ⟨⟨r.reverse, fun i => f (a.data (clip a.shape i)) (b.data (clip b.shape i))⟩, by unfold NdArray.zip; rw [hr]; rfl, by simpa using hl,
    fun k => by simpa [axisFromEnd] using hk k, fun i hi => ?_⟩
  obtain ⟨hi1, hi2⟩ := (inShape_iff _ _).mp hi
  simp only [List.length_reverse] at hi1 hi2
  have hax : ∀ k, axisFromEnd r.reverse k = if axisFromEnd a.shape k = 1 then axisFromEnd b.shape k else axisFromEnd a.shape k :=
    fun k => by simpa [axisFromEnd] using hk k
  have ha := clip_spec a.shape i (by omega)
  have hb := clip_spec b.shape i (by omega)
  refine ⟨_, _, ha, hb, (inShape_iff _ _).mpr ⟨ha.1, fun k hk => ?_⟩, (inShape_iff _ _).mpr ⟨hb.1, fun k hk => ?_⟩, rfl⟩
  · rw [ha.2 k hk]
    split
    · omega
    · rename_i hne
      have := hi2 k (by omega)
      rwa [hax k, if_neg hne] at this
  · rw [hb.2 k hk]
    split
    · omega
    · rename_i hne
      have h3 := hi2 k (by omega)
      rw [hax k] at h3
      split at h3
      · exact h3
      · rename_i hne'
        rcases h k with e | e | e
        · rwa [e] at h3
        · exact absurd e hne'
        · exact absurd e hne

/-- Shapes that fit and shapes that do not. -/
example : Broadcastable [4, 1, 3] [5, 3] ∧ ¬ Broadcastable [4, 2, 3] [5, 3] := by
  refine ⟨fun k => ?_, fun h => by simpa [axisFromEnd] using h 1⟩
  rcases k with _ | _ | _ | k <;> simp [axisFromEnd]

end Rigeo
