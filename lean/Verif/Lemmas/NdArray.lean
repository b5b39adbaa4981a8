import Verif.Spec.Batch
import Mathlib.Tactic.Ring

/-!
# Lemmas about the array operations
-/

namespace Rigeo
namespace NdArray

open Spec

variable {α β γ : Type}

theorem inShape_length {i s : List ℕ} (h : InShape i s) : i.length = s.length := List.Forall₂.length_eq h

theorem inShape_snoc {i s : List ℕ} {k n : ℕ} (h : InShape i s) (hk : k < n) : InShape (i ++ [k]) (s ++ [n]) :=
  List.rel_append h (List.Forall₂.cons hk List.Forall₂.nil)

theorem inShape_snoc_inv {i s : List ℕ} {n : ℕ} (h : InShape i (s ++ [n])) :
    ∃ j k, i = j ++ [k] ∧ InShape j s ∧ k < n := by
  have h' : List.Forall₂ (· < ·) i.reverse (s ++ [n]).reverse := List.forall₂_reverse_iff.mpr h
  rw [List.reverse_append] at h'
  simp only [List.reverse_cons, List.reverse_nil, List.nil_append, List.singleton_append] at h'
  cases hr : i.reverse with
  | nil => rw [hr] at h'; cases h'
  | cons k j =>
    rw [hr] at h'
    cases h' with
    | cons hk hj =>
      refine ⟨j.reverse, k, ?_, ?_, hk⟩
      · rw [← List.reverse_reverse i, hr, List.reverse_cons]
      · have := List.forall₂_reverse_iff.mpr hj
        rwa [List.reverse_reverse] at this

theorem clip_rev_self : ∀ {i s : List ℕ}, InShape i s →
    List.zipWith (fun n k => if n = 1 then 0 else k) s i = i
  | _, _, List.Forall₂.nil => rfl
  | _, _, List.Forall₂.cons (a := k) (b := n) h t => by
    rw [List.zipWith_cons_cons, clip_rev_self t]
    by_cases hn : n = 1
    · subst hn; simp; omega
    · simp [hn]

theorem clip_self {i s : List ℕ} (h : InShape i s) : clip s i = i := by
  have := clip_rev_self (i := i.reverse) (s := s.reverse) (List.forall₂_reverse_iff.mpr h)
  rw [clip, this, List.reverse_reverse]

theorem clip_snoc (s i : List ℕ) (n k : ℕ) : clip (s ++ [n]) (i ++ [k]) = clip s i ++ [if n = 1 then 0 else k] := by
  simp [clip]

theorem clip_nil (i : List ℕ) : clip [] i = [] := by simp [clip]

theorem broadcast_self : ∀ s : List ℕ, broadcastRev s s = .ok s
  | [] => rfl
  | a :: s => by simp [broadcastRev, broadcast_self s, bind, Except.bind]; rfl

theorem broadcast_nil (s : List ℕ) : broadcastRev s [] = .ok s := by cases s <;> rfl

theorem broadcast_one (n : ℕ) (s : List ℕ) : broadcastRev (n :: s) (1 :: s) = .ok (n :: s) := by
  by_cases h : n = 1
  · subst h; exact broadcast_self _
  · simp [broadcastRev, broadcast_self s, h, bind, Except.bind]; rfl

theorem one_broadcast (n : ℕ) (s : List ℕ) : broadcastRev (1 :: s) (n :: s) = .ok (n :: s) := by
  by_cases h : n = 1
  · subst h; exact broadcast_self _
  · simp [broadcastRev, broadcast_self s, Ne.symm h, bind, Except.bind]; rfl

theorem broadcast_vec (n : ℕ) (s : List ℕ) : broadcastRev (n :: s) [n] = .ok (n :: s) := by
  simp [broadcastRev, broadcast_nil, bind, Except.bind]; rfl

theorem vec_broadcast (n : ℕ) (s : List ℕ) : broadcastRev [n] (n :: s) = .ok (n :: s) := by
  simp [broadcastRev, bind, Except.bind]; rfl

/-- Two arrays of the same shape. -/
theorem zip_same (f : α → β → γ) {a : NdArray α} {b : NdArray β} {s : List ℕ} {u : List ℕ → α} {v : List ℕ → β}
    (ha : Entries a s u) (hb : Entries b s v) : ∃ c, a.zip f b = .ok c ∧ Entries c s fun i => f (u i) (v i) := by
  refine ⟨_, by rw [zip, ha.1, hb.1, broadcast_self]; rfl, by simp, fun i hi => ?_⟩
  simp only
  rw [clip_self hi, ha.2 i hi, hb.2 i hi]

/-- An array of vectors and an array with one number for each of them. -/
theorem zip_one (f : α → β → γ) {a : NdArray α} {b : NdArray β} {s : List ℕ} {n : ℕ} (ha : a.shape = s ++ [n])
    (hb : b.shape = s ++ [1]) : ∃ c, a.zip f b = .ok c ∧ c.shape = s ++ [n] ∧ ∀ i, InShape i s → ∀ k : Fin n,
      c.data (i ++ [(k : ℕ)]) = f (a.data (i ++ [(k : ℕ)])) (b.data (i ++ [0])) := by
  refine ⟨_, by rw [zip, ha, hb, List.reverse_append, List.reverse_append]; simp only [List.reverse_cons,
    List.reverse_nil, List.nil_append, List.singleton_append]; rw [broadcast_one]; rfl, by simp, fun i hi k => ?_⟩
  simp only
  rw [clip_self (inShape_snoc hi k.2), clip_snoc, clip_self hi, if_pos rfl]

/-- An array with one number for each vector and an array of vectors. -/
theorem one_zip (f : α → β → γ) {a : NdArray α} {b : NdArray β} {s : List ℕ} {n : ℕ} (ha : a.shape = s ++ [1])
    (hb : b.shape = s ++ [n]) : ∃ c, a.zip f b = .ok c ∧ c.shape = s ++ [n] ∧ ∀ i, InShape i s → ∀ k : Fin n,
      c.data (i ++ [(k : ℕ)]) = f (a.data (i ++ [0])) (b.data (i ++ [(k : ℕ)])) := by
  refine ⟨_, by rw [zip, ha, hb, List.reverse_append, List.reverse_append]; simp only [List.reverse_cons,
    List.reverse_nil, List.nil_append, List.singleton_append]; rw [one_broadcast]; rfl, by simp, fun i hi k => ?_⟩
  simp only
  rw [clip_self (inShape_snoc hi k.2), clip_snoc, clip_self hi, if_pos rfl]

theorem clip_vec (n : ℕ) (i : List ℕ) (k : Fin n) : clip [n] (i ++ [(k : ℕ)]) = [(k : ℕ)] := by
  have := k.2
  by_cases h : n = 1
  · simp [clip, h]; omega
  · simp [clip, h]

/-- An array of vectors and one vector. -/
theorem zip_vec {K : Type} [Field K] (f : α → K → γ) {a : NdArray α} {s : List ℕ} {n : ℕ} {r : List ℕ → Fin n → α}
    (ha : Rows a s n r) (v : Fin n → K) :
    ∃ c, a.zip f (ofVec v) = .ok c ∧ Rows c s n fun i k => f (r i k) (v k) := by
  refine ⟨_, by rw [zip, ha.1, ofVec, List.reverse_append]; simp only [List.reverse_cons,
    List.reverse_nil, List.nil_append, List.singleton_append]; rw [broadcast_vec]; rfl, by simp, fun i hi k => ?_⟩
  simp only
  rw [clip_self (inShape_snoc hi k.2), clip_vec, ha.2 i hi k]
  simp

/-- One vector and an array of vectors. -/
theorem vec_zip {K : Type} [Field K] (f : K → α → γ) {a : NdArray α} {s : List ℕ} {n : ℕ} {r : List ℕ → Fin n → α}
    (ha : Rows a s n r) (v : Fin n → K) :
    ∃ c, (ofVec v).zip f a = .ok c ∧ Rows c s n fun i k => f (v k) (r i k) := by
  refine ⟨_, by rw [zip, ha.1, ofVec, List.reverse_append]; simp only [List.reverse_cons,
    List.reverse_nil, List.nil_append, List.singleton_append]; rw [vec_broadcast]; rfl, by simp, fun i hi k => ?_⟩
  simp only
  rw [clip_self (inShape_snoc hi k.2), clip_vec, ha.2 i hi k]
  simp

/-- Two arrays of vectors. -/
theorem zip_rows (f : α → β → γ) {a : NdArray α} {b : NdArray β} {s : List ℕ} {n : ℕ} {u : List ℕ → Fin n → α}
    {v : List ℕ → Fin n → β} (ha : Rows a s n u) (hb : Rows b s n v) :
    ∃ c, a.zip f b = .ok c ∧ Rows c s n fun i k => f (u i k) (v i k) := by
  refine ⟨_, by rw [zip, ha.1, hb.1, broadcast_self]; rfl, by simp, fun i hi k => ?_⟩
  simp only
  rw [clip_self (inShape_snoc hi k.2), ha.2 i hi k, hb.2 i hi k]

theorem map_rows (f : α → β) {a : NdArray α} {s : List ℕ} {n : ℕ} {u : List ℕ → Fin n → α} (ha : Rows a s n u) :
    Rows (a.map f) s n fun i k => f (u i k) :=
  ⟨ha.1, fun i hi k => congrArg f (ha.2 i hi k)⟩

theorem map_entries (f : α → β) {a : NdArray α} {s : List ℕ} {u : List ℕ → α} (ha : Entries a s u) :
    Entries (a.map f) s fun i => f (u i) :=
  ⟨ha.1, fun i hi => congrArg f (ha.2 i hi)⟩

/-- Reduction along the last axis. -/
theorem reduce_last (f : ℕ → (ℕ → α) → β) {a : NdArray α} {s : List ℕ} {n : ℕ} (ha : a.shape = s ++ [n]) :
    ∃ c, a.reduce f (a.ndim - 1) = .ok c ∧ Entries c s fun i => f n fun k => a.data (i ++ [k]) := by
  have hl : a.ndim - 1 = s.length := by simp [ndim, ha]
  refine ⟨_, by rw [reduce, hl, ha]; simp only [List.getElem?_concat_length]; rfl,
    by simp [List.eraseIdx_append_of_length_le], fun i hi => ?_⟩
  simp only
  congr 1
  funext k
  rw [← inShape_length hi, List.insertIdx_length_self]

theorem reduce_one (f : ℕ → (ℕ → α) → β) {a : NdArray α} {m n : ℕ} (ha : a.shape = [m, n]) :
    ∃ c, a.reduce f 1 = .ok c ∧ Entries c [m] fun i => f n fun k => a.data (i ++ [k]) := by
  have h := reduce_last f (a := a) (s := [m]) (n := n) ha
  rwa [show a.ndim - 1 = 1 by simp [ndim, ha]] at h

/-- A new last axis. -/
theorem expand_last {a : NdArray α} {s : List ℕ} {u : List ℕ → α} (ha : Entries a s u) :
    ∃ c, a.expandDims s.length = .ok c ∧ c.shape = s ++ [1] ∧ ∀ i, InShape i s → ∀ k, c.data (i ++ [k]) = u i := by
  refine ⟨_, by rw [expandDims, ndim, ha.1, if_pos le_rfl], by simp [List.insertIdx_length_self], fun i hi k => ?_⟩
  simp only
  rw [← inShape_length hi, List.eraseIdx_append_of_length_le le_rfl]
  simp [ha.2 i hi]

/-- The squeezed array of one vector. -/
theorem squeeze_one {a : NdArray α} {d : ℕ} (hd : d ≠ 1) {r : List ℕ → Fin d → α} (ha : Rows a [1] d r) :
    Rows a.squeeze [] d fun _ => r [0] := by
  have hs : a.shape = [1, d] := ha.1
  refine ⟨by simp [squeeze, hs, hd], fun i hi k => ?_⟩
  cases hi
  have := ha.2 [0] (List.Forall₂.cons (by omega) List.Forall₂.nil) k
  simpa [squeeze, hs, unsqueeze, hd] using this

theorem all_eq {d : ℕ} (g : ℕ → Bool) : all d g = decide (∀ k : Fin d, g k = true) := by
  unfold all
  exact decide_eq_decide.mpr ⟨fun h k => h k k.2, fun h k hk => h ⟨k, hk⟩⟩

theorem sum_eq {K : Type} [Field K] {d : ℕ} (g : ℕ → K) : sum d g = ∑ k : Fin d, g k := Finset.sum_range _

/-- Reduction of a two-dimensional array along its second axis. -/
theorem reduce_rows (f : ℕ → (ℕ → α) → β) {d : ℕ} (F : (Fin d → α) → β) (hF : ∀ g : ℕ → α, f d g = F fun k => g k)
    {a : NdArray α} {n : ℕ} {r : List ℕ → Fin d → α} (ha : Rows a [n] d r) :
    ∃ c, a.reduce f 1 = .ok c ∧ Entries c [n] fun i => F (r i) := by
  obtain ⟨c, hc, hs, h⟩ := reduce_one f (a := a) (m := n) (n := d) ha.1
  refine ⟨c, hc, hs, fun i hi => ?_⟩
  rw [h i hi]
  refine (hF _).trans ?_
  exact congrArg F (funext fun k => ha.2 i hi k)

/-- Selection of columns. -/
theorem cols_rows {a : NdArray α} {n d : ℕ} {r : List ℕ → Fin d → α} (ha : Rows a [n] d r) (idx : List (Fin d)) :
    ∃ c, a.cols (idx.map Fin.val) = .ok c ∧ Rows c [n] idx.length fun i k => r i (idx.get k) := by
  have hs : a.shape = [n, d] := ha.1
  refine ⟨_, by rw [cols, hs], by simp, fun i hi k => ?_⟩
  have hi' := hi
  cases hi with
  | cons hk ht =>
    cases ht
    have := ha.2 _ hi' (idx.get k)
    simpa using this

/-- One column. -/
theorem col_rows {a : NdArray α} {n d : ℕ} {r : List ℕ → Fin d → α} (ha : Rows a [n] d r) (k : Fin d) :
    ∃ c, a.col k = .ok c ∧ Entries c [n] fun i => r i k := by
  have hs : a.shape = [n, d] := ha.1
  exact ⟨_, by rw [col, hs]; simp only [k.2, if_true]; rfl, rfl, fun i hi => ha.2 i hi k⟩

/-- A single point becomes an array of one point. -/
theorem atleast_point {a : NdArray α} {d : ℕ} {r : List ℕ → Fin d → α} (ha : Rows a [] d r) :
    Rows a.atleast2d [1] d fun _ => r [] := by
  have hs : a.shape = [d] := ha.1
  refine ⟨by rw [atleast2d, hs]; rfl, fun i hi k => ?_⟩
  cases hi with
  | cons hk ht =>
    cases ht
    have := ha.2 [] List.Forall₂.nil k
    simpa [atleast2d, hs] using this

theorem atleast_points {a : NdArray α} {n d : ℕ} {r : List ℕ → Fin d → α} (ha : Rows a [n] d r) : a.atleast2d = a := by
  have hs : a.shape = [n, d] := ha.1
  rw [atleast2d, hs]

theorem head_entries {a : NdArray α} {u : List ℕ → α} (ha : Entries a [1] u) :
    ∃ c, a.head = .ok c ∧ Entries c [] fun _ => u [0] := by
  refine ⟨_, by rw [head, ha.1]; rfl, rfl, fun i hi => ?_⟩
  cases hi
  exact ha.2 [0] (List.Forall₂.cons (by omega) List.Forall₂.nil)

section Field
variable {K : Type} [Field K]

theorem rows_ofMatrix {m n : ℕ} (A : Matrix (Fin m) (Fin n) K) (row : List ℕ → Fin n → K)
    (h : ∀ i : Fin m, row [(i : ℕ)] = A i) : Rows (ofMatrix A) [m] n row := by
  refine ⟨rfl, fun i hi k => ?_⟩
  cases hi with
  | cons hk ht =>
    cases ht
    rename_i i
    have := congrFun (h ⟨i, hk⟩) k
    simp [ofMatrix, hk, this]

/-- Multiplication of every vector with a matrix. -/
theorem matmul_mat {a : NdArray K} {s : List ℕ} {k m : ℕ} {r : List ℕ → Fin k → K} (ha : Rows a s k r)
    (B : Matrix (Fin k) (Fin m) K) :
    ∃ c, a.matmul (ofMatrix B) = .ok c ∧ Rows c s m fun i => Matrix.vecMul (r i) B := by
  refine ⟨_, by rw [matmul, ha.1]; simp only [ofMatrix, List.getLast?_concat, if_true]; rfl, by simp, fun i hi j => ?_⟩
  simp only [List.dropLast_concat, List.getLastD_concat]
  rw [Finset.sum_range]
  refine Finset.sum_congr rfl fun l _ => ?_
  rw [ha.2 i hi l]
  simp

theorem matmul_matT {a : NdArray K} {s : List ℕ} {k m : ℕ} {r : List ℕ → Fin k → K} (ha : Rows a s k r)
    (B : Matrix (Fin m) (Fin k) K) :
    ∃ c, a.matmul (ofMatrix B).T = .ok c ∧ Rows c s m fun i => Matrix.mulVec B (r i) := by
  refine ⟨_, by rw [matmul, ha.1]; simp only [ofMatrix, T, List.getLast?_concat, List.reverse_cons, List.reverse_nil,
    List.nil_append, List.singleton_append, List.cons_append, if_true]; rfl, by simp, fun i hi j => ?_⟩
  simp only [List.dropLast_concat, List.getLastD_concat]
  rw [Finset.sum_range]
  refine Finset.sum_congr rfl fun l _ => ?_
  rw [ha.2 i hi l]
  simp [mul_comm]

/-- A matrix times one vector. -/
theorem matmul_vec {a : NdArray K} {k m : ℕ} {r : List ℕ → Fin k → K} (ha : Rows a [] k r) (A : Matrix (Fin m) (Fin k) K) :
    ∃ c, (ofMatrix A).matmul a = .ok c ∧ Rows c [] m fun _ => Matrix.mulVec A (r []) := by
  have hs : a.shape = [k] := ha.1
  refine ⟨_, by rw [matmul, hs]; simp only [ofMatrix, List.getLast?_cons_cons, List.getLast?_singleton, if_true]; rfl,
    by simp, fun i hi j => ?_⟩
  cases hi
  simp only [List.nil_append]
  rw [Finset.sum_range]
  refine Finset.sum_congr rfl fun l _ => ?_
  have := ha.2 [] List.Forall₂.nil l
  simp at this
  simp [this]

/-- `(R @ points.T).T` for a two-dimensional array of points. -/
theorem matmul_T {a : NdArray K} {n k m : ℕ} {r : List ℕ → Fin k → K} (ha : Rows a [n] k r)
    (R : Matrix (Fin m) (Fin k) K) :
    ∃ c, (ofMatrix R).matmul a.T = .ok c ∧ Rows c.T [n] m fun i => Matrix.mulVec R (r i) := by
  have hs : a.shape = [n, k] := ha.1
  refine ⟨_, by rw [matmul, T, hs]; simp only [ofMatrix, List.getLast?_cons_cons, List.getLast?_singleton,
    List.reverse_cons, List.reverse_nil, List.nil_append, List.singleton_append, List.cons_append, if_true]; rfl,
    by simp [T], fun i hi j => ?_⟩
  cases hi with
  | cons hk ht =>
    cases ht
    rename_i i
    simp only [T, List.cons_append, List.nil_append, List.reverse_cons, List.reverse_nil]
    rw [Finset.sum_range]
    refine Finset.sum_congr rfl fun l _ => ?_
    have := ha.2 [i] (List.Forall₂.cons hk List.Forall₂.nil) l
    simp at this
    simp [this]

end Field

theorem ravel_lt : ∀ {i s : List ℕ}, InShape i s → ravel s i < s.prod
  | _, _, List.Forall₂.nil => by simp [ravel]
  | _, _, List.Forall₂.cons (a := k) (b := n) (l₂ := s) h t => by
    have := ravel_lt t
    simp only [ravel, List.prod_cons]
    calc k * s.prod + ravel s _ < k * s.prod + s.prod := by omega
      _ = (k + 1) * s.prod := by ring
      _ ≤ n * s.prod := Nat.mul_le_mul_right _ h

theorem ravel_snoc : ∀ {i s : List ℕ}, InShape i s → ∀ k d, ravel (s ++ [d]) (i ++ [k]) = ravel s i * d + k
  | _, _, List.Forall₂.nil, k, d => by simp [ravel]
  | _, _, List.Forall₂.cons (a := j) (b := n) (l₂ := s) h t, k, d => by
    have := ravel_snoc t k d
    simp only [ravel, List.cons_append]
    rw [this]
    simp; ring

/-- A two-dimensional array of points in another shape. -/
theorem reshape_rows {a : NdArray α} {n d : ℕ} {r : List ℕ → Fin d → α} (ha : Rows a [n] d r) {s : List ℕ}
    (hs : s.prod = n) : ∃ c, a.reshape (s ++ [d]) = .ok c ∧ Rows c s d fun i => r [ravel s i] := by
  have hsh : a.shape = [n, d] := ha.1
  refine ⟨_, by rw [reshape, hsh, if_pos (by simp [hs])], rfl, fun i hi k => ?_⟩
  have hd : 0 < d := k.pos
  simp only
  have h1 : unravel [n, d] (ravel (s ++ [d]) (i ++ [(k : ℕ)])) = [ravel s i, (k : ℕ)] := by
    rw [ravel_snoc hi]
    have e1 : (ravel s i * d + (k : ℕ)) / d = ravel s i := by
      rw [Nat.add_comm, Nat.add_mul_div_right _ _ hd, Nat.div_eq_of_lt k.2, Nat.zero_add]
    have e2 : (ravel s i * d + (k : ℕ)) % d = k := by
      rw [Nat.add_comm, Nat.add_mul_mod_self_right, Nat.mod_eq_of_lt k.2]
    simp [unravel, e1, e2]
  rw [h1]
  exact ha.2 [ravel s i] (List.Forall₂.cons (hs ▸ ravel_lt hi) List.Forall₂.nil) k

end NdArray
end Rigeo
