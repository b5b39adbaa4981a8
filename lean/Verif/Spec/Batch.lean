import Verif.Model.NdArray

/-!
# What an array of points is

`InShape i s` says that `i` is an index of an array of shape `s`. An array of shape `s + (d,)` is an array of points
of dimension `d`, one for every index of an array of shape `s`.
-/

namespace Spec

/-- `i` is an index of an array of shape `s`. -/
def InShape (i s : List ℕ) : Prop := List.Forall₂ (· < ·) i s

/-- The array has shape `s + (d,)` and the point at index `i` is `row i`. -/
def Rows {K : Type} (a : Rigeo.NdArray K) (s : List ℕ) (d : ℕ) (row : List ℕ → Fin d → K) : Prop :=
  a.shape = s ++ [d] ∧ ∀ i, InShape i s → ∀ k : Fin d, a.data (i ++ [(k : ℕ)]) = row i k

/-- The array has shape `s + (d,)`, and the point at index `i` is the value of the computation `row i` if that has
one (it has none when a normaliser is zero). -/
def Sampled {K : Type} (a : Rigeo.NdArray K) (s : List ℕ) (d : ℕ) (row : List ℕ → Rigeo.Py (Fin d → K)) : Prop :=
  a.shape = s ++ [d] ∧ ∀ i, InShape i s → ∀ p, row i = .ok p → ∀ k : Fin d, a.data (i ++ [(k : ℕ)]) = p k

/-- The array has shape `s` and the entry at index `i` is `f i`. -/
def Entries {α : Type} (a : Rigeo.NdArray α) (s : List ℕ) (f : List ℕ → α) : Prop :=
  a.shape = s ∧ ∀ i, InShape i s → a.data i = f i

/-- The two shapes of a batch of points that are documented: one point, or a sequence of points. -/
def Documented (s : List ℕ) : Prop := s = [] ∨ ∃ n, s = [n]

/-- Every point of the array lies in the set. -/
def AllIn {K : Type} {d : ℕ} (a : Rigeo.NdArray K) (s : List ℕ) (S : Set (Fin d → K)) : Prop :=
  a.shape = s ++ [d] ∧ ∀ i, InShape i s → (fun k : Fin d => a.data (i ++ [(k : ℕ)])) ∈ S

end Spec
