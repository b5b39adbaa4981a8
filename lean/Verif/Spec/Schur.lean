import Verif.Model.Schur

/-!
# Which matrix an argument of `schur` stands for
-/

namespace Spec

variable {K : Type}

/-- The array has two axes and the entries of `M`, or one axis and the entries of the single column of `M`. -/
def HasEntries (a : Rigeo.NdArray K) {r c : ℕ} (M : Matrix (Fin r) (Fin c) K) : Prop :=
  (a.shape = [r, c] ∧ ∀ (i : Fin r) (j : Fin c), a.data [(i : ℕ), (j : ℕ)] = M i j) ∨ (a.shape = [r] ∧ c = 1 ∧ ∀ (i : Fin r) (j : Fin c), a.data [(i : ℕ)] = M i j)

/-- The argument stands for the matrix `M`: a number for the matrix with that entry, a vector for a column, a matrix for itself. -/
def StandsFor (X : Rigeo.SchurArg K) {r c : ℕ} (M : Matrix (Fin r) (Fin c) K) : Prop :=
  match X with
  | .number x => r = 1 ∧ c = 1 ∧ ∀ i j, M i j = x
  | .array a => HasEntries a M
  | .expr a => HasEntries a M ∨ (a.shape = [] ∧ r = 1 ∧ c = 1 ∧ ∀ i j, M i j = a.data [])

end Spec
