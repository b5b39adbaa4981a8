import Mathlib.Data.List.Basic

/-!
# Specification: memories of objects

A memory is the list of the objects of one kind in the order of their creation.
-/

namespace Spec

/-- No object of the memory `m` is changed or gone in `m'`. -/
def Unchanged {D : Type} (m m' : List D) : Prop := ∀ r, r < m.length → m'[r]? = m[r]?

/-- The memories agree on all objects created after the first `k`. -/
def SameFrom {D : Type} (k : ℕ) (m m' : List D) : Prop := ∀ r, k ≤ r → m'[r]? = m[r]?

end Spec
