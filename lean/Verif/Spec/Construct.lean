import Verif.Model.Construct
import Verif.Spec.Batch

/-!
# Which arguments have the documented shapes
-/

namespace Spec

variable {K : Type}

/-- A rotation argument for dimension `n`: left out, or an array of shape `(n, n)`. -/
def RotationShape (n : ℕ) : Option (Rigeo.ArrayArg K) → Prop
  | none => True
  | some (.scalar _) => False
  | some (.array a) => a.shape = [n, n]

/-- A position argument for dimension `n`: left out, or an array of shape `(n,)`. -/
def PositionShape (n : ℕ) : Option (Rigeo.ArrayArg K) → Prop
  | none => True
  | some (.scalar _) => False
  | some (.array a) => a.shape = [n]

/-- All entries are nonnegative. -/
def Nonnegative [Zero K] [LE K] (a : Rigeo.NdArray K) : Prop := ∀ i, InShape i a.shape → 0 ≤ a.data i

/-- The length of the `k`-th axis counted from the last one, 1 for an axis that is not there. -/
def axisFromEnd (s : List ℕ) (k : ℕ) : ℕ := s.reverse.getD k 1

/-- An array of shape `s` can be broadcast to shape `t`: counted from the last axis on, and with missing axes taken as axes of length 1,
every axis has the same length or length 1. -/
def BroadcastsTo (s t : List ℕ) : Prop := ∀ k, axisFromEnd s k = 1 ∨ axisFromEnd s k = axisFromEnd t k

end Spec
