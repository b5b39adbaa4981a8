import Verif.Spec.Construct

/-!
# Specification: broadcasting of two arrays
-/

namespace Spec

/-- Two shapes can be broadcast together: counted from the last axis on, and with missing axes taken as axes of length 1, the lengths
are equal or one of them is 1. -/
def Broadcastable (s t : List ℕ) : Prop :=
  ∀ k, axisFromEnd s k = axisFromEnd t k ∨ axisFromEnd s k = 1 ∨ axisFromEnd t k = 1

/-- `j` is the index into an operand of shape `s` that belongs to the index `i` of the result: the last entries of `i`, with 0 on axes
of length 1. -/
def OperandIndex (s i j : List ℕ) : Prop :=
  j.length = s.length ∧ ∀ k < s.length, j.reverse.getD k 0 = if axisFromEnd s k = 1 then 0 else i.reverse.getD k 0

end Spec
