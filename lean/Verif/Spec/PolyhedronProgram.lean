import Verif.Model.PolyhedronProgram
import Verif.Props.Polydd

/-!
# Specification: what a program that builds a polyhedron stands for
-/

namespace Spec

open Rigeo Matrix

variable {K : Type} [Field K] [LinearOrder K] [IsStrictOrderedRing K] {d : ℕ}

/-- The points of the simplex at the origin that reaches `extents i` on the axis `i`. -/
def simplexPoints (extents : Fin d → K) : Set (Fin d → K) := {p | (∀ i, 0 ≤ p i) ∧ ∑ i, p i / extents i ≤ 1}

/-- The set of points a program describes. -/
def programPolyhedron : PolyhedronProgram K d → Set (Fin d → K)
  | .vertices points _ => hull points
  | .halfspaces faces => Spec.halfspaces faces
  | .simplex extents => simplexPoints extents
  | .intersect a b => programPolyhedron a ∩ programPolyhedron b
  | .transform R t a => moved R t (programPolyhedron a)

/-- The arguments of the constructors and of `transform` describe non-empty bounded polyhedra and rotations or reflections. -/
def PolyhedronArgsOk : PolyhedronProgram K d → Prop
  | .vertices points _ => points ≠ []
  | .halfspaces faces => faces ≠ [] ∧ (Spec.halfspaces faces).Nonempty ∧ Bounded (Spec.halfspaces faces)
  | .simplex extents => ∀ i, 0 < extents i
  | .intersect a b => PolyhedronArgsOk a ∧ PolyhedronArgsOk b
  | .transform R _ a => Orthogonal R ∧ PolyhedronArgsOk a

/-- No operation of the program is applied to the empty set. -/
def OperandsMeet : PolyhedronProgram K d → Prop
  | .vertices _ _ => True
  | .halfspaces _ => True
  | .simplex _ => True
  | .intersect a b => OperandsMeet a ∧ OperandsMeet b ∧ (programPolyhedron a).Nonempty ∧ (programPolyhedron b).Nonempty
  | .transform _ _ a => OperandsMeet a ∧ (programPolyhedron a).Nonempty

end Spec
