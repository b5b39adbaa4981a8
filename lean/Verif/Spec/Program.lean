import Verif.Model.Program
import Verif.Spec.Bodies

/-!
# Specification: what a program that builds a body stands for
-/

namespace Spec

open Rigeo Matrix

variable {K : Type} [Field K] [LinearOrder K]

/-- The moments of a mass distribution up to order two. -/
@[ext]
structure Moments (K : Type) where
  mass : K
  first : Fin 3 → K
  second : Matrix (Fin 3) (Fin 3) K

/-- The moments of two distributions together. -/
def Moments.add (a b : Moments K) : Moments K := ⟨a.mass + b.mass, a.first + b.first, a.second + b.second⟩

/-- The moments of the distribution moved by `x ↦ R x + t`. -/
def Moments.move (R : Matrix (Fin 3) (Fin 3) K) (t : Fin 3 → K) (a : Moments K) : Moments K :=
  ⟨a.mass, R *ᵥ a.first + a.mass • t,
    R * a.second * Rᵀ + vecMulVec (R *ᵥ a.first) t + vecMulVec t (R *ᵥ a.first) + a.mass • vecMulVec t t⟩

/-- The moments of point masses. -/
def PointMasses.moments (s : PointMasses K 3) : Moments K := ⟨s.mass, s.first, s.second⟩

/-- The region a program describes. -/
def programRegion : BodyProgram K → Set (Fin 3 → K)
  | .empty shapes => bodyRegion shapes
  | .masses shapes _ _ => bodyRegion shapes
  | .given shapes _ => bodyRegion shapes
  | .add a b => programRegion a ∪ programRegion b
  | .transform R t a => moved R t (programRegion a)

/-- The moments a program describes. -/
def programMoments : BodyProgram K → Moments K
  | .empty _ => ⟨0, 0, 0⟩
  | .masses _ values points => PointMasses.moments (values.zip points)
  | .given _ p => ⟨p.mass, p.mass • p.com, p.H⟩
  | .add a b => (programMoments a).add (programMoments b)
  | .transform R t a => (programMoments a).move R t

/-- The point masses a program describes, if every body in it is given by point masses. -/
def programPoints : BodyProgram K → Option (PointMasses K 3)
  | .empty _ => some []
  | .masses _ values points => some (values.zip points)
  | .given _ _ => none
  | .add a b => do return (← programPoints a) ++ (← programPoints b)
  | .transform R t a => do return (← programPoints a).move R t

/-- No sum in the program has two operands without mass. -/
def Balanced : BodyProgram K → Prop
  | .empty _ => True
  | .masses _ _ _ => True
  | .given _ _ => True
  | .add a b => Balanced a ∧ Balanced b ∧ ((programMoments a).mass ≠ 0 ∨ (programMoments b).mass ≠ 0)
  | .transform _ _ a => Balanced a

/-- Every body in the program can be realized on its shapes. -/
def LeavesRealizable : BodyProgram K → Prop
  | .empty _ => True
  | .masses shapes values points => ∀ mp ∈ values.zip points, 0 ≤ mp.1 ∧ mp.2 ∈ bodyRegion shapes
  | .given shapes p => Realizable (bodyRegion shapes) p.mass (p.mass • p.com) p.H
  | .add a b => LeavesRealizable a ∧ LeavesRealizable b
  | .transform _ _ a => LeavesRealizable a

end Spec
