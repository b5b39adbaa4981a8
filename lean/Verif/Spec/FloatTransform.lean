import Verif.Spec.Basic
import Verif.Spec.Float

/-!
# Specification: sequences of rigid motions
-/

namespace Spec

/-- A rigid motion `p ↦ R p + t` -/
structure Motion where
  rotation : Matrix (Fin 3) (Fin 3) ℝ
  translation : Fin 3 → ℝ

/-- Where a point goes under one motion after the other. -/
noncomputable def movedBy : List Motion → (Fin 3 → ℝ) → Fin 3 → ℝ
  | [], p => p
  | m :: l, p => movedBy l (rigid m.rotation m.translation p)

/-- What becomes of a matrix of second moments about the center of mass: every motion turns it. -/
noncomputable def turnedBy : List Motion → Matrix (Fin 3) (Fin 3) ℝ → Matrix (Fin 3) (Fin 3) ℝ
  | [], A => A
  | m :: l, A => turnedBy l (m.rotation * A * m.rotation.transpose)

/-- A matrix of binary64 numbers stands for a rotation or reflection: every entry is off by at most `8 · 2⁻⁵³`. -/
def NearRotation (R O : Matrix (Fin 3) (Fin 3) ℝ) : Prop := Orthogonal O ∧ ∀ i j, |R i j - O i j| ≤ 8 * (2 : ℝ) ^ (-53 : ℤ)

/-- The arguments of a call stand for a motion. -/
def NearMotion (a m : Motion) : Prop := NearRotation a.rotation m.rotation ∧ a.translation = m.translation

/-- The point stays within the cube of half width `S` on its way. -/
def StaysWithin (S : ℝ) (l : List Motion) (p : Fin 3 → ℝ) : Prop := ∀ k i, |movedBy (l.take k) p i| ≤ S

end Spec
