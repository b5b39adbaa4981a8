import Verif.Model.PolyProgram
import Verif.Spec.Moment
import Mathlib.Algebra.MvPolynomial.Basic

/-!
# Specification: the polynomial a program stands for, as an element of the polynomial ring of Mathlib
-/

namespace Spec

open Rigeo MvPolynomial

variable {K : Type} [Field K] {n : ℕ}

/-- The monomial `c * x ^ k`. -/
noncomputable def term (k : Fin n → ℕ) (c : K) : MvPolynomial (Fin n) K := monomial (Finsupp.equivFunOnFinite.symm k) c

/-- The polynomial a program describes. -/
noncomputable def programPoly : PolyProgram K n → MvPolynomial (Fin n) K
  | .terms items => (items.map fun kc => term kc.1 kc.2).sum
  | .zeros => 0
  | .ones d => ∑ k ∈ multiIndices n d, term k 1
  | .affine a b => C b - ∑ i, C (a i) * X i
  | .add p q => programPoly p + programPoly q
  | .localize p idx => programPoly p * term idx 1

/-- The arguments of a program: dictionaries have distinct keys, and `ones` is asked for a positive degree. -/
def PolyArgsOk : PolyProgram K n → Prop
  | .terms items => (items.map Prod.fst).Nodup
  | .zeros => True
  | .ones d => 1 ≤ d
  | .affine _ _ => True
  | .add p q => PolyArgsOk p ∧ PolyArgsOk q
  | .localize p _ => PolyArgsOk p

/-- The dictionaries in the program have distinct keys, as all dictionaries do. -/
def DictsOk : PolyProgram K n → Prop
  | .terms items => (items.map Prod.fst).Nodup
  | .add p q => DictsOk p ∧ DictsOk q
  | .localize p _ => DictsOk p
  | _ => True

end Spec
