import Mathlib.Algebra.Order.Field.Basic
import Mathlib.Data.Matrix.Mul
import Mathlib.LinearAlgebra.Matrix.Notation
import Mathlib.LinearAlgebra.Matrix.Trace
import Mathlib.Data.Fin.Tuple.Basic
import Mathlib.LinearAlgebra.CrossProduct

/-!
# Specification vocabulary

Plain mathematics, independent of the model: rotations, rigid motions, positive semidefiniteness and
systems of point masses with their moments. Property theorems are stated in these terms.
-/

namespace Spec

open Matrix

variable {K : Type} [Field K]

/-- `R` is orthogonal (a rotation or reflection). -/
def Orthogonal {n : ℕ} (R : Matrix (Fin n) (Fin n) K) : Prop := Rᵀ * R = 1

/-- The rigid motion `p ↦ R p + t`. -/
def rigid {n : ℕ} (R : Matrix (Fin n) (Fin n) K) (t p : Fin n → K) : Fin n → K := R *ᵥ p + t

/-- A symmetric positive semidefinite matrix. -/
def PSD [LinearOrder K] {n : ℕ} (X : Matrix (Fin n) (Fin n) K) : Prop :=
  Xᵀ = X ∧ ∀ v : Fin n → K, 0 ≤ v ⬝ᵥ (X *ᵥ v)

/-- A finite system of point masses: pairs of a mass and a position. -/
abbrev PointMasses (K : Type) (n : ℕ) := List (K × (Fin n → K))

namespace PointMasses
variable {n : ℕ}

/-- total mass `Σ mᵢ` -/
def mass (s : PointMasses K n) : K := (s.map fun mp => mp.1).sum

/-- first moment `Σ mᵢ pᵢ` -/
def first (s : PointMasses K n) : Fin n → K := (s.map fun mp => mp.1 • mp.2).sum

/-- second moment `Σ mᵢ pᵢ pᵢᵀ` -/
def second (s : PointMasses K n) : Matrix (Fin n) (Fin n) K :=
  (s.map fun mp => mp.1 • vecMulVec mp.2 mp.2).sum

/-- inertia matrix `Σ mᵢ (|pᵢ|² 1 - pᵢ pᵢᵀ)` -/
def inertia (s : PointMasses K n) : Matrix (Fin n) (Fin n) K :=
  (s.map fun mp => mp.1 • ((mp.2 ⬝ᵥ mp.2) • 1 - vecMulVec mp.2 mp.2)).sum

/-- all masses are non-negative -/
def Nonneg [LinearOrder K] (s : PointMasses K n) : Prop := ∀ mp ∈ s, 0 ≤ mp.1

/-- all points lie in the set `S` -/
def Within (s : PointMasses K n) (S : Set (Fin n → K)) : Prop := ∀ mp ∈ s, mp.2 ∈ S

/-- the system moved by a rigid motion -/
def move (s : PointMasses K n) (R : Matrix (Fin n) (Fin n) K) (t : Fin n → K) : PointMasses K n :=
  s.map fun mp => (mp.1, rigid R t mp.2)

end PointMasses

end Spec
