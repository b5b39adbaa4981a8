import Verif.Spec.Bodies
import Mathlib.Data.Real.Basic
import Mathlib.Analysis.SpecialFunctions.Log.Basic
import Mathlib.LinearAlgebra.Matrix.NonsingularInverse
import Mathlib.Logic.Equiv.Fin.Basic

/-!
# Specification vocabulary for parameter identification
-/

namespace Spec

open Matrix

/-- A symmetric positive definite matrix. -/
def PD {n : ℕ} (X : Matrix (Fin n) (Fin n) ℝ) : Prop :=
  Xᵀ = X ∧ ∀ v : Fin n → ℝ, v ≠ 0 → 0 < v ⬝ᵥ (X *ᵥ v)

/-- The contract of a solver of convex programs: if it reports the status "optimal" (returns a value at all), the
value it returns is feasible and no feasible value has a smaller objective. -/
def IsSolver {V : Type} (solver : (V → ℝ) → (V → Prop) → Option V) : Prop :=
  ∀ (objective : V → ℝ) (feasible : V → Prop) (x : V), solver objective feasible = some x →
    feasible x ∧ ∀ y, feasible y → objective x ≤ objective y

/-- The solver returns a value whenever there is an optimum. -/
def FindsOptimum {V : Type} (solver : (V → ℝ) → (V → Prop) → Option V) : Prop :=
  ∀ (objective : V → ℝ) (feasible : V → Prop) (x : V), feasible x → (∀ y, feasible y → objective x ≤ objective y) →
    solver objective feasible ≠ none

/-- The residual of one observation: column `10 i + c` of the regressor `A` multiplies parameter `c` of body `i`. -/
def residual {n k : ℕ} (A : Matrix (Fin k) (Fin (n * 10)) ℝ) (b : Fin k → ℝ) (θs : Fin n → Fin 10 → ℝ) : Fin k → ℝ :=
  fun j => ∑ i : Fin n, ∑ c : Fin 10, A j (finProdFinEquiv (i, c)) * θs i c - b j

/-- The weighted sum of squared residuals over all observations. -/
def lsq {n no k : ℕ} (As : Fin no → Matrix (Fin k) (Fin (n * 10)) ℝ) (bs : Fin no → Fin k → ℝ)
    (W : Matrix (Fin k) (Fin k) ℝ) (θs : Fin n → Fin 10 → ℝ) : ℝ :=
  ∑ o, residual (As o) (bs o) θs ⬝ᵥ (W *ᵥ residual (As o) (bs o) θs)

/-- The Bregman (log-determinant) divergence of `J` from `J0`. -/
noncomputable def logDet {n : ℕ} (J J0 : Matrix (Fin n) (Fin n) ℝ) : ℝ :=
  -Real.log J.det + Real.log J0.det + (J0⁻¹ * J).trace - n

/-- The cost of a list of bodies with parameter vectors `θs` and pseudo-inertia matrices `Js`: the normalised squared
error plus `γ` times the divergence from the nominal matrices `J0s` (plus a constant). -/
noncomputable def identCost {n no k : ℕ} (As : Fin no → Matrix (Fin k) (Fin (n * 10)) ℝ) (bs : Fin no → Fin k → ℝ)
    (W : Matrix (Fin k) (Fin k) ℝ) (γ : ℝ) (J0s : Fin n → Matrix (Fin 4) (Fin 4) ℝ) (θs : Fin n → Fin 10 → ℝ)
    (Js : Fin n → Matrix (Fin 4) (Fin 4) ℝ) : ℝ :=
  1 / 2 / no * lsq As bs W θs + γ * ∑ i, (logDet (Js i) (J0s i) + (4 - Real.log (J0s i).det))

/-- Parameters `qs` that bodies with the given shapes can have: the masses are positive, no eigenvalue of a
pseudo-inertia matrix is below `ε`, every body is a distribution of mass on its shapes (if asked for), and the centers
of mass are in the given shapes (if any). -/
structure Admissible {n : ℕ} (shapes : Fin n → List (Rigeo.AnyShape ℝ)) (realize : Bool)
    (com : Option (List (Rigeo.AnyShape ℝ))) (ε : ℝ) (qs : Fin n → Rigeo.IP ℝ) : Prop where
  mass_pos : ∀ i, 0 < (qs i).mass
  symm : ∀ i, (qs i).Hᵀ = (qs i).H
  psd : ∀ i, PSD ((qs i).J - ε • (1 : Matrix (Fin 4) (Fin 4) ℝ))
  realizable : realize = true → ∀ i, Realizable (bodyRegion (shapes i)) (qs i).mass (qs i).h (qs i).H
  com_mem : ∀ l, com = some l → ∀ (i : Fin n) (h : (i : ℕ) < l.length), (qs i).com ∈ region l[(i : ℕ)]

end Spec
