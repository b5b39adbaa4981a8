import Verif.Spec.Measure
import Mathlib.MeasureTheory.Measure.Lebesgue.Basic
import Mathlib.Probability.Distributions.Gaussian.Real

/-!
# Specification: random programs
-/

namespace Spec

open MeasureTheory ProbabilityTheory Matrix

/-- Run on a random input of law `P`, the program `f` almost surely returns a value, and the values have the law `μ`. -/
structure Samples {Ω α ε : Type} [MeasurableSpace Ω] [MeasurableSpace α] (P : Measure Ω) (f : Ω → Except ε α)
    (μ : Measure α) : Prop where
  ok : ∀ᵐ ω ∂P, ∃ x, f ω = .ok x
  law : ∀ S, MeasurableSet S → P {ω | ∃ x ∈ S, f ω = .ok x} = μ S

/-- A uniform draw between `a` and `b`. (`rng.random` and `rng.uniform` never return `b`, an event of probability
zero.) -/
noncomputable def draw (a b : ℝ) : Measure ℝ := ENNReal.ofReal (1 / (b - a)) • volume.restrict (Set.Icc a b)

/-- Independent uniform draws. -/
noncomputable def draws (n : ℕ) (a b : ℝ) : Measure (Fin n → ℝ) := Measure.pi fun _ => draw a b

/-- Independent standard normal draws. -/
noncomputable def normals (n : ℕ) : Measure (Fin n → ℝ) := Measure.pi fun _ => gaussianReal 0 1

/-- The uniform distribution on the unit sphere: the probability measure carried by the sphere that looks the same from
every side. -/
structure UniformOnSphere {n : ℕ} (σ : Measure (Fin n → ℝ)) : Prop where
  probability : σ Set.univ = 1
  carried : CarriedBy σ {x | x ⬝ᵥ x = 1}
  invariant : ∀ Q : Matrix (Fin n) (Fin n) ℝ, Orthogonal Q → σ.map (fun x => Q *ᵥ x) = σ

/-- Candidates of law `μ` for `T` rounds of up to `n` candidates each, all independent. -/
noncomputable def rounds {α : Type} [MeasurableSpace α] (T n : ℕ) (μ : Measure α) : Measure (Fin T → Fin n → α) :=
  Measure.pi fun _ => Measure.pi fun _ => μ

/-- The first `c` candidates of round `k`. -/
def candidates {α : Type} {T n : ℕ} (x : Fin T → Fin n → α) (k c : ℕ) : List α :=
  if h : k < T then (List.ofFn (x ⟨k, h⟩)).take c else []

/-- A random index, `j` with probability `p j`. -/
noncomputable def categorical {m : ℕ} (p : Fin m → ℝ) : Measure (Fin m) := ∑ j, ENNReal.ofReal (p j) • Measure.dirac j

/-- How often each index occurs among `n` indices. -/
def counts {n m : ℕ} (k : Fin n → Fin m) (j : Fin m) : ℕ := (Finset.univ.filter fun i => k i = j).card

/-- The multinomial distribution: how often each index occurs in `n` independent trials. -/
noncomputable def multinomial {m : ℕ} (n : ℕ) (p : Fin m → ℝ) : Measure (Fin m → ℕ) :=
  (Measure.pi fun _ : Fin n => categorical p).map counts

instance (n : ℕ) : MeasurableSpace (Equiv.Perm (Fin n)) := ⊤

/-- A random permutation: all have the same probability. -/
noncomputable def shuffles (n : ℕ) : Measure (Equiv.Perm (Fin n)) := (n.factorial : ENNReal)⁻¹ • Measure.count

/-- The entries of a list of length `n` in the order of a permutation. -/
def shuffle {α : Type} {n : ℕ} (σ : Equiv.Perm (Fin n)) (l : List α) : List α :=
  if h : l.length = n then List.ofFn fun i => l.get ((σ i).cast h.symm) else l

/-- `n` draws as a sequence. -/
def sequence {α : Type} [Zero α] {n : ℕ} (u : Fin n → α) (i : ℕ) : α := if h : i < n then u ⟨i, h⟩ else 0

end Spec
