import Verif.Spec.Measure

/-!
# Specification: surface area

The area measure of the surface of a convex solid, by the rule for pyramids and cones: `n` times the volume of a pyramid
with apex `c` is its base area times its height.
-/

namespace Spec

open MeasureTheory Matrix

/-- All segments from the apex `c` to a point of the base `A`. -/
def pyramid {n : ℕ} (c : Fin n → ℝ) (A : Set (Fin n → ℝ)) : Set (Fin n → ℝ) :=
  {x | ∃ p ∈ A, ∃ t : ℝ, 0 ≤ t ∧ t ≤ 1 ∧ x = c + t • (p - c)}

/-- `d` is the height of `c` over a supporting plane of `S` at `p`, with the outward unit normal `u`. -/
def IsHeight {n : ℕ} (S : Set (Fin n → ℝ)) (c p : Fin n → ℝ) (d : ℝ) : Prop :=
  ∃ u : Fin n → ℝ, u ⬝ᵥ u = 1 ∧ (∀ x ∈ S, u ⬝ᵥ x ≤ u ⬝ᵥ p) ∧ d = u ⬝ᵥ (p - c)

/-- `ν` is the area measure of the surface of the convex solid `S`; `c` is a point inside. -/
structure IsArea {n : ℕ} (S : Set (Fin n → ℝ)) (c : Fin n → ℝ) (ν : Measure (Fin n → ℝ)) : Prop where
  carried : CarriedBy ν (frontier S)
  pyramids : ∀ d : (Fin n → ℝ) → ℝ, (∀ p ∈ frontier S, IsHeight S c p (d p)) →
    ∀ A ⊆ frontier S, MeasurableSet A → ∫⁻ p in A, ENNReal.ofReal (d p) ∂ν = n * volume (pyramid c A)

end Spec
