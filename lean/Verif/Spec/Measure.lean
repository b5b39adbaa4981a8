import Verif.Spec.Shapes
import Mathlib.MeasureTheory.Integral.Bochner.Basic
import Mathlib.MeasureTheory.Constructions.BorelSpace.Basic
import Mathlib.MeasureTheory.Measure.Lebesgue.Basic

/-!
# Specification: continuous mass distributions
-/

namespace Spec

open MeasureTheory Matrix

/-- The finite measure `μ` on space is a mass distribution with the given mass, first moment and second moment. -/
structure HasMoments {n : ℕ} (μ : Measure (Fin n → ℝ)) (m : ℝ) (h : Fin n → ℝ) (H : Matrix (Fin n) (Fin n) ℝ) : Prop where
  finite : IsFiniteMeasure μ
  integrable : ∀ i, Integrable (fun p : Fin n → ℝ => p i) μ
  integrable_sq : ∀ i j, Integrable (fun p : Fin n → ℝ => p i * p j) μ
  mass : μ.real Set.univ = m
  first : ∀ i, ∫ p, p i ∂μ = h i
  second : ∀ i j, ∫ p, p i * p j ∂μ = H i j

/-- The measure is carried by the set `S`. -/
def CarriedBy {n : ℕ} (μ : Measure (Fin n → ℝ)) (S : Set (Fin n → ℝ)) : Prop := μ Sᶜ = 0

/-- The distribution of the mass `m` with a uniform density over the solid `S`. -/
noncomputable def uniform {n : ℕ} (m : ℝ) (S : Set (Fin n → ℝ)) : Measure (Fin n → ℝ) :=
  ENNReal.ofReal (m / volume.real S) • volume.restrict S

/-- The mass `m` spread evenly over a surface or a curve, given its area or length measure `ν`. -/
noncomputable def evenly {n : ℕ} (m : ℝ) (ν : Measure (Fin n → ℝ)) : Measure (Fin n → ℝ) :=
  ENNReal.ofReal (m / ν.real Set.univ) • ν

/-- The area measure of the surface of the box with half extents `h` at the origin: for each axis `i` the two
rectangles on which the coordinate `i` is `± h i`. -/
noncomputable def boxFaces (h : Fin 3 → ℝ) : Measure (Fin 3 → ℝ) :=
  ∑ i : Fin 3, ∑ s : Bool, (volume.restrict {y : Fin 2 → ℝ | ∀ j, |y j| ≤ h (i.succAbove j)}).map
    fun y => i.insertNth (if s then h i else -h i) y

/-- The length measure of the twelve edges of the same box: for each axis `i` the four segments parallel to it. -/
noncomputable def boxEdges (h : Fin 3 → ℝ) : Measure (Fin 3 → ℝ) :=
  ∑ i : Fin 3, ∑ s : Bool, ∑ t : Bool, (volume.restrict {y : Fin 1 → ℝ | |y 0| ≤ h i}).map
    fun y => i.insertNth (y 0)
      ![if s then h (i.succAbove 0) else -h (i.succAbove 0), if t then h (i.succAbove 1) else -h (i.succAbove 1)]

end Spec
