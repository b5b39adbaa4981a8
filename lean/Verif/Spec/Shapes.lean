import Verif.Spec.Basic
import Mathlib.Analysis.Convex.Hull

/-!
# Specification: point sets of the shapes and realizability

The sets are defined by the geometry a user has in mind (images of a unit cube, of the unit ball, of an
upright cylinder, points close to a segment, convex hulls, intersections of half-spaces), not by the
tests the code performs.
-/

namespace Spec

open Matrix

variable {K : Type} [Field K] [LinearOrder K]

/-- The box with half extents `h`, pose `(R, c)`. -/
def box {n : ℕ} (h : Fin n → K) (R : Matrix (Fin n) (Fin n) K) (c : Fin n → K) : Set (Fin n → K) :=
  {p | ∃ y : Fin n → K, (∀ i, |y i| ≤ h i) ∧ p = rigid R c y}

/-- The ellipsoid with half extents `h`, pose `(R, c)`: the affine image of the unit ball. Zero half
extents give a degenerate (flat) ellipsoid. -/
def ellipsoid {n : ℕ} (h : Fin n → K) (R : Matrix (Fin n) (Fin n) K) (c : Fin n → K) :
    Set (Fin n → K) :=
  {p | ∃ u : Fin n → K, u ⬝ᵥ u ≤ 1 ∧ p = rigid R c (fun i => h i * u i)}

/-- The ball of radius `r` around `c`. -/
def ball {n : ℕ} (r : K) (c : Fin n → K) : Set (Fin n → K) := {p | (p - c) ⬝ᵥ (p - c) ≤ r ^ 2}

/-- The solid cylinder of length `L` and radius `r` whose axis is the body `z` axis. -/
def cylinder (L r : K) (R : Matrix (Fin 3) (Fin 3) K) (c : Fin 3 → K) : Set (Fin 3 → K) :=
  {p | ∃ y : Fin 3 → K, |y 2| ≤ L / 2 ∧ y 0 ^ 2 + y 1 ^ 2 ≤ r ^ 2 ∧ p = rigid R c y}

/-- The capsule: all points at distance at most `r` from the axis segment of length `L`. -/
def capsule (L r : K) (R : Matrix (Fin 3) (Fin 3) K) (c : Fin 3 → K) : Set (Fin 3 → K) :=
  {p | ∃ z : K, |z| ≤ L / 2 ∧ p ∈ ball r (rigid R c ![0, 0, z])}

/-- The polytope spanned by a list of points. -/
def hull {n : ℕ} (vs : List (Fin n → K)) : Set (Fin n → K) := convexHull K {v | v ∈ vs}

/-- The intersection of the half-spaces `a ⬝ᵥ x ≤ b`. -/
def halfspaces {n : ℕ} (fs : List ((Fin n → K) × K)) : Set (Fin n → K) :=
  {x | ∀ f ∈ fs, f.1 ⬝ᵥ x ≤ f.2}

/-- The image of a set under a rigid motion. -/
def moved {n : ℕ} (R : Matrix (Fin n) (Fin n) K) (t : Fin n → K) (S : Set (Fin n → K)) :
    Set (Fin n → K) := (rigid R t) '' S

/-- A length is either exactly zero or larger than `1e-8`. (The library treats half extents of at most
`1e-8` as zero in some places and as nonzero in others.) -/
def Resolved (a : K) : Prop := a = 0 ∨ 1 / 100000000 < a

/-- The axis-aligned box with corners `lo` and `hi`. -/
def aabox {n : ℕ} (lo hi : Fin n → K) : Set (Fin n → K) := {p | ∀ i, lo i ≤ p i ∧ p i ≤ hi i}

/-- Mass `m`, first moment `h` and second moment `H` can be produced by finitely many non-negative
point masses placed in the set `S`. (`Verif.Props.Measure` proves that for compact `S` nothing is
gained by allowing arbitrary mass distributions.) -/
def Realizable {n : ℕ} (S : Set (Fin n → K)) (m : K) (h : Fin n → K) (H : Matrix (Fin n) (Fin n) K) :
    Prop :=
  ∃ s : PointMasses K n, s.Nonneg ∧ s.Within S ∧ s.mass = m ∧ s.first = h ∧ s.second = H

/-- The second moment of a body about the point `c`, `∫ (p - c)(p - c)ᵀ dm`, from its mass and its moments
about the origin. -/
def secondAbout {n : ℕ} (c : Fin n → K) (m : K) (h : Fin n → K) (H : Matrix (Fin n) (Fin n) K) :
    Matrix (Fin n) (Fin n) K :=
  H - vecMulVec c h - vecMulVec h c + m • vecMulVec c c

end Spec
