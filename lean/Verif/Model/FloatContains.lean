import Verif.Model.Box
import Verif.Model.Ellipsoid
import Mathlib.Algebra.BigOperators.Fin
import Mathlib.Data.Finset.Dedup
import Mathlib.Data.Real.Basic
import Mathlib.Data.List.OfFn

/-!
# The containment tests with rounding

numpy and the BLAS library leave open in which order the terms of a sum or of a matrix product are added, and whether a product
and an addition are fused into one operation. The results are therefore relations: `FlSum` and `FlDot` hold for every result that
some order gives, and the tests below hold for every answer that some choice of orders gives. `fl` is the rounding of the result
of one operation.
-/

namespace Rigeo

open Matrix

section
variable (fl : ℝ → ℝ)

/-- A sum of floats as `np.sum` computes it: any order, any bracketing. The sum of no terms is zero. -/
inductive FlSum : List ℝ → ℝ → Prop
  | nil : FlSum [] 0
  | single (x : ℝ) : FlSum [x] x
  | add {l r : List ℝ} {a b : ℝ} : l ≠ [] → r ≠ [] → FlSum l a → FlSum r b → FlSum (l ++ r) (fl (a + b))
  | perm {l l' : List ℝ} {a : ℝ} : l.Perm l' → FlSum l a → FlSum l' a

/-- A dot product as `@` computes it: any order, any bracketing, products added with or without an intermediate rounding. -/
inductive FlDot : List (ℝ × ℝ) → ℝ → Prop
  | nil : FlDot [] 0
  | prod (x y : ℝ) : FlDot [(x, y)] (fl (x * y))
  | add {l r : List (ℝ × ℝ)} {a b : ℝ} : l ≠ [] → r ≠ [] → FlDot l a → FlDot r b → FlDot (l ++ r) (fl (a + b))
  | fma {l : List (ℝ × ℝ)} {a : ℝ} (x y : ℝ) : l ≠ [] → FlDot l a → FlDot (l ++ [(x, y)]) (fl (a + x * y))
  | perm {l l' : List (ℝ × ℝ)} {a : ℝ} : l.Perm l' → FlDot l a → FlDot l' a

/-- src/rigeo/shape/poly.py:161-165 `A @ points <= b + tol` for one point: the answers `contains` may give. `faces` are the rows
of the float arrays `A` and `b`. -/
def facesContainFloat {d : ℕ} (faces : List ((Fin d → ℝ) × ℝ)) (p : Fin d → ℝ) (tol : ℝ) (answer : Bool) : Prop :=
  ∃ s : (Fin d → ℝ) × ℝ → ℝ, (∀ f ∈ faces, FlDot fl (List.ofFn fun j => (f.1 j, p j)) (s f)) ∧
    (answer = true ↔ ∀ f ∈ faces, s f ≤ fl (f.2 + tol))

/-- src/rigeo/shape/box.py:18-30 `_box_inequalities`: the rows that may result. The entries of `A` are `0`, `1` and `-1`, so
`A @ rotation.T` is exact; the offset is the rounded sum of a half extent and a computed dot product. -/
def boxIneqsFloat (h : Fin 3 → ℝ) (R : Matrix (Fin 3) (Fin 3) ℝ) (c : Fin 3 → ℝ) (faces : List ((Fin 3 → ℝ) × ℝ)) : Prop :=
  ∃ t : Fin 3 → Bool → ℝ,
    (∀ i, FlDot fl (List.ofFn fun j => (R j i, c j)) (t i false) ∧ FlDot fl (List.ofFn fun j => (-R j i, c j)) (t i true)) ∧
    faces = (List.finRange 3).flatMap fun i =>
      [((fun j => R j i), fl (h i + t i false)), ((fun j => -R j i), fl (h i + t i true))]

/-- src/rigeo/shape/box.py:56-76 and src/rigeo/shape/poly.py:161-165: the answers `Box.contains` may give for one point -/
def Box.containsFloat (b : Box ℝ) (p : Fin 3 → ℝ) (tol : ℝ) (answer : Bool) : Prop :=
  ∃ faces, boxIneqsFloat fl b.halfExtents b.rotation b.center faces ∧ facesContainFloat fl faces p tol answer

/-- src/rigeo/shape/ellipsoid.py:272 `np.isclose(half_extents, 0)` with the float `1e-8` -/
noncomputable def Ellipsoid.zFloat {d : ℕ} (e : Ellipsoid ℝ d) (i : Fin d) : Bool := decide (|e.halfExtents i| ≤ fl (1 / 100000000))

/-- src/rigeo/shape/ellipsoid.py:250-291: the answers `Ellipsoid.contains` may give for one point. `half_extents_inv` is the
rounded reciprocal (ellipsoid.py:17-26), `** 2` a rounded product. -/
def Ellipsoid.containsFloat {d : ℕ} (e : Ellipsoid ℝ d) (p : Fin d → ℝ) (tol : ℝ) (answer : Bool) : Prop :=
  ∃ (ps : Fin d → ℝ) (q : ℝ),
    (∀ i, FlDot fl (List.ofFn fun j => (fl (p j - e.center j), e.rotation j i)) (ps i)) ∧
    FlSum fl ((Finset.univ.filter fun i => e.zFloat fl i = false).toList.map fun i =>
      fl (fl (fl (fl (1 / e.halfExtents i) * fl (1 / e.halfExtents i)) * ps i) * ps i)) q ∧
    (answer = true ↔ (∀ i, e.zFloat fl i = true → |ps i| ≤ tol) ∧ q ≤ fl (1 + tol))

end

end Rigeo
