import Verif.Model.Polydd
import Verif.Spec.Shapes

/-!
# Specification: polyhedra described by `cdd` matrices, and the contract of the library

`Verif.Lemmas.Cdd` proves (Minkowski-Weyl) that the contract can be satisfied.
-/

namespace Spec

open Matrix Rigeo

variable {K : Type} [Field K] [LinearOrder K] {d : ℕ}

/-- Non-negative combinations of the listed vectors. -/
def coneHull (R : List (Fin d → K)) : Set (Fin d → K) :=
  {x | ∃ w : Fin R.length → K, (∀ k, 0 ≤ w k) ∧ x = ∑ k, w k • R.get k}

/-- Arbitrary linear combinations of the listed vectors. -/
def lineHull (L : List (Fin d → K)) : Set (Fin d → K) :=
  {x | ∃ w : Fin L.length → K, x = ∑ k, w k • L.get k}

/-- The polyhedron generated by vertices, rays and lines; without vertices it is the cone with apex at
the origin. -/
def generated (V R L : List (Fin d → K)) : Set (Fin d → K) :=
  {x | ∃ v r l, (if V = [] then v = 0 else v ∈ hull V) ∧ r ∈ coneHull R ∧ l ∈ lineHull L ∧ x = v + r + l}

/-- The polyhedron of a `SpanForm`. -/
def spanned (s : SpanForm K d) : Set (Fin d → K) := generated (s.vertices.getD []) (s.rays.getD []) []

/-- The linearity rows of a matrix, and the other rows. -/
def linRows (m : CddMat K d) : List (K × (Fin d → K)) :=
  (m.rows.zipIdx.filter fun rk => decide (rk.2 ∈ m.lin)).map Prod.fst

@[inherit_doc linRows]
def plainRows (m : CddMat K d) : List (K × (Fin d → K)) :=
  (m.rows.zipIdx.filter fun rk => !decide (rk.2 ∈ m.lin)).map Prod.fst

/-- A generator matrix lists rows `[1, v]` (vertices) and `[0, r]` (rays); rows in the linearity set are
of the second kind and stand for lines. -/
def genSet (m : CddMat K d) : Set (Fin d → K) :=
  {x | m.rows ≠ [] ∧ x ∈ generated (((plainRows m).filter fun r => decide (r.1 = 1)).map Prod.snd)
    (((plainRows m).filter fun r => decide (r.1 = 0)).map Prod.snd) ((linRows m).map Prod.snd)}

/-- An inequality matrix lists rows `[b, a]` meaning `0 ≤ b + a ⬝ᵥ x`, with equality for rows in the
linearity set. -/
def ineqSet (m : CddMat K d) : Set (Fin d → K) :=
  {x | (∀ r ∈ plainRows m, 0 ≤ r.1 + r.2 ⬝ᵥ x) ∧ ∀ r ∈ linRows m, r.1 + r.2 ⬝ᵥ x = 0}

/-- The linearity set refers to existing rows. -/
def LinInRange (m : CddMat K d) : Prop := ∀ k ∈ m.lin, k < m.rows.length

/-- A well formed generator matrix. -/
def WfGen (m : CddMat K d) : Prop :=
  LinInRange m ∧ (∀ r ∈ plainRows m, r.1 = 0 ∨ r.1 = 1) ∧ ∀ r ∈ linRows m, r.1 = 0

/-- No ray and no line of the generator matrix is zero. -/
def NonzeroRays (m : CddMat K d) : Prop :=
  (∀ r ∈ plainRows m, r.1 = 0 → r.2 ≠ 0) ∧ ∀ r ∈ linRows m, r.2 ≠ 0

/-- No listed point is in the hull of the others. -/
def Irredundant (V : List (Fin d → K)) : Prop := V.Nodup ∧ ∀ v ∈ V, v ∉ hull (V.erase v)

/-- The contract of the double description library.

Inequality descriptions computed from generators always have a row outside the linearity set: the cone
of valid inequalities of a non-empty polyhedron contains `0 ≤ 1` but not `0 ≤ -1`, so the library
reports at least one extreme ray of it. For `canonicalize` on inequality matrices this is not assumed
(it may turn all rows into equalities), and nothing is assumed for infeasible systems. -/
structure IsCdd (cdd : CddLib K) : Prop where
  inequalities : ∀ {d : ℕ} (m : CddMat K d), WfGen m → m.rows ≠ [] →
    LinInRange (cdd.inequalities m) ∧ plainRows (cdd.inequalities m) ≠ [] ∧
      ineqSet (cdd.inequalities m) = genSet m
  generators : ∀ {d : ℕ} (m : CddMat K d), LinInRange m → m.rows ≠ [] →
    WfGen (cdd.generators m) ∧ NonzeroRays (cdd.generators m) ∧ genSet (cdd.generators m) = ineqSet m
  canonicalizeGen : ∀ {d : ℕ} (m : CddMat K d), WfGen m → m.rows ≠ [] →
    WfGen (cdd.canonicalizeGen m) ∧ (∀ r ∈ (cdd.canonicalizeGen m).rows, r ∈ m.rows) ∧
      genSet (cdd.canonicalizeGen m) = genSet m
  canonicalizePoints : ∀ {d : ℕ} (V : List (Fin d → K)), V ≠ [] →
    Irredundant ((cdd.canonicalizeGen ⟨V.map fun v => (1, v), []⟩).rows.map Prod.snd)
  canonicalizeIneq : ∀ {d : ℕ} (m : CddMat K d), LinInRange m → m.rows ≠ [] → (ineqSet m).Nonempty →
    LinInRange (cdd.canonicalizeIneq m) ∧ ineqSet (cdd.canonicalizeIneq m) = ineqSet m

end Spec
