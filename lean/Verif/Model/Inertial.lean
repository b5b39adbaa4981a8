import Verif.Model.Util
import Mathlib.Data.Real.Basic

/-!
# Model of `src/rigeo/inertial.py` (and `random_psd_matrix` of `src/rigeo/random.py`)
-/

namespace Rigeo

open Matrix

section Field
variable {K : Type} [Field K]

/-- src/rigeo/inertial.py:8-11 `H2I(H)` -/
def H2I (H : Matrix (Fin 3) (Fin 3) K) : Matrix (Fin 3) (Fin 3) K := H.trace • 1 - H

/-- src/rigeo/inertial.py:14-17 `I2H(I)` -/
def I2H (I : Matrix (Fin 3) (Fin 3) K) : Matrix (Fin 3) (Fin 3) K := ((1 / 2) * I.trace) • 1 - I

/-- The stored attributes of an `InertialParameters` object: `mass`, `com`, `H`
(src/rigeo/inertial.py:45,54,72). -/
@[ext] structure IP (K : Type) where
  mass : K
  com : Fin 3 → K
  H : Matrix (Fin 3) (Fin 3) K

namespace IP

/-- src/rigeo/inertial.py:43-72 `InertialParameters.__init__`. Dividing `h` by a zero mass does not
raise, so the exception checks (lines 44, 47, 56) are modelled before the division result is used. -/
def init [LinearOrder K] (mass : K) (h com : Option (Fin 3 → K) := none)
    (H I : Option (Matrix (Fin 3) (Fin 3) K) := none) (translateFromCom : Bool := false) :
    Py (IP K) := do
  pyAssert (decide (0 ≤ mass))
  if h.isSome && com.isSome then throw .value
  if H.isSome && I.isSome then throw .value
  let com ← match com with
    | some c => pure c
    | none => match h with
      | none => pure 0
      | some h => vdiv h mass
  let H := match H with
    | some H => H
    | none => match I with
      | none => if translateFromCom then 0 else mass • outer com com
      | some I => I2H I
  let H := if translateFromCom then H + mass • outer com com else H
  pure ⟨mass, com, H⟩

/-- src/rigeo/inertial.py:77-79 `zero` -/
def zero [LinearOrder K] : Py (IP K) := init 0 (com := some 0) (H := some 0)

/-- src/rigeo/inertial.py:81-83 `h` -/
def h (p : IP K) : Fin 3 → K := p.mass • p.com

/-- src/rigeo/inertial.py:90-93 `I` -/
def I (p : IP K) : Matrix (Fin 3) (Fin 3) K := H2I p.H

/-- src/rigeo/inertial.py:85-88 `vec`: `concatenate([[mass], h, vech(I)])`, with `vech` of a 3x3
matrix written out as its six upper-triangular entries (`vech_three` in `Verif.Props.Dynamics` proves
this is what the model of `vech` returns). -/
def vec (p : IP K) : Fin 10 → K :=
  ![p.mass, p.h 0, p.h 1, p.h 2, p.I 0 0, p.I 0 1, p.I 0 2, p.I 1 1, p.I 1 2, p.I 2 2]

/-- src/rigeo/inertial.py:95-98 `Hc` -/
def Hc (p : IP K) : Matrix (Fin 3) (Fin 3) K := p.H - p.mass • outer p.com p.com

/-- src/rigeo/inertial.py:100-103 `Ic` -/
def Ic (p : IP K) : Matrix (Fin 3) (Fin 3) K := H2I p.Hc

/-- src/rigeo/inertial.py:105-113 `J`: zeros, then the four block assignments. -/
def J (p : IP K) : Matrix (Fin 4) (Fin 4) K :=
  bordered p.H p.h p.h p.mass

/-- src/rigeo/inertial.py:115-119 `M`: `[[I, S], [-S, mass * eye(3)]]` with `S = skew3(h)` -/
def M (p : IP K) : Matrix (Fin 6) (Fin 6) K :=
  let S := skew3 p.h
  (vcat (hcat p.I S) (hcat (-S) (p.mass • (1 : Matrix (Fin 3) (Fin 3) K))) :
    Matrix (Fin (3 + 3)) (Fin (3 + 3)) K)

/-- src/rigeo/inertial.py:121-134 `from_vec` -/
def fromVec [LinearOrder K] (vec : Fin 10 → K) : Py (IP K) :=
  init (vec 0) (h := some ![vec 1, vec 2, vec 3])
    (I := some !![vec 4, vec 5, vec 6; vec 5, vec 7, vec 8; vec 6, vec 8, vec 9])

/-- src/rigeo/inertial.py:136-157 `from_pim`: `H = J[:3,:3]`, `h = J[3,:3]`, `mass = J[3,3]` -/
def fromPim [LinearOrder K] (J : Matrix (Fin 4) (Fin 4) K) : Py (IP K) :=
  init (J (Fin.last 3) (Fin.last 3)) (h := some fun j => J (Fin.last 3) j.castSucc)
    (H := some (Matrix.of fun i j => J i.castSucc j.castSucc))

/-- Homogeneous representation `[p, 1]` of a point (src/rigeo/inertial.py:175). -/
def hom {d : ℕ} (p : Fin d → K) : Fin (d + 1) → K := Fin.snoc (α := fun _ => K) p 1

/-- src/rigeo/inertial.py:159-178 `from_point_masses`. On an empty system `sum([])` is the integer
`0`, whose `.shape` does not exist. -/
def fromPointMasses [LinearOrder K] (masses : List K) (points : List (Fin 3 → K)) : Py (IP K) := do
  pyAssert (masses.length == points.length)
  let P := points.map hom
  let terms := (masses.zip P).map fun mp => mp.1 • outer mp.2 mp.2
  if terms.isEmpty then throw .attribute
  fromPim terms.sum

/-- src/rigeo/random.py:5-25 `random_psd_matrix`, given the drawn matrix. -/
def randomPsdMatrix {n : ℕ} (A : Matrix (Fin n) (Fin n) K) : Matrix (Fin n) (Fin n) K := Aᵀ * A

/-- src/rigeo/inertial.py:180-190 `random`, given the draws: `u = rng.random()`, `c = rng.random(3)`
and the 3x3 matrix drawn by `random_psd_matrix`. -/
def random [LinearOrder K] (u : K) (c : Fin 3 → K) (A : Matrix (Fin 3) (Fin 3) K) : Py (IP K) :=
  let mass := 1 / 10 + u * (9 / 10)
  let com : Fin 3 → K := fun i => c i - 1 / 2
  let H := randomPsdMatrix A + mass • outer com com
  init mass (com := some com) (H := some H)

/-- src/rigeo/inertial.py:192-205 `is_same`: `np.allclose(self.J, other.J)` -/
def isSame [LinearOrder K] (p q : IP K) : Bool :=
  decide (∀ i j, isclose (p.J i j) (q.J i j) rtol5 tol8 = true)

/-- src/rigeo/inertial.py:228-239 `transform` (defaults are the identity and zero). -/
def transform [LinearOrder K] (p : IP K) (rotation : Option (Matrix (Fin 3) (Fin 3) K) := none)
    (translation : Option (Fin 3 → K) := none) : Py (IP K) :=
  let R := rotation.getD 1
  let t := translation.getD 0
  let com := R *ᵥ p.com + t
  let H := R * p.Hc * Rᵀ + p.mass • outer com com
  init p.mass (com := some com) (H := some H)

/-- src/rigeo/inertial.py:241-244 `__add__` -/
def add [LinearOrder K] (p q : IP K) : Py (IP K) :=
  init (p.mass + q.mass) (h := some (p.h + q.h)) (H := some (p.H + q.H))

/-- src/rigeo/inertial.py:246-249 `__radd__`: the left operand is an integer or parameters.
Adding a nonzero integer reaches `other.mass`, an `AttributeError`. -/
def radd [LinearOrder K] (p : IP K) : ℤ ⊕ IP K → Py (IP K)
  | .inl k => if k = 0 then .ok p else .error .attribute
  | .inr q => p.add q

/-- Python's builtin `sum(ps)`: starts from the integer `0` and evaluates `acc + p`, which is
`p.__radd__(acc)` for an integer and `acc.__add__(p)` otherwise. -/
def pySum [LinearOrder K] (ps : List (IP K)) : Py (ℤ ⊕ IP K) :=
  ps.foldlM (init := .inl 0) fun acc p =>
    match acc with
    | .inl k => (p.radd (.inl k)).map .inr
    | .inr q => (q.add p).map .inr

/-- src/rigeo/inertial.py:251-254 `body_wrench` -/
def bodyWrench (p : IP K) (V A : SV K) : SV K :=
  SV.fromVec (p.M *ᵥ A.vec - (V.adjointᵀ * p.M) *ᵥ V.vec)

end IP

/-- src/rigeo/rigidbody.py:137-155 `RigidBody.regressor(V, A)` -/
def regressor (V A : SV K) : Matrix (Fin 6) (Fin 10) K := lift6 A - V.adjointᵀ * lift6 V

end Field

open Classical in
/-- src/rigeo/inertial.py:207-226 `consistent`: `np.min(np.linalg.eigvals(J)) >= eps`. The numerical
eigenvalue routine is replaced by the exact set of real eigenvalues of `J` (`J` is symmetric whenever
`H` is, and then all eigenvalues are real). -/
noncomputable def IP.consistent (p : IP ℝ) (eps : ℝ := 0) : Bool :=
  decide (∀ μ : ℝ, (∃ v : Fin 4 → ℝ, v ≠ 0 ∧ p.J *ᵥ v = μ • v) → eps ≤ μ)

end Rigeo
