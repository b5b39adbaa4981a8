import Mathlib.Data.EReal.Basic
import Verif.Model.Realize
import Verif.Model.Polydd3

/-!
# Model of the remaining thin functions

`moment_sdp_feasibility_problem` of `poly.py` and `cylinder.py`, the method that is not implemented, the helper `_box_vertices` of
`poly.py` that nothing calls, accessors of `capsule.py` and `random_diag_normal` of `spatial.py`.
-/

namespace Rigeo

open Matrix

/-- The optimal value of `cp.Problem(cp.Minimize([0]), constraints)`: the infimum of the objective over the values of the variables that
satisfy the constraints. -/
noncomputable def feasibilityValue (constraints : Py Prop) : Py EReal := do
  let p ← constraints
  pure (⨅ _ : p, 0)

/-- src/rigeo/shape/poly.py:264-267 `moment_sdp_feasibility_problem(param_var, eps, d)`, by its optimal value -/
noncomputable def Poly.momentSdpFeasibilityProblem (P : Poly ℝ 3) (x : ParamVar ℝ) (eps : ℝ := 0) (d : ℕ := 2) : Py EReal :=
  feasibilityValue (P.momentSdpConstraints x eps d)

/-- The same method of a box, inherited from `ConvexPolyhedron`. -/
noncomputable def Box.momentSdpFeasibilityProblem (b : Box ℝ) (x : ParamVar ℝ) (eps : ℝ := 0) (d : ℕ := 2) : Py EReal :=
  b.toPoly.momentSdpFeasibilityProblem x eps d

/-- src/rigeo/shape/cylinder.py:138-141 `moment_sdp_feasibility_problem(param_var, eps, d)`, by its optimal value -/
noncomputable def Cylinder.momentSdpFeasibilityProblem (c : Cylinder ℝ) (x : ParamVar ℝ) (eps : ℝ := 0) (d : ℕ := 2) : Py EReal :=
  feasibilityValue (c.momentSdpConstraints x eps d)

section Field
variable {K : Type} [Field K]

/-- src/rigeo/shape/poly.py:288-289 `moment_lp_constraints` -/
def Poly.momentLpConstraints (_P : Poly K 3) (_x : ParamVar K) (_eps : K := 0) (_d : ℕ := 2) : Py Prop := .error .notImplemented

/-- src/rigeo/shape/poly.py:14-29 `_box_vertices(half_extents, center, rotation)`; the arguments are in another order than those of the
function of the same name in `box.py`. -/
def Poly.boxVerts (h c : Fin 3 → K) (R : Matrix (Fin 3) (Fin 3) K) : List (Fin 3 → K) :=
  let x := h 0
  let y := h 1
  let z := h 2
  [![x, y, z], ![x, y, -z], ![x, -y, z], ![x, -y, -z], ![-x, y, z], ![-x, y, -z], ![-x, -y, z], ![-x, -y, -z]].map fun v =>
    R *ᵥ v + c

/-- src/rigeo/shape/cylinder.py:283-288 `capsule()` -/
def Cylinder.capsule (c : Cylinder K) : Capsule K := ⟨c⟩

/-- src/rigeo/shape/capsule.py:32-34 `rotation` -/
def Capsule.rotation (c : Capsule K) : Matrix (Fin 3) (Fin 3) K := c.cylinder.rotation

/-- src/rigeo/shape/capsule.py:36-38 `inner_length` -/
def Capsule.innerLength (c : Capsule K) : K := c.cylinder.length

/-- src/rigeo/shape/capsule.py:40-42 `radius` -/
def Capsule.radius (c : Capsule K) : K := c.cylinder.radius

/-- src/rigeo/spatial.py:60-66 `random_diag_normal(mean, cov_diag, rng)`: the sampler is given the mean and the covariance matrix. -/
def SV.randomDiagNormal (sampler : (Fin 6 → K) → Matrix (Fin 6) (Fin 6) K → (Fin 6 → K)) (mean covDiag : SV K) : SV K :=
  SV.fromVec (sampler mean.vec (Matrix.diagonal covDiag.vec))

end Field
end Rigeo
