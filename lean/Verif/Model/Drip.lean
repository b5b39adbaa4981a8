import Verif.Model.Realize
import Verif.Model.Util

/-!
# The experiment scripts (`scripts/experiments/*.py`)

`generate_drip_data.py` maximizes random linear objectives over the parameters that the constraints of a box or a
cylinder allow, `process_drip_data.py` compares the optimal values. The solver is the parameter `solve`: it is given the
set of values the objective takes and returns the optimal value or fails. The run times are left out, and so are the
command line and the file with the data.
-/

namespace Rigeo

/-- scripts/experiments/generate_drip_data.py:14-22 `setup_drip_problem(mass, drip_constraints, **kwargs)`: the values of
the objective `cp.trace(D @ J)` at the feasible `J`. The exceptions of `drip_constraints` do not depend on the value of
the variable. -/
def setupDripProblem {K : Type} [Field K] [LinearOrder K] (mass : K) (dripConstraints : ParamVar K → Py Prop) :
    Py (Matrix (Fin 4) (Fin 4) K → Set K) := do
  let _ ← dripConstraints (.mat 0)
  pure fun D => {t | ∃ J : Matrix (Fin 4) (Fin 4) K, cvxPsdVar J ∧ J 3 3 = mass ∧
    Py.Holds (dripConstraints (.mat J)) ∧ t = (D * J).trace}

/-- The arrays of values in the data of scripts/experiments/generate_drip_data.py:76-83. -/
structure DripData where
  momentD2Values : List ℝ
  momentD3Values : List ℝ
  customValues : List ℝ

/-- scripts/experiments/generate_drip_data.py:25-83 `random_optimal_values(shape, n)`: `sdp` and `custom` are the methods
`moment_sdp_constraints` (with argument `d`) and `moment_custom_vertex_constraints` of the shape, `Dvecs` the `n` draws.
`D.value = ...` raises `ValueError` for an array of another shape. -/
noncomputable def randomOptimalValues (solve : Set ℝ → Py ℝ) (sdp : ℕ → ParamVar ℝ → Py Prop)
    (custom : ParamVar ℝ → Py Prop) (Dvecs : List (List ℝ)) : Py DripData := do
  let problemD2 ← setupDripProblem 1 (sdp 2)
  let problemD3 ← setupDripProblem 1 (sdp 3)
  let problemCustom ← setupDripProblem 1 custom
  let rows ← Dvecs.mapM fun Dvec => do
    let D ← unvech Dvec
    if h : D.1 = 4 then
      let D : Matrix (Fin 4) (Fin 4) ℝ := h ▸ D.2
      let v2 ← solve (problemD2 D)
      let v3 ← solve (problemD3 D)
      let vc ← solve (problemCustom D)
      pure (v2, v3, vc)
    else throw .value
  pure ⟨rows.map (·.1), rows.map (·.2.1), rows.map (·.2.2)⟩

/-- scripts/experiments/generate_drip_data.py:97-99 and 110: the data for a box. -/
noncomputable def boxDripData (solve : Set ℝ → Py ℝ) (b : Box ℝ) (Dvecs : List (List ℝ)) : Py DripData :=
  randomOptimalValues solve (fun d x => b.momentSdpConstraints x 0 d) (fun x => b.momentCustomVertexConstraints x) Dvecs

/-- scripts/experiments/generate_drip_data.py:100-101 and 110: the data for a cylinder. -/
noncomputable def cylinderDripData (solve : Set ℝ → Py ℝ) (c : Cylinder ℝ) (Dvecs : List (List ℝ)) : Py DripData :=
  randomOptimalValues solve (fun d x => c.momentSdpConstraints x 0 d) (fun x => c.momentCustomVertexConstraints x) Dvecs

/-- `a - b` of two one-dimensional arrays of the same length. -/
def arraySub (a b : List ℝ) : Py (List ℝ) :=
  if a.length = b.length then .ok (List.zipWith (fun x y => x - y) a b) else .error .value

/-- `np.max(a)` and `np.min(a)` (with `f` the maximum or minimum of two numbers) raise `ValueError` for an empty array. -/
def arrayReduce (f : ℝ → ℝ → ℝ) : List ℝ → Py ℝ
  | [] => .error .value
  | x :: l => .ok (l.foldl f x)

/-- The numbers scripts/experiments/process_drip_data.py prints. -/
structure DripReport where
  maxD3 : ℝ
  maxD2 : ℝ
  minD3 : ℝ
  minD2 : ℝ

/-- scripts/experiments/process_drip_data.py:12-33 (`d3_d2_diff` is not used). -/
noncomputable def processDripData (data : DripData) : Py DripReport := do
  let _ ← arraySub data.momentD3Values data.momentD2Values
  let d3 ← arraySub data.momentD3Values data.customValues
  let d2 ← arraySub data.momentD2Values data.customValues
  let maxD3 ← arrayReduce max d3
  let maxD2 ← arrayReduce max d2
  let minD3 ← arrayReduce min d3
  let minD2 ← arrayReduce min d2
  pure ⟨maxD3, maxD2, minD3, minD2⟩

end Rigeo
