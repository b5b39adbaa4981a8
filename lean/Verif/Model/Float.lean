import Verif.Model.Util

/-!
# Binary64 versions of some functions

The other files of the model use exact arithmetic. Here `fl` is the rounding of the result of a floating-point operation; the
functions are the ones of `Model/Util.lean` and `Model/Box.lean` with `fl` written at every operation that rounds.
-/

namespace Rigeo

section
variable (fl : ℝ → ℝ)

open Classical in
/-- src/rigeo/util.py:34-56 `is_triangular_number(x)` for a Python int `x`, as `unvech` calls it. `1 + 8 * x` is an exact int;
`np.sqrt` converts it to a float first. -/
noncomputable def isTriangularNumberFloat (x : ℤ) : Bool × ℤ :=
  if x < 1 then (false, -1)
  else
    let n : ℝ := fl (1 / 2 * fl (fl (Real.sqrt (fl (1 + 8 * x))) - 1))
    (decide (∃ k : ℤ, n = k), ⌊n⌋)

/-- src/rigeo/util.py:59-92 `unvech(a)`; apart from the size nothing is computed. -/
noncomputable def unvechFloat {K : Type} [Zero K] (a : List K) : Py (Σ n : ℕ, Matrix (Fin n) (Fin n) K) :=
  let t := isTriangularNumberFloat fl (a.length : ℤ)
  if t.1 then unvechFill t.2.toNat a else .error .assertion

/-- src/rigeo/util.py:143-166 `compute_evaluation_times(duration, step)`. -/
noncomputable def computeEvaluationTimesFloat (duration step : ℝ) : Py (ℕ × List ℝ) := do
  pyAssert (decide (0 < duration))
  pyAssert (decide (0 < step))
  let n := ⌈fl (duration / step)⌉₊
  pure (n, (List.range n).map fun i : ℕ => fl (step * (i : ℝ)))

/-- src/rigeo/shape/box.py:90-105 `from_two_vertices`, `from_points_to_bound`: the center along one axis, for the smallest and
largest coordinate. -/
noncomputable def boundCenterFloat (lo hi : ℝ) : ℝ := fl (1 / 2 * fl (lo + hi))

/-- src/rigeo/shape/box.py:95 the half extent along one axis -/
noncomputable def boundHalfFloat (lo hi : ℝ) : ℝ := fl (1 / 2 * fl (hi - lo))

/-- src/rigeo/shape/box.py:18-31 and src/rigeo/shape/poly.py:161-165 `Box.from_points_to_bound(points).contains(p, tol)` along
one axis. The rotation is the identity, so the products with `A` are exact: the two rows are `p <= b + tol` with
`b = h + c` and `-p <= b + tol` with `b = h - c`. -/
noncomputable def boundContainsFloat (lo hi p tol : ℝ) : Prop :=
  let c := boundCenterFloat fl lo hi
  let h := boundHalfFloat fl lo hi
  p ≤ fl (fl (h + c) + tol) ∧ -p ≤ fl (fl (h + -c) + tol)

end

end Rigeo
