import Verif.Model.Box

/-!
# The uniformity checks of the tests

The tests of the samplers count how many of `n` points fall into a box inside the solid and compare the fraction with
the ratio of the volumes.
-/

namespace Rigeo

/-- tests/test_cylinder.py:80-89, tests/test_ellipsoid.py:281-290 and tests/test_random.py:93-105: draw the points with the sampler `f`,
one for each entry of `draws`, count those in `box` (`contains` with its default tolerance) and compare with `ratio` by
`np.isclose(n_box / n, ratio, rtol=0, atol=atol)`. An exception of the sampler ends the test. -/
noncomputable def uniformityTest {Ω : Type} (f : Ω → Py (Fin 3 → ℝ)) (box : Box ℝ) (ratio : ℝ) (atol : ℝ) (draws : List Ω) : Py Bool := do
  let points ← draws.mapM f
  let nBox := points.countP fun p => box.contains p
  pure (isclose ((nBox : ℝ) / draws.length) ratio 0 atol)

end Rigeo
