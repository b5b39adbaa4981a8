import Verif.Model.Box
import Verif.Model.Random

/-!
# The Monte Carlo example scripts (`scripts/examples/*_monte_carlo.py`)

The scripts fix the half extents and the number `N` of samples; here both are parameters, and so are the draws. What they
print last, the matrix `I_err`, is the result.
-/

namespace Rigeo

section
variable {K : Type} [Field K]

/-- scripts/examples/box_shell_inertia_monte_carlo.py:19-25, box_wireframe_inertia_monte_carlo.py:19-25 and
ellipsoid_shell_inertia_monte_carlo.py:22-28: `I_err`, from the points and the analytical parameters. -/
def inertiaError (points : List (Fin 3 → K)) (N : ℕ) (predicted : IP K) : Matrix (Fin 3) (Fin 3) K :=
  let Hexp : Matrix (Fin 3) (Fin 3) K := Matrix.of fun i j => (points.map fun p => p i * p j).sum / N
  let Iexp := Hexp.trace • 1 - Hexp
  predicted.I - Iexp

variable [LinearOrder K]

/-- scripts/examples/box_shell_inertia_monte_carlo.py:11-29 `main`; `us`, `counts` and `shuffle` are the draws. -/
def boxShellMonteCarlo (halfExtents : Fin 3 → K) (N : ℕ) (us : List (Fin 3 → K)) (counts : Fin 6 → ℕ)
    (shuffle : List (Fin 3 → K) → List (Fin 3 → K)) : Py (Matrix (Fin 3) (Fin 3) K) := do
  let box ← Box.init halfExtents
  let points ← box.randomPointsOnSurface us counts shuffle
  let predicted ← box.hollowDensityParams 1
  pure (inertiaError points N predicted)

/-- scripts/examples/box_wireframe_inertia_monte_carlo.py:11-29 `main`; `counts`, `u` and `shuffle` are the draws. -/
def boxWireframeMonteCarlo (halfExtents : Fin 3 → K) (N : ℕ) (counts : Fin 12 → ℕ) (u : ℕ → K)
    (shuffle : List (Fin 3 → K) → List (Fin 3 → K)) : Py (Matrix (Fin 3) (Fin 3) K) := do
  let box ← Box.init halfExtents
  let points ← box.randomPointsOnEdges N counts u shuffle
  let predicted ← box.wireframeDensityParams 1
  pure (inertiaError points N predicted)

end

/-- scripts/examples/ellipsoid_shell_inertia_monte_carlo.py:14-32 `main`; `draw` are the draws, `none` if the sampler has
not finished after `fuel` rounds. -/
noncomputable def ellipsoidShellMonteCarlo (halfExtents : Fin 3 → ℝ) (N : ℕ) (draw : ℕ → ℕ → List ((Fin 3 → ℝ) × ℝ))
    (fuel : ℕ) : Py (Option (Matrix (Fin 3) (Fin 3) ℝ)) := do
  let ell ← Ellipsoid.init halfExtents
  let points ← ell.randomSurfacePoints draw N fuel
  let predicted ← ell.hollowDensityParams 1
  pure (points.map fun points => inertiaError points N predicted)

end Rigeo
