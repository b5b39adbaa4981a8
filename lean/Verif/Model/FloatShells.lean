import Verif.Model.FloatDensity

/-!
# Inertial parameters of hollow boxes, wireframes and hollow ellipsoids with rounding

`fl` is the rounding of the result of one operation. `sq` is `x**2` of a single number, which numpy leaves to the mathematical library.
-/

namespace Rigeo

open Matrix

section
variable (fl sq : ℝ → ℝ)

/-- src/rigeo/shape/box.py:403-430 `hollow_density_params` for a positive mass: the parameters that may result -/
def Box.hollowDensityFloat (b : Box ℝ) (mass : ℝ) (q : IP ℝ) : Prop :=
  let x := b.halfExtents 0
  let y := b.halfExtents 1
  let z := b.halfExtents 2
  let d := fl (3 * fl (fl (fl (x * y) + fl (x * z)) + fl (y * z)))
  let Hxx := fl (fl (sq x * fl (fl (fl (x * y) + fl (x * z)) + fl (fl (3 * y) * z))) / d)
  let Hyy := fl (fl (sq y * fl (fl (fl (x * y) + fl (fl (3 * x) * z)) + fl (y * z))) / d)
  let Hzz := fl (fl (sq z * fl (fl (fl (fl (3 * x) * y) + fl (x * z)) + fl (y * z))) / d)
  0 < mass ∧ (IP.centredFloat fl mass (Matrix.of fun i j => fl (mass * Matrix.diagonal ![Hxx, Hyy, Hzz] i j))).transformFloat fl
    b.rotation b.center q

/-- src/rigeo/shape/box.py:432-459 `wireframe_density_params` for a positive mass: the parameters that may result -/
def Box.wireframeDensityFloat (b : Box ℝ) (mass : ℝ) (q : IP ℝ) : Prop :=
  let x := b.halfExtents 0
  let y := b.halfExtents 1
  let z := b.halfExtents 2
  let d := fl (fl (x + y) + z)
  let Hxx := fl (fl (sq x * fl (fl (fl (x / 3) + y) + z)) / d)
  let Hyy := fl (fl (sq y * fl (fl (x + fl (y / 3)) + z)) / d)
  let Hzz := fl (fl (sq z * fl (fl (x + y) + fl (z / 3))) / d)
  0 < mass ∧ (IP.centredFloat fl mass (Matrix.of fun i j => fl (mass * Matrix.diagonal ![Hxx, Hyy, Hzz] i j))).transformFloat fl
    b.rotation b.center q

/-- src/rigeo/shape/ellipsoid.py:583-610 `hollow_density_params` for a positive mass, in three dimensions: the parameters that may
result -/
def Ellipsoid.hollowDensityFloat (e : Ellipsoid ℝ 3) (mass : ℝ) (q : IP ℝ) : Prop :=
  let x := e.halfExtents 0
  let y := e.halfExtents 1
  let z := e.halfExtents 2
  let d := fl (5 * fl (fl (fl (x * y) + fl (x * z)) + fl (y * z)))
  let Hxx := fl (fl (sq x * fl (fl (fl (x * y) + fl (x * z)) + fl (fl (3 * y) * z))) / d)
  let Hyy := fl (fl (sq y * fl (fl (fl (x * y) + fl (fl (3 * x) * z)) + fl (y * z))) / d)
  let Hzz := fl (fl (sq z * fl (fl (fl (fl (3 * x) * y) + fl (x * z)) + fl (y * z))) / d)
  0 < mass ∧ (IP.centredFloat fl mass (Matrix.of fun i j => fl (mass * Matrix.diagonal ![Hxx, Hyy, Hzz] i j))).transformFloat fl
    e.rotation e.center q

end

end Rigeo
