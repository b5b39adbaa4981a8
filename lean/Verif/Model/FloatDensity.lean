import Verif.Model.FloatInertialTransform

/-!
# Inertial parameters of uniform densities with rounding

`fl` is the rounding of the result of one operation. The order of the terms of a product of matrices is left open.
-/

namespace Rigeo

open Matrix

section
variable (fl : ℝ → ℝ)

/-- src/rigeo/inertial.py:43-72 `InertialParameters(mass=mass, h=np.zeros(3), H=H)` for a positive mass -/
noncomputable def IP.centredFloat (mass : ℝ) (H : Matrix (Fin 3) (Fin 3) ℝ) : IP ℝ := ⟨mass, fun _ => fl (0 / mass), H⟩

/-- src/rigeo/shape/box.py:381-401 `uniform_density_params` for a positive mass: the parameters that may result -/
def Box.uniformDensityFloat (b : Box ℝ) (mass : ℝ) (q : IP ℝ) : Prop :=
  0 < mass ∧ (IP.centredFloat fl mass (Matrix.of fun i j =>
    fl (fl (mass * Matrix.diagonal (fun i => fl (b.halfExtents i * b.halfExtents i)) i j) / 3))).transformFloat fl b.rotation b.center q

/-- src/rigeo/shape/ellipsoid.py:561-581 `uniform_density_params` for a positive mass: the parameters that may result -/
def Ellipsoid.uniformDensityFloat (e : Ellipsoid ℝ 3) (mass : ℝ) (q : IP ℝ) : Prop :=
  0 < mass ∧ (IP.centredFloat fl mass (Matrix.of fun i j =>
    fl (fl (mass * Matrix.diagonal (fun i => fl (e.halfExtents i * e.halfExtents i)) i j) / 5))).transformFloat fl e.rotation e.center q

/-- src/rigeo/shape/cylinder.py:259-281 `uniform_density_params` for a positive mass: the parameters that may result. `sq` is `x**2` of
a single number, which Python leaves to the mathematical library. -/
def Cylinder.uniformDensityFloat (sq : ℝ → ℝ) (c : Cylinder ℝ) (mass : ℝ) (q : IP ℝ) : Prop :=
  0 < mass ∧ (IP.centredFloat fl mass (Matrix.diagonal ![fl (fl (mass * sq c.radius) / 4), fl (fl (mass * sq c.radius) / 4),
    fl (fl (mass * sq c.length) / 12)])).transformFloat fl c.rotation c.center q

end

end Rigeo
