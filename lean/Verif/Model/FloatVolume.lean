import Verif.Model.FloatDensity

/-!
# Volumes with rounding

`fl` is the rounding of the result of one operation, `sq` is `x**2` of a single number, `π'` is the constant `np.pi`.
-/

namespace Rigeo

section
variable (fl sq : ℝ → ℝ) (π' : ℝ)

/-- `np.prod` of three numbers: any order of the factors. Starting with the factor 1 makes no difference for binary64 numbers. -/
def FlProd (x : Fin 3 → ℝ) (v : ℝ) : Prop := ∃ σ : Equiv.Perm (Fin 3), v = fl (fl (x (σ 0) * x (σ 1)) * x (σ 2))

/-- src/rigeo/shape/box.py:111-119 `side_lengths` and `volume`: the numbers that may result -/
def Box.volumeFloat (b : Box ℝ) (v : ℝ) : Prop := FlProd fl (fun i => fl (2 * b.halfExtents i)) v

/-- src/rigeo/shape/ellipsoid.py:108-111 `volume` in three dimensions: the numbers that may result -/
def Ellipsoid.volumeFloat (e : Ellipsoid ℝ 3) (v : ℝ) : Prop :=
  ∃ p, FlProd fl e.halfExtents p ∧ v = fl (fl (fl (4 * π') * p) / 3)

/-- src/rigeo/shape/cylinder.py:107-110 `volume` -/
def Cylinder.volumeFloat (c : Cylinder ℝ) : ℝ := fl (fl (π' * sq c.radius) * c.length)

end

end Rigeo
