import Verif.Model.FloatContains
import Verif.Model.Inertial

/-!
# The conversions of inertial parameters with rounding

`fl` is the rounding of the result of one operation. The order in which the trace is summed is left open, so the results are
relations: each holds for every result that some order gives.
-/

namespace Rigeo

open Matrix

section
variable (fl : ℝ → ℝ)

/-- `np.trace(A)` of src/rigeo/inertial.py:11 and 17. -/
def traceFloat (A : Matrix (Fin 3) (Fin 3) ℝ) (t : ℝ) : Prop := FlSum fl [A 0 0, A 1 1, A 2 2] t

/-- src/rigeo/inertial.py:8-11 `H2I`: a product and a subtraction for every entry. -/
def H2IFloat (H I : Matrix (Fin 3) (Fin 3) ℝ) : Prop :=
  ∃ t, traceFloat fl H t ∧ ∀ i j, I i j = fl (fl (t * (1 : Matrix (Fin 3) (Fin 3) ℝ) i j) - H i j)

/-- src/rigeo/inertial.py:14-17 `I2H`: `0.5 * np.trace(I)` is rounded before it is multiplied with the entries of `eye(3)`. -/
def I2HFloat (I H : Matrix (Fin 3) (Fin 3) ℝ) : Prop :=
  ∃ t, traceFloat fl I t ∧ ∀ i j, H i j = fl (fl (fl (1 / 2 * t) * (1 : Matrix (Fin 3) (Fin 3) ℝ) i j) - I i j)

/-- src/rigeo/inertial.py:81-83 `h` -/
def IP.hFloat (p : IP ℝ) (i : Fin 3) : ℝ := fl (p.mass * p.com i)

/-- src/rigeo/inertial.py:105-113 `J` -/
def IP.JFloat (p : IP ℝ) : Matrix (Fin 4) (Fin 4) ℝ := bordered p.H (p.hFloat fl) (p.hFloat fl) p.mass

/-- src/rigeo/inertial.py:85-88 `vec` -/
def IP.vecFloat (p : IP ℝ) (θ : Fin 10 → ℝ) : Prop :=
  ∃ I, H2IFloat fl p.H I ∧
    θ = ![p.mass, p.hFloat fl 0, p.hFloat fl 1, p.hFloat fl 2, I 0 0, I 0 1, I 0 2, I 1 1, I 1 2, I 2 2]

/-- src/rigeo/inertial.py:121-134 `from_vec`, when it returns finite parameters: the mass is not negative (line 44), and `h / mass` of
line 53 is finite. -/
def IP.fromVecFloat (θ : Fin 10 → ℝ) (q : IP ℝ) : Prop :=
  0 ≤ θ 0 ∧ θ 0 ≠ 0 ∧ q.mass = θ 0 ∧ (∀ i, q.com i = fl ((![θ 1, θ 2, θ 3] : Fin 3 → ℝ) i / θ 0)) ∧
    I2HFloat fl !![θ 4, θ 5, θ 6; θ 5, θ 7, θ 8; θ 6, θ 8, θ 9] q.H

/-- src/rigeo/inertial.py:241-244 `__add__`, with `com = h / mass` of line 53. -/
def IP.addFloat (p q s : IP ℝ) : Prop :=
  0 < fl (p.mass + q.mass) ∧ s.mass = fl (p.mass + q.mass) ∧
    (∀ i, s.com i = fl (fl (p.hFloat fl i + q.hFloat fl i) / fl (p.mass + q.mass))) ∧
    ∀ i j, s.H i j = fl (p.H i j + q.H i j)

end

end Rigeo
