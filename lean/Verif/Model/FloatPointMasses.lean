import Verif.Model.FloatInertial

/-!
# Inertial parameters of point masses with rounding

`fl` is the rounding of the result of one operation. Python's `sum` adds the matrices from left to right, so the result is determined.
-/

namespace Rigeo

noncomputable section
variable (fl : ℝ → ℝ)

/-- Python's `sum` of a list of floats, from left to right: it begins with the integer `0`, and `0 + x` is `x`. -/
def pySumFloat : List ℝ → ℝ
  | [] => 0
  | x :: l => l.foldl (fun a y => fl (a + y)) x

/-- src/rigeo/inertial.py:177 `sum([m * np.outer(p, p) for m, p in zip(masses, P)])`: two products and one addition for every entry.
The rows of `P` are the points with a last entry 1 (line 175). -/
def IP.pimFloat (masses : List ℝ) (points : List (Fin 3 → ℝ)) : Matrix (Fin 4) (Fin 4) ℝ :=
  Matrix.of fun i j => pySumFloat fl ((masses.zip (points.map IP.hom)).map fun t => fl (t.1 * fl (t.2 i * t.2 j)))

/-- src/rigeo/inertial.py:159-178 `from_point_masses`, when it returns finite parameters: the assertion of line 172 holds, there is a
mass (`sum([])` is an integer without a shape), the mass of line 156 is not negative (line 44), and `h / mass` of line 53 is finite. -/
def IP.fromPointMassesFloat (masses : List ℝ) (points : List (Fin 3 → ℝ)) (q : IP ℝ) : Prop :=
  masses.length = points.length ∧ masses ≠ [] ∧ 0 ≤ IP.pimFloat fl masses points 3 3 ∧ IP.pimFloat fl masses points 3 3 ≠ 0 ∧
    q.mass = IP.pimFloat fl masses points 3 3 ∧
    (∀ i : Fin 3, q.com i = fl (IP.pimFloat fl masses points 3 i.castSucc / IP.pimFloat fl masses points 3 3)) ∧
    ∀ i j : Fin 3, q.H i j = IP.pimFloat fl masses points i.castSucc j.castSucc

end

end Rigeo
