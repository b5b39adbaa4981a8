import Verif.Model.FloatBound

/-!
# Points of a box with rounding: random points and grids

`fl` is the rounding of the result of one operation. The order of the terms of a product of matrices is left open.
-/

namespace Rigeo

open Matrix

section
variable (fl : ℝ → ℝ)

/-- `rotation @ point + center`, as in src/rigeo/shape/box.py:134 and :286 -/
def Box.placeFloat (b : Box ℝ) (v w : Fin 3 → ℝ) : Prop :=
  ∃ x : Fin 3 → ℝ, (∀ i, FlDot fl (List.ofFn fun j => (b.rotation i j, v j)) (x i)) ∧ ∀ i, w i = fl (x i + b.center i)

/-- src/rigeo/shape/box.py:126-137 `random_points`: one point, given the draw `U` in `[-1, 1]^3` -/
def Box.randomPointFloat (b : Box ℝ) (U p : Fin 3 → ℝ) : Prop :=
  b.placeFloat fl (fun i => fl (U i * b.halfExtents i)) p

/-- `np.linspace(L, U, n)` as numpy computes it: `arange(n) * step + L`, or `arange(n) / (n - 1) * (U - L) + L` if the step
is zero, and the last one is set to `U`. -/
noncomputable def linspaceFloat (L U : ℝ) (n : ℕ) : List ℝ :=
  (List.range n).map fun k : ℕ =>
    if k + 1 = n ∧ 1 < n then U
    else if n ≤ 1 then fl (fl (k * fl (U - L)) + L)
    else if fl (fl (U - L) / ((n : ℝ) - 1)) = 0 then fl (fl (fl ((k : ℝ) / ((n : ℝ) - 1)) * fl (U - L)) + L)
    else fl (fl (k * fl (fl (U - L) / ((n : ℝ) - 1))) + L)

/-- src/rigeo/shape/box.py:259-286 `grid(n)`: the lists that may result. The order is that of `np.meshgrid` and `flatten`, see
`Box.grid`. -/
def Box.gridFloat (b : Box ℝ) (n : Fin 3 → ℕ) (ws : List (Fin 3 → ℝ)) : Prop :=
  List.Forall₂ (b.placeFloat fl)
    ((linspaceFloat fl (-b.halfExtents 1) (b.halfExtents 1) (n 1)).flatMap fun yj =>
      (linspaceFloat fl (-b.halfExtents 0) (b.halfExtents 0) (n 0)).flatMap fun xi =>
        (linspaceFloat fl (-b.halfExtents 2) (b.halfExtents 2) (n 2)).map fun zk => ![xi, yj, zk]) ws

end

end Rigeo
