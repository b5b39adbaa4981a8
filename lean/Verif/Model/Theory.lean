import Verif.Model.Box
import Verif.Model.Ellipsoid

/-!
# The derivations in `scripts/theory`

The scripts compute with symbols; here the symbols are numbers, so an identity that a script asserts between symbolic
expressions becomes an identity for all numbers, and `.limit(δ, 0)` a limit of a function of `δ` (from above, the default of
sympy). `a`, `b`, `c` are half extents.
-/

namespace Rigeo.Theory

open Matrix

variable {K : Type} [Field K]

/-- `S` (scripts/theory/box_shell_inertia.py:8, ellipsoid_shell_inertia.py:14) -/
def S (a b c : K) : Matrix (Fin 3) (Fin 3) K := diagonal ![b ^ 2 + c ^ 2, a ^ 2 + c ^ 2, a ^ 2 + b ^ 2]

/-- `nom / den` before the limit, and the final division by `k`: scripts/theory/box_shell_inertia.py:10-19 (`k = 3`),
ellipsoid_shell_inertia.py:16-25 (`k = 5`) -/
def shellInertia (k a b c δ : K) : Matrix (Fin 3) (Fin 3) K :=
  let a2 := a + δ
  let b2 := b + δ
  let c2 := c + δ
  let nom := (a2 * b2 * c2) • S a2 b2 c2 - (a * b * c) • S a b c
  let den := a2 * b2 * c2 - a * b * c
  (1 / k) • ((1 / den) • nom)

/-- The second moment matrix from the inertia matrix: scripts/theory/box_shell_inertia.py:22, ellipsoid_shell_inertia.py:29 -/
def secondMoment (I : Matrix (Fin 3) (Fin 3) K) : Matrix (Fin 3) (Fin 3) K := (I.trace / 2) • 1 - I

/-- scripts/theory/ellipsoid_shell_inertia.py:5-8 `sphere_shell_inertia`, before the limit -/
def sphereShell (r δ : K) : K := ((r + δ) ^ 5 - r ^ 5) / ((r + δ) ^ 3 - r ^ 3)

/-- scripts/theory/box_shell_inertia.py:27-52 `box_shell_inertia_parax`, the matrix `H` -/
def boxShellParax (a b c : K) : Matrix (Fin 3) (Fin 3) K :=
  let A1 := 2 * 4 * b * c
  let A2 := 2 * 4 * a * c
  let A3 := 2 * 4 * a * b
  let A := A1 + A2 + A3
  let m1 := A1 / A
  let m2 := A2 / A
  let m3 := A3 / A
  let E1 : Matrix (Fin 3) (Fin 3) K := diagonal ![0, b ^ 2, c ^ 2]
  let H1 := (m1 / 3) • E1 + m1 • diagonal ![a ^ 2, 0, 0]
  let E2 : Matrix (Fin 3) (Fin 3) K := diagonal ![a ^ 2, 0, c ^ 2]
  let H2 := (m2 / 3) • E2 + m2 • diagonal ![0, b ^ 2, 0]
  let E3 : Matrix (Fin 3) (Fin 3) K := diagonal ![a ^ 2, b ^ 2, 0]
  let H3 := (m3 / 3) • E3 + m3 • diagonal ![0, 0, c ^ 2]
  H1 + H2 + H3

/-- The inertia matrix from the second moment matrix: scripts/theory/box_shell_inertia.py:51, box_vertex_inertia.py:20,
box_wireframe_inertia.py:46 -/
def inertia (H : Matrix (Fin 3) (Fin 3) K) : Matrix (Fin 3) (Fin 3) K := H.trace • 1 - H

/-- scripts/theory/box_vertex_inertia.py:6-19 `box_vertex_inertia`, the matrix `H` -/
def boxVertex (a b c : K) : Matrix (Fin 3) (Fin 3) K :=
  let vertices : List (Fin 3 → K) := [![a, b, c], ![a, b, -c], ![a, -b, c], ![a, -b, -c], ![-a, b, c], ![-a, b, -c],
    ![-a, -b, c], ![-a, -b, -c]]
  (vertices.map fun v => (1 / 8 : K) • outer v v).sum

/-- scripts/theory/box_wireframe_inertia.py:8-45 `box_edge_inertia`, the matrix `H` -/
def boxEdge (a b c : K) : Matrix (Fin 3) (Fin 3) K :=
  let L := a + b + c
  let mx := a / L
  let Ex : Matrix (Fin 3) (Fin 3) K := diagonal ![a ^ 2, 0, 0]
  let rxs : List (Fin 3 → K) := [![0, b, c], ![0, -b, c], ![0, b, -c], ![0, -b, -c]]
  let Hx := mx • ((1 / 3 : K) • Ex + (rxs.map fun r => (1 / 4 : K) • outer r r).sum)
  let my := b / L
  let Ey : Matrix (Fin 3) (Fin 3) K := diagonal ![0, b ^ 2, 0]
  let rys : List (Fin 3 → K) := [![a, 0, c], ![-a, 0, c], ![a, 0, -c], ![-a, 0, -c]]
  let Hy := my • ((1 / 3 : K) • Ey + (rys.map fun r => (1 / 4 : K) • outer r r).sum)
  let mz := c / L
  let Ez : Matrix (Fin 3) (Fin 3) K := diagonal ![0, 0, c ^ 2]
  let rzs : List (Fin 3 → K) := [![a, b, 0], ![-a, b, 0], ![a, -b, 0], ![-a, -b, 0]]
  let Hz := mz • ((1 / 3 : K) • Ez + (rzs.map fun r => (1 / 4 : K) • outer r r).sum)
  Hx + Hy + Hz

/-- `vertices` (scripts/theory/cuboid_density_realizability_proof.py:13-25) -/
def cuboidVertices (rx ry rz : K) : Matrix (Fin 8) (Fin 4) K :=
  !![rx, ry, rz, 1; rx, ry, -rz, 1; rx, -ry, rz, 1; rx, -ry, -rz, 1;
    -rx, ry, rz, 1; -rx, ry, -rz, 1; -rx, -ry, rz, 1; -rx, -ry, -rz, 1]

/-- `A` (scripts/theory/cuboid_density_realizability_proof.py:28-37) -/
def cuboidA (rx ry rz : K) : Matrix (Fin 7) (Fin 8) K :=
  let V : Fin 8 → Matrix (Fin 4) (Fin 4) K := fun i => outer (cuboidVertices rx ry rz i) (cuboidVertices rx ry rz i)
  Matrix.of fun r i => ![V i 0 1, V i 0 2, V i 1 2, V i 0 3, V i 1 3, V i 2 3, V i 3 3] r

/-- `φ` (scripts/theory/cuboid_density_realizability_proof.py:44-55) at the point `p` -/
def cuboidPhi (rx ry rz : K) (p : Fin 3 → K) : Fin 8 → K := fun i =>
  ![(rx + p 0) * (ry + p 1) * (rz + p 2), (rx + p 0) * (ry + p 1) * (rz - p 2), (rx + p 0) * (ry - p 1) * (rz + p 2),
    (rx + p 0) * (ry - p 1) * (rz - p 2), (rx - p 0) * (ry + p 1) * (rz + p 2), (rx - p 0) * (ry + p 1) * (rz - p 2),
    (rx - p 0) * (ry - p 1) * (rz + p 2), (rx - p 0) * (ry - p 1) * (rz - p 2)] i / (8 * rx * ry * rz)

/-- `μ` (scripts/theory/cuboid_density_realizability_proof.py:57-65): the products expanded, with `α`, `Hxy` and so on
substituted for the integrals of the monomials. -/
def cuboidMu (rx ry rz α Hxy Hxz Hyz hx hy hz m : K) : Fin 8 → K := fun i =>
  let e : K → K → K → K := fun sx sy sz => rx * ry * rz * m + sx * ry * rz * hx + sy * rx * rz * hy + sz * rx * ry * hz +
    sx * sy * rz * Hxy + sx * sz * ry * Hxz + sy * sz * rx * Hyz + sx * sy * sz * α
  ![e 1 1 1, e 1 1 (-1), e 1 (-1) 1, e 1 (-1) (-1), e (-1) 1 1, e (-1) 1 (-1), e (-1) (-1) 1, e (-1) (-1) (-1)] i /
    (8 * rx * ry * rz)

/-- `P` (scripts/theory/cylinder_density_realizability_proof.py:8-19) -/
def cylinderP (rz px py pz : K) : Matrix (Fin 4) (Fin 4) K :=
  let q1 : Fin 4 → K := ![px, py, rz, 1]
  let Q1 := outer q1 q1
  let q2 : Fin 4 → K := ![px, py, -rz, 1]
  let Q2 := outer q2 q2
  (1 / (2 * rz)) • ((rz + pz) • Q1 + (rz - pz) • Q2)

end Rigeo.Theory
