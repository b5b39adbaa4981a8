# Formal model of rigeo: design

Subject: the Python package `rigeo` (`/repo/src/rigeo`, with `shape/` and `unused/`). Everything is Lean 4 (4.33.0) with
Mathlib. The project is `/verif/lean`; `lake build` builds it.

## Layout

| path | contents |
|---|---|
| `lean/Verif/Model/` | the model: one Lean file per Python module or class, one definition per Python function; each definition cites the file and lines it models and says where it simplifies |
| `lean/Verif/Spec/` | small, separate specifications (rigid motions, point sets of shapes, point-mass systems, realizability, measures, contracts of external libraries). They do not use the functions of the model, only its data types where a contract is about them |
| `lean/Verif/Lemmas/` | auxiliary mathematics |
| `lean/Verif/Props/` | the property theorems `Cnn_...`, with `example`s that show concrete cases meeting their hypotheses |
| `lean/Verif/Cases/` | the theorems applied to one family of concrete objects (`Basic.lean`: a turned and moved box, ellipsoid, cylinder and capsule, point masses inside them, a body, a polyhedron; oracles chosen from the existence theorems). Each application discharges the hypotheses of a theorem, so they can be met together by an ordinary input. For `C49_poly` and `C47_capsule` the answer of the solver stays a hypothesis: `C49_ok` and `C47_unit_spheres` have cases with a solver |
| `properties.jsonl` | the properties; C01-C72 given, C73 on added as the model grew |
| `MANIFEST.json` | property -> status, theorem names, note on exceptions |
| `seeded/LOG.jsonl` | the wrong-program experiments, one line per edit |

To read a result: take the property from `properties.jsonl`, the theorem names from `MANIFEST.json`, and read the theorem
statement together with the `Spec` definitions it mentions.

## How Python is represented

* **Numbers.** Exact arithmetic. Purely algebraic code is modelled over an arbitrary linearly ordered field `K` (so it can
  be executed over `ℚ`); code with square roots, logarithms, eigenvalues or integrals is modelled over `ℝ`. IEEE rounding,
  overflow and the float/int distinction are *not* modelled, except in `Model/Float.lean` and `Model/FloatContains.lean`, which repeat six functions with
  a rounding to nearest binary64 after every operation (`Spec/Float.lean`). Constants such as the default tolerances (`1e-8`,
  `rtol=1e-5`) are the exact rationals, and `numpy.isclose`/`allclose` are modelled with them.
* **Non-finite values.** Numpy's silent `inf`/`nan` are the error value `PyErr.nonfinite` (a division by zero returns it),
  except where the code works with `inf` on purpose (`_inv_with_zeros`), where an extended number type is used.
* **Exceptions.** `Py := Except PyErr`; `assert` -> `.assertion`, `ValueError`/`LinAlgError` -> `.value`, `.type`, `.index`,
  `.key`, `.attribute`, `.notImplemented`.
* **Arrays.** Fixed-shape arrays are `Fin n → K` / `Matrix (Fin m) (Fin n) K`, so shape asserts on them are discharged by
  typing; lists of points are `List (Fin n → K)`. Where the shape is dynamic and the code branches on it, the model has a
  sum type or a list. Functions that accept one point or many are modelled for one point.
* **Optional arguments** are `Option`s or Lean default arguments; what the defaults are is itself stated in theorems.
* **cvxpy.** A list of constraints is a proposition about the values of the variables (`Py Prop` if building it can raise;
  `Py.Holds c` says that it is built without error and true); `cp.Variable`s created inside are existentially quantified;
  `X >> Y` is "the symmetric part of X - Y is PSD" (cvxpy's meaning for non-symmetric matrices); `PSD=True` variables are
  symmetric PSD.
* **Loops** are recursion; `rejection_sample` recurses on `max_tries`.
* **Random generators.** The draws are parameters; theorems quantify over all draws in the documented range. What is proved
  about distributions of samples is listed under its own property ids.

## External software: oracles and their contracts

Every theorem that needs one of these takes an arbitrary function and its contract as hypotheses. For each contract there
is an example or a theorem that it can be met.

| software | contract |
|---|---|
| `numpy.linalg.eigh` | `Spec.IsEigh`: orthogonal eigenvectors, `A = V diag(w) Vᵀ` for symmetric `A` |
| `numpy.linalg.lstsq`, `scipy.linalg.orth`, `null_space` | `Spec.IsLstsq`, `Spec.IsOrth`, `Spec.IsNullSpace` |
| `scipy.linalg.eigh(B, A)` | defined by congruence diagonalisation (Model/Geodesic) |
| `cdd` (pycddlib) | `Spec.IsCdd`: the other representation describes the same set, canonicalisation keeps the set |
| conic solvers behind cvxpy | the returned values are feasible, and where stated optimal (`Spec.IsSolver`, `Spec.FindsOptimum`); convergence and accuracy are not modelled |
| `pinocchio` | its model data are inputs; the meaning of its regressor is a hypothesis of `C83_torques` |

## Trusted base

* Lean's kernel; the axioms `propext`, `Classical.choice`, `Quot.sound` and nothing else (checked by the gate for every
  theorem). No axiom is added, no `sorry`/`admit`, no `native_decide`/`bv_decide`.
* Mathlib's definitions used in specifications: `convexHull`, `frontier`, `Matrix.det`, Lebesgue measure and integral,
  `Real.sqrt`, `Real.log`.
* The reading of the Python source embodied in `Verif/Model` (line references in each doc comment) and of the documented
  semantics of numpy, cvxpy and cdd listed above.
* The definitions in `Verif/Spec`.

## What is modelled and what is not

Modelled, function by function: `util.py`, `constraint.py`, `spatial.py`, `inertial.py`, `moment.py`, `random.py`,
`polydd.py`, `closest.py`, `rigidbody.py`, `test_util.py`, all of `shape/`, and from `unused/`: `geodesic.py`, `identify.py`,
and of `multibody.py` the parts that are rigeo's own logic (conversion of geometries and inertias, grouping into bodies,
look-up, reordering of the regressor, gravity). `unused/polydd_pycddlib3.py` is `polydd.py` for another version of pycddlib;
the functions that differ are modelled and shown to agree (C106).

Not modelled: `__repr__`/`__hash__` (except in `moment.py`, C100 and C120), abstract methods of `shape/base.py`, the
thin wrappers of `multibody.py` for URDF parsing, pinocchio itself (a parameter with a contract in C110), floating point
rounding outside C94, C105, C109, C114, C115, C116 and C121 to C133, numpy dtype effects, array shapes outside C98, C99, C112 and C113, plotting, wall-clock, solver convergence. Moment
matrices of order `d = 0` (`basis(n, 0)` returns the integer 0 in Python, see C20) are treated in C111 only.

## Properties

All properties have theorems; `MANIFEST.json` lists them. Where a property's statement names a defect, the theorem is the
refutation with a witness together with the part that does hold. Where a property as written is false in a corner, the
theorem carries the exact hypothesis, another theorem shows what happens outside it, and the note in the manifest says so;
the only property marked partial is C33.

| id | model | proof |
|---|---|---|
| C01 | `vech`, `unvech` on lists with index assignment | induction over index lists |
| C02 | real square root formula | algebra on squares |
| C03-C05, C70 | 3/6/10-vectors over a field; C05 also with derivatives along motions | polynomial identities, `HasDerivAt` |
| C06 | `(n+1)`-square matrices | block computation |
| C07 | ceil over ℝ | floor/ceil lemmas |
| C08 | `itertools.product` as list recursion | induction on dim |
| C09-C15, C75 | `InertialParameters` as structure; constructor returns `Except` | algebra, list induction |
| C16-C18 | eigenvalue test over ℝ | spectral theorem; rank-one decompositions |
| C19, C72 | constraints as propositions | algebra; eps counterexamples |
| C20-C24 | multi-indices as exponent vectors; polynomials as ordered dictionaries | induction on combinations with replacement |
| C25, C26, C74 | Box with vertex and face form | multilinear weights |
| C27-C29 | Ellipsoid in n dimensions, zero half extents as infinite inverse | Schur complements by hand |
| C30-C32 | cylinder as product of a segment and a disk, capsule as union | convexity |
| C33-C35, C40-C44 | per shape | algebra, topology for `frontier` |
| C36-C39 | optimality over all competitors | AM-GM, Hadamard inequality |
| C45, C48, C49 | comparison and solver-based functions | analysis of all feasible points |
| C46, C47 | the constraints posed to the solver, and the intended ones | S-lemma (`Lemmas/SLemma.lean`): a multiplier exists iff the containment holds |
| C50, C51 | realizability on ellipsoids | Sturm-Zhang rank-one decomposition |
| C52-C56, C84 | relaxations as existence of moment matrices | positivity of moment functionals; explicit separating objectives |
| C57, C58, C73 | densities | Lebesgue integrals, change of variables, interval integrals |
| C59, C60 | realizability of densities | Caratheodory, separation of convex sets |
| C61-C64, C81 | cdd matrices as lists with linearity sets; cdd as oracle | list lemmas, Farkas-free set algebra |
| C65, C66 | loops as recursion | invariants |
| C67 | solver oracle | order |
| C68, C71 | all draws; real square roots | algebra |
| C69, C82, C83 | bodies as lists of shapes of any class; dictionaries as association lists | induction |
| C76, C77 | generalised eigenvalues, log-determinants | congruence diagonalisation, Klein-type inequality |
| C78-C80 | identification problems with solver oracle | stacking lemmas, previous properties |
| C85, C86 | the moment relaxations are exact at no order | a functional at an edge: quadrature on two half-lines and a quadrant minus the coefficient of `u v`; Lagrange interpolation bounds the coefficients (`Lemmas/Corner.lean`) |
| C87 | the moment relaxations converge to the realizable set | Putinar's Positivstellensatz for Archimedean quadratic modules, proved in `Lemmas/Putinar.lean` (compactness of the normalized states, pure states are point evaluations); Farkas' lemma gives the Archimedean certificate of a bounded polyhedron; separation from the hull of the point-mass matrices gives uniform closeness (`Props/Convergence.lean`) |
| C88 | the vertex constraints of a cylinder are exactly realizability | Sturm-Zhang splits the matrix into vectors of the infinite cylinder; vectors inside the slab are removed one at a time, and where a condition first becomes tight the matrix splits into a point and the moments of an end disk, or of both disks (`Props/CylinderExact.lean`) |
| C89 | the hollow densities are limits of thin homogeneous shells; a body in the ellipsoid with them lies on the surface | moments of the difference of two solids from C57, a continuous closed form of the quotient; the integral of a non-negative function vanishes (`Props/ThinShell.lean`) |
| C90 | draws as product measures; `Spec.Samples` says that a sampler fails with probability zero and has a given law | uniqueness of the rotation-invariant law on the sphere, polar coordinates of Haar measure (`Lemmas/Polar.lean`), affine images (`Props/Laws.lean`) |
| C91 | rounds of independent candidates as nested product measures | the loop uses the candidate slots like one infinite sequence; induction on the rounds over the pattern of accepted slots (`Lemmas/Rejection.lean`, `Props/Rejection.lean`); `C27_sound`, `C32_sound_default` bound the slack of `contains` |
| C92 | the unbounded loop with fuel, limit for fuel to infinity; surface area by the rule that `n` times the volume of a cone is base area times height (`Spec/Surface.lean`), shown to determine exactly one measure (`C92_area`) | polar coordinates give the cone measure, the acceptance ratio is the reciprocal height of the tangent plane (`Props/Area.lean`); the loop is the loop of C91 (`Props/SurfaceLaw.lean`) |
| C93 | the whole functions; the counts, draws and the shuffle are random variables (`Spec/Random.lean`: multinomial as the counts of independent trials, uniform permutation); `Spec.boxEdges`, `Spec.boxFaces` are the length and area measures | sorted categories shuffled uniformly are independent categories (`Lemmas/Multinomial.lean`); each row is then a mixture of the scaled uniform draws of the pieces (`Props/BoxLaw.lean`) |
| C94 | `is_triangular_number` on ints, `unvech`, `compute_evaluation_times`, and one axis of `Box.from_points_to_bound` followed by `contains`, each operation followed by `fl`; `Spec.IsRounding fl`: `fl x` is a binary64 number (53-bit significand, exponents -1074..971) nearest to `x` for `abs x <= 2^1023`. Infinities, signed zeros and the overflow threshold are not modelled; ties are left open | error bound `2^-53 abs x + 2^-1075`, exactness on representable results, and `fl x = w` if `w` is representable and nearer than half a unit (`Lemmas/Float.lean`); a square root of a non-square below `2^53` is further from an odd integer than the rounding error. `exists_rounding` shows that the hypothesis can be met [C94_triangular, C94_unvech, C94_triangular_wrong, C94_times, C94_times_wrong, C94_bound, C94_bound_wrong] |
| C95 | the three scripts `scripts/examples/*_monte_carlo.py` with the half extents and the number of samples as parameters (`Model/Example.lean`); printing is left out, the result is the matrix `I_err` | Chebyshev's inequality on product measures (`Lemmas/WeakLaw.lean`) with the laws of C92, C93 and the moments of C58; for the ellipsoid the moments of the sphere up to order six and quadratic bounds for the square root separate the two inertias (`Lemmas/SphereMoments.lean`, `Props/MonteCarlo.lean`) |
| C96 | the six scripts of `scripts/theory` with numbers for symbols and a limit from above for `.limit` (`Model/Theory.lean`); printing and `IPython.embed` are left out | field arithmetic, a continuous closed form of the quotient, integrals of `φ` (`Props/Theory.lean`) |
| C97 | the two scripts of `scripts/experiments` (`Model/Drip.lean`); the solver is a parameter that returns the supremum of the objective up to a tolerance; run times, command line and files are left out | C88 (exactness for cylinders), C84 (gap for boxes), monotonicity of the relaxations in the order, a bound on second moments at order 2 (`Props/Drip.lean`) |
| C98 | numpy arrays as a shape with entries by multi-index (`Model/NdArray.lean`: broadcasting, reshape, squeeze, expand_dims, reductions, products); the sampling functions on arrays (`Model/Batch.lean`); shapes given as lists and negative sizes are left out | `Props/Batch.lean`, from lemmas on the array operations (`Lemmas/NdArray.lean`) and the single-point theorems C45, C46, C58 |
| C99 | the containment tests on arrays (`Model/Batch.lean`), with numpy's broadcasting of arguments of unexpected shape | each entry of the returned array is computed and compared with the single-point function (`Props/Batch2.lean`) |
| C100 | `MomentIndex` and `Polynomial` over tuples of any length, with the assertions and broadcasting errors (`Model/MomentIndex.lean`) | simulation of the model with fixed arity (`Model/Moment.lean`), counterexamples for mixed lengths (`Props/MomentIndex.lean`) |
| C101 | the moment constraints of the shapes and of rigid bodies (`Model/*`), the optimal values of the programs in the tests as greatest elements of the set of values | duality: a linear bound on the body is a combination of the localising polynomials (Farkas, S-lemma), which carries over to the accepted functionals; the other direction by point masses (`Props/Extent.lean`) |
| C102 | the check of the three sampling tests as a program over a list of draws (`Model/Uniformity.lean`) | the outcome is a function of independent coin tosses; variance and Hoeffding bounds, with the laws of the samplers from C90 and the volumes from C73 (`Props/Uniformity.lean`) |
| C103 | `must_contain` of every shape and the exact moment constraints, the optimum as the greatest element of the set of values | support functions of the sets that `must_contain` describes, and point masses on the boundary as maximisers (`Props/Support.lean`) |
| C104 | `from_points_to_bound`, `to_span_form`, `S`, `mib`, the hollow densities | direct, with the contract of the double description library of C61 for the span forms and extreme points for the inscribed ellipsoids (`Props/TestClaims.lean`) |
| C105 | `contains` of polyhedra, boxes and ellipsoids with a rounding after every operation; sums and dot products as relations that hold for the result of any order (`Model/FloatContains.lean`) | induction over the order of evaluation for the error of a dot product, then interval estimates (`Lemmas/FloatSum.lean`, `Props/FloatContains.lean`) |
| C106 | `unused/polydd_pycddlib3.py` mask by mask on rectangular arrays (`Model/Polydd3.lean`) | masks and index lists rewritten as filters of the numbered rows (`Props/Polydd3.lean`) |
| C107 | `moment_sdp_feasibility_problem` by its optimal value in the extended reals, `_box_vertices` of `poly.py`, accessors, `random_diag_normal` (`Model/Wrappers.lean`) | convergence of the relaxations (C87) and compactness of the realizable parameters (`Props/Wrappers.lean`) |
| C108 | the functions that build objects from other objects as programs on a memory of dictionaries, lists or arrays (`Model/Memory.lean`) | execution step by step; induction over the list of bodies and the loops (`Props/Memory.lean`) |
| C109 | `contains` of cylinders and capsules with rounded projections, half length and end points (`Model/FloatCylinder.lean`) | the ellipsoid test of C105 with room for the earlier errors, interval estimates (`Props/FloatCylinder.lean`) |
| C110 | the methods of `MultiBody` that use pinocchio's data as steps of a state machine, pinocchio's algorithms as parameters (`Model/MultiBodyState.lean`) | induction over the sequence of calls under the contract `Spec.PinContract` (`Props/MultiBodyState.lean`) |
| C111 | `MomentMatrix` with the array `indices` of objects as it is stored, numpy integers or moment indices (`Model/MomentObject.lean`) | computation at order zero; agreement with `Model/Moment.lean` at positive order through the agreement of the bases of C100 (`Props/MomentObject.lean`) |
| C112 | constructors of shapes, spatial vectors and inertial parameters with numbers or arrays of any shape as arguments, assignment to a slice with broadcasting (`Model/Construct.lean`) | case distinction on the shapes; agreement with the models over vectors and matrices (`Props/Construct.lean`, `Spec/Construct.lean`) |
| C113 | `schur` and `_shape_schur_var` on numbers, arrays and values of cvxpy expressions of any shapes with at most two axes, `cp.bmat` as stacking of rows and columns (`Model/Schur.lean`) | case distinction on the shapes; Mathlib's Schur complement (`Props/Schur.lean`, `Spec/Schur.lean`) |
| C114 | `H2I`, `I2H`, `vec`, `from_vec`, `J` and `__add__` of inertial parameters with every operation rounded to binary64 and the trace summed in any order (`Model/FloatInertial.lean`) | error bounds of one operation and of sums in any order, perturbation of the quadratic form; a witness for the loss of consistency (`Props/FloatInertial.lean`) |
| C115 | `random_weight_vectors`, `random_points_on_hypersphere` and `random_points_in_ball` for one vector with every operation rounded to binary64 and sums in any order; the power function is an oracle with a relative error of at most 2 u (`Model/FloatRandom.lean`) | monotonicity of rounding, error bounds of sums in any order; witnesses outside the ball (`Props/FloatRandom.lean`) |
| C116 | `_Q_matrix`, `Ellipsoid.S`, `.Q` and `.can_realize` on a non-degenerate ellipsoid with every operation rounded to binary64 and matrix products in any order; the computed smallest eigenvalue is a parameter (`Model/FloatRealize.lean`) | error bounds of dot products in any order, the condition for realizability in an ellipsoid scaled about its center; a witness on the boundary (`Props/FloatRealize.lean`) |
| C117 | terms over the constructors and operations of `RigidBody`, evaluated with the functions of the model (`Model/Program.lean`); the region and the moments a term describes (`Spec/Program.lean`) | induction on the term with C13, C14, C15 and C69 (`Props/Program.lean`) |
| C118 | terms over the constructors and operations of `Polynomial`, evaluated with the functions of the model (`Model/PolyProgram.lean`); the element of Mathlib's polynomial ring a term denotes (`Spec/PolyProgram.lean`) | induction on the term with C21; polynomials over an infinite field are determined by their values (`Props/PolyProgram.lean`) |
| C119 | terms over the constructors and operations of `ConvexPolyhedron`, evaluated with the functions of the model, `None` included (`Model/PolyhedronProgram.lean`); the set of points a term denotes (`Spec/PolyhedronProgram.lean`); `cdd` assumed to satisfy the contract of C61 | induction on the term with C33, C62, C64; comparisons from C45 (`Props/PolyhedronProgram.lean`) |
| C120 | the text of an index (`Model/MomentIndex.lean`) and of a polynomial as a list of characters (`Model/Text.lean`); the text of a coefficient is a parameter; the layout of the array printed by `MomentMatrix.__str__` is not modelled | induction on the lists; C20 for the entries of the moment matrix (`Props/Text.lean`) |
| C121 | `transform` of boxes, ellipsoids and cylinders with `fl` after every operation, as relations, and sequences of calls (`Model/FloatTransform.lean`); exact sequences of motions (`Spec/FloatTransform.lean`) | error vectors in the Euclidean norm, which exact rotations keep; induction on the sequence; C105 for the containment test (`Props/FloatTransform.lean`) |
| C122 | `from_point_masses` with `fl` after every operation and Python's `sum` from left to right (`Model/FloatPointMasses.lean`) | the sum is one of the orders of C105; the exact moments are positive semidefinite by the Cauchy-Schwarz inequality (`Props/FloatPointMasses.lean`) |
| C123 | `InertialParameters.transform` and `Hc` with `fl` after every operation, as relations, and sequences of calls (`Model/FloatInertialTransform.lean`); exact sequences of motions (`Spec/FloatTransform.lean`) | error matrices in the Frobenius norm, which exact rotations keep; induction on the sequence (`Props/FloatInertialTransform.lean`) |
| C124 | `M`, `body_wrench` and `regressor` with `fl` after every operation, as relations (`Model/FloatDynamics.lean`); `skew3`, `lift6` and `adjoint` only copy and negate, and are exact | C105 for every product; the exact identity C04 joins the two (`Props/FloatDynamics.lean`) |
| C125 | `from_two_vertices`, `from_points_to_bound` with `fl` after every operation as functions, `_box_vertices` and `aabb` of a box as relations (`Model/FloatBound.lean`); minimum and maximum are exact | two roundings per number; C105 for the vertices and for `contains` (`Props/FloatBound.lean`) |
| C126 | `random_points` and `grid` with `fl` after every operation as relations, `np.linspace` as numpy computes it, with its branch for a step of zero (`Model/FloatSampling.lean`) | an error bound per entry of `linspace`, the step of C121 for the placement, C121 for `contains` (`Props/FloatSampling.lean`) |
| C127 | `Ellipsoid.random_points` with `fl` after every operation as a relation, on top of `random_points_in_ball` of C115 (`Model/FloatEllipsoidPoints.lean`) | the error of `R D R.T` from C123, C115 for the draw, C105 with slack for `contains` (`Props/FloatEllipsoidPoints.lean`) |
| C128 | `Cylinder.random_points` with `fl` after every operation as a relation, on top of `random_points_in_ball` of C115 (`Model/FloatCylinderPoints.lean`) | the error of the rigid motion from C105, C115 for the point of the disk, the two slice tests of C109 applied to a slightly shrunk point (`Props/FloatCylinderPoints.lean`) |
| C129 | `Box.on_surface`, one point of `random_points_on_edges` and of `random_points_on_surface` with `fl` after every operation as relations (`Model/FloatSurface.lean`) | the error of the rigid motion and of its inverse from C121, C126 for `contains` (`Props/FloatSurface.lean`) |
| C130 | `uniform_density_params` of the three shapes with `fl` after every operation as relations, on top of `transform` of C123 (`Model/FloatDensity.lean`) | the error of the diagonal matrix, C123 for the transform, C57 for the integrals of the exact density (`Props/FloatDensity.lean`) |
| C131 | `hollow_density_params` of boxes and ellipsoids and `wireframe_density_params` with `fl` after every operation, on top of `transform` of C123 (`Model/FloatShells.lean`) | a calculus of relative errors of sums, products and quotients of positive numbers, then as C130 with C58 for the integrals (`Props/FloatShells.lean`) |
| C132 | `volume` of the three shapes with `fl` after every operation (`Model/FloatVolume.lean`) | the calculus of relative errors of C131, C73 for the volumes of the sets (`Props/FloatVolume.lean`) |
| C133 | `Box.mbe`, `Ellipsoid.mib` and `Cylinder.mib` with `fl` after every operation (`Model/FloatInscribed.lean`) | the calculus of relative errors of C131, and the inequality behind C36 and C38 for the competing shapes (`Props/FloatInscribed.lean`) |

## Defects of the code found while proving

Each is a theorem unless marked (reading). Short name of the theorem in brackets.

1. `SpanForm.transform` adds the translation to rays [C63].
2. `Cylinder.contains` ignores `tol` [C31_tol_ignored]; it always has a slack of 1e-8 [C30_cylinder_gap].
3. `Capsule.is_same` raises `TypeError` [C45_capsule]; `Cylinder.is_same` has no `tol` and compares rotations, so equal
   cylinders can be reported different [C45_cylinder_flip].
4. `Box.mbe(sphere=True)` has radius `√3 max h`, not minimal unless the box is a cube [C39].
5. `Ellipsoid.mbe` has no `solver` parameter, so `RigidBody.mbes` raises `TypeError` for ellipsoids [C69_mbes_ellipsoid].
6. `Ellipsoid.random_points_on_surface` rotates with the transpose [C42_ellipsoid_wrong].
7. `Box.random_points_on_surface` applies the pose twice; `n = 1` raises `IndexError`; zero area raises [C42].
8. `contains_ellipsoid` mixes `A`, `b` with `S`, `A b` [C46_wrong].
9. `mbe_of_ellipsoids` passes `A`, `b` instead of `S`, `A b` [C47_sphere]; so `Capsule.mbe` and `RigidBody.mbes` can
   return smaller shapes [C69_mbes_capsule].
10. `mbe_of_points(sphere=True)` overwrites its offset `r` [C48_sphere_wrong].
11. `validation_rmse` ignores `W` [C71].
12. `transform_matrix_inv` ignores `dim` [C06].
13. `Polynomial.basis(n, 0)` returns the integer 0; `degree` of the zero polynomial raises [C20, C21].
14. `ConvexPolyhedron`/`Cylinder.moment_sdp_constraints` drop the PSD and `eps` constraints [C72]; with a (4,4) variable
    `J[3, :3]` stays unconstrained.
15. `Cylinder.moment_custom_vertex_constraints` is infeasible for `eps > 0` [C55].
16. Mass zero with `h` given gives NaN [C10_zero_mass]; massless + massless bodies give NaN [C15, C69_massless]; an
    identified massless body gives non-finite parameters [C79_massless].
17. Half extents in `(0, 1e-8]`: errors or wrong sets [C27_unresolved, C50_unresolved, C51_unresolved].
18. `Ellipsoid.is_same` is not reflexive for degenerate ellipsoids and has false positives [C45_degenerate, C45_degenerate_disks].
19. `from_shape_matrix` of a singular matrix raises [C28].
20. `random_points_in_ball(dim=1)` raises `AssertionError` [C68].
21. `Box.is_same(poly)` is False while `poly.is_same(box)` is True [C45_box_poly].
22. A degenerate ellipsoid (disk) has uniform density moments `r²/5` while `Cylinder(length=0)` has the right `r²/4`
    [C57_disk_wrong].
23. `FaceForm.from_cdd_matrix` without inequality rows raises `IndexError`; an empty face form raises `AttributeError` [C61].
24. `Capsule` has no `moment_sdp_constraints` [C79_capsule].
25. A capsule of radius at most `1e-8` is grown by `tol` to cubes, not balls [C33_capsule_tol]; the tolerance of a polyhedron depends
    on the row scaling of cdd [C33_poly_tol].
26. Degenerate `can_realize` accepts unrealizable bodies within its slack [C50_degenerate_gap].
27. A trivial face row makes `moment_sdp_constraints` raise `ValueError` [C52_trivial_row].
28. `allclose_unordered` is greedy: not complete and not symmetric [C66].
29. `Ellipsoid.volume` uses the three-dimensional formula in every dimension [C73_ellipse_wrong].
30. `Ellipsoid.hollow_density_params` is not an even surface density unless the ellipsoid is a sphere [C58].
31. `compute_joint_torque_regressor` loops over the number of velocities instead of bodies [C83_index_error, C83_too_few];
    `MultiBody` has no body for joints without geometry, so `get_bodies` raises `KeyError` [C82_get_bodies].
32. `Box.moment_custom_vertex_constraints` is not as tight as the moment relaxation of order 2, contrary to
    `scripts/experiments/process_drip_data.py` and `tests/test_box_realizability.py::test_box_moment_vs_vertex` [C84].
33. `consistent()` is True for mass zero and nonzero second moments [C16_zero_mass_counterexample].
34. `InertialParameters.is_same` is not symmetric and cannot separate light bodies [C75].
35. `SpanForm.is_cone` misses cones whose apex is listed as a vertex [C81_cone_missed].
36. `DiscretizedIdentificationProblem` ignores `γ` and `ε` [C80_ignored]; the entropic regularizer raises for the default
    massless body [C79_errors].
37. (reading) `Box.from_vertices`, inherited from the polyhedron, would raise `TypeError`; the relative imports in
    `unused/identify.py` and `unused/multibody.py` do not resolve inside `unused/`.
38. `random_weight_vectors` says that the entries are uniformly distributed; they are not [C90_weights].
39. In floating point `is_triangular_number(2**53 + 2**26 + 1)` is true though the number is not triangular; no integer below
    `2**50` is misjudged [C94_triangular_wrong, C94_triangular].
40. In floating point `compute_evaluation_times(0.07, 0.01)` returns eight times, the last of which is `0.07`; in exact arithmetic
    all times are before the end [C94_times_wrong].
41. In floating point `Box.from_points_to_bound` can exclude a point it was built from when coordinates reach `2**29`
    [C94_bound_wrong].
42. `ellipsoid_shell_inertia_monte_carlo.py` compares points that are uniform by area with the parameters of a thin homogeneous
    shell; the printed error does not vanish as the number of samples grows [C95_ellipsoid_shell].
43. A request for random points of shape `(1,)` returns an array of shape `(3,)` from boxes and polyhedra and `(1, 3)` from ellipsoids
    and cylinders [C98_one_tuple, C98_poly_one].
44. A one-dimensional `ConvexPolyhedron` asked for one random point returns an array with no axes, which its own `contains` refuses
    with a `ValueError` [C98_poly_line].
45. `ConvexPolyhedron.contains` on an array with three axes reduces over the wrong axis and returns truth values that are not the
    containment of the points, without an error [C99_poly_three_axes].
46. `Ellipsoid.contains` accepts a number or an array with one column and tests the point with this number in every coordinate
    [C99_ellipsoid_scalar, C99_ellipsoid_broadcast].
47. Polynomials in different numbers of variables can be constructed and added; the error comes only from `localize` or `evaluate`, and
    an index of length one never fails [C100_add, C100_localize_mixed, C100_evaluate_mixed, C100_evaluate_broadcast].
48. `str(MomentIndex)` concatenates the exponents without a separator: different indices have the same string once an exponent
    exceeds 9 [C100_string_ambiguous]; this happens from degree 11 on [C120_index, C120_index_ambiguous].
49. The three uniformity tests of the samplers only see the probability of one box: a sampler that returns just two points passes with
    exactly the same probability as the uniform sampler [C102_two_points].
50. At order 1 the moment constraints of a polyhedron do not bound the second moments at all [C101_order_one].
51. tests/test_box.py:57 says that the two points on the surface of a bounding box define opposing vertices; four points in a plane
    have a bounding box none of whose vertices is among them [C104_no_vertex].
52. The tolerance of `contains` is absolute for polyhedra and boxes; it covers the rounding of coordinates up to about a million
    [C105_poly_accepts, C105_box_accepts] but not of coordinates of size 2^28 [C105_poly_rejects].
53. `MultiBody(model, gravity=g)` assigns `model.gravity`, so that every other multibody on the same model gets the new gravity
    [C108_gravity], also when construction then fails [C108_gravity_failed].
54. `InertialParameters` and `RigidBody` keep the arrays or the list they are given: later changes in place change them without any
    of the checks of the constructor [C108_params_shared, C108_body_shared]; `Box` copies [C108_box].
55. `get_frame_pose` returns `(rotation, translation)` although it documents `(position, orientation)` [C110_pose], and returns the
    identity when `compute_forward_kinematics` was not called [C110_initial].
56. `MomentMatrix(n, 0)` is built without complaint but no polynomial can be localized with it: `basis(n, 0)` is `[0]` with an integer
    [C111_zero_indices, C111_zero_localize].
57. `Ellipsoid` accepts half extents with two or more axes: only their first axis is compared with the rotation and the center
    [C112_ellipsoid_matrix].
58. `Ellipsoid.sphere` with an empty center accepts a negative radius [C112_sphere].
59. `InertialParameters` does not check the shapes of `h`, `com` and `H`: a vector given as `H` becomes three equal rows of `J`, and other wrong
    shapes are reported by `J` only [C112_params_stores, C112_params_J, C112_params_row].
60. `schur` does not require `A` and `C` to be square: fitting blocks that are not give a rectangular matrix, which only the later `>> 0`
    rejects [C113_schur].
61. `from_vec(p.vec)` can lose physical consistency: the small second moment of a thin plate cancels in the conversion to the inertia
    matrix and back [C114_thin_plate].
62. A point of `random_points_in_ball` can lie outside the unit ball by a rounding error, so the bound `<= 1.0` without tolerance in
    tests/test_random.py is not guaranteed [C115_ball_outside].
63. `Ellipsoid.can_realize` compares the trace with zero without tolerance (the TODO in the code), and so rejects six unit masses at
    distance 5 along the axes in the ball of radius 5 [C116_rejects].
64. `InertialParameters.from_point_masses([1], [[1 + 2**-52, 0, 0]])` rounds the square of the coordinate down, so the second moment is
    below that of the mass at its center: the parameters of a single mass are not physically consistent (`C122_unit_mass`).
65. `Box.from_points_to_bound([[-2**-60, 0, 0], [1, 0, 0]])` is the box from 0 to 1 along x: by rounding it does not contain the first point
   (`C125_loses_point`). The loss is at most `6 * 2**-53` of the size, and `contains` accepts the point by its tolerance.

## Wrong-program experiments

`seeded/LOG.jsonl`. A scratch copy of the project gets `#guard_msgs (drop all) in` before every theorem so that failing
proofs do not stop the build; a batch of edits is applied to the model, everything is rebuilt, and for every property
theorem it is recorded whether it fails, and on which of the edited definitions its statement and proof depend. An edit
that no theorem notices, or that a theorem survives although its English claim became false, leads to a new or tighter
theorem, which is named in the log line.

## Property by property

For each property: the model definitions and the specification that occur in the statements of its theorems, and what each
theorem says (first sentence of its doc comment; the comment and the statement have the exact hypotheses).

**C01. Half-vectorisation round trip** (proved). 
Model: `unvech`, `vech`.

* `C01_unvech_vech` (Props/Util): `unvech(vech(A)) == A` for every symmetric matrix of every size `n >= 1`.
* `C01_vech_unvech` (Props/Util): Whatever `unvech` returns is symmetric, has the right size, and `vech` gives the input back.
* `C01_unvech_ok` (Props/Util): `unvech` succeeds on every vector of triangular length.
* `C01_unvech_error` (Props/Util): `unvech` raises AssertionError on every vector whose length is not triangular.

**C02. Triangular number recognition** (proved). 
Model: `isTriangularNumber`.
Exact real square root; the binary64 version is C94.

* `C02_isTriangularNumber` (Props/Util): The first component is `True` exactly on the triangular numbers, and the second is then the index `n` with `x == n * (n + 1) / 2`.
* `C02_not_triangular` (Props/Util): On every number that is not triangular the first component is `False`.

**C03. Cross-product matrix and contact Jacobian** (proved). 
Model: `SV`, `SV.angular`, `SV.linear`, `SV.vec`, `contactJacobian`, `skew3`.

* `C03_skew3_mulVec` (Props/Util): `skew3(a) @ b == cross(a, b)`.
* `C03_skew3_transpose` (Props/Util): `skew3` is antisymmetric.
* `C03_contactJacobian_wrench` (Props/Util): The contact Jacobian maps a force `f` at `p` to the wrench `(p × f, f)`.
* `C03_contactJacobian_velocity` (Props/Util): Virtual work: the transpose of the contact Jacobian maps a twist to the velocity `v + ω × p` of the contact point.

**C04. Lifting identities and regressor** (proved). 
Model: `IP`, `IP.H`, `IP.M`, `IP.bodyWrench`, `IP.vec`, `SV`, `SV.vec`, `lift3`, `lift6`, `regressor`, `vech`.

* `C04_lift3` (Props/Dynamics): `lift3(x) @ vech(A) == A @ x` for symmetric `A`.
* `C04_lift6` (Props/Dynamics): `lift6(V) @ params.vec == params.M @ V.vec` for every spatial vector and every parameters with symmetric second moment matrix.
* `C04_regressor` (Props/Dynamics): The regressor times the parameter vector is the body wrench.

**C05. Newton-Euler wrench and passivity** (proved). 
Model: `IP`, `IP.H`, `IP.I`, `IP.bodyWrench`, `IP.h`, `IP.mass`, `SV`, `SV.angular`, `SV.linear`, `SV.vec`, `SV.zero`.
Specification: `Spec.Orthogonal`, `Spec.PointMasses`, `Spec.PointMasses.first`, `Spec.PointMasses.inertia`, `Spec.PointMasses.mass`.

* `C05_newton_euler` (Props/Dynamics): `body_wrench(V, A)` in closed form, with `P = m v + ω × h` the linear momentum and `L = I ω + h × v` the angular momentum about the reference point
* `C05_passive` (Props/Dynamics): Passivity, the velocity-product wrench does no work
* `C05_newton_second_law` (Props/Dynamics): **Newton's second law.** Take any finite system of point masses fixed in a moving body frame with pose `x ↦ R(τ) x + r(τ)`, body twist `(v, ω)` (so `(R x)' = R (ω × x)`, `r' = R v`) and body accelerations `a = v'`, `α = ω'`.

**C06. Homogeneous transforms** (proved). 
Model: `Arr1`, `Arr1.len`, `Arr2`, `Arr2.cols`, `Arr2.rows`, `transformMatrix`, `transformMatrixDyn`, `transformMatrixInv`, `transformMatrixInvDyn`.
Specification: `Spec.Orthogonal`, `Spec.rigid`.
The default-argument cases are C06_defaults.

* `C06_defaults` (Props/Strengthen2): `transform_matrix` with missing arguments: no rotation means the identity, no translation means zero, and arrays of the wrong shape raise `AssertionError`.
* `C06_transformMatrix_acts` (Props/Util): `transform_matrix(R, t)` acts on homogeneous coordinates as the rigid motion.
* `C06_transformMatrix_mul` (Props/Util): Composition of homogeneous transforms.
* `C06_transformMatrixInv` (Props/Util): `transform_matrix_inv(R, t)` is the two-sided inverse for orthogonal `R`.
* `C06_transformMatrixInv_dim3` (Props/Util): C06 (call with explicit arrays): in dimension three `transform_matrix_inv` returns the matrix above.
* `C06_transformMatrixInv_other_dim` (Props/Util): In every other dimension `transform_matrix_inv` raises AssertionError although the arguments are valid, because it does not pass `dim` on.

**C07. Evaluation times cover the interval** (proved). 
Model: `computeEvaluationTimes`.

* `C07_computeEvaluationTimes` (Props/Util): The times start at zero, are equally spaced, lie in `[0, duration)`, and the next one would not be before the end.
* `C07_error` (Props/Util): A non-positive duration or step raises AssertionError.

**C08. Box corner enumeration** (proved). 
Model: `boxVertices`.

* `C08_length` (Props/Util): `box_vertices` lists `2**dim` points ...
* `C08_mem` (Props/Util): ... which are exactly the points with every coordinate `± h_i`.
* `C08_nodup` (Props/Util): ... without repetition if all half extents are nonzero.

**C09. Second-moment / inertia conversion** (proved). 
Model: `H2I`, `I2H`.
Specification: `Spec.Orthogonal`, `Spec.PSD`.

* `C09_inverse` (Props/Inertial): `H2I` and `I2H` are mutually inverse.
* `C09_linear` (Props/Inertial): Both conversions are linear and preserve symmetry.
* `C09_moment_about_axis` (Props/Inertial): The meaning of the inertia matrix: the moment about the unit axis `u` of the second moment `H`, i.e.
* `C09_triangle` (Props/Inertial): Triangle inequality.

**C10. Round trips between parameter representations** (proved). 
Model: `IP`, `IP.H`, `IP.I`, `IP.Ic`, `IP.J`, `IP.com`, `IP.fromPim`, `IP.fromVec`, `IP.init`, `IP.mass`, `IP.vec`.
C10_* rebuild theorems need mass != 0; the 0/0 case is the error value .nonfinite.

* `C10_fromVec_vec` (Props/Inertial): `from_vec(p.vec)` rebuilds `p`.
* `C10_fromPim_J` (Props/Inertial): `from_pim(p.J)` rebuilds `p`, for every (not necessarily symmetric) `H`.
* `C10_init_com_I` (Props/Inertial): The pair (centre of mass, inertia matrix) rebuilds `p`, and so does (com, H).
* `C10_zero_mass` (Props/Inertial): With mass zero and `h` given the centre of mass is `0/0`: both round trips of the zero parameters produce non-finite numbers.

**C11. Constructor contract** (proved). 
Model: `IP`, `IP.H`, `IP.Hc`, `IP.I`, `IP.Ic`, `IP.com`, `IP.h`, `IP.init`, `IP.mass`.

* `C11_ok_iff` (Props/Inertial): The constructor succeeds exactly on the documented combinations: non-negative mass, not both `h` and `com`, not both `H` and `I`, and (for finite results) `h` only with a nonzero mass.
* `C11_errors` (Props/Inertial): Negative mass raises AssertionError, redundant arguments raise ValueError.
* `C11_values` (Props/Inertial): The values of a successfully constructed object.
* `C11_parallel_axis` (Props/Inertial): Parallel-axis theorem for the inertia matrix, `I = Ic + m (|c|² 1 - c cᵀ)`.

**C12. Pseudo-inertia matrix determines the body** (proved). 
Model: `IP`, `IP.H`, `IP.J`, `IP.fromPim`, `IP.fromVec`, `IP.mass`, `IP.vec`, `pimMustEqualVec`.

* `C12_J_injective` (Props/Inertial): For nonzero mass the pseudo-inertia matrix determines the body.
* `C12_pim_of_vec` (Props/Inertial): `pim_sum_vec_matrices`/`pim_must_equal_vec` give exactly `J` as a linear combination of the entries of the parameter vector.
* `C12_vec_iff_J` (Props/Inertial): Parameter vector and pseudo-inertia matrix determine each other.
* `C12_fromPim_of_vec` (Props/Inertial): A parameter vector is recovered from the matrix that `pim_must_equal_vec` assembles.

**C13. Point-mass systems** (proved). 
Model: `IP`, `IP.H`, `IP.I`, `IP.add`, `IP.com`, `IP.consistent`, `IP.fromPointMasses`, `IP.h`, `IP.mass`.
Specification: `Spec.PointMasses`, `Spec.PointMasses.Nonneg`, `Spec.PointMasses.first`, `Spec.PointMasses.inertia`, `Spec.PointMasses.mass`, `Spec.PointMasses.second`.

* `C13_moments` (Props/Inertial2): `from_point_masses` returns the moments of the system: total mass, first moment, second moment, inertia matrix, and the mass-weighted mean as centre of mass.
* `C13_errors` (Props/Inertial2): Error behaviour: mismatched lengths, an empty system, a system of zero total mass, and a system of negative total mass.
* `C13_perm` (Props/Inertial2): The result does not depend on the order of the points.
* `C13_append` (Props/Inertial2): Splitting the list of points and adding the two results gives the whole.
* `C13_consistent` (Props/Inertial2): Parameters built from non-negative point masses are physically consistent.

**C14. Rigid transform of inertial parameters** (proved). 
Model: `IP`, `IP.Hc`, `IP.Ic`, `IP.J`, `IP.com`, `IP.fromPointMasses`, `IP.mass`, `IP.transform`, `transformMatrix`.
Specification: `Spec.Orthogonal`, `Spec.PointMasses`, `Spec.PointMasses.mass`, `Spec.PointMasses.move`, `Spec.rigid`.

* `C14_J` (Props/Inertial2): The pseudo-inertia matrix transforms by congruence with the homogeneous matrix.
* `C14_point_masses` (Props/Inertial2): The parameters of a transformed system of point masses are the transformed parameters.
* `C14_compose` (Props/Inertial2): Transforms compose as rigid motions do.
* `C14_inverse` (Props/Inertial2): The identity transform (also the defaults) leaves the parameters unchanged, and the inverse motion undoes a transform by an orthogonal matrix.
* `C14_inertia_rotates` (Props/Inertial2): For orthogonal `R` the principal moments are kept

**C15. Addition of inertial parameters** (proved). 
Model: `IP`, `IP.I`, `IP.J`, `IP.add`, `IP.mass`, `IP.pySum`, `IP.radd`, `IP.zero`.

* `C15_add` (Props/Inertial2): The sum of two parameter sets with positive total mass adds the pseudo-inertia matrices (and therefore mass, first moment, second moment and inertia matrix).
* `C15_comm` (Props/Inertial2): Addition is commutative, including in its failures.
* `C15_assoc` (Props/Inertial2): Addition is associative on bodies with positive masses.
* `C15_sum` (Props/Inertial2): Python's `sum()` over a non-empty list of bodies with positive mass returns the parameters whose pseudo-inertia matrix is the sum; over the empty list it returns the integer `0`.
* `C15_zero` (Props/Inertial2): `zero()` is neutral for bodies of positive mass, but `zero() + zero()` divides `0/0`.
* `C15_radd` (Props/Inertial2): Adding a nonzero integer on the left is an AttributeError.

**C16. Meaning of physical consistency** (proved). 
Model: `IP`, `IP.H`, `IP.J`, `IP.consistent`, `IP.h`, `IP.init`, `IP.mass`.
Specification: `Spec.PSD`, `Spec.PointMasses`, `Spec.PointMasses.Nonneg`, `Spec.PointMasses.first`, `Spec.PointMasses.mass`, `Spec.PointMasses.second`.
The mass-zero exception is proved as a counterexample.

* `C16_consistent_iff` (Props/Inertial2): `consistent(eps)` is True exactly when `J - eps I` is PSD.
* `C16_realizable_iff` (Props/Inertial2): A body of positive mass is `consistent()` exactly when some finite system of non-negative point masses in space has exactly these inertial parameters.
* `C16_zero_mass_counterexample` (Props/Inertial2): The positive-mass hypothesis is needed: with mass zero `consistent()` can be True although no system of non-negative point masses has these parameters.

**C17. Closure of consistency** (proved). 
Model: `IP`, `IP.H`, `IP.Hc`, `IP.I`, `IP.J`, `IP.M`, `IP.add`, `IP.consistent`, `IP.fromPim`, `IP.mass`, `IP.transform`.
Specification: `Spec.Orthogonal`, `Spec.PSD`.

* `C17_energy` (Props/Inertial2): A body with PSD pseudo-inertia matrix has symmetric PSD spatial mass matrix (non-negative kinetic energy for every twist), PSD second moment, and principal moments that obey the triangle inequalities.
* `C17_Hc` (Props/Inertial2): The second moment about the centre of mass of a consistent body is PSD, and conversely.
* `C17_closure` (Props/Inertial2): Consistency is preserved by addition, rigid (indeed any affine) transforms and scaling.
* `C17_consistent` (Props/Strengthen): C17 in terms of `consistent`: adding any consistent body to a consistent body of positive mass, moving it by any rotation and translation (given or left out) and scaling it by a positive factor all succeed and give a body for which `consistent()` is True.

**C18. Random parameters are consistent** (proved). 
Model: `IP`, `IP.J`, `IP.consistent`, `IP.mass`, `IP.random`.
Specification: `Spec.PSD`.
Quantifies over every value of the draws; no distributional claim.

* `C18_random` (Props/Inertial2): `InertialParameters.random()` succeeds with mass in `[0.1, 1)` and is physically consistent, for all generator outputs `u ∈ [0, 1)`, `c`, `A`.
* `C18_random_consistent` (Props/Inertial2): `random().consistent()` is True.

**C19. Parameter-variable constraints** (proved). 
Model: `Box`, `Box.momentCustomVertexConstraints`, `Box.momentSdpConstraints`, `Cylinder`, `Cylinder.momentCustomVertexConstraints`, `Cylinder.momentSdpConstraints`, `Ellipsoid`, `Ellipsoid.momentConstraints`, `IP`, `IP.H`, `IP.J`, `IP.vec`, `ParamVar`, `ParamVar.mat`, `ParamVar.other`, `ParamVar.vec`, `Poly`, `Poly.momentSdpConstraints`, `Poly.momentVertexConstraints`, `RigidBody`, `RigidBody.momentSdpConstraints`, `pimMustEqualParamVar`, `pimMustEqualVec`, `pimPsd`.
Specification: `Spec.PSD`.

* `C19_errors` (Props/Inertial2): Argument checking of `pim_psd` and `pim_must_equal_param_var`.
* `C19_mat` (Props/Inertial2): For a (4, 4) variable the constraints hold exactly when `J` is symmetric and `J - eps I` is PSD, and the returned matrix is the variable itself.
* `C19_vec` (Props/Inertial2): For a (10,) variable the returned matrix is the pseudo-inertia matrix of the vector, and the constraints hold exactly when it minus `eps I` is PSD; so the two kinds of variable give the same constraint set for corresponding values.
* `C19_vec_symmetric` (Props/Inertial2): Every parameter vector (whatever its numbers) gives a symmetric matrix, so the symmetry constraint never excludes a vector.
* `C19_builders` (Props/Strengthen): Every constraint builder of the library gives the same constraints (and the same exceptions) for the parameter vector of a body as for its pseudo-inertia matrix.
* `C19_body` (Props/Strengthen): And so do the constraints of bodies made of any number of shapes.

**C20. Monomial basis** (proved). 
Model: `Polynomial.basis`, `Polynomial.dim`.
d >= 1 as stated; basis(n, 0) returning the int 0 is C20's documented exception.

* `C20_basis` (Props/Moment): For `d ≥ 1` the basis lists every multi-index of total degree at most `d` exactly once.
* `C20_length` (Props/Moment): The basis has `Polynomial.dim(n, d)` elements.
* `C20_start` (Props/Moment): The basis starts with the constant, followed by the coordinates.
* `C20_prefix` (Props/Moment): The basis of a lower degree is a prefix.
* `C20_degree_zero` (Props/Moment): For `d = 0` the list is `[0]` with the *integer* `0`, which is not a multi-index.

**C21. Polynomial arithmetic** (proved). 
Model: `Polynomial`, `Polynomial.add`, `Polynomial.affine`, `Polynomial.coefficients`, `Polynomial.degree`, `Polynomial.evaluate`, `Polynomial.init`, `Polynomial.localize`, `Polynomial.ones`, `Polynomial.zeros`.

* `C21_wf` (Props/Moment): Every polynomial built by the constructor has unique keys and nonzero coefficients.
* `C21_add` (Props/Moment): Addition of polynomials is addition of functions.
* `C21_add_coeff` (Props/Moment): The coefficients of a sum; a coefficient that cancels is not stored.
* `C21_localize` (Props/Moment): Localizing about a monomial multiplies by that monomial.
* `C21_affine` (Props/Moment): `affine(a, b)` evaluates to `b - a ⬝ᵥ x`.
* `C21_degree` (Props/Moment): `degree` is the largest total degree of a stored monomial; the zero polynomial has none (the source raises `ValueError`).
* `C21_zeros` (Props/Moment): `zeros()` is the zero function.
* `C21_ones` (Props/Moment): `ones(n, d)` with `d ≥ 1` has coefficient one exactly for the monomials of degree at most `d`; for `d = 0` it fails.

**C22. Moment substitution is integration** (proved). 
Model: `MomentMatrix.computeVarMap`, `MomentMatrix.localize`, `MomentMatrix.localizingEntry`, `Polynomial`, `Polynomial.coefficients`, `Polynomial.degree`, `Polynomial.dim`, `Polynomial.evaluate`, `Polynomial.substitute`, `dictGet`.
Specification: `Spec.IsMomentMatrix`, `Spec.PointMasses`, `Spec.PointMasses.integral`, `Spec.mono`.
Includes C22_key_error: a KeyError is raised exactly for monomials missing from the table.

* `C22_substitute` (Props/Moment2): Substituting the moments of a system of point masses gives the integral of the polynomial.
* `C22_no_key_error` (Props/Moment2): Building a localizing matrix of order `d - ceil(deg / 2)` never runs into a missing moment, whatever the matrix is.
* `C22_degree_too_high` (Props/Strengthen): A polynomial of degree above `2 d` cannot be localized
* `C22_key_error` (Props/Strengthen2): `substitute` replaces every monomial by its value; it raises `KeyError` exactly when a monomial of the polynomial has no value.

**C23. Moment matrices of real distributions are feasible** (proved). 
Model: `MomentMatrix.localize`, `MomentMatrix.localizingConstraint`, `MomentMatrix.momentConstraints`, `Polynomial`, `Polynomial.basis`, `Polynomial.degree`, `Polynomial.dim`, `Polynomial.evaluate`.
Specification: `Spec.IsMomentMatrix`, `Spec.PSD`, `Spec.PointMasses`, `Spec.PointMasses.Nonneg`, `Spec.PointMasses.integral`, `Spec.mono`.

* `C23_moment_matrix` (Props/Moment2): The matrix of the moments of a system of non-negative point masses satisfies `moment_constraints` and is PSD.
* `C23_localizing` (Props/Moment2): Its localizing matrix for a polynomial `p` that is non-negative at the points consists of the integrals of `p` times the products of basis monomials, it is PSD, and `localizing_constraints` holds.

**C24. Moment constraints force the moment structure** (proved). 
Model: `MomentMatrix.localizingConstraint`, `MomentMatrix.localizingConstraints`, `MomentMatrix.momentConstraints`, `Polynomial`, `Polynomial.coefficients`, `Polynomial.degree`, `Polynomial.dim`.
Specification: `Spec.IsMomentMatrix`, `Spec.LocalizedPSD`.

* `C24_structure` (Props/Moment2): A symmetric matrix satisfies `moment_constraints` exactly when its entries depend on the product of the two basis monomials only, that is, when it is the moment matrix of some sequence `y`.
* `C24_localizing` (Props/Moment3): On the moment matrix of a sequence `y`, `localizing_constraints` for a polynomial `p` says exactly that `q ↦ L(p q²)` is non-negative for all `q` of degree at most `d - ceil(deg p / 2)`.
* `C24_localizing_all` (Props/Strengthen2): `localizing_constraints` with a list of polynomials says that the form of every one of them is non-negative.

**C25. Box: vertex form, face form and body frame agree** (proved). 
Model: `Box`, `Box.center`, `Box.contains`, `Box.halfExtents`, `Box.rotation`, `Box.vertices`.
Specification: `Spec.Orthogonal`, `Spec.box`, `Spec.hull`.

* `C25_contains` (Props/Shapes): `Box.contains(p, tol=0)` is membership in the box as a point set.
* `C25_contains_tol` (Props/Shapes): With a tolerance, `contains` is membership in the box grown by `tol` on every side.
* `C25_vertices` (Props/Shapes): The stored vertices span the box: vertex form, face form and pose describe the same set.

**C26. Axis-aligned bounding boxes of points** (proved). 
Model: `Box`, `Box.center`, `Box.fromPointsToBound`, `Box.fromTwoVertices`, `Box.halfExtents`, `Box.rotation`.
Specification: `Spec.aabox`, `Spec.box`.

* `C26_fromTwoVertices` (Props/Shapes): `from_two_vertices(v1, v2)` never fails and is the box spanned by the two corners, whichever coordinates of either corner are larger.
* `C26_fromPointsToBound` (Props/Shapes): `from_points_to_bound(points)` contains all points, is axis-aligned, and is contained in every axis-aligned box containing the points.
* `C26_empty` (Props/Shapes): `from_points_to_bound` of no points raises `ValueError`.

**C27. Ellipsoid membership** (proved). 
Model: `Ellipsoid`, `Ellipsoid.center`, `Ellipsoid.contains`, `Ellipsoid.halfExtents`, `Ellipsoid.rotation`.
Specification: `Spec.Orthogonal`, `Spec.Resolved`, `Spec.ellipsoid`.
Literal statement holds for half extents that are 0 or > 1e-8 (Spec.Resolved). half extents/radii in (0, 1e-8] are treated as zero by numpy.isclose; C27_unresolved proves what contains computes there, so the literal claim fails only in that range.

* `C27_sound` (Props/Rejection): What `Ellipsoid.contains(p, tol)` accepts is in the ellipsoid grown by the factor `1 + tol`.
* `C27_contains` (Props/Shapes): `Ellipsoid.contains(p, tol=0)` is membership in the affine image of the unit ball, in every dimension, degenerate or not.
* `C27_mono` (Props/Shapes): `contains` is monotone in the tolerance.
* `C27_unresolved` (Props/Shapes): The hypothesis on tiny half extents cannot be dropped: the segment with half extent `1e-8` does not "contain" its own end point.

**C28. Ellipsoid representations describe the same set** (proved). 
Model: `Eigh`, `Ellipsoid`, `Ellipsoid.A`, `Ellipsoid.E`, `Ellipsoid.Q`, `Ellipsoid.S`, `Ellipsoid.b`, `Ellipsoid.center`, `Ellipsoid.fromAffine`, `Ellipsoid.fromShapeMatrix`, `Ellipsoid.halfExtents`, `Ellipsoid.rotation`, `IP.hom`, `Lstsq`.
Specification: `Spec.IsEigh`, `Spec.IsLstsq`, `Spec.Orthogonal`, `Spec.ellipsoid`.
The round trips need half extents in (1e-8, 1e8), because from_affine/from_shape_matrix compare eigenvalues 1/h^2 with 0 by numpy.isclose. Every valid eigendecomposition is covered.

* `C28_representations` (Props/Shapes2): For a non-degenerate ellipsoid all representations exist (are finite), satisfy `S E = E S = 1`, `A A = S`, and describe the same point set as the half extents and pose do
* `C28_degenerate` (Props/Shapes2): For a degenerate ellipsoid `S`, `A`, `b` and `Q` are not finite.
* `C28_fromShapeMatrix` (Props/Shapes3): `from_shape_matrix(e.S, e.center)` rebuilds the point set of a non-degenerate ellipsoid, whichever eigendecomposition `eigh` returns.
* `C28_fromAffine` (Props/Shapes3): `from_affine(e.A, e.b)` rebuilds the point set of a non-degenerate ellipsoid, whichever eigendecomposition `eigh` and whichever minimiser `lstsq` returns.
* `C28_singular` (Props/Shapes3): A symmetric matrix that is not positive definite is rejected by `from_shape_matrix`: the code cannot build degenerate ellipsoids from a singular shape matrix.

**C29. Containment constraints match containment (ellipsoid)** (proved). 
Model: `Ellipsoid`, `Ellipsoid.center`, `Ellipsoid.halfExtents`, `Ellipsoid.mustContain`, `Ellipsoid.rotation`.
Specification: `Spec.Orthogonal`, `Spec.ellipsoid`.

* `C29_mustContain` (Props/Shapes): For `s > 0`, `must_contain(q, scale=s)` is satisfied exactly when `q / s` is in the ellipsoid.
* `C29_unit_scale` (Props/Shapes): With the default scale the constraint is containment of the point itself.
* `C29_zero_scale` (Props/Shapes): For scale zero only `q = 0` is allowed.
* `C29_negative_scale` (Props/Shapes): A negative scale is infeasible.

**C30. Containment constraints match containment (polyhedron, cylinder, capsule)** (proved). 
Model: `Box`, `Box.center`, `Box.halfExtents`, `Box.mustContain`, `Box.rotation`, `Capsule`, `Capsule.cylinder`, `Capsule.mustContain`, `Cylinder`, `Cylinder.center`, `Cylinder.contains`, `Cylinder.length`, `Cylinder.mustContain`, `Cylinder.radius`, `Cylinder.rotation`, `Poly`, `Poly.contains`, `Poly.mustContain`.
Specification: `Spec.Orthogonal`, `Spec.Resolved`, `Spec.box`, `Spec.capsule`, `Spec.cylinder`.
Cylinder.contains itself has a built-in 1e-8 slack (C31), so for cylinders and capsules the equivalence is stated with the exact point set; C30_cylinder_contains gives the comparison with contains, C30_cylinder_gap shows that the slack matters.

* `C30_poly` (Props/Shapes2): For a polyhedron and `s > 0`, `must_contain(q, scale=s)` holds exactly when `contains(q / s, tol=0)`.
* `C30_box` (Props/Shapes2): Likewise for a box (as a point set).
* `C30_cylinder` (Props/Shapes2): For a cylinder and `s > 0`, `must_contain(q, scale=s)` holds exactly when `q / s` is in the cylinder; no tolerance is involved.
* `C30_capsule` (Props/Shapes2): For a capsule and `s > 0`, the constraints of `must_contain(q, scale=s)` are satisfiable exactly when `q / s` is in the capsule.
* `C30_com` (Props/Shapes2): The case the docstring advertises
* `C30_cylinder_contains` (Props/Strengthen3): `Cylinder.must_contain(q, scale=s)` implies `contains(q / s)`; the other way round only up to the built-in tolerance of `Cylinder.contains`.
* `C30_cylinder_gap` (Props/Strengthen3): The two tests do differ: at distance `1e-9` outside the unit cylinder `contains` is true and `must_contain` is not satisfiable.

**C31. Cylinder membership** (proved). 
Model: `Cylinder`, `Cylinder.center`, `Cylinder.contains`, `Cylinder.length`, `Cylinder.radius`, `Cylinder.rotation`.
Specification: `Spec.Orthogonal`, `Spec.Resolved`, `Spec.cylinder`.
Extents 0 or > 1e-8; two-sided bounds with the built-in slack.

* `C31_tol_ignored` (Props/Shapes2): The `tol` argument of `Cylinder.contains` has no effect.
* `C31_contains` (Props/Shapes2): Exact description of `Cylinder.contains` in body coordinates `y`, including the built-in tolerance `1e-8`.
* `C31_complete` (Props/Shapes2): Every point of the cylinder is reported as contained ...
* `C31_sound` (Props/Shapes2): ... and every point reported as contained is in the cylinder grown by a relative and absolute margin of about `1e-8`.

**C32. Capsule membership** (proved). 
Model: `Capsule`, `Capsule.contains`, `Capsule.cylinder`, `Cylinder.center`, `Cylinder.length`, `Cylinder.radius`, `Cylinder.rotation`, `tol8`.
Specification: `Spec.Orthogonal`, `Spec.Resolved`, `Spec.ball`, `Spec.capsule`, `Spec.cylinder`, `Spec.rigid`.
Capsule.contains(tol=0) still uses the cylinder's built-in 1e-8 slack, so it contains the exact capsule and is contained in the capsule enlarged by that slack; equality of the exact set with the hull of the end spheres is proved without slack.

* `C32_sound_default` (Props/Rejection): What `Capsule.contains(p)` accepts at the default tolerance is in the slightly grown capsule.
* `C32_union` (Props/Shapes2): The three parts the code tests (two spherical caps and the cylinder) make up exactly the set of points within distance `r` of the axis segment.
* `C32_hull` (Props/Shapes2): The capsule is the convex hull of its two end spheres.
* `C32_complete` (Props/Shapes2): Every point of the capsule is reported as contained (for every tolerance `≥ 0`).
* `C32_sound` (Props/Shapes2): At `tol = 0` every point reported as contained is in the capsule grown by a margin of about `1e-8` (the margin comes from the cylinder part, which ignores `tol`).

**C33. Transform equivariance of shapes** (partial). 
Model: `Box`, `Box.center`, `Box.contains`, `Box.halfExtents`, `Box.rotateAboutCenter`, `Box.rotation`, `Box.transform`, `Capsule`, `Capsule.contains`, `Capsule.cylinder`, `Capsule.transform`, `CddLib`, `Cylinder`, `Cylinder.center`, `Cylinder.contains`, `Cylinder.length`, `Cylinder.radius`, `Cylinder.rotation`, `Cylinder.transform`, `Ellipsoid`, `Ellipsoid.center`, `Ellipsoid.contains`, `Ellipsoid.halfExtents`, `Ellipsoid.rotateAboutCenter`, `Ellipsoid.rotation`, `Ellipsoid.transform`, `Poly`, `Poly.contains`, `Poly.transform`, `Poly.vertices`.
Specification: `Spec.IsCdd`, `Spec.Orthogonal`, `Spec.box`, `Spec.capsule`, `Spec.cylinder`, `Spec.ellipsoid`, `Spec.hull`, `Spec.moved`, `Spec.rigid`.
Boxes, ellipsoids and cylinders: every tolerance. Polyhedra: tolerance 0 (C33_poly_partial); capsules: radius > 1e-8 or tolerance <= 0 (C33_capsule_partial). The rest of the statement is false: C33_poly_tol shows that for tol > 0 the result for outside points depends on cdd's row scaling, C33_capsule_tol shows that every capsule of radius <= 1e-8 fails for every tolerance >= the default 1e-8. Marked partial because the statement as written ('every tolerance') does not hold.

* `C33_poly_partial` (Props/Polydd): `ConvexPolyhedron.transform`: the vertices are moved, and the result contains exactly the images of the points of the polyhedron.
* `C33_poly_compose` (Props/Polydd): Transforms of polyhedra compose like rigid motions.
* `C33_box` (Props/Shapes3): A transformed box answers membership queries (at every tolerance) for moved points as the original did for the original points, and its point set is the moved point set.
* `C33_ellipsoid` (Props/Shapes3): Ellipsoids, in any dimension.
* `C33_cylinder` (Props/Shapes3): Cylinders.
* `C33_capsule_partial` (Props/Shapes3): Capsules.
* `C33_compose` (Props/Shapes3): Transforms compose like rigid motions: transforming by `(R₁, t₁)` and then by `(R₂, t₂)` is transforming by `(R₂ R₁, R₂ t₁ + t₂)`, for all four kinds of shape.
* `C33_defaults` (Props/Shapes3): Omitted arguments mean the identity rotation and no translation.
* `C33_rotateAboutCenter` (Props/Shapes3): Rotating a box or an ellipsoid about its centre moves its point set by the rigid motion `p ↦ R (p - c) + c`.
* `C33_poly_tol` (Props/Tolerance): C33 (polyhedra, positive tolerance).
* `C33_capsule_tol` (Props/Tolerance): C33 (thin capsules, positive tolerance): the claim fails for every capsule with a radius of at most `1e-8` and every tolerance from the default `1e-8` on: some rigid motion and some point violate it.

**C34. Axis-aligned bounding boxes of shapes** (proved). 
Model: `Box`, `Box.aabb`, `Box.center`, `Box.fromPointsToBound`, `Box.halfExtents`, `Box.rotation`, `Capsule`, `Capsule.aabb`, `Capsule.cylinder`, `Cylinder`, `Cylinder.aabb`, `Cylinder.center`, `Cylinder.length`, `Cylinder.radius`, `Cylinder.rotation`, `Ellipsoid`, `Ellipsoid.aabb`, `Ellipsoid.center`, `Ellipsoid.halfExtents`, `Ellipsoid.rotation`, `Poly`, `Poly.vertices`.
Specification: `Spec.Orthogonal`, `Spec.aabox`, `Spec.box`, `Spec.capsule`, `Spec.cylinder`, `Spec.ellipsoid`, `Spec.hull`.

* `C34_poly` (Props/Shapes4): The bounding box of a polyhedron (`Box.from_points_to_bound(self.vertices)`) is the smallest axis-aligned box around the hull of its vertices.
* `C34_box` (Props/Shapes4): The bounding box of a (rotated) box.
* `C34_ellipsoid` (Props/Shapes4): `Ellipsoid.aabb()` is the smallest axis-aligned box around the ellipsoid, degenerate or not; no hypothesis on the rotation is needed.
* `C34_cylinder` (Props/Shapes4): `Cylinder.aabb()` is the smallest axis-aligned box around the cylinder.
* `C34_capsule` (Props/Shapes4): `Capsule.aabb()` is the smallest axis-aligned box around the capsule.

**C35. Inscribed and bounding shapes contain what they claim** (proved). 
Model: `Box`, `Box.center`, `Box.halfExtents`, `Box.mbe`, `Box.mie`, `Box.rotation`, `Capsule`, `Capsule.cylinder`, `Capsule.mbb`, `Cylinder`, `Cylinder.center`, `Cylinder.length`, `Cylinder.mbb`, `Cylinder.mbe`, `Cylinder.mib`, `Cylinder.radius`, `Cylinder.rotation`, `Ellipsoid`, `Ellipsoid.center`, `Ellipsoid.halfExtents`, `Ellipsoid.mbb`, `Ellipsoid.mib`, `Ellipsoid.rotation`.
Specification: `Spec.Orthogonal`, `Spec.box`, `Spec.capsule`, `Spec.cylinder`, `Spec.ellipsoid`.
Box.mbe(sphere=True) included; minimality is the subject of C36-C39.

* `C35_box_mie` (Props/Shapes4): The inscribed ellipsoid (or sphere) of a box is inside the box.
* `C35_box_mbe` (Props/Shapes4): The bounding ellipsoid (or sphere) of a box contains the box.
* `C35_ellipsoid` (Props/Shapes4): An ellipsoid is inside its bounding box and contains its inscribed box.
* `C35_cylinder` (Props/Shapes4): A cylinder contains its inscribed box and is inside its bounding box, its bounding ellipsoid and its bounding sphere.
* `C35_capsule` (Props/Shapes4): A capsule is inside its bounding box.

**C36. Minimum-volume bounding ellipsoid of a box** (proved). 
Model: `Box`, `Box.center`, `Box.halfExtents`, `Box.mbe`, `Box.rotation`, `Cylinder`, `Cylinder.center`, `Cylinder.length`, `Cylinder.mbe`, `Cylinder.radius`, `Cylinder.rotation`, `Ellipsoid`, `Ellipsoid.center`, `Ellipsoid.halfExtents`, `Ellipsoid.rotation`, `Ellipsoid.volume`.
Specification: `Spec.Orthogonal`, `Spec.box`, `Spec.cylinder`, `Spec.ellipsoid`.

* `C36_box_mbe` (Props/Extremal): `Box.mbe()` returns an ellipsoid that contains the box, and no ellipsoid that contains the box has a smaller volume.
* `C36_cylinder_mbe` (Props/Extremal): `Cylinder.mbe()` is the bounding ellipsoid of the inscribed box.

**C37. Maximum-volume inscribed ellipsoid of a box** (proved). 
Model: `Box`, `Box.center`, `Box.halfExtents`, `Box.mie`, `Box.rotation`, `Ellipsoid`, `Ellipsoid.center`, `Ellipsoid.halfExtents`, `Ellipsoid.rotation`, `Ellipsoid.volume`.
Specification: `Spec.Orthogonal`, `Spec.ball`, `Spec.box`, `Spec.ellipsoid`.

* `C37_box_mie` (Props/Extremal): `Box.mie()` returns an ellipsoid inside the box, and no ellipsoid inside the box has a larger volume.
* `C37_box_mie_sphere` (Props/Extremal): `Box.mie(sphere=True)` returns the largest ball inside the box.

**C38. Ellipsoid boxes are optimal** (proved). 
Model: `Box`, `Box.center`, `Box.halfExtents`, `Box.rotation`, `Box.volume`, `Ellipsoid`, `Ellipsoid.center`, `Ellipsoid.halfExtents`, `Ellipsoid.mbb`, `Ellipsoid.mib`, `Ellipsoid.rotation`.
Specification: `Spec.Orthogonal`, `Spec.box`, `Spec.ellipsoid`.

* `C38_ellipsoid_boxes` (Props/Extremal): No box inside an ellipsoid has a larger volume than `mib()`, no box that contains it a smaller volume than `mbb()`, whatever the orientation of the box.

**C39. Bounding spheres** (proved). 
Model: `Box`, `Box.center`, `Box.halfExtents`, `Box.mbe`, `Box.rotation`, `Ellipsoid`, `Ellipsoid.center`, `Ellipsoid.halfExtents`, `Ellipsoid.mbe`, `Ellipsoid.rotation`.
Specification: `Spec.Orthogonal`, `Spec.ball`, `Spec.box`, `Spec.ellipsoid`.

* `C39_ellipsoid_mbe` (Props/Extremal): `Ellipsoid.mbe(sphere=True)` returns a ball that contains the ellipsoid, and every ball that contains the ellipsoid has at least its radius. (The dimension is arbitrary but positive.)
* `C39_box_mbe` (Props/Extremal): `Box.mbe(sphere=True)` returns a ball that contains the box; but it is a smallest such ball exactly if the box is a cube.

**C40. Grids** (proved). 
Model: `Box`, `Box.center`, `Box.fromPointsToBound`, `Box.grid`, `Box.halfExtents`, `Box.polyGrid`, `Box.rotation`, `Box.shapeGrid`, `Ellipsoid`, `Ellipsoid.center`, `Ellipsoid.contains`, `Ellipsoid.halfExtents`, `Ellipsoid.rotation`, `FaceForm.faces`, `Poly`, `Poly.faceForm`, `Poly.vertices`, `tol8`.
Specification: `Spec.Orthogonal`, `Spec.Resolved`, `Spec.box`, `Spec.ellipsoid`, `Spec.halfspaces`, `Spec.rigid`.

* `C40_length` (Props/Sampling): The grid of a box has `n0 * n1 * n2` points.
* `C40_points` (Props/Sampling): The grid points are the images of the evenly spaced points of `[-h, h]³`: coordinate `i` runs through the `n i` points that split the interval into `n i - 1` equal parts.
* `C40_inside` (Props/Sampling): Every grid point lies in the box.
* `C40_corners` (Props/Sampling): With at least two points per direction, all eight corners (in particular opposite ones) are grid points.
* `C40_shape` (Props/Sampling): The grid of any other shape (`Shape.grid`) needs `n > 0` and then consists of exactly the grid points of the bounding box that the shape contains, in the same order and multiplicity.
* `C40_poly` (Props/Sampling): The grid of a polyhedron.
* `C40_ellipsoid` (Props/Sampling): For the model's shapes, a point of `Shape.grid` of an ellipsoid passes its membership test, and grid points of the bounding box that belong to the ellipsoid are kept.

**C41. Random interior points are interior** (proved). 
Model: `Box`, `Box.center`, `Box.halfExtents`, `Box.randomPoint`, `Box.rotation`, `Cylinder`, `Cylinder.center`, `Cylinder.length`, `Cylinder.radius`, `Cylinder.randomPoint`, `Cylinder.randomPoints`, `Cylinder.rotation`, `Ellipsoid`, `Ellipsoid.center`, `Ellipsoid.halfExtents`, `Ellipsoid.randomPoint`, `Ellipsoid.randomPoints`, `Ellipsoid.rotation`, `Poly`, `Poly.contains`, `Poly.randomPoints`, `Poly.vertices`.
Specification: `Spec.Orthogonal`, `Spec.box`, `Spec.cylinder`, `Spec.ellipsoid`, `Spec.hull`.

* `C41_box` (Props/Sampling): A random point of a box lies in the box, for every draw in `[-1, 1]³`.
* `C41_box_onto` (Props/Sampling): Conversely every point of the box is produced by some draw.
* `C41_ellipsoid_ball` (Props/Sampling): A random point of an ellipsoid lies in the ellipsoid, for every point of the unit ball drawn.
* `C41_cylinder_disk` (Props/Sampling): A random point of a cylinder lies in the cylinder, for every draw.
* `C41_poly` (Props/Sampling): A random point of a polyhedron is a point of the convex hull of its vertices, whatever non-negative weights are drawn.
* `C41_poly_contains` (Props/Sampling): Such a point passes the polyhedron's own membership test at any non-negative tolerance.
* `C41_ellipsoid` (Props/Sampling2): `Ellipsoid.random_points` returns points of the ellipsoid for every draw.
* `C41_cylinder` (Props/Sampling2): `Cylinder.random_points` returns points of the cylinder for every draw.

**C42. Random surface and edge points** (proved). 
Model: `Box`, `Box.center`, `Box.halfExtents`, `Box.randomPointsOnEdges`, `Box.randomPointsOnSurface`, `Box.rotation`, `Ellipsoid`, `Ellipsoid.center`, `Ellipsoid.halfExtents`, `Ellipsoid.onSurface`, `Ellipsoid.randomPointsOnSurface`, `Ellipsoid.randomSurfacePoint`, `Ellipsoid.rotation`, `Ellipsoid.surfaceAccept`.
Specification: `Spec.Orthogonal`, `Spec.box`, `Spec.ellipsoid`, `Spec.rigid`.
The failing cases are proved with rational witnesses; C42_surface_ok lists exactly when the call raises.

* `C42_edges` (Props/Sampling2): `random_points_on_edges` returns `n` points, each on an edge of the box, for every draw and every way of distributing the points over the edges.
* `C42_edges_ok` (Props/Sampling2): A box of zero size has no edges to sample
* `C42_surface_centred` (Props/Sampling2): For an axis-aligned box centred at the origin, `random_points_on_surface` returns `n` points on the surface, for every draw.
* `C42_surface_ok` (Props/Sampling2): `random_points_on_surface` fails with `IndexError` for a request of one point, with `ValueError` for a box of zero surface area, and returns otherwise.
* `C42_surface_translated_wrong` (Props/Sampling2): An off-centre box
* `C42_surface_rotated_wrong` (Props/Sampling2): A rotated box centred at the origin is no better (the rotation is applied twice).
* `C42_ellipsoid_symmetric` (Props/Sampling2): The surface points of an ellipsoid whose rotation matrix is symmetric (in particular the identity) lie on its surface.
* `C42_ellipsoid_sphere` (Props/Sampling2): For a sphere the rotation does not matter.
* `C42_ellipsoid_inverse` (Props/Sampling2): In general the returned points lie on the surface of the ellipsoid with the *inverse* rotation, and are on the surface of the requested one only by accident.
* `C42_ellipsoid_wrong` (Props/Sampling2): A rotated ellipsoid and a draw for which the returned point is not even in the ellipsoid.
* `C42_ellipsoid_surface` (Props/Sampling2): `Ellipsoid.random_points_on_surface` as a whole, for a symmetric rotation matrix: the points returned satisfy the surface test (C43) at zero tolerance whenever the half extents are above `1e-8`.
* `C42_acceptance` (Props/Sampling2): The acceptance threshold `g` of the rejection step is a probability, so that every value of the uniform draw leads to a decision

**C43. Surface predicates** (proved). 
Model: `Box`, `Box.center`, `Box.halfExtents`, `Box.onSurface`, `Box.rotation`, `Ellipsoid`, `Ellipsoid.center`, `Ellipsoid.halfExtents`, `Ellipsoid.onSurface`, `Ellipsoid.rotation`.
Specification: `Spec.Orthogonal`, `Spec.Resolved`, `Spec.box`, `Spec.ellipsoid`, `Spec.rigid`.
Half extents 0 or > 1e-8 for ellipsoids.

* `C43_box` (Props/Surface): `Box.on_surface` at zero tolerance accepts exactly the points of the box with a body coordinate at its bound.
* `C43_box_tol` (Props/Surface): With a tolerance, every reported point is in the box grown by the tolerance and has a body coordinate within the tolerance of its bound.
* `C43_ellipsoid` (Props/Surface): For a non-degenerate ellipsoid `on_surface` accepts exactly the image of the unit sphere.
* `C43_degenerate` (Props/Surface): A degenerate ellipsoid is all surface.
* `C43_box_frontier` (Props/Surface): The points reported by `Box.on_surface` are the topological boundary of the box.
* `C43_ellipsoid_frontier` (Props/Surface): The points reported by `Ellipsoid.on_surface` are the topological boundary of the ellipsoid, for degenerate and non-degenerate ellipsoids of any dimension.

**C44. Polyhedron-in-shape test** (proved). 
Model: `Box`, `Box.center`, `Box.contains`, `Box.halfExtents`, `Box.rotation`, `Capsule`, `Capsule.containsPolyhedron`, `Capsule.cylinder`, `Cylinder`, `Cylinder.center`, `Cylinder.contains`, `Cylinder.length`, `Cylinder.radius`, `Cylinder.rotation`, `Ellipsoid`, `Ellipsoid.center`, `Ellipsoid.contains`, `Ellipsoid.halfExtents`, `Ellipsoid.rotation`, `Poly`, `Poly.contains`, `Poly.containsPolyhedron`, `Poly.vertices`.
Specification: `Spec.Orthogonal`, `Spec.Resolved`, `Spec.box`, `Spec.capsule`, `Spec.cylinder`, `Spec.ellipsoid`, `Spec.hull`.
For cylinders and capsules contains has a built-in 1e-8 slack, so next to the exact equivalence with contains on every hull point the set-theoretic statement is two-sided.

* `C44_poly_tol` (Props/Sampling): `ConvexPolyhedron.contains_polyhedron` at every tolerance.
* `C44_poly` (Props/Sampling): At zero tolerance, `ConvexPolyhedron.contains_polyhedron` is inclusion of point sets.
* `C44_box` (Props/Sampling): `Box.contains_polyhedron` is inclusion in the box grown by the tolerance.
* `C44_ellipsoid_tol` (Props/Sampling): `Ellipsoid.contains_polyhedron` at every tolerance.
* `C44_ellipsoid` (Props/Sampling): At zero tolerance, `Ellipsoid.contains_polyhedron` is inclusion of point sets.
* `C44_cylinder` (Props/Sampling): `Cylinder.contains_polyhedron`: the vertex test decides the test on the whole polyhedron; polyhedra inside the cylinder are accepted, and accepted polyhedra lie in the cylinder grown by the fixed tolerance.
* `C44_capsule` (Props/Sampling): `Capsule.contains_polyhedron` (at zero tolerance for the caps; the cylinder always uses `1e-8`): polyhedra inside the capsule are accepted, accepted polyhedra lie in the slightly grown capsule.

**C45. Shape equality** (proved). 
Model: `AnyShape`, `AnyShape.box`, `AnyShape.capsule`, `AnyShape.cylinder`, `AnyShape.isSame`, `AnyShape.poly`, `Box`, `Box.center`, `Box.halfExtents`, `Box.rotation`, `Capsule`, `Cylinder`, `Cylinder.center`, `Cylinder.length`, `Cylinder.radius`, `Cylinder.rotation`, `Ellipsoid`, `Ellipsoid.Q`, `Ellipsoid.center`, `Ellipsoid.halfExtents`, `Ellipsoid.isSame`, `Ellipsoid.rotation`, `Poly`, `Poly.isSame`, `Poly.vertices`, `tol8`.
Specification: `Spec.Orthogonal`, `Spec.Resolved`, `Spec.box`, `Spec.cylinder`, `Spec.ellipsoid`, `Spec.hull`.
numpy.allclose keeps rtol=1e-5 even when tol=0, so for ellipsoids 'same set' is equivalent to Q = Q' (exact) and is_same to closeness of Q and Q' (C45_ellipsoid).

* `C45_poly` (Props/Same): With exact arithmetic (`tol=0`), `is_same` on polyhedra holds exactly if they are the same set.
* `C45_poly_tol` (Props/Same): With any tolerance `is_same` holds on polyhedra that are the same set, however they are represented.
* `C45_box` (Props/Same): Two boxes are the same for `is_same` (`tol=0`) exactly if they are the same set.
* `C45_box_poly` (Props/Same): `is_same` is not symmetric: a polyhedron that is a given box is the same as the box, with any tolerance, but the box is not the same as the polyhedron.
* `C45_capsule` (Props/Same): Comparing two capsules always raises `TypeError`; so does passing a tolerance to a cylinder.
* `C45_cylinder_tol` (Props/Same): `Cylinder.is_same` has no `tol` parameter, so passing one raises `TypeError`.
* `C45_cylinder_refl` (Props/Same): A cylinder is the same as itself, and as any cylinder with close attributes.
* `C45_cylinder_flip` (Props/Same): `Cylinder.is_same` compares rotations, so there are cylinders that are the same point set (described with the opposite axis) but not the same.
* `C45_ellipsoid` (Props/Same): For ellipsoids whose half extents all exceed `1e-8`, `is_same` compares the matrices `Q` entry by entry (up to the absolute tolerance given and a relative tolerance of `1e-5`), and these agree exactly if the ellipsoids are the same point set.
* `C45_ellipsoid_same` (Props/Same): Two descriptions of the same ellipsoid are recognized, whatever the rotations and the order of the half extents.
* `C45_degenerate` (Props/Same): An ellipsoid with a degenerate axis (half extent at most `1e-8`) that is orthogonal to some coordinate axis is not the same as itself, with any tolerance, because `0 * inf` is `nan`.
* `C45_degenerate_aligned` (Props/Same): In particular no axis-aligned degenerate ellipsoid in two or more dimensions is the same as itself.
* `C45_degenerate_points` (Props/Same): On the other hand different degenerate ellipsoids can be the same: all single points on the positive half of the line are.
* `C45_degenerate_disks` (Props/Same): Two parallel disks of different radii in different planes are the same.
* `C45_cylinder_iff` (Props/Strengthen2): Two cylinders are the same exactly when length, radius, centre and rotation agree to a relative tolerance of `1e-5` plus an absolute one of `1e-8`.
* `C45_degenerate_self` (Props/Strengthen4): A segment in the plane, in general position, is the same as itself exactly if both coordinates of its center have the same sign: otherwise `Q` contains the difference of two infinities.

**C46. Ellipsoid-in-ellipsoid test** (proved). 
Model: `Ellipsoid`, `Ellipsoid.A`, `Ellipsoid.S`, `Ellipsoid.b`, `Ellipsoid.center`, `Ellipsoid.containsEllipsoidProblem`, `Ellipsoid.halfExtents`, `Ellipsoid.rotation`, `cvxPsd`, `schur`.
Specification: `Spec.Orthogonal`, `Spec.ellipsoid`.
The posed problem is characterised exactly for centred spheres (C46_spheres) and refuted in both directions (C46_wrong). For all non-degenerate pairs C46_decides says exactly which containment the posed problem decides when the posed quadratic inequality has an interior point; for ellipsoids around the origin it is that of the ellipsoid with the square roots of the half extents (C46_centred). The corrected S-procedure condition is proved sound and complete (C46_intended_sound, C46_intended_exact).

* `C46_spheres` (Props/Optim2): For centred spheres the test posed by `contains_ellipsoid` succeeds iff `r ≤ R ^ 2`, in any dimension.
* `C46_wrong` (Props/Optim2): The test accepts a sphere that sticks out, and rejects one that is contained.
* `C46_intended_sound` (Props/Optim2): The test intended in the cited textbook, with `other.S` and `other.A @ other.b` in place of `other.A` and `self.b`, is sound: a feasible multiplier proves containment.
* `C46_intended_exact` (Props/Optim3): The test intended in the cited textbook is right: a multiplier exists exactly when `other` is a subset.
* `C46_decides` (Props/Optim3): Exactly what `contains_ellipsoid` decides for non-degenerate ellipsoids.
* `C46_centred` (Props/Optim3): For any two ellipsoids around the origin the test asks whether the ellipsoid with the *square roots* of the half extents of `other` is contained in `self`.

**C47. Bounding ellipsoid of ellipsoids** (proved). 
Model: `Capsule`, `Capsule.cylinder`, `Capsule.mbe`, `Cylinder.center`, `Cylinder.length`, `Cylinder.radius`, `Cylinder.rotation`, `Eigh`, `Ellipsoid`, `Ellipsoid.A`, `Ellipsoid.S`, `Ellipsoid.b`, `Ellipsoid.center`, `Ellipsoid.halfExtents`, `Ellipsoid.rotation`, `MbeeVars`, `MbeeVars.S`, `cvxNsd`, `mbeOfEllipsoids`, `mbeeFeasible`.
Specification: `Spec.IsEigh`, `Spec.Orthogonal`, `Spec.PSD`, `Spec.ball`, `Spec.capsule`, `Spec.ellipsoid`, `Spec.rigid`.
mbe_of_ellipsoids as written is refuted (C47_sphere); what it does guarantee for spheres is C47_spheres_guarantee. C47_feasible_iff says exactly which containments the posed constraints stand for, C47_centred that for ellipsoids around the origin these are the ellipsoids with the square roots of the half extents. The corrected constraint is sound (C47_intended) and complete (C47_intended_exact).

* `C47_intended` (Props/Optim2): The constraint intended in the cited textbook, with `S` and `A b` of the inner ellipsoid in place of `A` and `b`, is right: every feasible answer defines an ellipsoid that contains the given one.
* `C47_spheres_guarantee` (Props/Optim2): For spheres the constraint posed bounds, instead of the sphere of radius `r` around `c`, the sphere around `c` with squared radius `r + |c|² - |c|² / r`: that is what every feasible answer contains.
* `C47_unit_spheres` (Props/Optim2): For unit spheres the code is right: every feasible answer contains all of them.
* `C47_sphere` (Props/Optim2): For a single sphere of radius `r` around the origin the optimum of the program posed is the sphere of radius `√r`
* `C47_capsule` (Props/Optim2): The bounding ellipsoid of a capsule of unit radius contains the capsule, for every feasible answer.
* `C47_intended_exact` (Props/Optim3): The intended constraint holds, for some multiplier, exactly when the ellipsoid it describes contains the given one; hence minimising the volume over it gives the smallest ellipsoid around the given ones.
* `C47_feasible_iff` (Props/Optim3): Exactly what the constraints of `mbe_of_ellipsoids` mean for any list of data `(A, b)` with `A` definite and solvable inequalities
* `C47_centred` (Props/Optim3): For ellipsoids around the origin the program bounds, instead of the given ellipsoids, those with the *square roots* of their half extents, and every such bound is feasible: its optimum is the smallest ellipsoid around these.

**C48. Bounding ellipsoid of points** (proved). 
Model: `Eigh`, `Ellipsoid`, `Ellipsoid.center`, `Ellipsoid.halfExtents`, `Ellipsoid.rotation`, `Ellipsoid.volume`, `Lstsq`, `MbeResult`, `MbeResult.numeric`, `MbeResult.symbolic`, `MbeVars`, `MbeVars.A`, `MbeVars.a`, `NullSpace`, `Orth`, `Poly`, `Poly.contains`, `Poly.mbe`, `centred`, `mbeFeasible`, `mbeOfPoints`, `project`.
Specification: `Spec.IsEigh`, `Spec.IsLstsq`, `Spec.IsNullSpace`, `Spec.IsOrth`, `Spec.Orthogonal`, `Spec.ellipsoid`, `Spec.hull`.
sphere=False for the containment claim; with sphere=True the code overwrites the offset r with the cvxpy variable (C48_sphere_displaced, C48_sphere_wrong). The conic solver is an oracle returning a feasible point.

* `C48_contains` (Props/Optim): For every feasible answer of the solver and all valid outputs of `orth`, `null_space`, `eigh` and `lstsq`, `mbe_of_points` returns an ellipsoid that contains every input point.
* `C48_sphere_displaced` (Props/Optim): With `sphere=True` the ellipsoid computed is a bounding sphere `e₀` (of the affine hull) displaced by `a - r`, where `r` is the first point and `a` the inverse radius: the code has overwritten `r` by a cvxpy variable.
* `C48_sphere_wrong` (Props/Optim): Hence the sphere misses the first point as soon as that point is further than a diameter away from `(a, …, a)`.
* `C48_empty` (Props/Optim): Without points there is no first point to centre on.
* `C48_minimal` (Props/Optim): If the answer of the solver is optimal, no ellipsoid that contains the points (degenerate or not, at any pose) has a smaller volume than the one returned.
* `C48_poly` (Props/Optim): `ConvexPolyhedron.mbe` contains the whole polyhedron.

**C49. Maximum inscribed ellipsoid of a polyhedron** (proved). 
Model: `CddLib`, `Eigh`, `Ellipsoid`, `Ellipsoid.center`, `Ellipsoid.halfExtents`, `Ellipsoid.rotation`, `Ellipsoid.volume`, `FaceForm`, `FaceForm.faces`, `MieVars`, `MieVars.B`, `NullSpace`, `Orth`, `Poly`, `Poly.contains`, `Poly.mie`, `Poly.vertices`, `SpanForm.init`, `SpanForm.toFaceForm`, `centred`, `mieFeasible`, `mieInequalityForm`, `norm2`, `project`.
Specification: `Spec.IsCdd`, `Spec.IsEigh`, `Spec.IsNullSpace`, `Spec.IsOrth`, `Spec.Orthogonal`, `Spec.ellipsoid`, `Spec.halfspaces`.
Solver is an oracle; the code needs eigenvalues of B^-1 above 1e-8, hence the hypothesis |B v| < 1e8 |v|.

* `C49_inside` (Props/Optim): For every feasible answer of the solver, the ellipsoid returned by `mie_inequality_form(A, b)` lies inside `{x | A x ≤ b}`.
* `C49_ok` (Props/Optim): The call succeeds unless the ellipsoid is longer than `1e8` in some direction.
* `C49_maximal` (Props/Optim): If the answer of the solver is optimal, no ellipsoid inside the polyhedron (degenerate or not, at any pose) has a larger volume than the one returned.
* `C49_poly` (Props/Optim): `ConvexPolyhedron.mie` lifts the ellipsoid into the affine hull: the result lies in the polyhedron, whatever its dimension.

**C50. Ellipsoid realizability test is exact** (proved). 
Model: `Ellipsoid`, `Ellipsoid.canRealize`, `Ellipsoid.center`, `Ellipsoid.halfExtents`, `Ellipsoid.rotation`, `IP`, `IP.H`, `IP.J`, `IP.consistent`, `IP.h`, `IP.mass`.
Specification: `Spec.Orthogonal`, `Spec.PSD`, `Spec.Realizable`, `Spec.Resolved`, `Spec.ellipsoid`, `Spec.secondAbout`.
Half extents 0 or > 1e-8; C50_unresolved shows the AssertionError below that. For degenerate ellipsoids the code's isclose accepts a slack of 1e-8 (C50_degenerate_gap); with the trace equality taken exactly the test is exact.

* `C50_exact_eps` (Props/Realize): On a non-degenerate ellipsoid `can_realize(params, eps)` never fails, and it is `True` exactly when some non-negative point masses inside the ellipsoid have these parameters and the eigenvalues of `J` are at least `eps`. (For `eps = 0` the second condition follows from the first one, see `C50_exact`.)
* `C50_exact` (Props/Realize): `can_realize(params)` decides realizability on a non-degenerate ellipsoid.
* `C50_degenerate` (Props/Realize): On a degenerate ellipsoid `can_realize(params, eps)` never fails and is `True` exactly when `J` is PSD (up to `eps`), and the two trace conditions hold, the second one up to the absolute tolerance `1e-8` on the total spread of mass along the flat directions.
* `C50_degenerate_eps` (Props/Realize): Asking for a margin `eps > 1e-8` makes `can_realize` of a degenerate ellipsoid always `False`.
* `C50_unresolved` (Props/Realize): Half extents that are nonzero but at most `1e-8` make `can_realize` fail its assertion that `Q` is finite (for a non-degenerate ellipsoid and consistent parameters).
* `C50_degenerate_gap` (Props/Realize): Because of the tolerance, the degenerate test accepts bodies that are not realizable: a unit disk is said to realize a body with a little mass outside its plane.

**C51. Ellipsoid realizability constraints are exact** (proved). 
Model: `Ellipsoid`, `Ellipsoid.canRealize`, `Ellipsoid.center`, `Ellipsoid.halfExtents`, `Ellipsoid.momentConstraints`, `Ellipsoid.rotation`, `IP`, `IP.H`, `IP.J`, `IP.h`, `IP.mass`, `IP.vec`, `ParamVar.mat`, `ParamVar.vec`.
Specification: `Spec.Orthogonal`, `Spec.PSD`, `Spec.Realizable`, `Spec.Resolved`, `Spec.ellipsoid`.
Half extents 0 or > 1e-8 (C51_unresolved). Agreement with can_realize for non-degenerate ellipsoids; for degenerate ones they differ by can_realize's 1e-8 slack.

* `C51_mat` (Props/Realize): The constraints on a `(4, 4)` variable never fail to build (resolved half extents, `eps ≥ 0`), and a value `J` satisfies them exactly when `J - eps 1` is PSD and the mass, first and second moments stored in `J` are realizable on the ellipsoid.
* `C51_vec` (Props/Realize): On the parameter vector of a body the constraints on a `(10,)` variable say the same thing.
* `C51_agrees` (Props/Realize): The constraints agree with `can_realize` on a non-degenerate ellipsoid.
* `C51_degenerate_eps` (Props/Realize): With `eps > 0` the constraints of a degenerate ellipsoid cannot be satisfied at all.
* `C51_unresolved` (Props/Realize): Half extents in `(0, 1e-8]` make the constraint builder fail.

**C52. Polyhedron moment relaxation is necessary** (proved). 
Model: `FaceForm.faces`, `IP`, `IP.H`, `IP.J`, `IP.h`, `IP.mass`, `IP.vec`, `ParamVar.mat`, `ParamVar.vec`, `Poly`, `Poly.faceForm`, `Poly.momentSdpConstraints`, `bordered`.
Specification: `Spec.LocalizedPSD`, `Spec.PSD`, `Spec.Realizable`, `Spec.halfspaces`.
Every face row must be non-trivial: a row 0.x <= 0 makes the code raise ValueError (C52_trivial_row).

* `C52_relaxation` (Props/Moment3): What `moment_sdp_constraints` of order `d` says about the mass `m`, first moment `h` and second moment `H` in the variable: it is the Lasserre relaxation of order `d`, that is, there are numbers `y α` (pseudo-moments) that extend `m`, `h` and `H` such that the functional `L(x ^ α) = y α` is non-negative on `q²` for `q` of degree at most `d`, and on `(b - a ⬝ᵥ x) q²` for all faces `(a, b)` and `q` of degree at most `d - 1`.
* `C52_com` (Props/Moment3): In particular every feasible value is the pseudo-inertia matrix of mass, first and second moments that are PSD, and for positive mass the centre of mass lies in the polyhedron.
* `C52_necessary` (Props/Realize4): Every mass distribution inside a polyhedron satisfies `moment_sdp_constraints` at every order `d ≥ 1`, for both kinds of variable.
* `C52_trivial_row` (Props/Realize4): A trivial row `0 ≤ 0` in the face form makes the builder fail with `ValueError` (`degree` of the zero polynomial).

**C53. Polyhedron vertex constraints are necessary** (proved). 
Model: `IP`, `IP.H`, `IP.J`, `IP.h`, `IP.mass`, `IP.vec`, `ParamVar.mat`, `ParamVar.vec`, `Poly`, `Poly.momentVertexConstraints`, `Poly.vertices`.
Specification: `Spec.PSD`, `Spec.PointMasses`, `Spec.PointMasses.Nonneg`, `Spec.PointMasses.first`, `Spec.PointMasses.mass`, `Spec.PointMasses.second`, `Spec.Realizable`, `Spec.hull`.
With eps > 0 necessity needs J - eps I PSD of the distribution, as the constraint itself asks for it.

* `C53_necessary` (Props/Realize2): Every mass distribution inside the convex hull of the vertices satisfies `moment_vertex_constraints`, for the `(4, 4)` and the `(10,)` variable (if `eps > 0`, provided that the eigenvalues of its pseudo-inertia matrix are at least `eps`).
* `C53_com` (Props/Realize2): Whenever the constraints hold and the mass is positive, the centre of mass lies in the polyhedron, and the second moment is bounded by that of point masses at the vertices.
* `C53_default` (Props/Strengthen): C53 with the default `eps`: a body whose mass lies in the hull of the vertices satisfies the vertex constraints, as a matrix and as a vector.

**C54. Box custom vertex constraints are necessary** (proved). 
Model: `Box`, `Box.center`, `Box.halfExtents`, `Box.mbe`, `Box.momentCustomVertexConstraints`, `Box.rotation`, `Ellipsoid`, `Ellipsoid.center`, `Ellipsoid.halfExtents`, `Ellipsoid.rotation`, `IP`, `IP.H`, `IP.J`, `IP.h`, `IP.mass`, `IP.vec`, `ParamVar.mat`, `ParamVar.vec`.
Specification: `Spec.Orthogonal`, `Spec.PSD`, `Spec.Realizable`, `Spec.box`, `Spec.ellipsoid`.
With eps > 0 necessity needs J - eps I PSD.

* `C54_necessary` (Props/Realize2): Every mass distribution inside a box satisfies `moment_custom_vertex_constraints`, for the `(4, 4)` and the `(10,)` variable (if `eps > 0`, provided that the eigenvalues of its pseudo-inertia matrix are at least `eps`).
* `C54_com` (Props/Realize2): Whenever the constraints hold and the mass is positive, the centre of mass lies in the box.
* `C54_mbe` (Props/Realize2): Parameters that satisfy the box constraints are realizable on the bounding ellipsoid `Box.mbe()`.
* `C54_default` (Props/Strengthen): C54 with the default `eps`.

**C55. Cylinder constraints are necessary** (proved). 
Model: `Cylinder`, `Cylinder.center`, `Cylinder.length`, `Cylinder.momentCustomVertexConstraints`, `Cylinder.momentSdpConstraints`, `Cylinder.radius`, `Cylinder.rotation`, `IP`, `IP.H`, `IP.J`, `IP.h`, `IP.mass`, `IP.vec`, `ParamVar`, `ParamVar.mat`, `ParamVar.vec`.
Specification: `Spec.Orthogonal`, `Spec.Realizable`, `Spec.Resolved`, `Spec.cylinder`.
The custom vertex constraints are also sufficient (C88). Radius 0 or > 1e-8 for the custom vertex constraints.

* `C55_sdp_com` (Props/Moment3): `moment_sdp_constraints` of a cylinder keeps the centre of mass in the cylinder.
* `C55_vertex_necessary` (Props/Realize3): Every mass distribution inside a cylinder (with zero or resolved radius) satisfies `moment_custom_vertex_constraints` with `eps = 0`, for both kinds of variable.
* `C55_vertex_com` (Props/Realize3): Whenever `moment_custom_vertex_constraints` holds and the mass is positive, the centre of mass lies in the cylinder.
* `C55_vertex_eps` (Props/Realize3): With `eps > 0` the vertex constraints of a cylinder cannot be satisfied: the margin is also imposed on the two (flat) disks.
* `C55_sdp_necessary` (Props/Realize4): Every mass distribution inside a cylinder satisfies `moment_sdp_constraints` at every order `d ≥ 1`, for both kinds of variable.

**C56. Multi-shape body constraints** (proved). 
Model: `AnyShape`, `AnyShape.capsule`, `AnyShape.ellipsoid`, `Capsule`, `Ellipsoid`, `IP`, `IP.H`, `IP.J`, `IP.h`, `IP.mass`, `IP.vec`, `ParamVar.mat`, `ParamVar.vec`, `RigidBody`, `RigidBody.momentSdpConstraints`, `RigidBody.shapes`.
Specification: `Spec.PSD`, `Spec.Realizable`, `Spec.bodyRegion`.
Shapes must have moment_sdp_constraints (a Capsule has none and raises AttributeError, C79_capsule).

* `C56_necessary` (Props/RigidBody): Every mass distribution on the union of the shapes of a body satisfies `RigidBody.moment_sdp_constraints`, for the `(4, 4)` and the `(10,)` variable and at every relaxation order `d >= 1` (if `eps > 0`, provided that the eigenvalues of its pseudo-inertia matrix are at least `eps`).
* `C56_ellipsoids` (Props/RigidBody): If every shape of the body is an ellipsoid the constraints are exact: they hold exactly when `J` minus `eps I` is PSD and `J` is the pseudo-inertia matrix of some mass distribution on the union of the ellipsoids.
* `C56_no_shapes` (Props/RigidBody): A body without shapes accepts only the zero matrix.
* `C56_capsule` (Props/RigidBody): With a capsule among the shapes the method raises `AttributeError` (a capsule has no `moment_sdp_constraints`), provided the other shapes are usable.
* `C56_default` (Props/Strengthen): C56 with the default `eps` and order.

**C57. Uniform-density parameters** (proved). 
Model: `Box`, `Box.center`, `Box.halfExtents`, `Box.rotation`, `Box.uniformDensityParams`, `Cylinder`, `Cylinder.center`, `Cylinder.length`, `Cylinder.radius`, `Cylinder.rotation`, `Cylinder.uniformDensityParams`, `Ellipsoid`, `Ellipsoid.center`, `Ellipsoid.halfExtents`, `Ellipsoid.rotation`, `Ellipsoid.uniformDensityParams`, `IP`, `IP.H`, `IP.h`, `IP.mass`.
Specification: `Spec.HasMoments`, `Spec.Orthogonal`, `Spec.box`, `Spec.cylinder`, `Spec.ellipsoid`, `Spec.rigid`, `Spec.uniform`.
Proved with Lebesgue integrals. A degenerate ellipsoid (disk) gets r^2/5 instead of r^2/4 (C57_disk_wrong), so the claim is for shapes of positive volume and for the degenerate boxes and cylinders treated separately.

* `C57_box` (Props/Density): Boxes of positive extents.
* `C57_cylinder` (Props/Density): Cylinders of positive length and radius.
* `C57_ellipsoid` (Props/Density): Ellipsoids of positive extents.
* `C57_box_flat` (Props/Density): Flat boxes (plates, rods) too.
* `C57_cylinder_flat` (Props/Density): And flat cylinders (disks, rods).
* `C57_disk_wrong` (Props/Density): For the disk obtained as a flat ellipsoid, the method does not return the moments of a disk of uniform density (it gives `m r²/5` instead of `m r²/4`, the value of `Cylinder` of length zero).

**C58. Surface and edge densities** (proved). 
Model: `Box`, `Box.center`, `Box.halfExtents`, `Box.hollowDensityParams`, `Box.rotation`, `Box.wireframeDensityParams`, `Ellipsoid.hollowDensityParams`, `IP`, `IP.H`, `IP.h`, `IP.mass`.
Specification: `Spec.CarriedBy`, `Spec.HasMoments`, `Spec.Orthogonal`, `Spec.boxEdges`, `Spec.boxFaces`, `Spec.evenly`, `Spec.rigid`, `Spec.uniform`.
Surface and edge integrals are iterated interval integrals over faces and edges. Ellipsoid.hollow_density_params is additionally analysed: right for spheres, not for other ellipsoids.

* `C58_hollow` (Props/Shells): The parameters of a hollow box are the moments of the mass spread evenly over its surface, whenever the surface has an area.
* `C58_wireframe` (Props/Shells): The parameters of a wireframe box are the moments of the mass spread evenly over its edges, whenever they have a length.
* `C58_nonfinite` (Props/Shells): The methods produce NaN exactly for boxes without area, respectively length.
* `C58_area` (Props/Shells): In terms of the extents: no area means at least two zero extents, no length means three.
* `C58_sphere_shell` (Props/Shells): The parameters of a spherical shell are those of any distribution of the mass on the sphere that is invariant under rotations about the centre.
* `C58_disk_shell_wrong` (Props/Shells): The formula for shells of ellipsoids is not that of an even distribution over the surface.

**C59. Density parameters are realizable** (proved). 
Model: `AnyShape`, `AnyShape.box`, `AnyShape.capsule`, `AnyShape.cylinder`, `AnyShape.ellipsoid`, `AnyShape.poly`, `Box`, `Box.center`, `Box.halfExtents`, `Box.hollowDensityParams`, `Box.rotation`, `Box.toPoly`, `Box.uniformDensityParams`, `Box.wireframeDensityParams`, `Capsule`, `Cylinder`, `Cylinder.center`, `Cylinder.length`, `Cylinder.radius`, `Cylinder.rotation`, `Cylinder.uniformDensityParams`, `Ellipsoid`, `Ellipsoid.canRealize`, `Ellipsoid.center`, `Ellipsoid.halfExtents`, `Ellipsoid.hollowDensityParams`, `Ellipsoid.momentConstraints`, `Ellipsoid.rotation`, `Ellipsoid.uniformDensityParams`, `IP`, `IP.H`, `IP.J`, `IP.consistent`, `IP.h`, `IP.mass`, `IP.vec`, `ParamVar.mat`, `ParamVar.vec`, `Poly`, `Poly.vertexPointMassParams`, `Poly.vertices`, `RigidBody.momentSdpConstraints`.
Specification: `Spec.Orthogonal`, `Spec.Realizable`, `Spec.Resolved`, `Spec.box`, `Spec.cylinder`, `Spec.ellipsoid`, `Spec.region`, `Spec.rigid`.

* `C59_box` (Props/DensityRealizable): The three density methods of a box, whenever they return, return parameters that are realizable on the box.
* `C59_cylinder` (Props/DensityRealizable): Cylinders.
* `C59_ellipsoid_uniform` (Props/DensityRealizable): The uniform density of an ellipsoid, flat or not.
* `C59_ellipsoid_hollow` (Props/DensityRealizable): The shell of an ellipsoid, flat or not, although it is not an even distribution over the surface, is realizable on the surface.
* `C59_vertices` (Props/DensityRealizable): The vertex point masses of a polyhedron, given as a total mass or as one mass per vertex.
* `C59_consistent` (Props/DensityRealizable): Such parameters are physically consistent, and pass the tests of their shapes.
* `C59_can_realize` (Props/DensityRealizable): `can_realize` of an ellipsoid accepts its uniform and its hollow parameters.
* `C59_constraints` (Props/DensityRealizable): The constraints that a body made of one shape poses accept the parameters of the shape's densities, at every order of the relaxation.

**C60. Continuous bodies reduce to point masses** (proved). 
Model: `AnyShape`.
Specification: `Spec.CarriedBy`, `Spec.HasMoments`, `Spec.Realizable`, `Spec.bodyRegion`.
Compact sets, as stated.

* `C60_point_masses` (Props/Measure): The mass, first and second moments of a finite measure carried by a compact set are those of a finite system of non-negative point masses in the set.
* `C60_measure` (Props/Measure): Conversely, point masses are a measure, so the moments of point-mass systems in a set are exactly the moments of finite measures carried by it.
* `C60_iff` (Props/Measure): Both directions.
* `C60_shapes` (Props/Measure): The region of a shape of any class is compact, so this applies to it and to bodies made of such shapes.

**C61. Double-description conversions** (proved). 
Model: `CddLib`, `CddLib.canonicalizeIneq`, `CddMat`, `CddMat.rows`, `FaceForm`, `FaceForm.canonical`, `FaceForm.faces`, `FaceForm.fromCdd`, `FaceForm.init`, `FaceForm.toCdd`, `FaceForm.toSpanForm`, `SpanForm`, `SpanForm.canonical`, `SpanForm.fromCdd`, `SpanForm.init`, `SpanForm.toCdd`, `SpanForm.toFaceForm`, `tol8`.
Specification: `Spec.IsCdd`, `Spec.LinInRange`, `Spec.WfGen`, `Spec.genSet`, `Spec.generated`, `Spec.halfspaces`, `Spec.ineqSet`, `Spec.linRows`, `Spec.plainRows`, `Spec.spanned`.
cdd is an oracle with contract Spec.IsCdd where it is called.

* `C61_span_init` (Props/Polydd): `SpanForm.__init__` describes the polyhedron generated by the vertices, rays and lines passed to it: the `span` generators become pairs of opposite rays without changing the set.
* `C61_face_init` (Props/Polydd): `FaceForm.__init__` describes the solutions of the inequalities and equations passed to it.
* `C61_span_from_cdd` (Props/Polydd): `SpanForm.from_cdd_matrix` of a well formed generator matrix, with any linearity set, describes the polyhedron of the matrix; a matrix without rows (an empty polyhedron) gives `None`.
* `C61_span_from_cdd_assert` (Props/Polydd): A linearity row of a generator matrix that is not a direction is rejected.
* `C61_face_from_cdd` (Props/Polydd): `FaceForm.from_cdd_matrix` of an inequality matrix, with any linearity set, describes the solutions of the matrix; it fails if there are no rows outside the linearity set.
* `C61_face_roundtrip` (Props/Polydd): `FaceForm.to_cdd_matrix` followed by `from_cdd_matrix` gives back the same rows, and the matrix stands for the same set.
* `C61_span_roundtrip` (Props/Polydd): `SpanForm.to_cdd_matrix` followed by `from_cdd_matrix` gives back the same lists, and the matrix stands for the same set.
* `C61_span_none` (Props/Polydd): An empty span form cannot be converted.
* `C61_to_face_form` (Props/Polydd): `SpanForm.to_face_form` describes the same polyhedron.
* `C61_to_span_form` (Props/Polydd): `FaceForm.to_span_form` describes the same polyhedron; `None` means that it is empty.
* `C61_canonical` (Props/Polydd): `canonical()` keeps the set: for span forms always, for non-empty face forms unless `cdd` declares all rows to be equations, in which case the call fails.

**C62. Intersection of polyhedra** (proved). 
Model: `Box`, `Box.center`, `Box.halfExtents`, `Box.rotation`, `Box.toPoly`, `CddLib`, `FaceForm`, `FaceForm.faces`, `FaceForm.stack`, `Poly`, `Poly.contains`, `Poly.intersect`, `Poly.vertices`.
Specification: `Spec.IsCdd`, `Spec.Orthogonal`, `Spec.box`, `Spec.halfspaces`, `Spec.hull`.
cdd is an oracle with contract Spec.IsCdd.

* `C62_stack` (Props/Polydd): `FaceForm.stack` describes the intersection.
* `C62_intersect` (Props/Polydd): `intersect` returns `None` exactly when two polyhedra have no common point, and otherwise a polyhedron that contains exactly the common points.
* `C62_boxes` (Props/Polydd): Two boxes intersect as sets of points.

**C63. Transforms of double descriptions** (proved). 
Model: `FaceForm`, `FaceForm.faces`, `FaceForm.transform`, `SpanForm`, `SpanForm.init`, `SpanForm.transform`.
Specification: `Spec.Orthogonal`, `Spec.halfspaces`, `Spec.moved`, `Spec.spanned`.
Includes the counterexample for rays.

* `C63_face` (Props/Polydd): `FaceForm.transform` describes the image under the rigid motion.
* `C63_face_defaults` (Props/Polydd): The defaults of `FaceForm.transform` are the identity rotation and the zero translation.
* `C63_span` (Props/Polydd): `SpanForm.transform` describes the image under the rigid motion for forms without rays.
* `C63_span_rotation` (Props/Polydd): Without a translation `SpanForm.transform` is right for all forms, rays included.
* `C63_span_rays_wrong` (Props/Polydd): With a translation `SpanForm.transform` is wrong for forms with rays: the half-line `x ≥ 0` in the plane, moved up by one, is not the set that the result describes.

**C64. Construction of polyhedra** (proved). 
Model: `Box`, `Box.asPoly`, `Box.center`, `Box.halfExtents`, `Box.rotation`, `CddLib`, `CddLib.canonicalizeIneq`, `FaceForm`, `FaceForm.faces`, `FaceForm.init`, `FaceForm.toCdd`, `Poly`, `Poly.contains`, `Poly.faceForm`, `Poly.fromHalfspaces`, `Poly.fromVertices`, `Poly.init`, `Poly.simplex`, `Poly.vertices`, `SpanForm`, `SpanForm.rays`, `SpanForm.vertices`, `convexHullPoints`.
Specification: `Spec.Irredundant`, `Spec.IsCdd`, `Spec.box`, `Spec.halfspaces`, `Spec.hull`, `Spec.plainRows`.
cdd is an oracle with contract Spec.IsCdd.

* `C64_from_vertices` (Props/Polydd): `from_vertices` on any non-empty list of points: the result keeps the points as its vertices and contains exactly their convex hull.
* `C64_from_vertices_prune` (Props/Polydd): `from_vertices(vs, prune=True)`: the hull is the same, the vertices are among the given points and none of them is in the hull of the others.
* `C64_convex_hull` (Props/Polydd): `convex_hull(points)` on any list of at least two points: the returned points are among the given ones, span the same hull, and none is in the hull of the others.
* `C64_face_form` (Props/Polydd): The three outcomes of building a polyhedron from a face form: empty sets fail with an `AttributeError`, unbounded sets are rejected with a `ValueError`, and bounded non-empty sets give a polyhedron that contains exactly the points of the set.
* `C64_rejects` (Props/Polydd): Span forms with rays, and constructor calls without any form, are rejected.
* `C64_rejects_rays` (Props/Polydd): Span forms with a nonzero ray describe unbounded sets and are rejected when `cdd` computes the faces.
* `C64_from_halfspaces` (Props/Polydd): `from_halfspaces(A, b)` on a non-empty list of half-spaces.
* `C64_from_halfspaces_prune` (Props/Polydd): `from_halfspaces(A, b, prune=True)` on bounded non-empty sets: the same set, or an `IndexError` if pruning turns all half-spaces into equations.
* `C64_simplex` (Props/Polydd): `simplex(extents)` contains exactly the points with non-negative coordinates whose ratios to the extents sum to at most one; extents that are not positive are rejected.
* `C64_as_poly` (Props/Strengthen4): `Box.as_poly` is a polyhedron with the points of the box, whose corners are its vertices.

**C65. Rejection sampling loop** (proved). 
Model: `Capsule`, `Capsule.contains`, `Capsule.cylinder`, `Capsule.randomPoints`, `Cylinder.length`, `Cylinder.radius`, `rejectionSample`, `tol8`.
The random batches are an arbitrary sequence; the loop is fuel-free recursion over max_tries.

* `C65_returns` (Props/Sampling): If `rejection_sample` returns, it returns exactly `n` points (no padding, no overrun), each contained in at least one of the shapes.
* `C65_fails` (Props/Sampling): `rejection_sample` raises `ValueError` exactly when `max_tries` rounds did not produce enough accepted candidates, and no other error is possible.
* `C65_all_accepted` (Props/Sampling): If every candidate is accepted, one round suffices and the result is the first batch.
* `C65_no_shapes` (Props/Sampling): Without shapes, every positive request fails.
* `C65_capsule` (Props/Sampling2): `Capsule.random_points` returns exactly `n` points of the bounding box, each of which passes `Capsule.contains`, or raises `ValueError`.

**C66. Unordered row comparison** (proved). 
Model: `allcloseUnordered`, `rtol5`, `tol8`.

* `C66_sound` (Props/TestUtil): If `allclose_unordered(A, B)` returns `True`, the rows of `B` can be rearranged (each used exactly once) so that they are close to the rows of `A`, one by one.
* `C66_shape` (Props/TestUtil): The function raises `AssertionError` exactly for different numbers of rows.
* `C66_exact` (Props/TestUtil): With zero tolerance the result is `True` exactly when the two matrices have the same rows with the same multiplicities.
* `C66_refl` (Props/TestUtil): Every matrix is close to every reordering of itself, at all non-negative tolerances that separate its rows.
* `C66_complete` (Props/TestUtil): If no row of `A` is close to two different rows of `B` (positions with equal rows are harmless), then the greedy search is also complete: every pairing is found.
* `C66_incomplete` (Props/TestUtil): With the default tolerances the greedy search can fail although a pairing exists.
* `C66_not_symmetric` (Props/TestUtil): And it is not symmetric, because `np.isclose` is not.

**C67. Closest points** (proved). 
Model: `AnyShape`, `ClosestPointInfo`, `ClosestPointInfo.dist`, `ClosestPointInfo.p1`, `ClosestPointInfo.p2`, `closestPoints`.
Specification: `Spec.region`.
The solver is an oracle with contract 'returns an optimum'.

* `C67_closest` (Props/Closest): `closest_points` on two shapes of any classes, with a solver that solves the problem posed: it returns points of the two shapes and their distance, and no pair of points of the shapes is closer.
* `C67_intersect` (Props/Closest): The distance is zero exactly if the shapes intersect, and then both points are the same point of the intersection.
* `C67_symm` (Props/Closest): The distance does not depend on the solver or on the order of the shapes.

**C68. Elementary samplers** (proved). 
Model: `ballPoint`, `hyperspherePoint`, `randomPsdMatrix`, `randomWeightVector`.
Specification: `Spec.PSD`.
Quantifies over all draws with nonzero normaliser.

* `C68_weights` (Props/Sampling): Whenever the normalised weights are finite they are non-negative and add up to one.
* `C68_weights_fail` (Props/Sampling): The only failure is a division by a zero sum (all draws zero, or `n = 0`).
* `C68_psd` (Props/Sampling2): `random_psd_matrix` returns a positive semidefinite matrix.
* `C68_hypersphere` (Props/Sampling2): `random_points_on_hypersphere` returns unit vectors, for every draw.
* `C68_hypersphere_ok` (Props/Sampling2): It succeeds for every nonzero draw in dimension at least one, and raises `AssertionError` for `dim = 0`.
* `C68_hypersphere_dim0` (Props/Sampling2): It succeeds for every nonzero draw in dimension at least one, and raises `AssertionError` for `dim = 0`.
* `C68_ball` (Props/Sampling2): `random_points_in_ball` returns vectors of norm at most one, for every draw.
* `C68_ball_radius` (Props/Sampling2): The radius of the returned vector is the `dim`-th root of the uniform draw.
* `C68_ball_dim1` (Props/Sampling2): `random_points_in_ball(dim=1)` (and `dim=0`) raises `AssertionError`, whatever is drawn.
* `C68_ball_ok` (Props/Sampling2): For `dim ≥ 2` every nonzero draw gives a point.

**C69. Rigid body algebra** (proved). 
Model: `AnyShape`, `AnyShape.box`, `AnyShape.capsule`, `AnyShape.cylinder`, `AnyShape.ellipsoid`, `AnyShape.mbe`, `AnyShape.transform`, `Box`, `Capsule`, `CddLib`, `Cylinder`, `Eigh`, `Ellipsoid`, `Ellipsoid.center`, `Ellipsoid.halfExtents`, `Ellipsoid.rotation`, `IP`, `IP.H`, `IP.J`, `IP.h`, `IP.mass`, `Lstsq`, `MbeResult`, `MbeResult.numeric`, `MbeVars`, `MbeeVars`, `MbeeVars.S`, `MbesBody`, `MbesBody.params`, `MbesBody.shapes`, `NullSpace`, `Orth`, `RigidBody`, `RigidBody.add`, `RigidBody.init`, `RigidBody.mbes`, `RigidBody.params`, `RigidBody.pySum`, `RigidBody.shapes`, `RigidBody.transform`, `mbeFeasible`, `mbeeFeasible`, `transformMatrix`.
Specification: `Spec.IsCdd`, `Spec.IsEigh`, `Spec.IsLstsq`, `Spec.IsNullSpace`, `Spec.IsOrth`, `Spec.Orthogonal`, `Spec.Realizable`, `Spec.ball`, `Spec.bodyRegion`, `Spec.capsule`, `Spec.ellipsoid`, `Spec.moved`, `Spec.region`.
mbes: boxes, cylinders and polyhedra become larger; ellipsoids raise TypeError (C69_mbes_ellipsoid); capsules go through mbe_of_ellipsoids, whose defect is C47, so 'larger' holds for radius 1 (C47_capsule) and fails for every radius above 1 (C69_mbes_capsule: the capsule becomes a smaller ball).

* `C69_add` (Props/Body): Adding two bodies concatenates their shapes, so that the region is the union, and adds their parameters.
* `C69_add_realizable` (Props/Body): The sum of two bodies that can be realized can be realized.
* `C69_massless` (Props/Body): A body without parameters has zero parameters; adding two such bodies fails, whereas adding one to a body with mass leaves the parameters of the latter unchanged.
* `C69_assoc` (Props/Body): Addition of bodies with mass is associative.
* `C69_sum` (Props/Body): Python's `sum` over a list of bodies with mass: the shapes of all bodies in their order, and the sum of the parameters.
* `C69_shape_transform` (Props/Body): A shape of any class moves as a point set.
* `C69_transform` (Props/Body): `transform` moves every shape, the region and the parameters by the same rigid motion; the moved body can be realized if and only if the original one can.
* `C69_transform_default` (Props/Body): The defaults of `transform` are the identity.
* `C69_mbes` (Props/Body): `mbes()` on a body of boxes, cylinders and polyhedra: every shape is replaced by an ellipsoid that contains it, and the parameters stay, so a body that can be realized can be realized on the larger region.
* `C69_mbes_ellipsoid` (Props/Body): `mbes` raises `TypeError` as soon as it reaches an ellipsoid, and never succeeds on a body with one.
* `C69_mbes_sphere` (Props/Body): `mbes(sphere=True)` on a body of boxes and cylinders replaces each of them by a sphere that contains it.
* `C69_mbes_capsule` (Props/Strengthen3): For a capsule `mbes` can return a smaller shape.

**C70. Spatial vector algebra** (proved). 
Model: `SV`, `SV.add`, `SV.adjoint`, `SV.angular`, `SV.fromVec`, `SV.linear`, `SV.mul`, `SV.sub`, `SV.truediv`, `SV.vec`, `SV.zero`.

* `C70_representation` (Props/Dynamics): `from_vec` and the `linear`/`angular` constructor are inverse to the accessors, and `vec` lists the angular part first.
* `C70_componentwise` (Props/Dynamics): Arithmetic acts componentwise on the 6-vector.
* `C70_adjoint` (Props/Dynamics): The adjoint is the spatial cross product

**C71. Validation error metric** (proved). 
Model: `validationRmse`.

* `C71_value` (Props/Util): For at least one sample the result is the root of the mean squared error norm ...
* `C71_zero_iff` (Props/Util): ... it is zero exactly when every prediction is exact ...
* `C71_weight_ignored` (Props/Util): ... and the documented weight `W` has no effect.

**C72. eps is honoured by realizability constraints** (proved). 
Model: `Box`, `Box.momentCustomVertexConstraints`, `Cylinder`, `Cylinder.momentSdpConstraints`, `Ellipsoid`, `Ellipsoid.momentConstraints`, `IP`, `IP.H`, `IP.J`, `IP.vec`, `ParamVar.mat`, `ParamVar.vec`, `Poly`, `Poly.momentSdpConstraints`, `Poly.momentVertexConstraints`.
Specification: `Spec.PSD`.
The positive part and the failing part (C72 for poly/cylinder) are both proved.

* `C72_ellipsoid` (Props/Realize3): The ellipsoid constraints force `J - eps 1` to be PSD.
* `C72_vertex` (Props/Realize3): The vertex constraints of a polyhedron force `J - eps 1` to be PSD.
* `C72_box` (Props/Realize3): The vertex constraints of a box force `J - eps 1` to be PSD.
* `C72_sdp_ignores_eps` (Props/Realize4): `moment_sdp_constraints` of a polyhedron and of a cylinder do not depend on `eps` at all (as long as it is accepted, `eps ≥ 0`): the PSD constraints are built and dropped.
* `C72_sdp_witness` (Props/Realize4): So there are a polyhedron and a cylinder whose `moment_sdp_constraints` with `eps = 1` accept, at every order, a pseudo-inertia matrix with a zero eigenvalue.
* `C72_vec` (Props/Strengthen): C72 for parameter vectors: whatever vector satisfies the ellipsoid, vertex or box constraints with `eps`, it is the vector of a body with `J - eps 1` PSD.
* `C72_vec_ignored` (Props/Strengthen): C72 for parameter vectors: the semidefinite relaxations of polyhedra, boxes and cylinders ignore `eps`.

**C73. Volumes** (proved). 
Model: `Box`, `Box.center`, `Box.halfExtents`, `Box.rotation`, `Box.volume`, `Cylinder`, `Cylinder.center`, `Cylinder.length`, `Cylinder.radius`, `Cylinder.rotation`, `Cylinder.volume`, `Ellipsoid`, `Ellipsoid.center`, `Ellipsoid.halfExtents`, `Ellipsoid.rotation`, `Ellipsoid.volume`.
Specification: `Spec.Orthogonal`, `Spec.box`, `Spec.cylinder`, `Spec.ellipsoid`.

* `C73_box` (Props/Density): `Box.volume` is the volume of the box.
* `C73_cylinder` (Props/Density): `Cylinder.volume` is the volume of the cylinder.
* `C73_ellipsoid` (Props/Density): `Ellipsoid.volume` is the volume of the ellipsoid in three dimensions.
* `C73_ellipse_wrong` (Props/Density): The same formula is used in every dimension, so `volume` is never the area of a planar ellipse (except a degenerate one).

**C74. Box constructors and attributes** (proved). 
Model: `Box`, `Box.center`, `Box.cube`, `Box.diaglen`, `Box.fromSideLengths`, `Box.halfExtents`, `Box.rotation`, `Box.sideLengths`, `Box.volume`.
Specification: `Spec.Orthogonal`, `Spec.box`.

* `C74_cube` (Props/Constructors): `Box.cube` builds the cube with the given half extent, with the default pose if none is given, and rejects exactly the negative half extents.
* `C74_side_lengths` (Props/Constructors): `Box.from_side_lengths` builds the box whose `side_lengths` are the given ones, and rejects exactly the lists with a negative entry.
* `C74_diaglen` (Props/Constructors): `diaglen` is the largest distance between two points of the box.

**C75. Equality of inertial parameters** (proved). 
Model: `IP`, `IP.H`, `IP.J`, `IP.com`, `IP.h`, `IP.isSame`, `IP.mass`.

* `C75_iff` (Props/Constructors): `InertialParameters.is_same` holds exactly when the masses, the first moments and the second moments agree up to the default tolerances of `np.allclose`.
* `C75_refl` (Props/Constructors): Parameters with the same mass and moments are the same; in particular the centers of mass of massless bodies are ignored.
* `C75_not_symmetric` (Props/Constructors): The test is not symmetric.
* `C75_light` (Props/Constructors): The test does not separate light bodies: any two bodies whose moments are at most `5e-9` are the same.

**C76. Geodesic distance of positive definite matrices** (proved). 
Model: `IP`, `IP.J`, `IP.transform`, `positiveDefiniteDistance`.
Specification: `Spec.Orthogonal`, `Spec.PD`.
Generalised eigenvalues by scipy.linalg.eigh(B, A) are defined through congruence diagonalisation.

* `C76_value` (Props/Geodesic): The function computes `sqrt(½ Σ log² lᵢ)` of the relative eigenvalues.
* `C76_defined` (Props/Geodesic): Relative eigenvalues exist for every pair of positive definite matrices, so the distance is defined, and it is non-negative.
* `C76_singular` (Props/Geodesic): A singular first argument is rejected.
* `C76_symm` (Props/Geodesic): The distance is symmetric.
* `C76_zero_iff` (Props/Geodesic): The distance is zero exactly for equal matrices.
* `C76_congr` (Props/Geodesic): The distance does not change under a common change of coordinates.
* `C76_scale` (Props/Geodesic): Scaling by `c` moves a matrix by `sqrt(n/2) |log c|`.
* `C76_frame` (Props/Geodesic): In particular it does not depend on the frame in which two bodies are described.

**C77. Entropic regularizer** (proved). 
Model: `entropicRegularizer`.
Specification: `Spec.PD`, `Spec.logDet`.

* `C77_divergence` (Props/Identify): Up to a constant that does not depend on the variables, the regularizer is the sum of the log-determinant divergences from the nominal matrices.
* `C77_minimum` (Props/Identify): The regularizer has exactly one minimiser over the positive definite matrices: the nominal values.
* `C77_convex` (Props/Identify): The regularizer is convex in the matrices (as its documentation says).
* `C77_frame` (Props/Identify): What the regularizer measures does not depend on the frame: expressing all bodies in another frame adds a constant.
* `C77_errors` (Props/Identify): Exceptions: lists of different lengths, empty lists, a singular nominal matrix (for instance that of the massless default body).

**C78. Least squares objective** (proved). 
Model: `IP`, `IP.H`, `IP.bodyWrench`, `IP.vec`, `SV`, `SV.vec`, `leastSquaresObjective`, `regressor`.
Specification: `Spec.PD`, `Spec.lsq`, `Spec.residual`.

* `C78_value` (Props/Identify): The objective is the sum over the observations of the weighted squared residuals; the weight defaults to the identity.
* `C78_empty` (Props/Identify): Without observations or without bodies the call raises an exception.
* `C78_zero_iff` (Props/Identify): With a positive definite weight the objective is zero exactly when every observation is explained exactly.
* `C78_wrench` (Props/Identify): For one body whose regressors are those of `RigidBody.regressor`, the objective at the parameter vector of a body is the sum of the squared errors of the wrenches it predicts.

**C79. Identification problem** (proved). 
Model: `AnyShape`, `AnyShape.capsule`, `AnyShape.ellipsoid`, `Capsule`, `Ellipsoid`, `IP`, `IP.J`, `IP.vec`, `IdentificationProblem`, `IdentificationProblem.As`, `IdentificationProblem.W0`, `IdentificationProblem.bs`, `IdentificationProblem.init`, `IdentificationProblem.solve`, `IdentificationProblem.γ`, `IdentificationProblem.ε`, `IdentificationResult`, `IdentificationResult.objective`, `IdentificationResult.params`, `ParamVar.mat`, `RigidBody`, `RigidBody.momentSdpConstraints`, `RigidBody.params`, `RigidBody.shapes`.
Specification: `Spec.Admissible`, `Spec.FindsOptimum`, `Spec.IsSolver`, `Spec.PD`, `Spec.identCost`, `Spec.residual`.
cvxpy's solver is an oracle (Spec.IsSolver, Spec.FindsOptimum).

* `C79_init` (Props/Identify2): Creating the problem works exactly when `γ` and `ε` are non-negative and the covariance (if any) is invertible, and then it stores the data and the inverse of the covariance.
* `C79_result` (Props/Identify2): What `solve` returns is one set of parameters per body, with positive masses, no eigenvalue of a pseudo-inertia matrix below `ε` and all centers of mass in their bounding shapes; they satisfy the realizability constraints, and the objective is the regularized cost of these parameters.
* `C79_ellipsoids` (Props/Identify2): If all bodies are made of ellipsoids, the returned parameters can be realized by distributions of mass on the bodies.
* `C79_optimal` (Props/Identify2): No admissible parameters have a smaller cost than the returned ones.
* `C79_recovers` (Props/Identify2): From noise-free data that determine the parameters, `solve` (without regularization) recovers the true parameters, whatever the positive definite weight.
* `C79_errors` (Props/Identify2): How a call of `solve` fails.
* `C79_capsule` (Props/Identify2): A body with a capsule makes `solve` with realizability constraints raise `AttributeError`.
* `C79_massless` (Props/Identify2): With observations that say nothing but that nothing is there (`bs = 0`, and the parameters determined by the data), the optimum has zero mass and the returned parameters are not finite: the division `h / m` in `InertialParameters` is `0 / 0`.

**C80. Discretized identification problem** (proved). 
Model: `AnyShape`, `DiscretizedIdentificationProblem.solve`, `IP`, `IP.H`, `IP.com`, `IP.h`, `IP.mass`, `IP.vec`, `IdentificationProblem`, `IdentificationProblem.As`, `IdentificationProblem.W0`, `IdentificationProblem.bs`, `IdentificationResult`, `IdentificationResult.objective`, `IdentificationResult.params`.
Specification: `Spec.FindsOptimum`, `Spec.IsSolver`, `Spec.PD`, `Spec.Realizable`, `Spec.lsq`, `Spec.region`, `Spec.residual`.
cvxpy's solver is an oracle (Spec.IsSolver, Spec.FindsOptimum).

* `C80_result` (Props/Identify3): What the discretized problem returns is a body with positive mass made of non-negative masses at the given points, with its center of mass in the bounding shape, and of all such bodies it has the smallest weighted squared error, which is the returned objective.
* `C80_recovers` (Props/Identify3): Noise-free data that determine the parameters give back the true parameters.
* `C80_ignored` (Props/Identify3): The regularization weight `γ` and the lower bound `ε` of the problem have no effect.
* `C80_errors` (Props/Identify3): Without observations or points, and when the solver reports no optimum, the call fails.

**C81. Cone and boundedness tests of span forms** (proved). 
Model: `CddMat`, `CddMat.lin`, `CddMat.rows`, `FaceForm`, `FaceForm.init`, `FaceForm.nf`, `FaceForm.stack`, `FaceForm.toCdd`, `SpanForm`, `SpanForm.bounded`, `SpanForm.isCone`, `SpanForm.nr`, `SpanForm.nv`, `SpanForm.rays`, `SpanForm.toCdd`, `SpanForm.vertices`.
Specification: `Spec.spanned`.

* `C81_cone` (Props/Constructors): If `SpanForm.is_cone` says so, the polyhedron contains all non-negative multiples of its points.
* `C81_cone_missed` (Props/Constructors): The converse is false: with the apex listed as a vertex, a cone is not recognised.
* `C81_bounded` (Props/Constructors): If `bounded()` says so, all coordinates of the points are bounded.
* `C81_rows` (Props/Strengthen2): The counts `nv` and `nr`: the matrix for cdd has `nv` rows for vertices, which come first and are marked with 1, followed by `nr` rows for rays, which are marked with 0.
* `C81_face_rows` (Props/Strengthen4): `FaceForm.nf` is the number of rows that are given to cdd, none of which is marked as an equation: an equation counts twice.

**C82. Bodies of a multibody** (proved). 
Model: `AnyShape`, `CddLib`, `Geom`, `Geom.convex`, `Geom.other`, `GeomObj`, `GeomObj.geometry`, `GeomObj.parentJoint`, `GeomObj.rotation`, `GeomObj.translation`, `IP.Ic`, `IP.com`, `IP.mass`, `MultiBody`, `MultiBody.bodies`, `MultiBody.getBodies`, `MultiBody.init`, `MultiBody.model`, `MultiBody.resolveFrameIndex`, `MultiBody.toolIdx`, `PinInertia`, `PinInertia.inertia`, `PinInertia.lever`, `PinInertia.mass`, `PinModel`, `PinModel.frameNames`, `PinModel.geoms`, `PinModel.gravity`, `PinModel.inertias`, `PinModel.jointNames`, `RigidBody`, `RigidBody.params`, `RigidBody.shapes`, `geomBodies`, `pinToShape`.
Specification: `Spec.GeomOk`, `Spec.Orthogonal`, `Spec.geomPoints`, `Spec.moved`, `Spec.region`.
pinocchio's data (inertias, geometries, names) are inputs of the model.

* `C82_shape` (Props/MultiBody): The shape made from a collision object is the geometry moved to its placement.
* `C82_shape_errors` (Props/MultiBody): A mesh raises `NotImplementedError`, an unknown geometry `ValueError`, negative dimensions `AssertionError`.
* `C82_bodies` (Props/MultiBody): The bodies of a `MultiBody`.
* `C82_init` (Props/MultiBody): Construction.
* `C82_get_bodies` (Props/MultiBody): `get_bodies` returns the bodies of the joints asked for, in that order.
* `C82_resolve_frame` (Props/Strengthen4): A frame is resolved to the tool if none is given, an index to itself, and a name to the position of that name.
* `C82_unknown_joint` (Props/Strengthen4): A geometry whose joint has no inertia raises `IndexError`, whatever its shape.

**C83. Joint torque regressor** (proved). 
Model: `IP`, `IP.vec`, `MultiBody.jointTorqueRegressor`, `PinInertia`, `PinInertia.mass`, `PinInertia.params`.
Specification: `Spec.pinVec`, `Spec.stack`.
pinocchio's computeJointTorqueRegressor is an arbitrary matrix; its meaning enters as hypothesis in C83_torques.

* `C83_product` (Props/MultiBody): With as many velocities as bodies, the regressor returned maps stacked parameter vectors in the order of the library to exactly what pinocchio's regressor makes of the same parameters in pinocchio's order.
* `C83_torques` (Props/MultiBody): The joint torques are the regressor times the stacked parameter vectors of the bodies, provided that pinocchio's own regressor has that property for its inertias.
* `C83_index_error` (Props/MultiBody): With more velocities than bodies (for instance a free floating base) the loop runs past the last column
* `C83_too_few` (Props/MultiBody): With fewer velocities than bodies the blocks of the last bodies keep pinocchio's order, so the result is wrong for some parameters whenever pinocchio's regressor distinguishes `Ixz` from `Iyy` of such a body.

**C84. Custom box constraints against the moment relaxation** (proved). 
Model: `Box`, `Box.center`, `Box.halfExtents`, `Box.momentCustomVertexConstraints`, `Box.momentSdpConstraints`, `Box.rotation`, `FaceForm.faces`, `IP`, `IP.H`, `IP.J`, `IP.h`, `IP.mass`, `IP.vec`, `ParamVar.mat`, `ParamVar.vec`, `Poly`, `Poly.faceForm`, `Poly.momentSdpConstraints`.
Specification: `Spec.Orthogonal`, `Spec.PSD`, `Spec.Realizable`, `Spec.box`.
Added property: compares two constraint sets of the library.

* `C84_objective` (Props/Tightness): The custom vertex constraints of a box are not tighter than the moment relaxation.
* `C84_not_tighter` (Props/Tightness): For every box with positive half extents the custom vertex constraints accept a matrix of mass one that the moment relaxation rejects at every order `d ≥ 2`.
* `C84_not_sufficient` (Props/Tightness): The custom vertex constraints of a box are not sufficient.
* `C84_order_one` (Props/Tightness): The relaxation of order one only asks for a PSD matrix and a centre of mass in the polyhedron.
* `C84_implies_order_one` (Props/Tightness): At order one the claim holds: whatever the custom vertex constraints of a box accept, the moment relaxation accepts too.

**C85. The moment relaxation of a polyhedron is exact at no order** (proved). 
Model: `Box`, `Box.center`, `Box.halfExtents`, `Box.momentSdpConstraints`, `Box.rotation`, `FaceForm.faces`, `IP`, `IP.H`, `IP.J`, `IP.h`, `IP.mass`, `IP.vec`, `ParamVar.mat`, `ParamVar.vec`, `Poly`, `Poly.faceForm`, `Poly.momentSdpConstraints`.
Specification: `Spec.CarriedBy`, `Spec.HasMoments`, `Spec.Orthogonal`, `Spec.Realizable`, `Spec.box`, `Spec.halfspaces`.
Added property. Necessity at every order is C52_necessary; this is the other direction, refuted.

* `C85_objective` (Props/Exactness): The moment relaxation of a polyhedron is exact at no order.
* `C85_box` (Props/Exactness): The moment relaxation of a box with positive half extents is exact at no order.
* `C85_not_exact` (Props/Exactness): So at every order the relaxation accepts parameters that no body inside the polyhedron has.
* `C85_box_measure` (Props/Exactness): For a box, parameters that the relaxation of order `d` accepts but that no mass distribution inside the box has, continuous or discrete.

**C86. The moment relaxation of a cylinder is exact at no order** (proved). 
Model: `Cylinder`, `Cylinder.center`, `Cylinder.length`, `Cylinder.momentSdpConstraints`, `Cylinder.radius`, `Cylinder.rotation`, `IP`, `IP.H`, `IP.J`, `IP.h`, `IP.mass`, `IP.vec`, `ParamVar.mat`, `ParamVar.vec`.
Specification: `Spec.CarriedBy`, `Spec.HasMoments`, `Spec.Orthogonal`, `Spec.Realizable`, `Spec.cylinder`.
Added property. Necessity at every order is C55_sdp_necessary; this is the other direction, refuted.

* `C86_objective` (Props/Exactness): The moment relaxation of a cylinder is exact at no order: there is a linear objective `D` that is non-negative for all bodies inside the cylinder, but for every order `d` there are parameters of mass one that `moment_sdp_constraints` accepts and on which the objective is negative.
* `C86_measure` (Props/Exactness): Parameters that the relaxation of order `d` of a cylinder accepts but that no mass distribution inside the cylinder has, continuous or discrete.

**C87. The moment relaxations converge** (proved). 
Model: `AnyShape`, `AnyShape.poly`, `Box`, `Box.center`, `Box.halfExtents`, `Box.momentSdpConstraints`, `Box.rotation`, `Cylinder`, `Cylinder.center`, `Cylinder.length`, `Cylinder.momentSdpConstraints`, `Cylinder.radius`, `Cylinder.rotation`, `FaceForm.faces`, `IP`, `IP.H`, `IP.J`, `IP.h`, `IP.mass`, `ParamVar.mat`, `Poly`, `Poly.faceForm`, `Poly.momentSdpConstraints`, `RigidBody`, `RigidBody.momentSdpConstraints`, `RigidBody.shapes`.
Specification: `Spec.Orthogonal`, `Spec.Realizable`, `Spec.bodyRegion`, `Spec.box`, `Spec.cylinder`, `Spec.halfspaces`.
Added property. Putinar's Positivstellensatz is proved in Lemmas/Putinar.lean. Unbounded polyhedra are excluded; the order needed for a tolerance is not computed.

* `C87_poly` (Props/Convergence): Inertial parameters satisfy the moment relaxation of a bounded polyhedron at every order exactly when some mass distribution inside the polyhedron has them.
* `C87_poly_close` (Props/Convergence): Parameters accepted at a high enough order are close to parameters of the same mass that are realizable in the polyhedron.
* `C87_poly_objective` (Props/Convergence): A lower bound of a linear objective over the bodies of unit mass inside the polyhedron is a lower bound, up to any error, over the parameters the relaxation accepts at a high enough order.
* `C87_box` (Props/Convergence): The same for boxes in any pose.
* `C87_cylinder` (Props/Convergence): The same for cylinders in any pose.
* `C87_cylinder_close` (Props/Convergence): For cylinders the relaxation of high order only admits parameters close to realizable ones.
* `C87_cylinder_objective` (Props/Convergence): For cylinders the minimum of a linear objective over the relaxations converges to the minimum over realizable parameters.
* `C87_body` (Props/Convergence): The constraints of a body made of any number of ellipsoids, boxes, bounded polyhedra and cylinders hold at every order exactly when some mass distribution on the union of the shapes has the parameters.
* `C87_body_close` (Props/Convergence): For rigid bodies the relaxation of high order only admits parameters close to realizable ones.
* `C87_body_objective` (Props/Convergence): For rigid bodies the minimum of a linear objective over the relaxations converges to the minimum over realizable parameters.

**C88. The vertex constraints of a cylinder are exact** (proved). 
Model: `Cylinder`, `Cylinder.center`, `Cylinder.length`, `Cylinder.momentCustomVertexConstraints`, `Cylinder.momentSdpConstraints`, `Cylinder.radius`, `Cylinder.rotation`, `IP`, `IP.H`, `IP.J`, `IP.h`, `IP.mass`, `IP.vec`, `ParamVar.mat`, `ParamVar.vec`.
Specification: `Spec.CarriedBy`, `Spec.HasMoments`, `Spec.Orthogonal`, `Spec.PSD`, `Spec.Realizable`, `Spec.Resolved`, `Spec.cylinder`.
Added property. The box analogue is false (C84). With eps > 0 the constraints are never satisfiable (C55_vertex_eps).

* `C88_exact` (Props/CylinderExact): The vertex constraints of a cylinder (of zero or resolved radius) with `eps = 0` hold exactly for the parameters of the mass distributions inside the cylinder.
* `C88_exact_vec` (Props/CylinderExact): C88 for the variables given as a vector.
* `C88_tighter` (Props/CylinderExact): The vertex constraints of a cylinder are at least as tight as the moment relaxation of every order.
* `C88_strictly_tighter` (Props/CylinderExact): For a cylinder of positive size they are tighter at every order, even in the value of one fixed linear objective.
* `C88_measure` (Props/CylinderExact): The same constraints decide which parameters continuous mass distributions have.
* `C88_inequalities` (Props/CylinderExact): The parameters of the bodies in a cylinder at the origin, written out: besides `J ⪰ 0` there is one inequality for the squared height, one for the squared distance from the axis, and one for each end.

**C89. The hollow densities are limits of thin shells** (proved). 
Model: `Box`, `Box.center`, `Box.halfExtents`, `Box.hollowDensityParams`, `Box.rotation`, `Ellipsoid`, `Ellipsoid.center`, `Ellipsoid.halfExtents`, `Ellipsoid.hollowDensityParams`, `Ellipsoid.rotation`, `IP`, `IP.H`, `IP.h`, `IP.mass`.
Specification: `Spec.CarriedBy`, `Spec.HasMoments`, `Spec.Orthogonal`, `Spec.box`, `Spec.ellipsoid`, `Spec.rigid`, `Spec.uniform`.
Added property. The shell between the two ellipsoids is not of constant thickness, so for ellipsoids other than spheres this is not the area measure; for spheres see C58_sphere_shell.

* `C89_ellipsoid` (Props/ThinShell): The parameters of a hollow ellipsoid are the limit of those of the homogeneous shells between the ellipsoid and the ellipsoid with all half extents larger by `δ`.
* `C89_box` (Props/ThinShell): The parameters of a hollow box are the limit of those of the homogeneous shells between the box and the box with all half extents larger by `δ`. (`C58_hollow` has shown that they are those of the surface.)
* `C89_on_surface` (Props/ThinShell): A body inside the ellipsoid that has the parameters of the hollow ellipsoid is a shell: all of its mass lies on the surface. (`C59_ellipsoid_hollow` has shown that there is such a body.)

**C90. The samplers have the uniform distribution** (proved). 
Model: `Box`, `Box.center`, `Box.halfExtents`, `Box.randomPoint`, `Box.rotation`, `Cylinder`, `Cylinder.center`, `Cylinder.length`, `Cylinder.radius`, `Cylinder.randomPoints`, `Cylinder.rotation`, `Ellipsoid`, `Ellipsoid.center`, `Ellipsoid.halfExtents`, `Ellipsoid.randomPoints`, `Ellipsoid.rotation`, `ballPoint`, `hyperspherePoint`, `randomWeightVector`.
Specification: `Spec.Orthogonal`, `Spec.Samples`, `Spec.UniformOnSphere`, `Spec.box`, `Spec.cylinder`, `Spec.draw`, `Spec.draws`, `Spec.ellipsoid`, `Spec.normals`, `Spec.uniform`.
Added property. The generator is modelled by independent exact real draws; the surface sampler of the ellipsoid is C92, those of the box are C93.

* `C90_hypersphere` (Props/Laws): `random_points_on_hypersphere` samples the uniform distribution on the sphere.
* `C90_ball` (Props/Laws): `random_points_in_ball` samples the uniform distribution over the unit ball, in every dimension from two on.
* `C90_box` (Props/Laws): `Box.random_points` samples the uniform distribution over the box.
* `C90_ellipsoid` (Props/Laws): `Ellipsoid.random_points` samples the uniform distribution over the ellipsoid.
* `C90_cylinder` (Props/Laws): `Cylinder.random_points` samples the uniform distribution over the cylinder.
* `C90_weights` (Props/Laws): The entries of `random_weight_vectors` are not uniformly distributed, although its docstring says so: of two entries, the first one is at most `1/3` with probability `1/4`.

**C91. The law of rejection sampling** (proved). 
Model: `Capsule`, `Capsule.contains`, `Capsule.cylinder`, `Capsule.fullLength`, `Capsule.randomPoints`, `Cylinder.center`, `Cylinder.length`, `Cylinder.radius`, `Cylinder.rotation`, `rejectionSample`, `tol8`.
Specification: `Spec.Orthogonal`, `Spec.box`, `Spec.candidates`, `Spec.capsule`, `Spec.draws`, `Spec.rounds`, `Spec.uniform`.
Added property. The candidates of all rounds are independent; numpy's generator is not modelled.

* `C91_law` (Props/Rejection): Given that `rejection_sample` succeeds, the returned points are independent, and each has the distribution of a candidate given that one of the shapes contains it.
* `C91_success` (Props/Rejection): `rejection_sample` succeeds with the probability `(1 - q ^ max_tries) ^ n`, where `q` is the probability that a candidate is outside of all shapes.
* `C91_capsule_points` (Props/Rejection): The points that `Capsule.random_points` accepts include the capsule and lie in the slightly grown capsule.
* `C91_capsule` (Props/Rejection): Given that `Capsule.random_points` succeeds, the returned points are independent and uniformly distributed over the accepted points.
* `C91_capsule_success` (Props/Rejection): `Capsule.random_points` succeeds with the probability `(1 - q ^ 10000) ^ n`, where `q` is the fraction of the bounding box that `contains` rejects.
* `C91_capsule_bound` (Props/Rejection): `Capsule.random_points` practically never fails: it succeeds with probability at least `(1 - 2 ^ (-10000)) ^ n`, because more than half of the bounding box is inside of the capsule.

**C92. The law of Ellipsoid.random_points_on_surface** (proved). 
Model: `Ellipsoid`, `Ellipsoid.center`, `Ellipsoid.halfExtents`, `Ellipsoid.randomSurfacePoints`, `Ellipsoid.rotation`.
Specification: `Spec.IsArea`, `Spec.Orthogonal`, `Spec.candidates`, `Spec.draw`, `Spec.ellipsoid`, `Spec.evenly`, `Spec.normals`, `Spec.rounds`.
Added property. The transposed rotation is defect 6; for a symmetric rotation matrix (such as the identity) the surface is the requested one.

* `C92_area` (Props/Area): The surface of an ellipsoid has exactly one area measure.
* `C92_ellipsoid` (Props/SurfaceLaw): `Ellipsoid.random_points_on_surface` terminates with probability one, and the points that it returns are independent and uniformly distributed with respect to the area of a surface; as it rotates with the transpose, this is the surface of the ellipsoid with the inverse rotation.

**C93. The laws of Box.random_points_on_edges and Box.random_points_on_surface** (proved). 
Model: `Box`, `Box.center`, `Box.edgePvals`, `Box.facePvals`, `Box.halfExtents`, `Box.randomPointsOnEdges`, `Box.randomPointsOnSurface`, `Box.rotation`.
Specification: `Spec.boxEdges`, `Spec.boxFaces`, `Spec.draws`, `Spec.evenly`, `Spec.multinomial`, `Spec.rigid`, `Spec.sequence`, `Spec.shuffle`, `Spec.shuffles`.
Added property. The law of the surface sampler for a posed box (C93_surface_posed) is not the uniform one: defect of applying the pose twice.

* `C93_edges` (Props/BoxLaw): `Box.random_points_on_edges` returns `n` independent points, each uniformly distributed by length over the edges of the box.
* `C93_surface_posed` (Props/BoxLaw): The rows produced by `Box.random_points_on_surface` are independent and identically distributed for every pose, but for a box that is not axis-aligned at the origin their law is that of the points moved by the pose, flattened onto the coordinate planes, and moved once more.
* `C93_surface` (Props/BoxLaw): For an axis-aligned box at the origin `Box.random_points_on_surface` returns `n` independent points, each uniformly distributed by area over the surface of the box.

**C94. Floating-point rounding in unvech, evaluation times and bounding boxes** (proved). 
Model: `boundContainsFloat`, `computeEvaluationTimesFloat`, `isTriangularNumberFloat`, `unvech`, `unvechFloat`.
Specification: `Spec.IsRounding`.
Added property. Rounding is to a nearest binary64 number with ties left open; infinities and signed zeros are not modelled. Bounding boxes are modelled one axis at a time.

* `C94_triangular` (Props/Float): With rounding, `is_triangular_number` is still right for every int below `2 ^ 50`.
* `C94_unvech` (Props/Float): `unvech` is not affected by rounding: no vector is long enough.
* `C94_triangular_wrong` (Props/Float): For larger numbers it is wrong
* `C94_times` (Props/Float): With rounding, the evaluation times still cover the interval up to a relative error of a few units in the last place.
* `C94_times_wrong` (Props/Float): But the last time can be the duration itself, contrary to exact arithmetic: for the floats nearest to `0.07` and `0.01` there are eight times and the last one is `0.07`.
* `C94_bound` (Props/Float): Every point is in the floating-point bounding box with the default tolerance, as long as the coordinates are at most ten million.
* `C94_bound_wrong` (Props/Float): For larger coordinates a point can be outside of its own bounding box: the box of `-2^-26` and `2^29` does not contain the former within the default tolerance.

**C95. Monte Carlo examples** (proved). 
Model: `Box.edgePvals`, `Box.facePvals`, `Ellipsoid.hollowDensityParams`, `IP`, `IP.I`, `boxShellMonteCarlo`, `boxWireframeMonteCarlo`, `ellipsoidShellMonteCarlo`.
Specification: `Spec.IsArea`, `Spec.candidates`, `Spec.draw`, `Spec.draws`, `Spec.ellipsoid`, `Spec.evenly`, `Spec.multinomial`, `Spec.normals`, `Spec.rounds`, `Spec.sequence`, `Spec.shuffle`, `Spec.shuffles`.
Added property. For the ellipsoid the number of rounds of the rejection loop tends to infinity first, then the number of samples.

* `C95_wireframe` (Props/MonteCarlo): The error printed by the wireframe script tends to zero in probability as the number of samples grows.
* `C95_box_shell` (Props/MonteCarlo): The error printed by the box shell script tends to zero in probability as the number of samples grows.
* `C95_box_shell_single` (Props/MonteCarlo): With a single sample the box shell script raises an exception.
* `C95_ellipsoid` (Props/MonteCarlo): With probability arbitrarily close to one, for many samples and once the sampler has finished, the error printed by the ellipsoid script is close to the difference between the analytical inertia and the inertia of unit mass spread evenly by area.
* `C95_sphere` (Props/MonteCarlo): For a sphere the error tends to zero.
* `C95_ellipsoid_shell` (Props/MonteCarlo): For the half extents of the script the printed error does not tend to zero: with probability arbitrarily close to one, for many samples, some entry of it is larger than `1e-5` in absolute value.

**C96. Symbolic derivations in scripts/theory** (proved). 
Model: `Box.hollowDensityParams`, `Box.vertices`, `Box.wireframeDensityParams`, `Ellipsoid.hollowDensityParams`, `IP`, `IP.H`, `IP.I`, `IP.fromPointMasses`, `Theory.boxEdge`, `Theory.boxShellParax`, `Theory.boxVertex`, `Theory.cuboidA`, `Theory.cuboidMu`, `Theory.cuboidPhi`, `Theory.cylinderP`, `Theory.inertia`, `Theory.secondMoment`, `Theory.shellInertia`, `Theory.sphereShell`, `outer`.
Specification: `Spec.CarriedBy`, `Spec.HasMoments`, `Spec.box`.
Added property. sympy's symbols are modelled as arbitrary numbers.

* `C96_box_shell` (Props/Theory): The limit in `box_shell_inertia.py` is the inertia derived there with the parallel axis theorem, and the inertia of `Box.hollow_density_params`; so are the second moments.
* `C96_cube_shell` (Props/Theory): The assertions of `box_shell_inertia.py` on the cube.
* `C96_ellipsoid_shell` (Props/Theory): The limit in `ellipsoid_shell_inertia.py` is the inertia of `Ellipsoid.hollow_density_params`.
* `C96_sphere_shell` (Props/Theory): The limit printed by `sphere_shell_inertia`, and the inertia of a spherical shell that follows from it.
* `C96_vertices` (Props/Theory): `box_vertex_inertia.py`: the eighth masses at the vertices have the second moments `a², b², c²`, which are those that `InertialParameters.from_point_masses` computes from the vertices of the box.
* `C96_cube_vertices` (Props/Theory): The assertions of `box_vertex_inertia.py` on the cube.
* `C96_wireframe` (Props/Theory): The second moments derived in `box_wireframe_inertia.py` are those of `Box.wireframe_density_params`.
* `C96_cube_wireframe` (Props/Theory): The assertions of `box_wireframe_inertia.py` on the cube.
* `C96_cuboid` (Props/Theory): The assertion of `cuboid_density_realizability_proof.py`
* `C96_cylinder` (Props/Theory): The matrix `P` of `cylinder_density_realizability_proof.py` agrees with that of the point `(px, py, pz, 1)` except that the square of `pz` is replaced by that of `rz`.
* `C96_cuboid_necessary` (Props/Theory): The conclusion of the proof in `cuboid_density_realizability_proof.py`: whatever the distribution of mass in the box, the integrals of `φ` are non-negative masses at the vertices with the same mass, first moments and products of inertia.

**C97. The experiments on the tightness of the constraints** (proved). 
Model: `Box`, `Box.center`, `Box.halfExtents`, `Box.rotation`, `Cylinder`, `Cylinder.center`, `Cylinder.length`, `Cylinder.radius`, `Cylinder.rotation`, `DripData`, `DripData.customValues`, `DripData.momentD2Values`, `DripData.momentD3Values`, `DripReport`, `DripReport.maxD2`, `DripReport.maxD3`, `DripReport.minD2`, `DripReport.minD3`, `boxDripData`, `cylinderDripData`, `processDripData`, `unvech`.
Specification: `Spec.Orthogonal`, `Spec.Resolved`, `Spec.box`, `Spec.cylinder`.
Added property. The solver is an oracle that returns the supremum up to a tolerance.

* `C97_report` (Props/Drip): `process_drip_data.py` prints the largest and smallest differences of the values of the relaxations and the custom values; it raises `ValueError` if there are none.
* `C97_cylinder` (Props/Drip): For a cylinder every custom value in the data of `generate_drip_data.py` is, up to the tolerance of the solver, the maximum of the quadratic function `[p, 1]ᵀ D [p, 1]` on the cylinder; it is not larger than the value of the moment relaxation of order 3, which is not larger than that of order 2.
* `C97_cylinder_report` (Props/Drip): What `process_drip_data.py` expects of the data is true for a cylinder: the minima it prints are non-negative up to the tolerance of the solver.
* `C97_cylinder_runs` (Props/Drip): The script runs to the end for every cylinder with positive length and any draws, if the solver solves every feasible and bounded problem.
* `C97_box` (Props/Drip): For a box all three values are at least the maximum of the quadratic function on the box, up to the tolerance, and the relaxation of order 3 is not above that of order 2.
* `C97_box_runs` (Props/Drip): The script runs to the end for every box with positive half extents.
* `C97_box_report` (Props/Drip): For boxes the expectation of `process_drip_data.py` fails.

**C98. Shapes and rows of batches of random points** (proved). 
Model: `Box`, `Box.center`, `Box.halfExtents`, `Box.randomPoint`, `Box.randomPointsArray`, `Box.rotation`, `Cylinder`, `Cylinder.center`, `Cylinder.length`, `Cylinder.radius`, `Cylinder.randomPoints`, `Cylinder.randomPointsArray`, `Cylinder.rotation`, `Ellipsoid`, `Ellipsoid.center`, `Ellipsoid.halfExtents`, `Ellipsoid.randomPoints`, `Ellipsoid.randomPointsArray`, `Ellipsoid.rotation`, `NdArray`, `NdArray.ravel`, `NdArray.shape`, `Poly`, `Poly.containsArray`, `Poly.randomPoints`, `Poly.randomPointsArray`, `Poly.vertices`, `ShapeArg`, `ShapeArg.int`, `ShapeArg.toTuple`, `ShapeArg.tuple`, `backToShape`, `ballArray`, `ballPoint`, `hypersphereArray`, `hyperspherePoint`, `randomWeightVector`, `randomWeightVectorsArray`.
Specification: `Spec.AllIn`, `Spec.InShape`, `Spec.Orthogonal`, `Spec.Rows`, `Spec.Sampled`, `Spec.box`, `Spec.cylinder`, `Spec.ellipsoid`, `Spec.hull`.
Added property. Shapes given as Python lists and negative sizes are not modelled; the draws are parameters.

* `C98_weights` (Props/Batch): `random_weight_vectors(shape + (n,))` has that shape, and the vector at index `i` is the one the row model computes from the draws at `i`.
* `C98_poly` (Props/Batch): `ConvexPolyhedron.random_points(shape)` has shape `shape + (d,)` unless one point is requested.
* `C98_poly_one` (Props/Batch): For a request of one point, as `1` or as `(1,)`, the axis of length one is dropped.
* `C98_poly_line` (Props/Batch): … because in dimension 1 the axis of the coordinates is dropped too: the point is returned as a number, an array without axes, which `contains` of the same polyhedron refuses.
* `C98_box` (Props/Batch): `Box.random_points(shape)` has shape `shape + (3,)` unless one point is requested; the point at index `i` uses the row of the draws whose number is the position of `i` in row-by-row order.
* `C98_box_one` (Props/Batch): For a request of one point, as `1` or as `(1,)`, the axis of length one is dropped.
* `C98_back` (Props/Batch): The rows produced by `rejection_sample`, by `Box.random_points_on_surface` and `random_points_on_edges` and by `Ellipsoid.random_points_on_surface` are put into the requested shape in order; nothing is lost when their number is the product of the shape.
* `C98_back_one` (Props/Batch): One row, requested as `1` or as `(1,)`, becomes a single point.
* `C98_hypersphere` (Props/Batch): `random_points_on_hypersphere(shape, dim)` has shape `shape + (dim + 1,)` unless one point is requested …
* `C98_hypersphere_one` (Props/Batch): … which is returned without the axis of length one, both for `1` and for `(1,)`.
* `C98_ball` (Props/Batch): `random_points_in_ball(shape, dim)` has shape `shape + (dim,)` for every request other than the integer 1, also for `(1,)` …
* `C98_ball_one` (Props/Batch): … and returns a single point for the integer 1.
* `C98_ball_line` (Props/Batch): In dimension 1 the assertion of `random_points_on_hypersphere` fails for every requested shape.
* `C98_ellipsoid` (Props/Batch): `Ellipsoid.random_points(shape)` has shape `shape + (d,)` for every request other than the integer 1, also for `(1,)` …
* `C98_ellipsoid_one` (Props/Batch): … and is a single point for the integer 1.
* `C98_cylinder` (Props/Batch): `Cylinder.random_points(shape)` has shape `shape + (3,)` for every request other than the integer 1, also for `(1,)` …
* `C98_cylinder_one` (Props/Batch): … and is a single point for the integer 1, for which the heights have no axis of their own but are concatenated as they are.
* `C98_box_inside` (Props/Batch): Every point of the array `Box.random_points(shape)` lies in the box.
* `C98_ellipsoid_inside` (Props/Batch): Every point of the array `Ellipsoid.random_points(shape)` lies in the ellipsoid, if no normal draw is the zero vector.
* `C98_cylinder_inside` (Props/Batch): Every point of the array `Cylinder.random_points(shape)` lies in the cylinder, if no normal draw is the zero vector.
* `C98_poly_inside` (Props/Batch): Every point of the array `ConvexPolyhedron.random_points(shape)` lies in the hull of the vertices, if the weights drawn for it are nonnegative and do not all vanish.
* `C98_one_tuple` (Props/Batch): The request `(1,)` is answered with shape `(3,)` by a box and with shape `(1, 3)` by an ellipsoid and a cylinder.

**C99. Containment tests on batches of points** (proved). 
Model: `Box`, `Box.onSurface`, `Box.onSurfaceArray`, `Capsule`, `Capsule.caps`, `Capsule.contains`, `Capsule.containsArray`, `Cylinder`, `Cylinder.contains`, `Cylinder.containsArray`, `Ellipsoid`, `Ellipsoid.contains`, `Ellipsoid.containsArray`, `Ellipsoid.onSurface`, `Ellipsoid.onSurfaceArray`, `FaceForm.faces`, `NdArray`, `NdArray.data`, `NdArray.ndim`, `NdArray.shape`, `NdArray.zip`, `Poly`, `Poly.contains`, `Poly.containsArray`, `Poly.faceForm`.
Specification: `Spec.Broadcastable`, `Spec.Documented`, `Spec.Entries`, `Spec.InShape`, `Spec.OperandIndex`, `Spec.Rows`, `Spec.axisFromEnd`.
Added property. Covers the misuse cases (three axes, one column, bare number) as well as the documented shapes.

* `C99_poly` (Props/Batch2): `ConvexPolyhedron.contains` on one point or a sequence of points tests every point by itself; the result has one entry per point.
* `C99_poly_three_axes` (Props/Batch2): On an array of shape `(m, n, d)`, such as `random_points((m, n))` returns, `ConvexPolyhedron.contains` does not give one answer per point.
* `C99_ellipsoid` (Props/Batch2): `Ellipsoid.contains` on one point or a sequence of points tests every point by itself.
* `C99_ellipsoid_surface` (Props/Batch2): `Ellipsoid.on_surface` on one point or a sequence of points tests every point by itself.
* `C99_box_surface` (Props/Batch2): `Box.on_surface` on one point or a sequence of points tests every point by itself.
* `C99_cylinder` (Props/Batch2): `Cylinder.contains` on one point or a sequence of points tests every point by itself.
* `C99_capsule` (Props/Batch2): `Capsule.contains` on one point or a sequence of points tests every point by itself.
* `C99_axes` (Props/Batch2): An array of points with more than two axes is refused by ellipsoids and by `Box.on_surface`.
* `C99_axes_cylinder` (Props/Batch2): And, for arrays of points of the right dimension, by cylinders …
* `C99_axes_capsule` (Props/Batch2): … and capsules.
* `C99_ellipsoid_broadcast` (Props/Batch2): An ellipsoid accepts an array of shape `(n, 1)` whatever its dimension: the numbers are broadcast, and the test is made for the points all of whose coordinates are equal to them.
* `C99_ellipsoid_scalar` (Props/Batch2): So does a bare number, which a polyhedron refuses; the answer is then an array of one entry.
* `C99_broadcast` (Props/Broadcast): An operation on two arrays of any shapes returns exactly if the shapes can be broadcast together, and raises `ValueError` otherwise.

**C100. Moment indices and polynomials without a fixed number of variables** (proved). 
Model: `Cylinder`, `Cylinder.length`, `Cylinder.poly0s`, `Cylinder.radius`, `DynIndex`, `DynIndex.add`, `DynIndex.mul`, `DynIndex.ofChars`, `DynIndex.toChars`, `DynPoly`, `DynPoly.add`, `DynPoly.affine`, `DynPoly.basis`, `DynPoly.coefficients`, `DynPoly.degree`, `DynPoly.evaluate`, `DynPoly.init`, `DynPoly.localize`, `DynPoly.ofStrings`, `DynPoly.substitute`, `IndexOperand`, `IndexOperand.index`, `Polynomial`, `Polynomial.add`, `Polynomial.affine`, `Polynomial.basis`, `Polynomial.degree`, `Polynomial.evaluate`, `Polynomial.init`, `Polynomial.localize`, `Polynomial.substitute`, `Polynomial.toDyn`.
Added property. Relates the tuple-of-any-length classes to the fixed-arity model and shows what happens for mixed lengths.

* `C100_index_add` (Props/MomentIndex): `idx + other` for two indices is the tuple of the sums if the lengths agree and raises `AssertionError` otherwise; `idx + 0` is `idx`, and any other integer raises `AttributeError`.
* `C100_index_static` (Props/MomentIndex): On exponent vectors of `n` variables the sum is the sum of the vectors.
* `C100_basis` (Props/MomentIndex): The basis computed with tuples is the basis of exponent vectors.
* `C100_degree` (Props/MomentIndex): `degree` of a polynomial in `n` variables does not depend on how the indices are stored.
* `C100_evaluate` (Props/MomentIndex): `evaluate` at a point with `n` coordinates.
* `C100_substitute` (Props/MomentIndex): `substitute` with a dictionary of moments of `n` variables.
* `C100_init` (Props/MomentIndex): `Polynomial(coefficients, tol)` with keys of the same length `n`.
* `C100_affine` (Props/MomentIndex): `Polynomial.affine(a, b, tol)`.
* `C100_add` (Props/MomentIndex): The sum of two polynomials in `n` variables.
* `C100_localize` (Props/MomentIndex): `localize` of a polynomial in `n` variables about an index with `n` entries.
* `C100_localize_mixed` (Props/MomentIndex): `localize` raises `AssertionError` as soon as one index of the polynomial has another length than the given one.
* `C100_evaluate_mixed` (Props/MomentIndex): `evaluate` raises `ValueError` exactly when the length of some index is neither the number of coordinates nor 1, and there is more than one coordinate (or none).
* `C100_evaluate_broadcast` (Props/MomentIndex): In particular an index with a single entry is accepted for points of any dimension
* `C100_string_roundtrip` (Props/MomentIndex): `MomentIndex(str(idx)) == idx` exactly when all exponents have one digit. (Nothing separates the exponents.)
* `C100_string_ambiguous` (Props/MomentIndex): Two different indices with the same number of variables can be printed alike.
* `C100_cylinder_keys` (Props/MomentIndex): The strings that name the constraints of a cylinder (src/rigeo/shape/cylinder.py:94-96) denote the exponent vectors that the model of the moment constraints uses.

**C101. Extents of a body bound its moments in every accepted assignment** (proved). 
Model: `AnyShape`, `AnyShape.box`, `Box`, `Box.center`, `Box.halfExtents`, `Box.rotation`, `FaceForm.faces`, `IP`, `IP.H`, `IP.I`, `IP.J`, `IP.fromPointMasses`, `IP.h`, `IP.mass`, `IP.vec`, `ParamVar`, `ParamVar.mat`, `ParamVar.vec`, `Poly`, `Poly.faceForm`, `Poly.momentSdpConstraints`, `RigidBody`, `RigidBody.momentSdpConstraints`, `RigidBody.shapes`.
Specification: `Spec.Orthogonal`, `Spec.PointMasses`, `Spec.PointMasses.mass`, `Spec.bodyRegion`, `Spec.halfspaces`.
Added property. The bounds hold at every order; the exact maxima use the mass bound of the tests.

* `C101_first` (Props/Extent): At every order the first moment in any direction lies within the extent of the body in that direction.
* `C101_second` (Props/Extent): From order two on the second moment in any direction is bounded by the extent of the body in that direction, as for mass distributions inside the body.
* `C101_first_greatest` (Props/Extent): Maximising a first moment over the relaxation of any order, with the mass at most `M`, gives exactly `M` times the extent of the body in that direction, or zero if the body lies on the other side of the origin.
* `C101_second_greatest` (Props/Extent): Maximising a second moment over the relaxation of any order from two on, with the mass at most `M`, gives exactly the maximum over all mass distributions inside the body: everything at the farthest point.
* `C101_infeasible` (Props/Extent): Parameters of point masses that stick out of a slab around the body too far on average are rejected from order two on.
* `C101_order_one` (Props/Extent): At order one the relaxation of a polyhedron does not bound the second moments at all: around any point of the polyhedron they can be as large as one likes.
* `C101_box_weighted` (Props/Extent): Any non-negative combination of the second moments along the axes of a box is maximised, over the relaxation of any order from two on, by all the mass in one vertex.
* `C101_box_inertia` (Props/Extent): The moment of inertia about an axis of a box is maximised, over the relaxation of any order from two on, by all the mass in one vertex.

**C102. What the uniformity tests of the samplers can decide** (proved). 
Model: `Box`, `Box.center`, `Box.contains`, `Box.cube`, `Box.halfExtents`, `Box.rotation`, `Box.volume`, `Cylinder`, `Cylinder.length`, `Cylinder.mib`, `Cylinder.radius`, `Cylinder.randomPoints`, `Cylinder.rotation`, `Cylinder.volume`, `Ellipsoid`, `Ellipsoid.halfExtents`, `Ellipsoid.mib`, `Ellipsoid.randomPoints`, `Ellipsoid.rotation`, `Ellipsoid.volume`, `ballPoint`, `tol8`, `uniformityTest`.
Specification: `Spec.Orthogonal`, `Spec.Samples`, `Spec.draw`, `Spec.normals`.
Added property. Draws are independent random variables with the laws of C90; the fixed seed of the tests is not modelled.

* `C102_passes` (Props/Uniformity): For a sampler whose law gives the box about the expected probability, the check of `N` points fails with a probability that is small if `N` is large.
* `C102_detects` (Props/Uniformity): For a sampler whose law does not give the box about the expected probability, the check passes with a small probability.
* `C102_same` (Props/Uniformity): The check cannot tell two samplers apart whose laws agree on the box.
* `C102_two_points` (Props/Uniformity): Whatever the sampler, a sampler that returns only two points, one in the box and one outside, passes the check equally often.
* `C102_cylinder` (Props/Uniformity): The check of `Cylinder.random_points` in the tests, with fresh randomness.
* `C102_ellipsoid` (Props/Uniformity): The check of `Ellipsoid.random_points` in the tests, with fresh randomness.
* `C102_ball` (Props/Uniformity): The check of `random_points_in_ball` in the tests, with fresh randomness.

**C103. Optimal values of the programs with containment and exact moment constraints** (proved). 
Model: `Box`, `Box.center`, `Box.halfExtents`, `Box.mustContain`, `Box.rotation`, `Capsule`, `Capsule.cylinder`, `Capsule.mustContain`, `Cylinder`, `Cylinder.center`, `Cylinder.length`, `Cylinder.momentCustomVertexConstraints`, `Cylinder.mustContain`, `Cylinder.radius`, `Cylinder.rotation`, `Ellipsoid`, `Ellipsoid.E`, `Ellipsoid.center`, `Ellipsoid.halfExtents`, `Ellipsoid.momentConstraints`, `Ellipsoid.mustContain`, `Ellipsoid.rotation`, `IP`, `IP.H`, `IP.J`, `IP.h`, `IP.vec`, `ParamVar`, `ParamVar.mat`, `ParamVar.vec`, `Poly`, `Poly.mustContain`, `Poly.vertices`.
Specification: `Spec.Orthogonal`, `Spec.Resolved`.
Added property. The solver is not modelled: the optimum is the greatest element of the set of attainable values.

* `C103_ellipsoid` (Props/Support): The largest value of a linear objective under `Ellipsoid.must_contain`, also for flat ellipsoids.
* `C103_poly` (Props/Support): The largest value of a linear objective under `must_contain` of a polyhedron.
* `C103_box` (Props/Support): The largest value of a linear objective under `must_contain` of a box.
* `C103_cylinder` (Props/Support): The largest value of a linear objective under `Cylinder.must_contain`.
* `C103_capsule` (Props/Support): The largest value of a linear objective under `Capsule.must_contain`.
* `C103_capsule_unique` (Props/Support): The point of a capsule farthest in a direction that is not transverse is unique.
* `C103_ellipsoid_moments` (Props/Support): The largest first and second moments under `Ellipsoid.moment_constraints`, also for flat ellipsoids.
* `C103_cylinder_moments` (Props/Support): The largest first and second moments under `Cylinder.moment_custom_vertex_constraints`.

**C104. General facts that the tests assert on single objects** (proved). 
Model: `Box`, `Box.center`, `Box.fromPointsToBound`, `Box.halfExtents`, `Box.hollowDensityParams`, `Box.onSurface`, `Box.rotation`, `Box.toPoly`, `Box.vertices`, `CddLib`, `Cylinder`, `Cylinder.center`, `Cylinder.length`, `Cylinder.longitudinalAxis`, `Cylinder.mib`, `Cylinder.radius`, `Cylinder.rotation`, `Cylinder.transverseAxes`, `Ellipsoid`, `Ellipsoid.S`, `Ellipsoid.center`, `Ellipsoid.halfExtents`, `Ellipsoid.hollowDensityParams`, `Ellipsoid.rotation`, `FaceForm`, `FaceForm.faces`, `FaceForm.init`, `FaceForm.toSpanForm`, `IP`, `IP.H`, `IP.J`, `Poly`, `Poly.faceForm`, `Poly.vertices`, `SpanForm`, `SpanForm.bounded`, `SpanForm.isCone`, `SpanForm.nr`, `SpanForm.nv`, `outer`.
Specification: `Spec.Irredundant`, `Spec.IsCdd`, `Spec.Orthogonal`, `Spec.ellipsoid`, `Spec.halfspaces`, `Spec.hull`.
Added property. The span forms rest on the contract of the double description library (Spec.IsCdd).

* `C104_points_to_bound` (Props/TestClaims): Of two or more points, at least two lie on the surface of their bounding box (tests/test_box.py:57-58), for every non-negative tolerance.
* `C104_no_vertex` (Props/TestClaims): The points on the surface need not be opposing vertices of the box, as the comment in tests/test_box.py:57 has it: none of them need be a vertex.
* `C104_mixed_span` (Props/TestClaims): The span form of a polyhedron that is unbounded and not a cone has vertices and rays (tests/test_double_description.py:19-31).
* `C104_open_box` (Props/TestClaims): A box with any one face removed has a span form with vertices and rays.
* `C104_inscribed` (Props/TestClaims): The vertices of a convex body are not strictly inside an inscribed ellipsoid (tests/test_ellipsoid.py:135-138).
* `C104_inscribed_poly` (Props/TestClaims): The same for the vertices of a pruned polyhedron.
* `C104_inscribed_redundant` (Props/TestClaims): Without pruning the claim fails: the center of the ellipsoid may be listed, which does not change the hull.
* `C104_mib_vertices` (Props/TestClaims): The vertices of the inscribed box of a cylinder lie in the end planes of the cylinder and on its surface (tests/test_cylinder.py:99-101).
* `C104_hollow_ratio` (Props/TestClaims): The second moments about the center of a hollow box are 5/3 of those of the hollow ellipsoid with the same half extents (tests/test_box.py:168-172).
* `C104_hollow_linear` (Props/TestClaims): The hollow densities are linear in the mass (tests/test_box.py:174-175, tests/test_ellipsoid.py:441-444).

**C105. Rounding in the containment tests** (proved). 
Model: `Box`, `Box.center`, `Box.containsFloat`, `Box.halfExtents`, `Box.rotation`, `Ellipsoid`, `Ellipsoid.center`, `Ellipsoid.containsFloat`, `Ellipsoid.halfExtents`, `Ellipsoid.rotation`, `FlDot`, `FlSum`, `facesContainFloat`.
Specification: `Spec.Binary64`, `Spec.IsRounding`, `Spec.Orthogonal`, `Spec.box`, `Spec.ellipsoid`, `Spec.halfspaces`.
Added property. Overflow is outside the stated sizes; the hypothesis on the hardware is Spec.IsRounding, rounding to a nearest binary64 number.

* `C105_dot` (Props/FloatContains): The dot product of two float vectors of `n` entries, computed in any order and with or without fused operations, is within `2 n u ∑ |xᵢ yᵢ|` of the exact one, apart from underflow; `u = 2⁻⁵³`.
* `C105_sum` (Props/FloatContains): The sum of `n` floats computed in any order is within `2 n u ∑ |xᵢ|` of the exact one, apart from underflow.
* `C105_poly_accepts` (Props/FloatContains): `ConvexPolyhedron.contains` with rounding: a point that satisfies all the inequalities exactly is accepted, whatever the order of the additions, if `dim * ∑ |aᵢ pᵢ|` and the offsets are at most ten million.
* `C105_poly_sound` (Props/FloatContains): `ConvexPolyhedron.contains` with rounding: a point that is accepted, under the same bounds, satisfies every inequality up to `1.4e-8`.
* `C105_box_accepts` (Props/FloatContains): `Box.contains` with rounding: a point within the half extents along every axis is accepted, whatever the order of the additions in the constructor and in the test, if all coordinates and half extents are at most a million.
* `C105_box_sound` (Props/FloatContains): `Box.contains` with rounding: a point that is accepted, under the same bounds, is within the half extents up to `1.7e-8`; so the exact test with that tolerance accepts it.
* `C105_box` (Props/FloatContains): For an orthogonal rotation: the points of the box are accepted and every accepted point is in the box grown by `1.7e-8`.
* `C105_ellipsoid_accepts` (Props/FloatContains): `Ellipsoid.contains` with rounding: under `EllipsoidScale` a point of the ellipsoid is accepted, whatever the order of the additions.
* `C105_ellipsoid_sound` (Props/FloatContains): `Ellipsoid.contains` with rounding: under `EllipsoidScale` a point that is accepted satisfies the exact conditions up to `2e-8`.
* `C105_ellipsoid` (Props/FloatContains): For an orthogonal rotation: the points of the ellipsoid are accepted, and if no half extent is zero every accepted point is in the ellipsoid with half extents larger by the factor `1 + 1e-8`.
* `C105_poly_rejects` (Props/FloatContains): Beyond these sizes the tolerance does not cover the rounding: the half-space `x + y + z ≤ 5 / 2 ^ 27` contains a point with coordinates up to `2 ^ 28` that `contains` rejects when the terms are added from left to right.
* `C105_total` (Props/FloatContains): The relations are total: every polyhedron and point, every box and point, every ellipsoid and point have an answer.

**C106. The module for pycddlib 3 computes the same forms** (proved). 
Model: `Cdd3Lib`, `Cdd3Mat`, `Cdd3Mat.array`, `Cdd3Mat.linSet`, `CddLib`, `CddMat`, `FaceForm`, `FaceForm.canonical`, `FaceForm.canonical3`, `FaceForm.faces`, `FaceForm.fromCdd`, `FaceForm.fromCdd3`, `FaceForm.toCdd`, `FaceForm.toCdd3`, `FaceForm.toSpanForm`, `FaceForm.toSpanForm3`, `SpanForm`, `SpanForm.canonical`, `SpanForm.canonical3`, `SpanForm.fromCdd`, `SpanForm.fromCdd3`, `SpanForm.toCdd`, `SpanForm.toCdd3`, `SpanForm.toFaceForm`, `SpanForm.toFaceForm3`, `convexHullPoints`, `convexHullPoints3`.
Added property. The order of the half-spaces of linear rows follows the iteration order of lin_set, hence equality of sets of half-spaces for face forms.

* `C106_span_form` (Props/Polydd3): The conversion of a matrix of generators gives the same span form in both versions, for every matrix; the masks that are overwritten at the linear rows and the emptiness test by the number of entries make no difference.
* `C106_face_form` (Props/Polydd3): The conversion of a matrix of inequalities gives the same half-spaces in both versions, and both raise the same exception otherwise: if no row is an inequality, or if a linear position is not a row. (The order of the linear rows is that of `lin_set`.)
* `C106_face_set` (Props/Polydd3): The face form made from a matrix of inequalities is the set that the matrix stands for
* `C106_to_cdd` (Props/Polydd3): Conversely, the matrices handed to the library are those of the other version.
* `C106_spans` (Props/Polydd3): For versions of the library that compute the same matrices, the canonical span form, the span form of a face form and the convex hull of points are the same values in both files.
* `C106_faces` (Props/Polydd3): And the canonical face form and the face form of a span form have the same half-spaces in both files, or both raise the same exception.

**C107. Feasibility problems decide realizability in the limit** (proved). 
Model: `Box`, `Box.boxVerts`, `Box.center`, `Box.halfExtents`, `Box.momentSdpFeasibilityProblem`, `Box.rotation`, `Capsule.fullLength`, `Capsule.innerLength`, `Capsule.radius`, `Capsule.rotation`, `Cylinder`, `Cylinder.capsule`, `Cylinder.center`, `Cylinder.length`, `Cylinder.momentSdpFeasibilityProblem`, `Cylinder.radius`, `Cylinder.rotation`, `FaceForm.faces`, `IP`, `IP.H`, `IP.J`, `IP.h`, `IP.mass`, `ParamVar.mat`, `Poly`, `Poly.boxVerts`, `Poly.faceForm`, `Poly.momentSdpFeasibilityProblem`, `SV`, `SV.randomDiagNormal`, `SV.vec`.
Specification: `Spec.Orthogonal`, `Spec.Realizable`, `Spec.box`, `Spec.cylinder`, `Spec.halfspaces`.
Added property. The optimal value is the infimum of the constant objective over the feasible set; solver tolerances are not modelled.

* `C107_poly` (Props/Wrappers): The feasibility problem of a bounded polyhedron has value zero at every order for the parameters of a mass distribution inside the polyhedron, and infinite value from some order on for all other parameters; the argument `eps` has no effect.
* `C107_box` (Props/Wrappers): The same for boxes in any pose.
* `C107_cylinder` (Props/Wrappers): The same for cylinders in any pose.
* `C107_box_not_exact` (Props/Wrappers): No order decides the question for a box of positive half extents: at every order there are parameters that are not realizable in the box although the value of the feasibility problem is zero.
* `C107_box_vertices` (Props/Wrappers): The helper of `poly.py` that nothing calls lists the same vertices, in the same order, as the one of `box.py`.
* `C107_capsule` (Props/Wrappers): The capsule of a cylinder reports the pose and the sizes of the cylinder; its full length exceeds the inner one by a diameter.
* `C107_random` (Props/Wrappers): The random spatial vector has as its angular part the first three and as its linear part the last three numbers drawn, for any sampler; the variances are used in the order of `vec`.

**C108. Which functions change or share their arguments** (proved). 
Model: `AnyShape`, `Array3`, `Array3.mat`, `Array3.mat?`, `Array3.vec`, `Array3.vec?`, `BodyRef`, `BodyRef.add`, `BodyRef.geomBodies`, `BodyRef.init`, `BodyRef.shapes`, `BodyRef.sum`, `BodyRef.transform`, `BodyRef.view`, `Box`, `Box.init`, `BoxRef`, `BoxRef.init`, `BoxRef.view`, `CddLib`, `Cell`, `Cell.index`, `Cell.poly`, `GeomObj`, `IP`, `IP.init`, `IPRef`, `IPRef.H`, `IPRef.com`, `IPRef.init`, `IPRef.view`, `MomentMatrixRef.localizingMatrix`, `MultiBody`, `MultiBody.bodies`, `MultiBody.init`, `MultiBody.model`, `MultiBody.toolIdx`, `MultiBodyRef`, `MultiBodyRef.init`, `MultiBodyRef.model`, `MultiBodyRef.view`, `PinInertia`, `PinModel`, `PinModel.frameNames`, `PinModel.geoms`, `PinModel.gravity`, `PinModel.inertias`, `PinModel.jointNames`, `PolyRef.Dicts`, `PolyRef.add`, `PolyRef.init`, `PolyRef.localize`, `Polynomial`, `Polynomial.add`, `Polynomial.coefficients`, `Polynomial.evaluate`, `Polynomial.init`, `Polynomial.localize`, `Prog.exec`, `RigidBody`, `RigidBody.add`, `RigidBody.transform`, `geomBodies`.
Specification: `Spec.SameFrom`, `Spec.Unchanged`.
Added property. One kind of object per memory (dictionaries, lists of shapes, arrays, models); the contents are those of the models without memory, and the results agree with them.

* `C108_add` (Props/Memory): Adding two polynomials, also a polynomial to itself, changes no dictionary that existed before; the sum has a dictionary of its own, which holds the sum of the two.
* `C108_localize` (Props/Memory): The same for `localize`.
* `C108_polynomial` (Props/Memory): The constructor copies: it changes no dictionary, and the polynomial does not share the dictionary it is given.
* `C108_localizing` (Props/Memory): `localizing_matrix` fills a copy: the array of indices of the moment matrix, and every other array, stays as it is, so the method can be called again.
* `C108_body_add` (Props/Memory): The sum of two bodies has a list of its own, and no list is changed.
* `C108_body_transform` (Props/Memory): A transformed body has a list of its own, and no list is changed.
* `C108_body_shared` (Props/Memory): A body made from a list keeps that list: a shape appended to the list later is a shape of the body, and of every other body made from the list.
* `C108_body_sum` (Props/Memory): `0 + body`, the first step of `sum(bodies)`, is the body itself and not a copy; with two bodies the sum is a new body.
* `C108_multibody` (Props/Memory): Appending in place gives the bodies that the model with values gives (C82): each body has a list of its own, and no list that existed before the call is changed, also when the call fails.
* `C108_gravity` (Props/Memory): `MultiBody(model, geom_model, gravity=g)` writes the gravity into the model it is given: every multibody made before with the same model has the new gravity from then on, and multibodies with other models keep theirs.
* `C108_gravity_failed` (Props/Memory): If a geometry is rejected the constructor has already changed the gravity of the model it was given.
* `C108_gravity_none` (Props/Memory): Without a gravity, or with one that is rejected, or with an unknown tool, the models are left as they are.
* `C108_box` (Props/Memory): A box copies its arrays: the constructor changes none of the arrays that exist, and the box, which is what the model with values gives, stays the same whatever happens to them afterwards.
* `C108_params` (Props/Memory): Inertial parameters keep the arrays `com` and, unless it is translated, `H` that they are given; the other arrays are new.
* `C108_params_shared` (Props/Memory): So a later change of the array passed as `com` changes the center of mass of the body, and not its second moments.

**C109. Rounding in the containment tests of cylinders and capsules** (proved). 
Model: `Capsule`, `Capsule.containsFloat`, `Capsule.cylinder`, `Cylinder`, `Cylinder.center`, `Cylinder.containsFloat`, `Cylinder.length`, `Cylinder.radius`, `Cylinder.rotation`.
Specification: `Spec.IsRounding`, `Spec.Orthogonal`, `Spec.capsule`, `Spec.cylinder`.
Added property. The sizes are part of the statement; zero length or radius is covered for acceptance.

* `C109_cylinder` (Props/FloatCylinder): `Cylinder.contains` with rounding: under `CylinderScale` a point of the cylinder is accepted, whatever the order of the additions, and a point that is accepted lies in the cylinder with half length and radius enlarged by the factor `1 + 2e-8`.
* `C109_capsule` (Props/FloatCylinder): `Capsule.contains` with rounding: under `CapsuleScale` a point of the capsule is accepted, whatever the order of the additions, and a point that is accepted lies in the capsule with half length and radius enlarged by the factor `1 + 2e-8`.
* `C109_total` (Props/FloatCylinder): The tests give some answer for every point, so the statements about all answers are not empty.

**C110. Queries of a multibody read the last forward kinematics** (proved). 
Model: `Answer`, `Answer.array`, `Answer.pose`, `Answer.vecs`, `Call`, `Call.forwardKinematics`, `Call.frameClassicalAcceleration`, `Call.frameJacobian`, `Call.framePose`, `Call.frameSpatialAcceleration`, `Call.frameVelocity`, `Call.jointTorques`, `FrameArg`, `MultiBody`, `MultiBody.model`, `MultiBody.toolIdx`, `MultiBodyState`, `MultiBodyState.body`, `MultiBodyState.call`, `MultiBodyState.computeForwardKinematics`, `MultiBodyState.data`, `MultiBodyState.frameIndex`, `MultiBodyState.getFramePose`, `MultiBodyState.init`, `MultiBodyState.nq`, `MultiBodyState.nv`, `MultiBodyState.run`, `MultiBodyState.step`, `NdArray`, `NdArray.shape`, `PinLib`, `PinLib.forwardKinematics`, `PinLib.frameAcceleration`, `PinLib.frameClassicalAcceleration`, `PinLib.frameJacobian`, `PinLib.frameVelocity`, `PinLib.oMf`, `PinLib.rnea`, `PinLib.updateFramePlacements`, `PinModel`, `PinModel.frameNames`, `RefFrame`.
Specification: `Spec.IsJacobian`, `Spec.IsKinematics`, `Spec.PinContract`.
Added property. pinocchio is not modelled: the contract is an assumption on its algorithms, met by the library simplePin of the examples.

* `C110_kinematics` (Props/MultiBodyState): `compute_forward_kinematics` succeeds exactly when the arrays have the right shapes, otherwise it raises `AssertionError`; velocities and accelerations that are left out count as zero.
* `C110_failed` (Props/MultiBodyState): A call that raises an exception changes nothing.
* `C110_frame` (Props/MultiBodyState): Which frame is meant: an index is taken as it is, a name is the first frame of that name or `ValueError`, and without an argument it is the tool, or `TypeError` if the multibody has none.
* `C110_torques` (Props/MultiBodyState): `compute_joint_torques` returns pinocchio's torques for `(q, v, a)` in this order exactly when the arrays have the right shapes; otherwise it raises `AssertionError`.
* `C110_query` (Props/MultiBodyState): The queries for a frame return what pinocchio computes for the index of that frame and the given reference frame, with the linear part first and the rotation before the translation, and a query for the pose changes nothing.
* `C110_unresolved` (Props/MultiBodyState): Every query for a frame that cannot be resolved raises the exception of the resolution, whatever the data are.
* `C110_pose` (Props/MultiBodyState): After any sequence of calls, whichever of them raise exceptions, `get_frame_pose` returns the pose of the frame at the configuration of the last successful `compute_forward_kinematics`, if no Jacobian was computed since: the tuple is the rotation and then the translation.
* `C110_initial` (Props/MultiBodyState): Nothing checks that `compute_forward_kinematics` was called: before the first successful one `get_frame_pose` returns the identity for every frame.

**C111. Moment matrices of order zero** (proved). 
Model: `DynIndex`, `DynPoly`, `DynPoly.affine`, `DynPoly.coefficients`, `DynPoly.degree`, `IndexEntry`, `IndexEntry.index`, `IndexEntry.npInt`, `MomentMatrix.indices`, `MomentMatrix.localize`, `MomentMatrix.momentConstraints`, `MomentObject.init`, `MomentObject.localize`, `MomentObject.localizingMatrix`, `MomentObject.momentConstraints`, `Polynomial`, `Polynomial.dim`, `Polynomial.localize`, `Polynomial.toDyn`.
Added property.

* `C111_zero_indices` (Props/MomentObject): The moment matrix of order zero is the one-by-one array holding the integer `0`, not a moment index.
* `C111_zero_constraints` (Props/MomentObject): At order zero `moment_constraints` accepts every matrix.
* `C111_zero_localize` (Props/MomentObject): At order zero nothing can be localized
* `C111_zero_matrix` (Props/MomentObject): At order zero `localizing_matrix(0, poly)` raises `AttributeError`, or `TypeError` for the polynomial without coefficients.
* `C111_indices` (Props/MomentObject): At order `d ≥ 1` the entries of the array are the sums of the multi-indices of degree at most `d`.
* `C111_constraints` (Props/MomentObject): At order `d ≥ 1` the moment constraints are those of `Model/Moment.lean`.
* `C111_localize` (Props/MomentObject): At order `d ≥ 1` the localizing matrix of a value of the moment matrix, and the exceptions, are those of `Model/Moment.lean`.
* `C111_matrix` (Props/MomentObject): At order `d ≥ 1` the entries of `localizing_matrix(d', poly)` are the localized polynomials of `Model/Moment.lean` for every `d' ≤ d`, as polynomials and not as arrays.
* `C111_matrix_large` (Props/MomentObject): `localizing_matrix(d', poly)` raises `IndexError` for every `d' > d ≥ 1`, if there is a variable.
* `C111_zero_face` (Props/MomentObject): The constraint of a face with a nonzero normal, so `moment_sdp_constraints(..., d=0)` of a polyhedron (whose first face is localized first) raises `ValueError`.

**C112. Array arguments of the constructors** (proved). 
Model: `ArrayArg`, `ArrayArg.array`, `ArrayArg.scalar`, `ArrayArg.toArray`, `ArrayArg.toArray1`, `Box`, `Box.init`, `Box.initArray`, `Cylinder.initArray`, `Ellipsoid`, `Ellipsoid.center`, `Ellipsoid.init`, `Ellipsoid.initArray`, `Ellipsoid.rotation`, `Ellipsoid.sphere`, `Ellipsoid.sphereArray`, `IP`, `IP.J`, `IP.init`, `IPArrays`, `IPArrays.H`, `IPArrays.J`, `IPArrays.com`, `IPArrays.init`, `NdArray`, `NdArray.data`, `NdArray.ofMatrix`, `NdArray.ofVec`, `NdArray.shape`, `PoseArrays`, `PoseArrays.center`, `PoseArrays.halfExtents`, `PoseArrays.rotation`, `centerArray`, `cleanTransformArray`, `positionArray`, `rotationArray`, `spatialArray`, `spatialPart`.
Specification: `Spec.BroadcastsTo`, `Spec.Nonnegative`, `Spec.PositionShape`, `Spec.RotationShape`.
Added property.

* `C112_ellipsoid` (Props/Construct): `Ellipsoid(half_extents, rotation, center)` returns exactly if the half extents are nonnegative and have at least one axis, the rotation is left out or has shape `(n, n)`, and the center is left out, has shape `(n,)`, or is a number and `n` is 1; here `n` is the length of the first axis.
* `C112_ellipsoid_error` (Props/Construct): Otherwise it raises `AssertionError`, or `IndexError` for nonnegative half extents in an array without axes.
* `C112_ellipsoid_vector` (Props/Construct): On vectors and matrices of matching sizes the constructor is that of `Model/Ellipsoid.lean`.
* `C112_ellipsoid_matrix` (Props/Construct): Nothing checks that the half extents are a vector: every array of nonnegative numbers with two (or more) axes is accepted.
* `C112_box` (Props/Construct): `Box(half_extents, center, rotation)` returns exactly for nonnegative half extents of shape `(3,)`, a center that is left out or has shape `(3,)` and a rotation that is left out or has shape `(3, 3)`; otherwise it raises `AssertionError`.
* `C112_box_vector` (Props/Construct): On vectors and matrices of the right sizes the constructor is that of `Model/Box.lean`.
* `C112_clean_transform` (Props/Construct): `clean_transform(rotation, translation, dim)` returns exactly for arguments of shapes `(dim, dim)` and `(dim,)` or none, and raises `AssertionError` otherwise.
* `C112_cylinder` (Props/Construct): `Cylinder(length, radius, rotation, center)` returns exactly for nonnegative numbers and arguments of shapes `(3, 3)` and `(3,)`, or none, and stores these; otherwise it raises `AssertionError`.
* `C112_sphere_vector` (Props/Construct): `Ellipsoid.sphere(radius, center)` for a vector is that of `Model/Ellipsoid.lean`.
* `C112_sphere` (Props/Construct): A sphere in no dimension is accepted with every radius, negative ones included; a center that is a number or an array without axes raises `IndexError`, and a center with two or more axes `AssertionError`.
* `C112_spatial` (Props/Construct): A part of a spatial vector must have shape `(3,)`.
* `C112_spatial_vector` (Props/Construct): `SpatialVector(linear, angular)` checks the angular part first, and a part that is left out is zero.
* `C112_params_stores` (Props/Construct): `InertialParameters(mass, com=com, H=H)` checks no shape: it stores every pair of arrays.
* `C112_params_inertia` (Props/Construct): An inertia matrix of any other shape than `(3, 3)` is rejected with `AssertionError`.
* `C112_params_J` (Props/Construct): `J` returns exactly if `H` can be broadcast to `(3, 3)` and `com` to `(3,)`, and raises `ValueError` otherwise.
* `C112_params_vector` (Props/Construct): On vectors and matrices of the right sizes the constructor followed by `J` is that of `Model/Inertial.lean`, with the same exceptions.
* `C112_params_row` (Props/Construct): A second moment matrix given as three numbers is accepted, and `J` repeats them in every row.

**C113. schur on arguments of any kind** (proved). 
Model: `NdArray`, `NdArray.data`, `NdArray.ofMatrix`, `NdArray.ofVec`, `NdArray.shape`, `SchurArg`, `SchurArg.array`, `SchurArg.number`, `SchurArg.toBlock`, `schur`, `schurArray`.
Specification: `Spec.StandsFor`.
Added property.

* `C113_block` (Props/Schur): Every argument is turned into an array with two axes that has the entries of the matrix it stands for.
* `C113_schur` (Props/Schur): `schur(A, B, C)` returns exactly if the blocks fit
* `C113_schur_vector` (Props/Schur): For a square matrix, a vector and a number, `schur` is that of `Model/Constraint.lean`.
* `C113_schur_psd` (Props/Schur): For square blocks with `A` symmetric and `C` positive definite, the matrix that `schur` returns is positive semidefinite exactly if the Schur complement `A - B C⁻¹ Bᵀ` is.

**C114. Rounding in parameter vectors and sums of parameters** (proved). 
Model: `IP`, `IP.H`, `IP.J`, `IP.JFloat`, `IP.addFloat`, `IP.com`, `IP.fromVecFloat`, `IP.mass`, `IP.vecFloat`.
Specification: `Spec.Binary64`, `Spec.IsRounding`, `Spec.PSD`.
Added property.

* `C114_second_moments` (Props/FloatInertial): In binary64 the second moments of `InertialParameters.from_vec(p.vec)` differ from those of `p` on the diagonal only, and there by at most `30 · 2⁻⁵³` times the sum of the diagonal entries, in whichever order the traces are summed.
* `C114_center_of_mass` (Props/FloatInertial): The mass is exact, the center of mass of `InertialParameters.from_vec(p.vec)` is within a relative error of `3 · 2⁻⁵³`, and the first moments computed from it are within a relative error of `5 · 2⁻⁵³`, apart from underflow.
* `C114_consistent` (Props/FloatInertial): Parameters whose pseudo-inertia matrix has no eigenvalue below `10⁻¹⁴` times the sum of its entries on the diagonal and of the first moments stay consistent when they are converted to a vector and back.
* `C114_result` (Props/FloatInertial): For every positive mass the round trip has a result.
* `C114_thin_plate` (Props/FloatInertial): The margin of `C114_consistent` is needed: the parameters of a plate of mass 1, with second moments 1, 1 and `2⁻⁶⁰` and its center of mass `2⁻³¹` above the origin, are floats with a positive definite pseudo-inertia matrix, which is computed without error.
* `C114_add` (Props/FloatInertial): The sum of two sets of parameters with rounding: the second moments and the mass have a relative error of `2⁻⁵³`, and the first moments, which are divided by the mass and multiplied with it again, one of `5 · 2⁻⁵³` of the sum of the sizes.

**C115. Rounding in random weights and points** (proved). 
Model: `ballFloat`, `sphereFloat`, `weightsFloat`.
Specification: `Spec.Binary64`, `Spec.IsRounding`.
Added property.

* `C115_weights` (Props/FloatRandom): `random_weight_vectors` with rounding: every weight is between 0 and 1, and the weights sum to one within `(3 n + 3) · 2⁻⁵³`, in whichever order the draws are added.
* `C115_sphere` (Props/FloatRandom): `random_points_on_hypersphere` with rounding: the squared length of the point is one within `(5 d + 25) · 2⁻⁵³`, in whichever order the squares are added.
* `C115_ball` (Props/FloatRandom): `random_points_in_ball` with rounding: the point leaves the unit ball by at most `(5 d + 40) · 2⁻⁵³` of its squared length, if the power of the radius is computed with a relative error of at most two units.
* `C115_sphere_outside` (Props/FloatRandom): The point can lie outside the unit sphere: the draws 11/32, 21/32, 22/32 give one of squared length above `1 + 3 · 2⁻⁵³`.
* `C115_ball_outside` (Props/FloatRandom): The point of `random_points_in_ball` can lie outside the unit ball, even if the power is correctly rounded: with the draws of `C115_sphere_outside` and the largest uniform draw `1 - 2⁻⁵³`.
* `C115_result` (Props/FloatRandom): The functions have a result for all draws.

**C116. Rounding in Ellipsoid.can_realize** (proved). 
Model: `Ellipsoid`, `Ellipsoid.canRealizeFloat`, `Ellipsoid.center`, `Ellipsoid.halfExtents`, `Ellipsoid.rotation`, `Ellipsoid.traceQJFloat`, `IP`, `IP.H`, `IP.J`, `IP.h`, `IP.mass`, `qMatrix`.
Specification: `Spec.IsRounding`, `Spec.Orthogonal`, `Spec.PSD`, `Spec.Realizable`, `Spec.ellipsoid`.
Added property.

* `C116_trace` (Props/FloatRealize): The computed trace differs from that of exact arithmetic by at most `10⁻⁹` times the mass.
* `C116_sound` (Props/FloatRealize): If `can_realize` says yes on a non-degenerate ellipsoid, the parameters (with a positive semidefinite pseudo-inertia matrix) can be realized in the ellipsoid enlarged by the factor `1 + 10⁻⁹`, and the computed smallest eigenvalue was at least `eps`.
* `C116_accepts` (Props/FloatRealize): If the parameters can be realized in the ellipsoid shrunk by the factor `1 - 10⁻⁹` and the computed smallest eigenvalue is at least `eps`, `can_realize` says yes.
* `C116_rejects` (Props/FloatRealize): Without a tolerance the test can reject a realizable body: six unit masses on the surface of the ball of radius 5 around the origin have the parameters of `sixMasses`, all numbers involved are floats and the pseudo-inertia matrix is diagonal with the entries 50, 50, 50, 6, but `can_realize` says no whatever the order of the sums.
* `C116_boundary` (Props/FloatRealize): On the boundary of a ball of radius one the trace is zero without rounding error and the parameters of six unit masses are accepted.
* `C116_result` (Props/FloatRealize): The test has an answer for all arguments.

**C117. Programs that build bodies** (proved). 
Model: `AnyShape`, `AnyShape.box`, `AnyShape.capsule`, `AnyShape.cylinder`, `AnyShape.ellipsoid`, `AnyShape.poly`, `BodyProgram`, `BodyProgram.add`, `BodyProgram.given`, `BodyProgram.run`, `BodyProgram.transform`, `Box`, `Box.hollowDensityParams`, `Box.toPoly`, `Box.uniformDensityParams`, `Box.wireframeDensityParams`, `Capsule`, `CddLib`, `Cylinder`, `Cylinder.uniformDensityParams`, `Ellipsoid`, `Ellipsoid.hollowDensityParams`, `Ellipsoid.uniformDensityParams`, `IP`, `IP.H`, `IP.consistent`, `IP.fromPointMasses`, `IP.h`, `IP.mass`, `Poly`, `Poly.vertexPointMassParams`, `RigidBody`, `RigidBody.params`, `RigidBody.shapes`.
Specification: `Spec.Balanced`, `Spec.IsCdd`, `Spec.LeavesRealizable`, `Spec.Moments`, `Spec.Moments.mass`, `Spec.PointMasses`, `Spec.PointMasses.mass`, `Spec.Realizable`, `Spec.bodyRegion`, `Spec.programMoments`, `Spec.programPoints`, `Spec.programRegion`.
Added property.

* `C117_run` (Props/Program): A program with proper arguments in which no sum has two massless operands has a value: a body with valid shapes that cover the region the program describes, and with the moments the program describes.
* `C117_fails` (Props/Program): Otherwise, with proper arguments, the program divides by a zero mass.
* `C117_realizable` (Props/Program): If every body in a program can be realized on its shapes, so can the value of the program.
* `C117_consistent` (Props/Program): And then the parameters pass the test `consistent`.
* `C117_same` (Props/Program): Programs that describe the same moments with a mass build bodies with the same parameters.
* `C117_points` (Props/Program): If the bodies in a program are given by point masses, its value has the parameters that `from_point_masses` computes from all the points, each where the program has moved it.
* `C117_distribute` (Props/Program): Moving a sum is summing the moved bodies: the same region and the same parameters.
* `C117_density` (Props/Program): The bodies with the parameters of a density can be used in such a program.

**C118. Programs that build polynomials** (proved). 
Model: `PolyProgram`, `PolyProgram.run`, `Polynomial`, `Polynomial.coefficients`, `Polynomial.degree`, `Polynomial.evaluate`, `Polynomial.substitute`, `dictGet`.
Specification: `Spec.DictsOk`, `Spec.PolyArgsOk`, `Spec.programPoly`.
Added property.

* `C118_run` (Props/PolyProgram): A program with proper arguments has a value: a dictionary with distinct keys and no zeros, whose entries are the coefficients of the polynomial that the program describes.
* `C118_fails` (Props/PolyProgram): The only way to fail is `ones(n, 0)`.
* `C118_queries` (Props/PolyProgram): The value of a program evaluates like the polynomial, its keys are the exponents that occur, and `degree` is the total degree, with a `ValueError` for the zero polynomial.
* `C118_same` (Props/PolyProgram): Two programs describe the same polynomial exactly if their values have the same items, up to order.
* `C118_substitute` (Props/PolyProgram): `substitute` on the value of a program replaces every monomial by its value, if there is one for each monomial that occurs; otherwise it raises a `KeyError`.

**C119. Programs that build polyhedra** (proved). 
Model: `CddLib`, `Poly`, `Poly.contains`, `Poly.containsPolyhedron`, `Poly.isSame`, `Poly.vertices`, `PolyhedronProgram`, `PolyhedronProgram.intersect`, `PolyhedronProgram.run`, `PolyhedronProgram.transform`.
Specification: `Spec.IsCdd`, `Spec.OperandsMeet`, `Spec.Orthogonal`, `Spec.PolyhedronArgsOk`, `Spec.hull`, `Spec.programPolyhedron`.
Added property.

* `C119_run` (Props/PolyhedronProgram): An expression built from `from_vertices`, `from_halfspaces`, `simplex`, `intersect` and `transform`, in which no operation is applied to an empty intersection, evaluates to `None` if the set it denotes is empty, and otherwise to a polyhedron whose faces and whose vertices describe exactly that set.
* `C119_fails` (Props/PolyhedronProgram): If some operation is applied to an empty intersection the expression raises: an `AttributeError` for `None.intersect` and `None.transform`, an `AssertionError` for `intersect(None)`.
* `C119_errors` (Props/PolyhedronProgram): Which error an operation on an empty intersection raises, once its operands have been evaluated.
* `C119_compare` (Props/PolyhedronProgram): The values of two expressions compare as the sets they denote
* `C119_distribute` (Props/PolyhedronProgram): If two polyhedra meet, the transform of their intersection is the intersection of their transforms
* `C119_distribute_empty` (Props/PolyhedronProgram): If two polyhedra do not meet, `a.intersect(b).transform(R, t)` raises an `AttributeError`, although the intersection of the transforms is `None`.

**C120. The text of moment indices and polynomials** (proved). 
Model: `DynIndex.toChars`, `MomentMatrix.indices`, `Polynomial`, `Polynomial.coefficients`, `Polynomial.dim`, `Polynomial.toChars`.
Added property.

* `C120_index` (Props/Text): Two indices over the same variables with degree at most 10 have different texts unless they are equal.
* `C120_index_digits` (Props/Text): The same for indices whose exponents all have one digit.
* `C120_index_ambiguous` (Props/Text): With two or more variables there are two indices of degree 11 that have the same text.
* `C120_matrix` (Props/Text): In a moment matrix of order `d` in `n` variables, entries with the same text are the same moment exactly if `n ≤ 1` or `d ≤ 5`.
* `C120_terms` (Props/Text): The text of a polynomial determines the coefficients and the texts of the indices, in their order.
* `C120_polynomial` (Props/Text): If all exponents of two polynomials have degree at most 10, or there is only one variable, they have the same text exactly if they have the same dictionary, in the same order.
* `C120_polynomial_ambiguous` (Props/Text): From degree 11 on, two different polynomials in two or more variables can have the same text.

**C121. Rounding in repeated transforms of shapes** (proved). 
Model: `Box`, `Box.center`, `Box.containsFloat`, `Box.halfExtents`, `Box.rotation`, `Cylinder`, `Cylinder.center`, `Cylinder.length`, `Cylinder.radius`, `Cylinder.rotation`, `Ellipsoid`, `Ellipsoid.center`, `Ellipsoid.halfExtents`, `Ellipsoid.rotation`.
Specification: `Spec.IsRounding`, `Spec.Motion`, `Spec.NearMotion`, `Spec.NearRotation`, `Spec.StaysWithin`, `Spec.box`, `Spec.cylinder`, `Spec.ellipsoid`, `Spec.movedBy`.
Added property. With rounding; overflow is excluded by the bounds on the sizes.

* `C121_box` (Props/FloatTransform): A box after any number of calls of `transform` with rounding: every point of the true box, moved exactly, is close to a point of the computed box, and every point of the computed box is close to one of the true box.
* `C121_ellipsoid` (Props/FloatTransform): The same for ellipsoids.
* `C121_cylinder` (Props/FloatTransform): The same for cylinders.
* `C121_orthogonal` (Props/FloatTransform): The computed rotation stays close to orthogonal: after `N` calls the products of its columns are off by at most `1200 (N + 1) 2⁻⁵³`.
* `C121_contains_accepts` (Props/FloatTransform): Membership after any number of transforms, with rounding in the transforms and in the test: if the error bound of `C121_box` is at most `5e-10`, `contains` accepts every point within `1e-10` of the truly moved box.
* `C121_contains_sound` (Props/FloatTransform): And what `contains` accepts is close to the truly moved box: within the half extents grown by `3e-8`.
* `C121_result` (Props/FloatTransform): The calls have a result, whatever the arguments.

**C122. Rounding in the inertial parameters of point masses** (proved). 
Model: `IP`, `IP.H`, `IP.JFloat`, `IP.com`, `IP.fromPointMassesFloat`, `IP.mass`.
Specification: `Spec.Binary64`, `Spec.IsRounding`, `Spec.PSD`.
Added property. With rounding; overflow is excluded by the bounds on the sizes.

* `C122_errors` (Props/FloatPointMasses): The parameters that `InertialParameters.from_point_masses` computes for `n` masses, none negative, in a box of half extent `L` about the origin.
* `C122_symmetric` (Props/FloatPointMasses): The second moment matrix is exactly symmetric, whatever the masses and points.
* `C122_consistent` (Props/FloatPointMasses): The second moments about the computed center of mass are positive semidefinite up to `70 (n + 1) u M L²`.
* `C122_hull` (Props/FloatPointMasses): The computed center of mass is within `8 (n + 1) u L` of a point of the convex hull of the points, in every coordinate.
* `C122_unit_mass` (Props/FloatPointMasses): The margin of `C122_consistent` is needed: the parameters computed for a mass 1 at the float `1 + 2⁻⁵²` on the first axis have an exact mass and center of mass, but a second moment below that of the mass at its center, since the square is rounded down.
* `C122_result` (Props/FloatPointMasses): There is a result for every such system of masses.

**C123. Rounding in repeated transforms of inertial parameters** (proved). 
Model: `IP`, `IP.H`, `IP.J`, `IP.com`, `IP.mass`, `IP.transformFloat`, `calls`.
Specification: `Spec.IsRounding`, `Spec.Motion`, `Spec.Motion.rotation`, `Spec.Motion.translation`, `Spec.NearMotion`, `Spec.PSD`, `Spec.StaysWithin`, `Spec.movedBy`, `Spec.turnedBy`.
Added property. With rounding; overflow is excluded by the bounds on the sizes.

* `C123_transforms` (Props/FloatInertialTransform): Calling `InertialParameters.transform` any number of times `N` keeps the mass, moves the center of mass up to `160 N u S`, and turns the second moments about the center of mass up to `1700 N u m S²` in every entry.
* `C123_consistent` (Props/FloatInertialTransform): Parameters that are physically consistent stay so up to rounding: the second moments about the center of mass have no direction in which they are below `-5100 N u m S²`.
* `C123_moved_masses` (Props/FloatInertialTransform): The turned matrix is the right one: for masses that move along with the center `c`, it has the second moments of the moved masses about the moved center.
* `C123_result` (Props/FloatInertialTransform): There is a result for every sequence of calls.

**C124. Rounding in body wrenches and regressors** (proved). 
Model: `IP`, `IP.H`, `IP.bodyWrench`, `IP.bodyWrenchFloat`, `SV`, `SV.vec`, `regressedWrenchFloat`.
Specification: `Spec.IsRounding`.
Added property. With rounding; overflow is excluded by the bounds on the sizes.

* `C124_body_wrench` (Props/FloatDynamics): The wrench that `InertialParameters.body_wrench` computes: every component is within `4500 u B (a + v²)` of the exact one.
* `C124_regressor` (Props/FloatDynamics): The wrench `RigidBody.regressor(V, A) @ params.vec`: every component is within `7500 u B (a + v²)` of the exact body wrench.
* `C124_agree` (Props/FloatDynamics): The two computed wrenches agree up to rounding.
* `C124_result` (Props/FloatDynamics): There are results for all parameters, velocities and accelerations.

**C125. Rounding in axis-aligned bounding boxes** (proved). 
Model: `Box`, `Box.aabbFloat`, `Box.center`, `Box.containsFloat`, `Box.fromPointsToBoundFloat`, `Box.fromTwoVerticesFloat`, `Box.halfExtents`, `Box.rotation`.
Specification: `Spec.Binary64`, `Spec.IsRounding`, `Spec.NearRotation`, `Spec.aabox`, `Spec.box`.
Added property. With rounding; overflow is excluded by the bounds on the sizes. That the box itself contains the points is false; the bound says by how much.

* `C125_two_vertices` (Props/FloatBound): `from_two_vertices(v1, v2)` with rounding succeeds, and the box is axis-aligned and differs from the box with these opposite corners by at most `6 · 2⁻⁵³ S` on every side.
* `C125_bound` (Props/FloatBound): `from_points_to_bound(points)` with rounding succeeds for any number of points; the box is axis-aligned; grown by `6 · 2⁻⁵³ S` on every side it contains all of the points; and it stays within every axis-aligned box around the points, grown by as much.
* `C125_contains` (Props/FloatBound): `contains` of the bounding box, with rounding and its default tolerance, accepts each of the points.
* `C125_loses_point` (Props/FloatBound): But the box itself need not contain the points: with `(-2⁻⁶⁰, 0, 0)` and `(1, 0, 0)` the first one is outside.
* `C125_empty` (Props/FloatBound): Without points there is no box.
* `C125_aabb` (Props/FloatBound): `aabb()` of a box in any pose, with rounding, succeeds; the result is axis-aligned; grown by `175 · 2⁻⁵³ S` on every side it contains the box; and it stays within every axis-aligned box around the box, grown by as much.
* `C125_result` (Props/FloatBound): There is such a result, whatever the rounding.

**C126. Rounding in random points, vertices and grids of boxes** (proved). 
Model: `Box`, `Box.center`, `Box.containsFloat`, `Box.grid`, `Box.gridFloat`, `Box.halfExtents`, `Box.randomPointFloat`, `Box.rotation`, `Box.vertices`, `Box.verticesFloat`.
Specification: `Spec.IsRounding`, `Spec.NearRotation`, `Spec.rigid`.
Added property. With rounding; overflow is excluded by the bounds on the sizes.

* `C126_random` (Props/FloatSampling): `random_points` with rounding: every coordinate of the point is off by at most `200 · 2⁻⁵³ S`.
* `C126_vertices` (Props/FloatSampling): The vertices with rounding are off by at most `160 · 2⁻⁵³ S`.
* `C126_grid` (Props/FloatSampling): The grid with rounding has, in the same order, the points of the exact grid, each off by at most `200 · 2⁻⁵³ S`.
* `C126_accepts` (Props/FloatSampling): `contains` with rounding and its default tolerance accepts every random point, every vertex and every grid point of a box in any pose, as computed with rounding.
* `C126_result` (Props/FloatSampling): There are such results, whatever the rounding.

**C127. Rounding in random points of ellipsoids** (proved). 
Model: `Ellipsoid`, `Ellipsoid.center`, `Ellipsoid.containsFloat`, `Ellipsoid.halfExtents`, `Ellipsoid.mapBallFloat`, `Ellipsoid.randomPointFloat`, `Ellipsoid.rotation`.
Specification: `Spec.IsRounding`, `Spec.NearRotation`, `Spec.rigid`.
Added property. With rounding; overflow is excluded by the bounds on the sizes. Three dimensions only.

* `C127_point` (Props/FloatEllipsoidPoints): `random_points` of an ellipsoid with rounding: every coordinate is within `1700 · 2⁻⁵³ S` of the exact image of the point drawn in the ball.
* `C127_accepts` (Props/FloatEllipsoidPoints): And `contains` with rounding and its default tolerance accepts it, for all draws, if each half extent is zero or at least a five-hundredth of `S`.
* `C127_result` (Props/FloatEllipsoidPoints): There is such a point, whatever the rounding.

**C128. Rounding in random points of cylinders** (proved). 
Model: `Cylinder`, `Cylinder.center`, `Cylinder.containsFloat`, `Cylinder.length`, `Cylinder.mapDiskFloat`, `Cylinder.radius`, `Cylinder.randomPointFloat`, `Cylinder.rotation`.
Specification: `Spec.IsRounding`, `Spec.NearRotation`, `Spec.rigid`.
Added property. With rounding; overflow is excluded by the bounds on the sizes.

* `C128_point` (Props/FloatCylinderPoints): `random_points` of a cylinder with rounding: every coordinate is within `200 · 2⁻⁵³ S` of the exact image of the draws.
* `C128_accepts` (Props/FloatCylinderPoints): And `contains` with rounding accepts it, for all draws, if half length and radius are each zero or at least a thousandth of `S`.
* `C128_result` (Props/FloatCylinderPoints): There is such a point, whatever the rounding.

**C129. Rounding in points on the surface and the edges of boxes** (proved). 
Model: `Box`, `Box.center`, `Box.edgePointFloat`, `Box.halfExtents`, `Box.onSurfaceFloat`, `Box.rotation`, `Box.surfacePointFloat`.
Specification: `Spec.IsRounding`, `Spec.NearRotation`, `Spec.rigid`.
Added property. With rounding; overflow is excluded by the bounds on the sizes. random_points_on_surface of boxes in other poses leaves the surface even in exact arithmetic, so it is bounded only for boxes at the origin.

* `C129_edges` (Props/FloatSurface): `random_points_on_edges` with rounding: every coordinate is within `200 · 2⁻⁵³ S` of the exact point on the edge.
* `C129_edges_accepted` (Props/FloatSurface): `on_surface` with rounding and its default tolerance accepts every random point on an edge of a box in any pose.
* `C129_surface_accepted` (Props/FloatSurface): The same for `random_points_on_surface`, for a box at the origin that is not rotated; for other boxes the points are not on the surface even without rounding.
* `C129_sound` (Props/FloatSurface): A point that `on_surface` with rounding accepts is on the surface up to `1.8e-8`: it is at most so far outside, and its distance to one of the faces' planes is at most `1.1e-8`.
* `C129_result` (Props/FloatSurface): There are such results, whatever the rounding.

**C130. Rounding in the inertial parameters of uniform densities** (proved). 
Model: `Box`, `Box.center`, `Box.halfExtents`, `Box.rotation`, `Box.uniformDensityFloat`, `Cylinder`, `Cylinder.center`, `Cylinder.length`, `Cylinder.radius`, `Cylinder.rotation`, `Cylinder.uniformDensityFloat`, `Ellipsoid`, `Ellipsoid.center`, `Ellipsoid.halfExtents`, `Ellipsoid.rotation`, `Ellipsoid.uniformDensityFloat`, `IP`, `IP.H`, `IP.com`, `IP.mass`.
Specification: `Spec.HasMoments`, `Spec.IsRounding`, `Spec.NearRotation`, `Spec.box`, `Spec.cylinder`, `Spec.ellipsoid`, `Spec.uniform`.
Added property. With rounding; overflow is excluded by the bounds on the sizes. Shells and wireframes are in C131.

* `C130_box` (Props/FloatDensity): `Box.uniform_density_params` with rounding: the mass is exact, the center of mass and the second moments are those of the uniform density up to rounding.
* `C130_ellipsoid` (Props/FloatDensity): The same for `Ellipsoid.uniform_density_params` in three dimensions.
* `C130_cylinder` (Props/FloatDensity): The same for `Cylinder.uniform_density_params`, if the squares of the mathematical library are off by at most `2 · 2⁻⁵³`.
* `C130_result` (Props/FloatDensity): There are such parameters for every positive mass, whatever the rounding.

**C131. Rounding in the inertial parameters of hollow boxes, wireframes and hollow spheres** (proved). 
Model: `Box`, `Box.center`, `Box.halfExtents`, `Box.hollowDensityFloat`, `Box.rotation`, `Box.wireframeDensityFloat`, `Ellipsoid`, `Ellipsoid.hollowDensityFloat`, `IP`, `IP.H`, `IP.com`, `IP.mass`.
Specification: `Spec.CarriedBy`, `Spec.HasMoments`, `Spec.IsRounding`, `Spec.NearRotation`, `Spec.Orthogonal`, `Spec.boxEdges`, `Spec.boxFaces`, `Spec.evenly`, `Spec.rigid`.
Added property. With rounding; overflow and underflow are excluded by the bounds on the sizes. For ellipsoids that are not spheres the formula is not that of the surface even without rounding (C58), and `ellipsoid_shell_close` compares with the formula.

* `C131_hollow` (Props/FloatShells): `hollow_density_params` of a box with rounding: the mass is exact, the center of mass and the second moments are those of a mass spread evenly over the faces, up to rounding.
* `C131_wireframe` (Props/FloatShells): The same for `wireframe_density_params` and a mass spread evenly over the edges.
* `C131_sphere` (Props/FloatShells): `hollow_density_params` of a sphere with rounding: as for boxes, with any distribution `μ` of the mass on the sphere that is invariant under rotations.
* `C131_result` (Props/FloatShells): There are such parameters for every positive mass, whatever the rounding.

**C132. Rounding in the volumes** (proved). 
Model: `Box`, `Box.halfExtents`, `Box.volumeFloat`, `Cylinder`, `Cylinder.length`, `Cylinder.radius`, `Cylinder.volumeFloat`, `Ellipsoid`, `Ellipsoid.halfExtents`, `Ellipsoid.volumeFloat`.
Specification: `Spec.IsRounding`, `Spec.Orthogonal`, `Spec.box`, `Spec.cylinder`, `Spec.ellipsoid`.
Added property. With rounding; overflow and underflow are excluded by the bounds on the sizes.

* `C132_box` (Props/FloatVolume): `Box.volume` with rounding is the volume of the box up to a relative error of `15 · 2⁻⁵³`.
* `C132_ellipsoid` (Props/FloatVolume): The same for `Ellipsoid.volume` in three dimensions and a relative error of `16 · 2⁻⁵³`, if the constant `np.pi` is `π` up to rounding.
* `C132_cylinder` (Props/FloatVolume): The same for `Cylinder.volume` and a relative error of `9 · 2⁻⁵³`, if the squares of the mathematical library are off by at most `2 · 2⁻⁵³`.
* `C132_result` (Props/FloatVolume): There is a result for every box and ellipsoid, whatever the rounding.

**C133. Rounding in bounding ellipsoids and inscribed boxes** (proved). 
Model: `Box`, `Box.center`, `Box.halfExtents`, `Box.mbeFloat`, `Box.rotation`, `Cylinder`, `Cylinder.center`, `Cylinder.length`, `Cylinder.mibFloat`, `Cylinder.radius`, `Cylinder.rotation`, `Ellipsoid`, `Ellipsoid.center`, `Ellipsoid.halfExtents`, `Ellipsoid.mibFloat`, `Ellipsoid.rotation`.
Specification: `Spec.IsRounding`, `Spec.Orthogonal`, `Spec.box`, `Spec.cylinder`, `Spec.ellipsoid`.
Added property. With rounding; overflow and underflow are excluded by the bounds on the sizes. The sphere variants are modelled without rounding only.

* `C133_box_mbe` (Props/FloatInscribed): `Box.mbe` with rounding: enlarged by `6 · 2⁻⁵³` the ellipsoid contains the box, and its volume is at most `1 + 16 · 2⁻⁵³` times that of any ellipsoid that contains the box.
* `C133_ellipsoid_mib` (Props/FloatInscribed): `Ellipsoid.mib` with rounding: the box is inside the ellipsoid enlarged by `6 · 2⁻⁵³`, and no box inside the ellipsoid has more than `1 + 16 · 2⁻⁵³` times its volume.
* `C133_cylinder_mib` (Props/FloatInscribed): `Cylinder.mib` with rounding: the box is inside the cylinder enlarged by `6 · 2⁻⁵³`, and no box in the same pose inside the cylinder has more than `1 + 16 · 2⁻⁵³` times its volume.
