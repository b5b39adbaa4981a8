{"id": "C01", "title": "Half-vectorisation round trip", "statement": "unvech(vech(A)) returns A for every symmetric n x n matrix (n >= 1), vech(unvech(a)) returns a for every vector of triangular length, unvech always returns a symmetric matrix, and unvech raises AssertionError for every vector whose length is not n(n+1)/2.", "quantifier": "every n, every n x n matrix, every vector of every length", "why_tests_cant": "the matrix size and the entries are unbounded; a test fixes n", "anchors": ["src/rigeo/util.py:vech", "src/rigeo/util.py:unvech"]}
{"id": "C02", "title": "Triangular number recognition", "statement": "is_triangular_number(x) returns (True, n) exactly when x = n(n+1)/2 for a positive integer n, and then returns that n; for every other number the first component is False.", "quantifier": "every integer x", "why_tests_cant": "infinitely many integers, including ones where the closed formula could misjudge integrality", "anchors": ["src/rigeo/util.py:is_triangular_number"]}
{"id": "C03", "title": "Cross-product matrix and contact Jacobian", "statement": "skew3(a) @ b equals the cross product a x b; contact_jacobian(p) maps a contact force f to the wrench (p x f, f), and by virtual work its transpose maps a twist to the velocity of the contact point.", "quantifier": "all vectors a, b, p, f in R^3 and all twists", "why_tests_cant": "an identity over all real vectors", "anchors": ["src/rigeo/util.py:skew3", "src/rigeo/util.py:contact_jacobian"]}
{"id": "C04", "title": "Lifting identities and regressor", "statement": "lift3(x) @ vech(A) = A @ x for symmetric A; lift6(V) @ params.vec = params.M @ V.vec; RigidBody.regressor(V, A) @ params.vec equals params.body_wrench(V, A).vec.", "quantifier": "every inertial parameter set with symmetric H, every twist and every acceleration", "why_tests_cant": "polynomial identity in 22 real variables; random testing with tolerance cannot exclude a term that is small on the sampled range", "anchors": ["src/rigeo/util.py:lift3", "src/rigeo/util.py:lift6", "src/rigeo/rigidbody.py:RigidBody.regressor", "src/rigeo/inertial.py:InertialParameters.body_wrench"]}
{"id": "C05", "title": "Newton-Euler wrench and passivity", "statement": "body_wrench(V, A) is the Newton-Euler wrench: the force is d/dt of linear momentum in the rotating frame and the torque d/dt of angular momentum; the velocity-product term does no work: V . (body_wrench(V, 0)) = 0.", "quantifier": "every inertial parameter set, every twist and acceleration", "why_tests_cant": "energy conservation has to hold on all states, not on samples", "anchors": ["src/rigeo/inertial.py:InertialParameters.body_wrench", "src/rigeo/spatial.py:SpatialVector.adjoint"]}
{"id": "C06", "title": "Homogeneous transforms", "statement": "transform_matrix(R, t) acts on homogeneous points as p -> R p + t, and transform_matrix_inv(R, t) is its two-sided inverse whenever R is orthogonal; transform_matrix_inv ignores its dim argument and fails for every dimension other than 3.", "quantifier": "every orthogonal R, every t, every dimension", "why_tests_cant": "all rotations and translations, in every dimension", "anchors": ["src/rigeo/util.py:transform_matrix", "src/rigeo/util.py:transform_matrix_inv", "src/rigeo/util.py:clean_transform"]}
{"id": "C07", "title": "Evaluation times cover the interval", "statement": "compute_evaluation_times(T, dt) returns n >= 1 equally spaced times starting at zero, all in [0, T), such that the next time n*dt is not before T; non-positive arguments raise AssertionError.", "quantifier": "every duration and step", "why_tests_cant": "real-valued arguments: whether the last time may fall on or past the end depends on an inequality over all reals", "anchors": ["src/rigeo/util.py:compute_evaluation_times"]}
{"id": "C08", "title": "Box corner enumeration", "statement": "box_vertices(h) lists 2^dim points and they are exactly the sign combinations of h; for positive h there are no duplicates.", "quantifier": "every dimension and every half-extent vector", "why_tests_cant": "every dimension; count grows as 2^dim", "anchors": ["src/rigeo/util.py:box_vertices"]}
{"id": "C09", "title": "Second-moment / inertia conversion", "statement": "H2I and I2H are mutually inverse linear maps; both preserve symmetry; the principal moments of H2I(H) for PSD H satisfy the triangle inequality.", "quantifier": "every 3x3 matrix", "why_tests_cant": "continuum of matrices", "anchors": ["src/rigeo/inertial.py:H2I", "src/rigeo/inertial.py:I2H"]}
{"id": "C10", "title": "Round trips between parameter representations", "statement": "InertialParameters.from_vec(p.vec) and from_pim(p.J) rebuild p exactly for every parameter set with nonzero mass and symmetric H; (com, I) rebuild it as well. With mass zero and h given the center of mass is 0/0.", "quantifier": "every parameter set", "why_tests_cant": "all real parameter values including the zero-mass boundary", "anchors": ["src/rigeo/inertial.py:InertialParameters.from_vec", "src/rigeo/inertial.py:InertialParameters.from_pim", "src/rigeo/inertial.py:InertialParameters.__init__"]}
{"id": "C11", "title": "Constructor contract", "statement": "The constructor accepts exactly the argument combinations it documents (mass >= 0, not both h and com, not both H and I); translate_from_com=True yields the parallel-axis result, i.e. the object's Hc (Ic) equals the supplied H (I); with no H or I the body is a point mass.", "quantifier": "every combination of optional arguments and every value", "why_tests_cant": "all 2^5 combinations of optional arguments with arbitrary values", "anchors": ["src/rigeo/inertial.py:InertialParameters.__init__", "src/rigeo/inertial.py:InertialParameters.Hc"]}
{"id": "C12", "title": "Pseudo-inertia matrix determines the body", "statement": "For bodies with nonzero mass, equal J implies equal mass, com and H; the parameter vector and J determine each other, and pim_sum_vec_matrices gives exactly J as a linear combination of the vector entries.", "quantifier": "every pair of parameter sets", "why_tests_cant": "all reals", "anchors": ["src/rigeo/inertial.py:InertialParameters.J", "src/rigeo/constraint.py:pim_sum_vec_matrices", "src/rigeo/constraint.py:pim_must_equal_vec"]}
{"id": "C13", "title": "Point-mass systems", "statement": "from_point_masses(ms, ps) has mass sum m_i, first moment sum m_i p_i, second moment sum m_i p_i p_i^T and inertia sum m_i (|p|^2 1 - p p^T); for non-negative masses it is physically consistent; permuting the points or splitting the list and adding the two results does not change it.", "quantifier": "every finite list of point masses of any length", "why_tests_cant": "unbounded number of points: needs induction", "anchors": ["src/rigeo/inertial.py:InertialParameters.from_point_masses"]}
{"id": "C14", "title": "Rigid transform of inertial parameters", "statement": "params.transform(R, t).J = T J T^T for orthogonal R with T the homogeneous matrix; transforming the parameters of a point-mass system equals the parameters of the transformed points; transforms compose and invert; mass and eigen-structure about the CoM are kept.", "quantifier": "every parameter set, every orthogonal R and t, every list of point masses", "why_tests_cant": "group action laws over all rotations", "anchors": ["src/rigeo/inertial.py:InertialParameters.transform"]}
{"id": "C15", "title": "Addition of inertial parameters", "statement": "(p + q).J = p.J + q.J; addition is commutative and associative and Python's sum() over a non-empty list returns the parameters whose J is the sum; p + zero() = p for positive mass, while zero() + zero() produces a NaN centre of mass.", "quantifier": "every finite list of parameter sets", "why_tests_cant": "unbounded list length, boundary at mass zero", "anchors": ["src/rigeo/inertial.py:InertialParameters.__add__", "src/rigeo/inertial.py:InertialParameters.__radd__", "src/rigeo/inertial.py:InertialParameters.zero"]}
{"id": "C16", "title": "Meaning of physical consistency", "statement": "consistent(eps) is True exactly when J - eps I is positive semidefinite; for positive mass consistent() is True exactly when some finite system of non-negative point masses in space has exactly these parameters. With mass zero consistent() may be True although no mass distribution has these parameters.", "quantifier": "every parameter set with symmetric H and every eps", "why_tests_cant": "an iff with an existential over all mass distributions", "anchors": ["src/rigeo/inertial.py:InertialParameters.consistent"]}
{"id": "C17", "title": "Closure of consistency", "statement": "Physical consistency is preserved by addition, by rigid transforms and by scaling; a consistent body has PSD mass matrix M (non-negative kinetic energy), PSD Hc, and principal moments obeying the triangle inequalities.", "quantifier": "every consistent parameter set, every rigid transform", "why_tests_cant": "continuum", "anchors": ["src/rigeo/inertial.py:InertialParameters.consistent", "src/rigeo/inertial.py:InertialParameters.transform", "src/rigeo/inertial.py:InertialParameters.__add__", "src/rigeo/inertial.py:InertialParameters.M"]}
{"id": "C18", "title": "Random parameters are consistent", "statement": "InertialParameters.random() returns a physically consistent set whatever numbers the generator draws.", "quantifier": "every possible output of the random generator", "why_tests_cant": "all RNG outputs, not one seed", "anchors": ["src/rigeo/inertial.py:InertialParameters.random", "src/rigeo/random.py:random_psd_matrix"]}
{"id": "C19", "title": "Parameter-variable constraints", "statement": "pim_must_equal_param_var accepts a (4,4) or (10,) variable, the two give the same constraint set for corresponding values, the constraints hold exactly when J is symmetric with J - eps I PSD, other shapes raise ValueError and negative eps raises AssertionError.", "quantifier": "every value of the variable and every eps", "why_tests_cant": "feasible set of a constraint: all values", "anchors": ["src/rigeo/constraint.py:pim_must_equal_param_var", "src/rigeo/constraint.py:pim_psd", "src/rigeo/constraint.py:pim_must_equal_vec"]}
{"id": "C20", "title": "Monomial basis", "statement": "Polynomial.basis(n, d) (d >= 1) lists every multi-index of n variables with total degree at most d exactly once, has length Polynomial.dim(n, d) = C(n+d, d), starts with the constant followed by the coordinates, and basis(n, d') is a prefix of basis(n, d) for 1 <= d' <= d.", "quantifier": "every n and every d >= 1", "why_tests_cant": "combinatorial identity for all n, d; needs induction", "anchors": ["src/rigeo/moment.py:Polynomial.basis", "src/rigeo/moment.py:Polynomial.dim"]}
{"id": "C21", "title": "Polynomial arithmetic", "statement": "evaluate(p + q) = evaluate(p) + evaluate(q), evaluate(p.localize(s)) = x^s * evaluate(p), Polynomial.affine(a, b) evaluates to b - a.x, degree bounds every monomial, and coefficients that cancel are dropped so the stored keys are unique with nonzero coefficients.", "quantifier": "all polynomials (any number of terms), all points, all indices", "why_tests_cant": "unbounded number of terms", "anchors": ["src/rigeo/moment.py:Polynomial"]}
{"id": "C22", "title": "Moment substitution is integration", "statement": "Substituting the moments of a point-mass distribution for the monomials (substitute) returns the integral of the polynomial; it never raises KeyError for a localizing matrix of order d - ceil(deg/2).", "quantifier": "every polynomial, every distribution, every order d", "why_tests_cant": "all degrees and all distributions", "anchors": ["src/rigeo/moment.py:Polynomial.substitute", "src/rigeo/moment.py:MomentMatrix._compute_var_map", "src/rigeo/moment.py:MomentMatrix.localizing_matrix"]}
{"id": "C23", "title": "Moment matrices of real distributions are feasible", "statement": "For every finite non-negative point-mass distribution, the matrix of its moments satisfies moment_constraints, is PSD, and its localizing matrix for any polynomial that is non-negative on the support is PSD.", "quantifier": "every n, d >= 1, every distribution, every polynomial", "why_tests_cant": "all relaxation orders and distributions", "anchors": ["src/rigeo/moment.py:MomentMatrix.moment_constraints", "src/rigeo/moment.py:MomentMatrix.localizing_constraints", "src/rigeo/moment.py:MomentMatrix.localize"]}
{"id": "C24", "title": "Moment constraints force the moment structure", "statement": "A symmetric matrix satisfies moment_constraints exactly when entries with the same total multi-index are equal (in whatever positions they occur).", "quantifier": "every n, d, every matrix", "why_tests_cant": "all matrices, all orders", "anchors": ["src/rigeo/moment.py:MomentMatrix.moment_constraints", "src/rigeo/moment.py:MomentMatrix._compute_var_map"]}
{"id": "C25", "title": "Box: vertex form, face form and body frame agree", "statement": "For a box with orthogonal rotation, contains(p, tol=0) is True iff p = R y + c with |y_i| <= h_i, iff p is a convex combination of the box's vertices.", "quantifier": "every box with orthogonal rotation, every point", "why_tests_cant": "double-description equivalence for all boxes", "anchors": ["src/rigeo/shape/box.py:Box.__init__", "src/rigeo/shape/box.py:_box_inequalities", "src/rigeo/shape/box.py:_box_vertices", "src/rigeo/shape/poly.py:ConvexPolyhedron.contains"]}
{"id": "C26", "title": "Axis-aligned bounding boxes of points", "statement": "from_two_vertices(v1, v2) is the box spanned by the two corners in any order; from_points_to_bound(points) contains all points and is contained in every axis-aligned box that does.", "quantifier": "every pair of corners, every non-empty list of points", "why_tests_cant": "minimality ranges over all boxes", "anchors": ["src/rigeo/shape/box.py:Box.from_two_vertices", "src/rigeo/shape/box.py:Box.from_points_to_bound"]}
{"id": "C27", "title": "Ellipsoid membership", "statement": "Ellipsoid.contains(p, tol=0) is True iff p = c + R y with y_i = 0 in zero-length directions and sum (y_i/h_i)^2 <= 1 over the others; with tolerance it is monotone in tol.", "quantifier": "every dimension, every ellipsoid (degenerate or not) with orthogonal rotation, every point", "why_tests_cant": "all dimensions and degenerate patterns", "anchors": ["src/rigeo/shape/ellipsoid.py:Ellipsoid.contains", "src/rigeo/shape/ellipsoid.py:_inv_with_zeros"]}
{"id": "C28", "title": "Ellipsoid representations describe the same set", "statement": "For a non-degenerate ellipsoid the shape matrix S, its inverse E, the affine form (A, b), the Q matrix and contains all describe the same point set; S E = 1; A A = S; from_affine(E.A, E.b) and from_shape_matrix(E.S, c) rebuild the same set.", "quantifier": "every non-degenerate ellipsoid in every dimension, any valid eigendecomposition", "why_tests_cant": "eigendecompositions are not unique: must hold for any result of eigh", "anchors": ["src/rigeo/shape/ellipsoid.py:Ellipsoid.S", "src/rigeo/shape/ellipsoid.py:Ellipsoid.E", "src/rigeo/shape/ellipsoid.py:Ellipsoid.A", "src/rigeo/shape/ellipsoid.py:Ellipsoid.b", "src/rigeo/shape/ellipsoid.py:Ellipsoid.Q", "src/rigeo/shape/ellipsoid.py:Ellipsoid.from_shape_matrix", "src/rigeo/shape/ellipsoid.py:Ellipsoid.from_affine"]}
{"id": "C29", "title": "Containment constraints match containment (ellipsoid)", "statement": "Ellipsoid.must_contain(q, scale=s) is satisfied exactly when q/s is in the ellipsoid for s > 0 (including degenerate ellipsoids); for s = 0 exactly when q = 0.", "quantifier": "every ellipsoid, point and scale >= 0", "why_tests_cant": "semidefinite feasibility for all values", "anchors": ["src/rigeo/shape/ellipsoid.py:Ellipsoid.must_contain", "src/rigeo/constraint.py:schur"]}
{"id": "C30", "title": "Containment constraints match containment (polyhedron, cylinder, capsule)", "statement": "For ConvexPolyhedron, Cylinder and Capsule, must_contain(q, scale=s) with s > 0 is satisfiable exactly when contains(q/s, tol=0); in particular must_contain(h, scale=m) iff the CoM h/m is contained.", "quantifier": "every shape, point and scale", "why_tests_cant": "existential over auxiliary variables, all points", "anchors": ["src/rigeo/shape/poly.py:ConvexPolyhedron.must_contain", "src/rigeo/shape/cylinder.py:Cylinder.must_contain", "src/rigeo/shape/capsule.py:Capsule.must_contain"]}
{"id": "C31", "title": "Cylinder membership", "statement": "Cylinder.contains(p) is True iff in the body frame |z| <= L/2 and x^2+y^2 <= r^2 (up to the built-in 1e-8 tolerance); the tol argument has no effect.", "quantifier": "every cylinder with orthogonal rotation, every point, every tol", "why_tests_cant": "all cylinders and tolerances", "anchors": ["src/rigeo/shape/cylinder.py:Cylinder.contains"]}
{"id": "C32", "title": "Capsule membership", "statement": "Capsule.contains(p) at zero tolerance is the set of points within distance radius of the axis segment, which equals the convex hull of the two end spheres.", "quantifier": "every capsule with orthogonal rotation, every point", "why_tests_cant": "equality of two sets described by different existentials", "anchors": ["src/rigeo/shape/capsule.py:Capsule.contains", "src/rigeo/shape/capsule.py:Capsule.must_contain"]}
{"id": "C33", "title": "Transform equivariance of shapes", "statement": "S.transform(R, t).contains(R p + t) = S.contains(p) for boxes, ellipsoids, cylinders, capsules and polyhedra with orthogonal R; transforms compose like rigid motions.", "quantifier": "every shape, every rigid motion, every point, every tolerance", "why_tests_cant": "group action over all rigid motions", "anchors": ["src/rigeo/shape/box.py:Box.transform", "src/rigeo/shape/ellipsoid.py:Ellipsoid.transform", "src/rigeo/shape/cylinder.py:Cylinder.transform", "src/rigeo/shape/capsule.py:Capsule.transform", "src/rigeo/shape/poly.py:ConvexPolyhedron.transform"]}
{"id": "C34", "title": "Axis-aligned bounding boxes of shapes", "statement": "aabb() of an ellipsoid, cylinder, capsule or polyhedron contains the shape, and every axis-aligned box that contains the shape contains it.", "quantifier": "every shape, every point, every competing box", "why_tests_cant": "tightness ranges over all boxes", "anchors": ["src/rigeo/shape/ellipsoid.py:Ellipsoid.aabb", "src/rigeo/shape/cylinder.py:Cylinder.aabb", "src/rigeo/shape/capsule.py:Capsule.aabb", "src/rigeo/shape/poly.py:ConvexPolyhedron.aabb"]}
{"id": "C35", "title": "Inscribed and bounding shapes contain what they claim", "statement": "mie of a box is inside it, its mbe contains it (also with sphere=True); an ellipsoid contains its mib and is inside its mbb; a cylinder contains its mib and is inside its mbb and mbe; a capsule is inside its mbb.", "quantifier": "every box, ellipsoid, cylinder, capsule with orthogonal rotation", "why_tests_cant": "all points of all shapes", "anchors": ["src/rigeo/shape/box.py:Box.mie", "src/rigeo/shape/box.py:Box.mbe", "src/rigeo/shape/ellipsoid.py:Ellipsoid.mib", "src/rigeo/shape/ellipsoid.py:Ellipsoid.mbb", "src/rigeo/shape/cylinder.py:Cylinder.mib", "src/rigeo/shape/cylinder.py:Cylinder.mbb", "src/rigeo/shape/cylinder.py:Cylinder.mbe", "src/rigeo/shape/capsule.py:Capsule.mbb"]}
{"id": "C36", "title": "Minimum-volume bounding ellipsoid of a box", "statement": "No ellipsoid that contains a box has smaller volume than Box.mbe().", "quantifier": "every box, every competing ellipsoid", "why_tests_cant": "optimality over all ellipsoids", "anchors": ["src/rigeo/shape/box.py:Box.mbe"]}
{"id": "C37", "title": "Maximum-volume inscribed ellipsoid of a box", "statement": "No ellipsoid inside a box has larger volume than Box.mie().", "quantifier": "every box, every competing ellipsoid", "why_tests_cant": "optimality over all ellipsoids", "anchors": ["src/rigeo/shape/box.py:Box.mie"]}
{"id": "C38", "title": "Ellipsoid boxes are optimal", "statement": "No (arbitrarily rotated) box inside an ellipsoid has larger volume than mib(), and no box containing it has smaller volume than mbb().", "quantifier": "every ellipsoid, every competing oriented box", "why_tests_cant": "optimality over all boxes", "anchors": ["src/rigeo/shape/ellipsoid.py:Ellipsoid.mib", "src/rigeo/shape/ellipsoid.py:Ellipsoid.mbb"]}
{"id": "C39", "title": "Bounding spheres", "statement": "Ellipsoid.mbe(sphere=True) is the smallest sphere containing the ellipsoid; Box.mbe(sphere=True) contains the box, but is not the smallest such sphere unless the box is a cube.", "quantifier": "every ellipsoid/box, every competing sphere", "why_tests_cant": "optimality over all spheres", "anchors": ["src/rigeo/shape/ellipsoid.py:Ellipsoid.mbe", "src/rigeo/shape/box.py:Box.mbe"]}
{"id": "C40", "title": "Grids", "statement": "Box.grid(n) has n0*n1*n2 points, all inside the box, including opposite corners when n >= 2; the grid of any other shape consists exactly of the grid points of its bounding box that it contains.", "quantifier": "every box, every grid size", "why_tests_cant": "all n", "anchors": ["src/rigeo/shape/box.py:Box.grid", "src/rigeo/shape/base.py:Shape.grid", "src/rigeo/shape/poly.py:ConvexPolyhedron.grid"]}
{"id": "C41", "title": "Random interior points are interior", "statement": "random_points of a box, ellipsoid, cylinder and polyhedron are contained in the shape whatever the generator draws.", "quantifier": "every shape, every possible draw", "why_tests_cant": "all RNG outputs", "anchors": ["src/rigeo/shape/box.py:Box.random_points", "src/rigeo/shape/ellipsoid.py:Ellipsoid.random_points", "src/rigeo/shape/cylinder.py:Cylinder.random_points", "src/rigeo/shape/poly.py:ConvexPolyhedron.random_points", "src/rigeo/random.py:random_points_in_ball", "src/rigeo/random.py:random_weight_vectors"]}
{"id": "C42", "title": "Random surface and edge points", "statement": "Box.random_points_on_edges returns points lying on edges for every draw; Box.random_points_on_surface returns surface points for axis-aligned boxes centred at the origin but not in general; Ellipsoid.random_points_on_surface returns surface points when the rotation is symmetric but not in general.", "quantifier": "every box/ellipsoid, every draw", "why_tests_cant": "all RNG outputs and all poses", "anchors": ["src/rigeo/shape/box.py:Box.random_points_on_edges", "src/rigeo/shape/box.py:Box.random_points_on_surface", "src/rigeo/shape/ellipsoid.py:Ellipsoid.random_points_on_surface"]}
{"id": "C43", "title": "Surface predicates", "statement": "on_surface at zero tolerance is True exactly on the boundary of the shape: for a box the contained points with some |y_i| = h_i, for a non-degenerate ellipsoid the points at level one, for a degenerate one all contained points.", "quantifier": "every box/ellipsoid, every point", "why_tests_cant": "all points", "anchors": ["src/rigeo/shape/box.py:Box.on_surface", "src/rigeo/shape/ellipsoid.py:Ellipsoid.on_surface"]}
{"id": "C44", "title": "Polyhedron-in-shape test", "statement": "contains_polyhedron returns True exactly when every point of the polyhedron (convex hull of the vertices) is in the shape, for every convex shape in the library.", "quantifier": "every shape, every vertex list", "why_tests_cant": "all points of the hull from finitely many checks: convexity argument", "anchors": ["src/rigeo/shape/base.py:Shape.contains_polyhedron"]}
{"id": "C45", "title": "Shape equality", "statement": "is_same on polyhedra (exact arithmetic) is True exactly when they are the same point set; on ellipsoids with finite Q exactly when they are the same set; it is not symmetric between a Box and a ConvexPolyhedron, and not reflexive for degenerate ellipsoids; Capsule.is_same raises TypeError.", "quantifier": "every pair of shapes", "why_tests_cant": "relation laws over all pairs", "anchors": ["src/rigeo/shape/poly.py:ConvexPolyhedron.is_same", "src/rigeo/shape/ellipsoid.py:Ellipsoid.is_same", "src/rigeo/shape/cylinder.py:Cylinder.is_same", "src/rigeo/shape/capsule.py:Capsule.is_same"]}
{"id": "C46", "title": "Ellipsoid-in-ellipsoid test", "statement": "contains_ellipsoid(other) should return True exactly when other is a subset; the constraint actually posed is wrong: for centred spheres of radius R and r it is feasible iff r <= R^2.", "quantifier": "every pair of ellipsoids", "why_tests_cant": "feasibility of a semidefinite constraint over all values", "anchors": ["src/rigeo/shape/ellipsoid.py:Ellipsoid.contains_ellipsoid"]}
{"id": "C47", "title": "Bounding ellipsoid of ellipsoids", "statement": "A feasible point of mbe_of_ellipsoids should define an ellipsoid that contains every input; it does not (a sphere of radius 4 is 'bounded' by one of radius 2), whereas the same constraint with S and A b in place of A and b does.", "quantifier": "every list of ellipsoids, every feasible solver result", "why_tests_cant": "all feasible points", "anchors": ["src/rigeo/shape/ellipsoid.py:mbe_of_ellipsoids", "src/rigeo/shape/ellipsoid.py:_mbee_con_mat", "src/rigeo/shape/capsule.py:Capsule.mbe"]}
{"id": "C48", "title": "Bounding ellipsoid of points", "statement": "mbe_of_points contains every input point for every feasible solver result and any valid orth/null_space/eigh output, also when the points are affinely dependent.", "quantifier": "every list of points in every dimension, every feasible solver result", "why_tests_cant": "all point sets, including degenerate ones", "anchors": ["src/rigeo/shape/ellipsoid.py:mbe_of_points"]}
{"id": "C49", "title": "Maximum inscribed ellipsoid of a polyhedron", "statement": "mie_inequality_form(A, b) returns an ellipsoid inside {A x <= b} for every feasible solver result; ConvexPolyhedron.mie lifts it into the affine hull.", "quantifier": "every polyhedron, every feasible solver result", "why_tests_cant": "all feasible points", "anchors": ["src/rigeo/shape/ellipsoid.py:mie_inequality_form", "src/rigeo/shape/poly.py:ConvexPolyhedron.mie"]}
{"id": "C50", "title": "Ellipsoid realizability test is exact", "statement": "Ellipsoid.can_realize(params) is True exactly when some finite system of non-negative point masses inside the ellipsoid has these parameters (non-degenerate ellipsoid, positive mass); similarly for degenerate ellipsoids with the trace equality taken exactly.", "quantifier": "every ellipsoid, every parameter set, every mass distribution", "why_tests_cant": "iff with an existential over all mass distributions", "anchors": ["src/rigeo/shape/ellipsoid.py:Ellipsoid.can_realize", "src/rigeo/shape/ellipsoid.py:Ellipsoid.Q", "src/rigeo/shape/ellipsoid.py:Ellipsoid._Q_degenerate"]}
{"id": "C51", "title": "Ellipsoid realizability constraints are exact", "statement": "The constraints of Ellipsoid.moment_constraints are satisfiable exactly for the parameters realizable on the ellipsoid, both for the (4,4) and the (10,) variable, degenerate or not; they agree with can_realize.", "quantifier": "every ellipsoid, every parameter value", "why_tests_cant": "feasible set equality", "anchors": ["src/rigeo/shape/ellipsoid.py:Ellipsoid.moment_constraints", "src/rigeo/shape/ellipsoid.py:Ellipsoid._QV_degenerate"]}
{"id": "C52", "title": "Polyhedron moment relaxation is necessary", "statement": "Every mass distribution inside a polyhedron satisfies moment_sdp_constraints at every order d >= 1.", "quantifier": "every polyhedron, every distribution, every order", "why_tests_cant": "all orders of the hierarchy and all distributions", "anchors": ["src/rigeo/shape/poly.py:ConvexPolyhedron.moment_sdp_constraints"]}
{"id": "C53", "title": "Polyhedron vertex constraints are necessary", "statement": "Every mass distribution inside the convex hull of the vertices satisfies moment_vertex_constraints; feasible parameters have their CoM in the polyhedron.", "quantifier": "every polyhedron, every distribution", "why_tests_cant": "all distributions", "anchors": ["src/rigeo/shape/poly.py:ConvexPolyhedron.moment_vertex_constraints"]}
{"id": "C54", "title": "Box custom vertex constraints are necessary", "statement": "Every mass distribution inside a box satisfies Box.moment_custom_vertex_constraints; feasible parameters satisfy the ellipsoid (mbe) realizability condition.", "quantifier": "every oriented box, every distribution", "why_tests_cant": "all distributions", "anchors": ["src/rigeo/shape/box.py:Box.moment_custom_vertex_constraints"]}
{"id": "C55", "title": "Cylinder constraints are necessary", "statement": "Every mass distribution inside a cylinder satisfies Cylinder.moment_sdp_constraints at every order d >= 1 and moment_custom_vertex_constraints with eps = 0; with eps > 0 the latter is infeasible.", "quantifier": "every oriented cylinder, every distribution, every order", "why_tests_cant": "all distributions and orders", "anchors": ["src/rigeo/shape/cylinder.py:Cylinder.moment_sdp_constraints", "src/rigeo/shape/cylinder.py:Cylinder.moment_custom_vertex_constraints"]}
{"id": "C56", "title": "Multi-shape body constraints", "statement": "Every mass distribution on the union of the shapes of a RigidBody satisfies RigidBody.moment_sdp_constraints; if every shape is an ellipsoid the constraints are also sufficient.", "quantifier": "every list of shapes, every distribution", "why_tests_cant": "unbounded number of shapes", "anchors": ["src/rigeo/rigidbody.py:RigidBody.moment_sdp_constraints"]}
{"id": "C57", "title": "Uniform-density parameters", "statement": "Box/Cylinder/Ellipsoid.uniform_density_params(m) are the mass, first and second moments of a uniform density of total mass m over the shape, at any pose.", "quantifier": "every shape and pose, every m > 0", "why_tests_cant": "equality with an integral for all dimensions", "anchors": ["src/rigeo/shape/box.py:Box.uniform_density_params", "src/rigeo/shape/cylinder.py:Cylinder.uniform_density_params", "src/rigeo/shape/ellipsoid.py:Ellipsoid.uniform_density_params"]}
{"id": "C58", "title": "Surface and edge densities", "statement": "Box.hollow_density_params and wireframe_density_params are the moments of a uniform surface / edge density of total mass m; they produce NaN when the total area / length is zero.", "quantifier": "every box and pose, every m > 0", "why_tests_cant": "equality with integrals", "anchors": ["src/rigeo/shape/box.py:Box.hollow_density_params", "src/rigeo/shape/box.py:Box.wireframe_density_params"]}
{"id": "C59", "title": "Density parameters are realizable", "statement": "The uniform, hollow, wireframe and vertex-point-mass parameters of a shape are physically consistent and realizable on that shape (and pass the shape's own realizability test).", "quantifier": "every shape and pose, every m > 0", "why_tests_cant": "agreement of two independent features over all shapes", "anchors": ["src/rigeo/shape/ellipsoid.py:Ellipsoid.can_realize", "src/rigeo/shape/box.py:Box.uniform_density_params", "src/rigeo/shape/poly.py:ConvexPolyhedron.vertex_point_mass_params"]}
{"id": "C60", "title": "Continuous bodies reduce to point masses", "statement": "For every finite Borel measure carried by a compact shape there is a finite non-negative point-mass system in the same shape with the same mass, first and second moments; so all point-mass theorems hold for arbitrary bodies.", "quantifier": "every compact set, every finite measure", "why_tests_cant": "quantifies over measures", "anchors": ["src/rigeo/inertial.py:InertialParameters.from_point_masses"]}
{"id": "C61", "title": "Double-description conversions", "statement": "SpanForm/FaceForm to_cdd_matrix followed by from_cdd_matrix gives back the same polyhedron; equality rows become two inequalities and linear-span generators become two opposite rays, describing the same set.", "quantifier": "every span/face form and every cdd matrix with a linearity set", "why_tests_cant": "all matrices", "anchors": ["src/rigeo/polydd.py:SpanForm.to_cdd_matrix", "src/rigeo/polydd.py:SpanForm.from_cdd_matrix", "src/rigeo/polydd.py:FaceForm.to_cdd_matrix", "src/rigeo/polydd.py:FaceForm.from_cdd_matrix", "src/rigeo/polydd.py:FaceForm.__init__", "src/rigeo/polydd.py:SpanForm.__init__"]}
{"id": "C62", "title": "Intersection of polyhedra", "statement": "FaceForm.stack describes exactly the intersection; ConvexPolyhedron.intersect returns a polyhedron containing exactly the common points or None when there are none (given a correct cdd).", "quantifier": "every pair of polyhedra, every point", "why_tests_cant": "all points", "anchors": ["src/rigeo/polydd.py:FaceForm.stack", "src/rigeo/shape/poly.py:ConvexPolyhedron.intersect"]}
{"id": "C63", "title": "Transforms of double descriptions", "statement": "FaceForm.transform(R, t) describes the image under the rigid motion; SpanForm.transform does so for vertices but adds the translation to rays, so unbounded forms are wrong.", "quantifier": "every form, every rigid motion", "why_tests_cant": "all forms", "anchors": ["src/rigeo/polydd.py:FaceForm.transform", "src/rigeo/polydd.py:SpanForm.transform"]}
{"id": "C64", "title": "Construction of polyhedra", "statement": "ConvexPolyhedron rejects unbounded polyhedra, from_vertices(vs) contains exactly the convex hull of vs, from_halfspaces exactly the half-space intersection, simplex(e) exactly {x >= 0, sum x_i/e_i <= 1}, and convex_hull(points) spans the same hull (given a correct cdd).", "quantifier": "every vertex / half-space list, every dimension", "why_tests_cant": "all inputs", "anchors": ["src/rigeo/shape/poly.py:ConvexPolyhedron.__init__", "src/rigeo/shape/poly.py:ConvexPolyhedron.from_vertices", "src/rigeo/shape/poly.py:ConvexPolyhedron.from_halfspaces", "src/rigeo/shape/poly.py:ConvexPolyhedron.simplex", "src/rigeo/polydd.py:convex_hull"]}
{"id": "C65", "title": "Rejection sampling loop", "statement": "rejection_sample either returns exactly the requested number of points, each contained in at least one of the actual shapes, or raises ValueError after max_tries rounds; it never returns padding zeros or overruns its buffer.", "quantifier": "every sequence of candidate batches, every request size, every max_tries", "why_tests_cant": "loop over arbitrary histories: needs an invariant", "anchors": ["src/rigeo/random.py:rejection_sample", "src/rigeo/shape/capsule.py:Capsule.random_points"]}
{"id": "C66", "title": "Unordered row comparison", "statement": "allclose_unordered(A, B) returning True implies there is a pairing of the rows of A with distinct rows of B that are close; with zero tolerance it is True exactly when A and B are equal as multisets of rows; with a positive tolerance it can return False although a pairing exists.", "quantifier": "every pair of matrices of every size, every tolerance", "why_tests_cant": "all permutations", "anchors": ["src/rigeo/test_util.py:allclose_unordered"]}
{"id": "C67", "title": "Closest points", "statement": "If the solver returns an optimum, closest_points returns points of the two shapes whose distance is dist and no pair of points of the shapes is closer; dist = 0 iff the shapes intersect.", "quantifier": "every pair of shapes, every pair of points", "why_tests_cant": "optimality over all pairs of points", "anchors": ["src/rigeo/closest.py:closest_points"]}
{"id": "C68", "title": "Elementary samplers", "statement": "random_weight_vectors returns non-negative vectors with sum one, random_points_on_hypersphere unit vectors, random_points_in_ball vectors of norm at most one, random_psd_matrix PSD matrices, for all draws (with nonzero normaliser); random_points_in_ball(dim=1) raises AssertionError.", "quantifier": "every draw, every dimension", "why_tests_cant": "all RNG outputs", "anchors": ["src/rigeo/random.py:random_weight_vectors", "src/rigeo/random.py:random_points_on_hypersphere", "src/rigeo/random.py:random_points_in_ball", "src/rigeo/random.py:random_psd_matrix"]}
{"id": "C69", "title": "Rigid body algebra", "statement": "Adding bodies concatenates shapes and adds parameters; transform acts on both consistently, so a realizable body stays realizable; mbes keeps parameters and makes every shape larger; mbes raises TypeError if a shape is an Ellipsoid; adding two default (massless) bodies yields NaN parameters.", "quantifier": "every list of bodies, every rigid motion", "why_tests_cant": "unbounded lists", "anchors": ["src/rigeo/rigidbody.py:RigidBody.__add__", "src/rigeo/rigidbody.py:RigidBody.transform", "src/rigeo/rigidbody.py:RigidBody.mbes"]}
{"id": "C70", "title": "Spatial vector algebra", "statement": "SpatialVector addition, subtraction and scaling act componentwise on vec and form a vector space; from_vec(V.vec) = V; adjoint is linear and satisfies adjoint(V) V = 0 and the Jacobi identity.", "quantifier": "every twist", "why_tests_cant": "identities over all reals", "anchors": ["src/rigeo/spatial.py:SpatialVector"]}
{"id": "C71", "title": "Validation error metric", "statement": "validation_rmse is the root of the mean over samples of the squared wrench error; it is zero iff every prediction is exact; its W argument has no effect.", "quantifier": "every regressor/wrench data set of any size, every W", "why_tests_cant": "all data sets", "anchors": ["src/rigeo/util.py:validation_rmse"]}
{"id": "C72", "title": "eps is honoured by realizability constraints", "statement": "With eps > 0 the moment_vertex/ellipsoid/box constraints force J - eps I PSD, but ConvexPolyhedron/Cylinder.moment_sdp_constraints do not (the PSD constraints are built and dropped).", "quantifier": "every shape and eps", "why_tests_cant": "feasible sets", "anchors": ["src/rigeo/shape/poly.py:ConvexPolyhedron.moment_sdp_constraints", "src/rigeo/shape/cylinder.py:Cylinder.moment_sdp_constraints", "src/rigeo/constraint.py:pim_psd"]}
{"id": "C73", "title": "Volumes", "statement": "Box.volume, Cylinder.volume and Ellipsoid.volume (in three dimensions) are the volume of the set of points of the shape, degenerate shapes included; in two dimensions Ellipsoid.volume still uses the three-dimensional formula, so it is 4/3 of the area.", "quantifier": "every shape and pose", "why_tests_cant": "equality with a Lebesgue measure for all extents", "anchors": ["src/rigeo/shape/box.py:Box.volume", "src/rigeo/shape/cylinder.py:Cylinder.volume", "src/rigeo/shape/ellipsoid.py:Ellipsoid.volume"]}
{"id": "C74", "title": "Box constructors and attributes", "statement": "Box.cube and Box.from_side_lengths build exactly the box with the given half extent / side lengths (default pose when none is given) and reject exactly negative input; side_lengths and volume are the given ones; diaglen is the largest distance between two points of the box.", "quantifier": "every half extent, side lengths, pose", "why_tests_cant": "all real inputs; a supremum over point pairs", "anchors": ["src/rigeo/shape/box.py:Box.cube", "src/rigeo/shape/box.py:Box.from_side_lengths", "src/rigeo/shape/box.py:Box.diaglen"]}
{"id": "C75", "title": "Equality of inertial parameters", "statement": "InertialParameters.is_same holds exactly when mass, first moment and second moment agree up to atol 1e-8 and rtol 1e-5; it is reflexive, ignores the center of mass of massless bodies, is not symmetric, and cannot tell apart any two bodies whose moments are at most 5e-9.", "quantifier": "every pair of parameters", "why_tests_cant": "all parameter pairs", "anchors": ["src/rigeo/inertial.py:InertialParameters.is_same"]}
{"id": "C76", "title": "Geodesic distance of positive definite matrices", "statement": "positive_definite_distance is defined for positive definite matrices, symmetric, zero iff the matrices are equal, invariant under congruence (so under rigid transforms of inertial parameters), and is sqrt(sum of squared log generalized eigenvalues / 2); a singular first argument raises.", "quantifier": "every size and every pair of positive definite matrices", "why_tests_cant": "all matrices; eigenvalue identities", "anchors": ["src/rigeo/unused/geodesic.py:positive_definite_distance"]}
{"id": "C77", "title": "Entropic regularizer", "statement": "entropic_regularizer equals the log-determinant Bregman divergence from the nominal matrices up to a constant; it is minimal exactly at the nominal matrices, convex, and frame invariant up to a constant; a massless nominal body makes it raise.", "quantifier": "every list of positive definite matrices", "why_tests_cant": "global minimum and convexity over all matrices", "anchors": ["src/rigeo/unused/identify.py:entropic_regularizer"]}
{"id": "C78", "title": "Least squares objective", "statement": "least_squares_objective is the weighted sum of squared residuals over all observations with the weight repeated per observation, zero iff every observation is explained exactly (PD weight), and for rigid body regressors it is the squared wrench error.", "quantifier": "every number of observations and bodies, every weight", "why_tests_cant": "all data sets", "anchors": ["src/rigeo/unused/identify.py:least_squares_objective"]}
{"id": "C79", "title": "Identification problem", "statement": "IdentificationProblem stores the inverse covariance; solve returns parameters that satisfy all constraints (realizable on the bodies if these are ellipsoids), no admissible parameters have a smaller cost, and noise-free identifying data give back the true parameters; capsules, massless nominal bodies with regularization, a wrong number of bounding shapes and a failed solver raise, and a massless optimum gives non-finite parameters.", "quantifier": "every problem, every set of bodies, every solver satisfying its contract", "why_tests_cant": "all data and all competitors of the optimum", "anchors": ["src/rigeo/unused/identify.py:IdentificationProblem"]}
{"id": "C80", "title": "Discretized identification problem", "statement": "DiscretizedIdentificationProblem.solve returns a body made of non-negative masses at the given points with the smallest squared error among all those, recovers the truth from noise-free identifying data, and ignores gamma and epsilon.", "quantifier": "every problem, point list and solver satisfying its contract", "why_tests_cant": "all competitors of the optimum", "anchors": ["src/rigeo/unused/identify.py:DiscretizedIdentificationProblem"]}
{"id": "C81", "title": "Cone and boundedness tests of span forms", "statement": "If SpanForm.is_cone() is True the polyhedron contains all non-negative multiples of its points; the converse is false when the apex is listed as a vertex. If bounded() is True the polyhedron is bounded.", "quantifier": "every span form", "why_tests_cant": "all polyhedra", "anchors": ["src/rigeo/polydd.py:SpanForm.is_cone", "src/rigeo/polydd.py:SpanForm.bounded"]}
{"id": "C82", "title": "Bodies of a multibody", "statement": "MultiBody groups collision geometries by parent joint: every joint with geometry has exactly one body, its shapes are the geometries of that joint in order, each equal as a point set to the geometry moved to its placement, and its parameters are those of the link (mass, centre of mass, inertia about it); joints without geometry have no body, so get_bodies raises KeyError for them and ValueError for unknown names; meshes raise NotImplementedError, unknown geometries ValueError, negative dimensions AssertionError; an unknown tool link and a gravity of the wrong length are rejected.", "quantifier": "every model, every list of geometries and link inertias, every list of joints", "why_tests_cant": "The module is unused and has no tests; the grouping and the placements have to be right for arbitrary lists of geometries.", "anchors": ["src/rigeo/unused/multibody.py:_hppfcl_to_shape", "src/rigeo/unused/multibody.py:_pin_to_shape", "src/rigeo/unused/multibody.py:MultiBody.__init__", "src/rigeo/unused/multibody.py:MultiBody.get_bodies"]}
{"id": "C83", "title": "Joint torque regressor", "statement": "compute_joint_torque_regressor reorders pinocchio's regressor so that it maps the stacked parameter vectors of the bodies in rigeo's order to the joint torques, provided the number of velocities equals the number of bodies; with more velocities it raises IndexError, with fewer it leaves the last bodies in pinocchio's order.", "quantifier": "every regressor matrix, every number of bodies and velocities, every parameters", "why_tests_cant": "The module is unused and has no tests; the failure needs a joint with several velocities such as a free floating base.", "anchors": ["src/rigeo/unused/multibody.py:MultiBody.compute_joint_torque_regressor"]}
{"id": "C84", "title": "Custom box constraints against the moment relaxation", "statement": "Box.moment_custom_vertex_constraints is not at least as tight as Box.moment_sdp_constraints: for every box with positive half extents there is an objective under which the custom constraints reach a larger maximum than the relaxation of any order d >= 2, contrary to what scripts/experiments/process_drip_data.py expects and tests/test_box_realizability.py asserts. In particular the custom constraints accept parameters that no mass distribution in the box has. At order d = 1 the custom constraints do imply the relaxation, which then only asks for a positive semidefinite pseudo-inertia matrix with its centre of mass in the box.", "quantifier": "every box with positive half extents, every order of the relaxation, every objective and matrix in the feasible sets", "why_tests_cant": "The test compares the two maxima for 100 random objectives on one box; the objectives for which the order is reversed are rare, and no finite set of orders d rules out that a higher order agrees.", "anchors": ["src/rigeo/shape/box.py:Box.moment_custom_vertex_constraints", "src/rigeo/shape/poly.py:ConvexPolyhedron.moment_sdp_constraints"]}
{"id": "C85", "title": "The moment relaxation of a polyhedron is exact at no order", "statement": "ConvexPolyhedron.moment_sdp_constraints (and Box, which inherits it) is only a necessary condition for density realizability at every relaxation order d: for every polyhedron that has a point at which exactly two faces with independent normals are active, in particular for every box with positive half extents, there is one linear objective that is non-negative for all bodies in the polyhedron, and for every order d >= 1 there are parameters of mass one that the constraints accept although the objective is negative on them. So no mass distribution in the polyhedron has these parameters, and increasing d never makes the constraints exact.", "quantifier": "every polyhedron with an edge, every relaxation order, every eps, both kinds of variable, every measure carried by the box", "why_tests_cant": "The tests run the solver at d = 2 or 3 for a few shapes; no finite set of orders shows that all orders fail, and the violation at high orders is far below solver tolerances.", "anchors": ["src/rigeo/shape/poly.py:ConvexPolyhedron.moment_sdp_constraints", "src/rigeo/moment.py:MomentMatrix.moment_constraints", "src/rigeo/moment.py:MomentMatrix.localizing_constraints"]}
{"id": "C86", "title": "The moment relaxation of a cylinder is exact at no order", "statement": "Cylinder.moment_sdp_constraints is only a necessary condition for density realizability at every relaxation order d: for every cylinder with positive length and radius there is one linear objective that is non-negative for all bodies in the cylinder, and for every order d >= 1 there are parameters of mass one that the constraints accept although the objective is negative on them. So no mass distribution in the cylinder has these parameters.", "quantifier": "every cylinder with positive length and radius, every relaxation order, every eps, both kinds of variable, every measure carried by the cylinder", "why_tests_cant": "The tests run the solver at d = 2 for a few cylinders; no finite set of orders shows that all orders fail.", "anchors": ["src/rigeo/shape/cylinder.py:Cylinder.moment_sdp_constraints", "src/rigeo/shape/cylinder.py:Cylinder.__init__"]}
{"id": "C87", "title": "The moment relaxations converge", "statement": "Although exact at no order, moment_sdp_constraints converges as the relaxation order d grows. For bounded polyhedra, boxes and cylinders in any pose, and for rigid bodies made of any number of ellipsoids, boxes, bounded polyhedra and cylinders: (i) parameters satisfy the constraints at every order d >= 1 exactly when some mass distribution inside the shape has them; (ii) for every tolerance there is an order from which on all accepted parameters lie within the tolerance (times the mass) of realizable parameters of the same mass; (iii) a lower bound of a linear objective over the realizable bodies of unit mass is, up to any error, a lower bound over the accepted parameters from some order on.", "quantifier": "every bounded polyhedron, box, cylinder and body of several shapes, all parameters, all tolerances, all linear objectives, every eps", "why_tests_cant": "A statement about the limit of all relaxation orders; tests run single orders with a numerical solver.", "anchors": ["src/rigeo/shape/poly.py:ConvexPolyhedron.moment_sdp_constraints", "src/rigeo/shape/cylinder.py:Cylinder.moment_sdp_constraints", "src/rigeo/rigidbody.py:RigidBody.moment_sdp_constraints", "src/rigeo/moment.py:MomentMatrix.moment_constraints", "src/rigeo/moment.py:MomentMatrix.localizing_constraints"]}
{"id": "C88", "title": "The vertex constraints of a cylinder are exact", "statement": "With eps = 0, Cylinder.moment_custom_vertex_constraints holds exactly for the inertial parameters of the mass distributions (discrete or continuous) inside the cylinder, in any pose, although it only splits the parameters over the two end disks and relaxes the second moment along the axis. So it is at least as tight as Cylinder.moment_sdp_constraints of every order, as scripts/experiments/process_drip_data.py expects, and for cylinders of positive size strictly tighter at every order. Equivalently, for a cylinder at the origin the realizable parameters are given by a positive semidefinite pseudo-inertia matrix and four inequalities.", "quantifier": "every cylinder of non-negative length whose radius is zero or above the degeneracy threshold, all parameters, both kinds of variable, every order of the relaxation compared with", "why_tests_cant": "Sufficiency asks for a mass distribution for each of uncountably many accepted parameters; the tests only compare objective values of two solver runs on one cylinder.", "anchors": ["src/rigeo/shape/cylinder.py:Cylinder.moment_custom_vertex_constraints", "src/rigeo/shape/cylinder.py:Cylinder.moment_sdp_constraints"]}
{"id": "C89", "title": "The hollow densities are limits of thin shells", "statement": "Ellipsoid.hollow_density_params(m) and Box.hollow_density_params(m) return the limit, as delta goes to zero from above, of the inertial parameters of the mass m spread with uniform density between the shape and the same shape with all half extents larger by delta, the derivation of scripts/theory/ellipsoid_shell_inertia.py and box_shell_inertia.py (mass and centre of mass agree for every delta, only the second moment converges). Moreover every mass distribution inside the ellipsoid that has the parameters of the hollow ellipsoid lies entirely on its surface.", "quantifier": "every ellipsoid and box of positive half extents in any pose, every positive mass, every mass distribution", "why_tests_cant": "A limit of integrals over non-convex solids, and a statement about all mass distributions; the scripts compute a symbolic limit of a formula for the inertia matrix, not of the integrals.", "anchors": ["src/rigeo/shape/ellipsoid.py:Ellipsoid.hollow_density_params", "src/rigeo/shape/box.py:Box.hollow_density_params"]}
{"id": "C90", "title": "The samplers have the uniform distribution", "statement": "With standard normal and uniform draws, random_points_on_hypersphere returns a rotation-invariant point of the unit sphere, and random_points_in_ball, Box.random_points, Ellipsoid.random_points and Cylinder.random_points return a point that is uniformly distributed over the solid (equal volumes have equal probability); they fail with probability zero. random_weight_vectors does not have uniformly distributed entries, contrary to its docstring.", "quantifier": "every dimension from two on, every pose, all positive sizes, every measurable set of outcomes", "why_tests_cant": "A distribution is a statement about all measurable sets; a test sees finitely many samples of one generator.", "anchors": ["src/rigeo/random.py:random_points_on_hypersphere", "src/rigeo/random.py:random_points_in_ball", "src/rigeo/random.py:random_weight_vectors", "src/rigeo/shape/box.py:Box.random_points", "src/rigeo/shape/ellipsoid.py:Ellipsoid.random_points", "src/rigeo/shape/cylinder.py:Cylinder.random_points"]}
{"id": "C91", "title": "The law of rejection sampling", "statement": "Given that rejection_sample succeeds, the n returned points are independent and each has the distribution of a candidate given that one of the shapes contains it; it succeeds with probability (1 - q^max_tries)^n, where q is the probability that a candidate is rejected. Although each round draws as many candidates as are missing, earlier rounds do not bias the result. So Capsule.random_points returns independent uniformly distributed points of the capsule (up to the 1e-8 slack of contains), and fails with probability at most 1 - (1 - 2^-10000)^n.", "quantifier": "every distribution of the candidates, all measurable containment tests, every n and max_tries; every capsule above the degeneracy threshold in any pose", "why_tests_cant": "A statement about the joint distribution of an adaptive loop for all measurable sets; tests see a few runs.", "anchors": ["src/rigeo/random.py:rejection_sample", "src/rigeo/shape/capsule.py:Capsule.random_points"]}
{"id": "C92", "title": "The law of Ellipsoid.random_points_on_surface", "statement": "With standard normal and uniform draws, Ellipsoid.random_points_on_surface terminates with probability one and returns n independent points, each uniformly distributed by surface area: the probability of a measurable part of the surface is its share of the area. As the code rotates with the transpose, the surface is the one of the ellipsoid with the inverse rotation.", "quantifier": "every dimension from two on, all positive half extents, every orthogonal rotation, every center, every n and every measurable set of outcomes", "why_tests_cant": "The joint distribution of the output of an unbounded rejection loop, against the area of a curved surface, for all measurable sets; tests see a few samples.", "anchors": ["src/rigeo/shape/ellipsoid.py:Ellipsoid.random_points_on_surface"]}
{"id": "C93", "title": "The laws of Box.random_points_on_edges and Box.random_points_on_surface", "statement": "With multinomial counts for the probabilities computed by the code, uniform draws and a uniformly random shuffle, Box.random_points_on_edges returns n independent points, each uniformly distributed by length over the twelve edges of the posed box. Box.random_points_on_surface returns n independent points, for n other than one; for an axis-aligned box at the origin each is uniformly distributed by area over the surface. For any other pose the common law is the one of the points moved by the pose, set onto the coordinate planes of the world frame, and moved by the pose a second time.", "quantifier": "all half extents with a positive total length or area, every pose, every n and every measurable set of outcomes", "why_tests_cant": "The joint distribution of n points after counts, slices and a shuffle, for all measurable sets; tests see a few samples and check membership only.", "anchors": ["src/rigeo/shape/box.py:Box.random_points_on_surface", "src/rigeo/shape/box.py:Box.random_points_on_edges"]}
{"id": "C94", "title": "Floating-point rounding in unvech, evaluation times and bounding boxes", "statement": "With every operation rounded to a nearest binary64 number, is_triangular_number answers as in exact arithmetic for every integer below 2**50, so unvech is unaffected; it wrongly accepts 2**53 + 2**26 + 1. The times of compute_evaluation_times are within a relative 2**-52 of i * step, at most duration * (1 + 2**-50), and n * step is at least duration * (1 - 2**-52); for duration 0.07 and step 0.01 there are eight times and the last one is the duration itself. Box.from_points_to_bound contains all the points within the default tolerance if the coordinates are at most 10**7 in absolute value; the box of points with coordinates -2**-26 and 2**29 does not contain the first of them.", "quantifier": "every rounding to nearest, whatever it does with ties, and every argument in the stated ranges", "why_tests_cant": "All integers below 2**50 and all floats in the ranges; the exceptions are single values that sampling does not find.", "anchors": ["src/rigeo/util.py:is_triangular_number", "src/rigeo/util.py:unvech", "src/rigeo/util.py:compute_evaluation_times", "src/rigeo/shape/box.py:Box.from_points_to_bound"]}
{"id": "C95", "title": "Monte Carlo examples", "statement": "The error printed by box_shell_inertia_monte_carlo.py and box_wireframe_inertia_monte_carlo.py tends to zero in probability as the number of samples grows, for all half extents with a positive area or length (with one sample the shell script raises IndexError). The error printed by ellipsoid_shell_inertia_monte_carlo.py tends to the difference between the inertia of hollow_density_params and the inertia of unit mass spread evenly by area. This is zero for spheres, but not for the half extents 1, 0.75, 0.5 of the script: with probability tending to one some entry of the printed error exceeds 1e-5.", "quantifier": "every vector of half extents, every error bound and every probability below one", "why_tests_cant": "The claims are limits over the number of samples and over all outcomes of the random draws.", "anchors": ["scripts/examples/box_shell_inertia_monte_carlo.py:main", "scripts/examples/box_wireframe_inertia_monte_carlo.py:main", "scripts/examples/ellipsoid_shell_inertia_monte_carlo.py:main", "src/rigeo/shape/ellipsoid.py:Ellipsoid.random_points_on_surface", "src/rigeo/shape/ellipsoid.py:Ellipsoid.hollow_density_params"]}
{"id": "C96", "title": "Symbolic derivations in scripts/theory", "statement": "For all positive half extents the limits computed by box_shell_inertia.py and ellipsoid_shell_inertia.py are the inertia matrices of hollow_density_params with unit mass, and the derivation with the parallel axis theorem gives the same matrices; box_wireframe_inertia.py gives those of wireframe_density_params, box_vertex_inertia.py those of from_point_masses at the vertices with masses 1/8. The assertions of the scripts about the cube (5/9, 7/9, 1) and A μ = b in cuboid_density_realizability_proof.py hold for all numbers; hence for every distribution of mass in a box the integrals of φ are non-negative vertex masses with the same mass, first moments and products of inertia. The matrix P of cylinder_density_realizability_proof.py is that of the point with the square of its height replaced by that of the cylinder.", "quantifier": "all half extents, all parameters and all mass distributions in the box", "why_tests_cant": "The scripts compare expressions symbolically but not with the code of the package, and they take limits.", "anchors": ["scripts/theory/box_shell_inertia.py:box_shell_inertia", "scripts/theory/box_shell_inertia.py:box_shell_inertia_parax", "scripts/theory/box_vertex_inertia.py:box_vertex_inertia", "scripts/theory/box_wireframe_inertia.py:box_edge_inertia", "scripts/theory/ellipsoid_shell_inertia.py:ellipsoid_shell_inertia", "scripts/theory/cuboid_density_realizability_proof.py", "scripts/theory/cylinder_density_realizability_proof.py", "src/rigeo/shape/box.py:Box.hollow_density_params", "src/rigeo/shape/box.py:Box.wireframe_density_params", "src/rigeo/shape/ellipsoid.py:Ellipsoid.hollow_density_params"]}
{"id": "C97", "title": "The experiments on the tightness of the constraints", "statement": "generate_drip_data.py runs to the end for every box with positive half extents and every cylinder with positive length, for any draws. For a cylinder each custom value is, up to the tolerance of the solver, the maximum of [p,1]^T D [p,1] over the points p of the cylinder, and custom <= order 3 <= order 2, so the minima that process_drip_data.py prints are non-negative up to the tolerance. For a box all values are at least the maximum over the box and order 3 <= order 2, but for every box there is a draw in the range of the script for which the custom value is larger than those of both relaxations, so that the minima printed are negative, contrary to the comment in process_drip_data.py.", "quantifier": "all boxes and cylinders in any pose, all lists of draws, every solver tolerance", "why_tests_cant": "The scripts sample finitely many objectives for one box and one cylinder and need a commercial solver.", "anchors": ["scripts/experiments/generate_drip_data.py:setup_drip_problem", "scripts/experiments/generate_drip_data.py:random_optimal_values", "scripts/experiments/process_drip_data.py:main", "src/rigeo/shape/box.py:Box.moment_custom_vertex_constraints", "src/rigeo/shape/cylinder.py:Cylinder.moment_custom_vertex_constraints", "src/rigeo/shape/cylinder.py:Cylinder.moment_sdp_constraints", "src/rigeo/shape/poly.py:ConvexPolyhedron.moment_sdp_constraints"]}
{"id": "C98", "title": "Shapes and rows of batches of random points", "statement": "The random_points methods of polyhedra, boxes, ellipsoids and cylinders and the functions of random.py, called with a shape (an int or a tuple), return an array of that shape with the dimension appended; the point at every index is the single-point sample made from the draws with that index (for boxes: with its row-major position), so every point of the batch lies in the shape. A request for a single point with the int 1 returns the point itself, of shape (d,). The request (1,) returns shape (3,) for boxes and (1, 3) for ellipsoids and cylinders. A one-dimensional polyhedron asked for one point returns an array with no axes, which its own contains method refuses.", "quantifier": "all shapes of any number of axes and any sizes, all draws, all dimensions", "why_tests_cant": "Tests draw a few hundred points for one or two shapes.", "anchors": ["src/rigeo/random.py:random_weight_vectors", "src/rigeo/random.py:random_points_on_hypersphere", "src/rigeo/random.py:random_points_in_ball", "src/rigeo/random.py:rejection_sample", "src/rigeo/shape/poly.py:ConvexPolyhedron.random_points", "src/rigeo/shape/box.py:Box.random_points", "src/rigeo/shape/ellipsoid.py:Ellipsoid.random_points", "src/rigeo/shape/cylinder.py:Cylinder.random_points"]}
{"id": "C99", "title": "Containment tests on batches of points", "statement": "contains and on_surface of polyhedra, ellipsoids, boxes, cylinders and capsules, called with one point or with an (n, d) array, return one truth value per point, equal to the test of that point alone. Arrays with more axes are refused by ellipsoids, cylinders, capsules and by on_surface; ConvexPolyhedron.contains instead accepts an (m, n, d) array with matching sizes and returns an array of shape (m, number of faces) that is not the containment of the points. Ellipsoid.contains accepts a bare number and arrays with one column and silently tests the point that has this number in every coordinate.", "quantifier": "all shapes, all numbers of points, all tolerances", "why_tests_cant": "Tests pass a handful of batches of the documented form.", "anchors": ["src/rigeo/shape/poly.py:ConvexPolyhedron.contains", "src/rigeo/shape/ellipsoid.py:Ellipsoid.contains", "src/rigeo/shape/ellipsoid.py:Ellipsoid.on_surface", "src/rigeo/shape/box.py:Box.on_surface", "src/rigeo/shape/cylinder.py:Cylinder.contains", "src/rigeo/shape/capsule.py:Capsule.contains"]}
{"id": "C100", "title": "Moment indices and polynomials without a fixed number of variables", "statement": "The classes MomentIndex and Polynomial, whose indices are tuples of any length, behave as the model with a fixed number of variables as long as all indices have the same length: sums of indices, basis, degree, evaluation, substitution, construction from a dictionary or an affine map, addition and localisation agree. The length assertion of MomentIndex.__add__ is the only check: polynomials with different numbers of variables can be constructed and added, and fail only in localize or evaluate, and an index of length one is broadcast by evaluate over the coordinates of any point. str of an index can be read back exactly when all exponents are at most 9.", "quantifier": "all numbers of variables, all exponents, all dictionaries", "why_tests_cant": "Tests use a few literal polynomials in three variables.", "anchors": ["src/rigeo/moment.py:MomentIndex", "src/rigeo/moment.py:Polynomial", "src/rigeo/shape/cylinder.py:Cylinder.moment_sdp_constraints"]}
{"id": "C101", "title": "Extents of a body bound its moments in every accepted assignment", "statement": "If a body lies between the planes a <= u.x <= b, then every parameter vector or pseudo-inertia accepted by its moment constraints at order d >= 1 has a*m <= u.h <= b*m, and at order d >= 2 also u'Hu <= (a+b) u.h - a*b*m and u'Hu <= m*max(a^2, b^2). The maximum of u.h (and of u'Hu) over accepted assignments with mass at most M is exactly M*max(0, b) (M*max(a^2, b^2)) if the slab is tight: the semidefinite programs of the tests return the values the tests expect, for every polyhedron, cylinder and ellipsoid. Point masses that stick out of a slab on average are rejected at order 2. At order 1 the second moments of a polyhedron are not bounded.", "quantifier": "all polyhedra, ellipsoids and cylinders with positive extents and bodies made of them, all directions, all orders", "why_tests_cant": "Tests solve three programs for one box and one body and compare three numbers.", "anchors": ["src/rigeo/shape/poly.py:ConvexPolyhedron.moment_sdp_constraints", "src/rigeo/shape/ellipsoid.py:Ellipsoid.moment_sdp_constraints", "src/rigeo/shape/cylinder.py:Cylinder.moment_sdp_constraints", "src/rigeo/multibody.py:RigidBody.moment_sdp_constraints"]}
{"id": "C102", "title": "What the uniformity tests of the samplers can decide", "statement": "The tests of random_points_in_ball, Ellipsoid.random_points and Cylinder.random_points count how many of n points fall in an inscribed box and compare the frequency with the ratio of the volumes up to 0.01. With independent draws, the check fails with probability at most 1/(4n(atol-d)^2) and 2exp(-2n(atol-d)^2), where d accounts for the tolerance of Box.contains; a sampler that gives the box a probability different from the ratio by more than atol passes with a probability bounded in the same way; and the probability of passing depends only on the probability of the box, so that a sampler that returns only two points passes exactly as often as the uniform sampler.", "quantifier": "all ellipsoids and cylinders with positive extents, all samplers, all numbers of points, all tolerances", "why_tests_cant": "The test itself is the subject: it is run once for one fixed seed.", "anchors": ["src/rigeo/random.py:random_points_in_ball", "src/rigeo/shape/ellipsoid.py:Ellipsoid.random_points", "src/rigeo/shape/ellipsoid.py:Ellipsoid.mib", "src/rigeo/shape/cylinder.py:Cylinder.random_points", "src/rigeo/shape/cylinder.py:Cylinder.mib"]}
{"id": "C103", "title": "Optimal values of the programs with containment and exact moment constraints", "statement": "Maximising u.p subject to shape.must_contain(p) gives exactly the support value of the shape in direction u: u.c + sqrt(u'Eu) for an ellipsoid, the largest u.v over the vertices for a polyhedron, u.c + sum h_i |r_i.u| for a box, and the corresponding sums for cylinders and capsules. With the point scaled by a mass in [0, M] the optimum is M*max(0, value). For a capsule and a direction with a positive component along its axis the maximiser is unique. Under the exact moment constraints of ellipsoids and cylinders (moment_constraints, moment_custom_vertex_constraints) with mass at most M, the maxima of u.h and of u'Hu are M*max(0, value) and M*(|u.c| + half width)^2.", "quantifier": "all ellipsoids of any dimension, polyhedra, boxes, cylinders and capsules with orthogonal rotations, all directions, all mass bounds", "why_tests_cant": "Tests solve a handful of programs with a numerical solver and compare the optimum of each with one number.", "anchors": ["src/rigeo/shape/ellipsoid.py:Ellipsoid.must_contain", "src/rigeo/shape/poly.py:ConvexPolyhedron.must_contain", "src/rigeo/shape/cylinder.py:Cylinder.must_contain", "src/rigeo/shape/capsule.py:Capsule.must_contain", "src/rigeo/shape/ellipsoid.py:Ellipsoid.moment_constraints", "src/rigeo/shape/cylinder.py:Cylinder.moment_custom_vertex_constraints"]}
{"id": "C104", "title": "General facts that the tests assert on single objects", "statement": "Of two or more points at least two lie on the surface of Box.from_points_to_bound of them, but none of them need be a vertex of it. The span form of a nonempty polyhedron that is unbounded and not a cone has vertices and rays; this holds for every full-dimensional box with any one face removed. No vertex of a pruned polyhedron is strictly inside an inscribed full-dimensional ellipsoid; without pruning this fails. The vertices of the maximum inscribed box of a cylinder lie on the rims of its end faces. The second moments about the center of a hollow box are 5/3 of those of the hollow ellipsoid with the same half extents, and both hollow densities are linear in the mass.", "quantifier": "all point lists, polyhedra, boxes, ellipsoids of any positive dimension and cylinders, all masses", "why_tests_cant": "Each test asserts the fact for one object.", "anchors": ["src/rigeo/shape/box.py:Box.from_points_to_bound", "src/rigeo/polydd.py:FaceForm.to_span_form", "src/rigeo/shape/ellipsoid.py:Ellipsoid.S", "src/rigeo/shape/cylinder.py:Cylinder.mib", "src/rigeo/shape/box.py:Box.hollow_density_params", "src/rigeo/shape/ellipsoid.py:Ellipsoid.hollow_density_params"]}
{"id": "C105", "title": "Rounding in the containment tests", "statement": "With binary64 rounding and sums and dot products evaluated in any order, with or without fused operations: a dot product of n terms has error at most 2nu times the sum of the absolute terms. ConvexPolyhedron.contains, Box.contains and Ellipsoid.contains at the default tolerance accept every point of the exact shape, and every point they accept satisfies the exact conditions up to 1.4e-8, 1.7e-8 and 2e-8, as long as dim*sum|a_i p_i| and the offsets are at most 1e7 (polyhedra), coordinates and half extents at most 1e6 (boxes), or offsets from the center at most 3e5 times each half extent (ellipsoids). At coordinates of size 2^28 a polyhedron can reject a point it contains.", "quantifier": "all roundings to nearest, all orders of summation, all polyhedra of any dimension, boxes, ellipsoids of dimension at most three, all points within the stated sizes", "why_tests_cant": "Tests run on one machine with one order of summation and compare a few points that are far from the boundary compared with the rounding error.", "anchors": ["src/rigeo/shape/poly.py:ConvexPolyhedron.contains", "src/rigeo/shape/box.py:Box.__init__", "src/rigeo/shape/ellipsoid.py:Ellipsoid.contains"]}
{"id": "C106", "title": "The module for pycddlib 3 computes the same forms", "statement": "The functions of unused/polydd_pycddlib3.py that differ from polydd.py agree with them: from the same matrix, SpanForm.from_cdd_matrix returns the same span form or raises the same exception, and FaceForm.from_cdd_matrix returns the same half-spaces or raises the same exception; that face form is the set the matrix stands for, with equality for the linear rows; to_cdd_matrix hands over the same matrices; and with libraries that compute the same matrices, canonical, to_face_form, to_span_form and convex_hull agree.", "quantifier": "all matrices with any set of linear rows, all span and face forms, all lists of points, every dimension, every pair of libraries that compute the same matrices", "why_tests_cant": "The file is unused, no test imports it, and the two versions of the library cannot be installed together.", "anchors": ["src/rigeo/unused/polydd_pycddlib3.py:SpanForm.from_cdd_matrix", "src/rigeo/unused/polydd_pycddlib3.py:FaceForm.from_cdd_matrix", "src/rigeo/unused/polydd_pycddlib3.py:convex_hull"]}
{"id": "C107", "title": "Feasibility problems decide realizability in the limit", "statement": "moment_sdp_feasibility_problem of a bounded polyhedron, a box or a cylinder has optimal value zero at every order d >= 1 for the parameters of a mass distribution inside the shape, and infinite optimal value from some order on for all other symmetric parameters, whatever eps >= 0 is; for a box of positive extents no single order decides. The unused helper _box_vertices of poly.py lists the same vertices as the one of box.py, Cylinder.capsule keeps pose and sizes, and random_diag_normal returns the six numbers drawn in the order of vec.", "quantifier": "all bounded polyhedra without zero rows, all boxes and cylinders in any pose, all parameters with symmetric second moments, all orders, all eps >= 0", "why_tests_cant": "The statement is about all orders of the relaxation; the tests solve a few problems at order two.", "anchors": ["src/rigeo/shape/poly.py:ConvexPolyhedron.moment_sdp_feasibility_problem", "src/rigeo/shape/cylinder.py:Cylinder.moment_sdp_feasibility_problem", "src/rigeo/shape/cylinder.py:Cylinder.capsule", "src/rigeo/spatial.py:SpatialVector.random_diag_normal"]}
{"id": "C108", "title": "Which functions change or share their arguments", "statement": "With dictionaries, lists, arrays and models as objects in memory: adding polynomials, localize and localizing_matrix leave every existing object as it is and return new ones; adding or transforming rigid bodies and summing any list of them changes no existing list of shapes, and the lists of the results are new; a rigid body and inertial parameters keep the list or arrays they are given, so that a later change of those changes them, while a box copies its arrays; MultiBody with a gravity argument changes the model it is given and with it every multibody built on that model, even when construction then fails, and without the argument changes nothing.", "quantifier": "all memory states, all objects, any sharing between the arguments, all lists of bodies", "why_tests_cant": "The tests build every object from fresh arguments and never look at the arguments again; a missing copy shows only when an argument is used twice.", "anchors": ["src/rigeo/moment.py:Polynomial.__add__", "src/rigeo/moment.py:Polynomial.localize", "src/rigeo/moment.py:MomentMatrix.localizing_matrix", "src/rigeo/rigidbody.py:RigidBody.__init__", "src/rigeo/rigidbody.py:RigidBody.__add__", "src/rigeo/rigidbody.py:RigidBody.transform", "src/rigeo/unused/multibody.py:MultiBody.__init__", "src/rigeo/inertial.py:InertialParameters.__init__", "src/rigeo/shape/box.py:Box.__init__"]}
{"id": "C109", "title": "Rounding in the containment tests of cylinders and capsules", "statement": "With binary64 rounding and dot products evaluated in any order, with or without fused operations: Cylinder.contains and Capsule.contains at the default tolerance accept every point of the exact shape, although the projections of the point and of the center, the half length and the end points are rounded before the ellipsoids are tested; every point they accept lies in the shape with half length and radius enlarged by the factor 1 + 2e-8. The coordinates of the point and of the center must be at most 40000 times the half length and the radius, and for the capsule the half length at most 40000 times the radius.", "quantifier": "all roundings to nearest, all orders of summation, all cylinders and capsules of any orthogonal pose, all points within the stated sizes", "why_tests_cant": "Tests run on one machine with one order of summation and compare points that are far from the boundary compared with the rounding error.", "anchors": ["src/rigeo/shape/cylinder.py:Cylinder.__init__", "src/rigeo/shape/cylinder.py:Cylinder.contains", "src/rigeo/shape/capsule.py:Capsule.contains"]}
{"id": "C110", "title": "Queries of a multibody read the last forward kinematics", "statement": "For every sequence of calls of the methods of MultiBody that use pinocchio's data, whichever of them raise exceptions: get_frame_pose returns the pose of the frame at the configuration of the last successful compute_forward_kinematics, as (rotation, translation), if no Jacobian was computed since; before the first one it returns the identity instead of an error; a call that raises changes nothing; compute_forward_kinematics succeeds exactly for arrays of the right shapes, with zero for velocities and accelerations that are left out; and a frame is resolved to its index, to the first frame of its name or ValueError, or to the tool or TypeError. compute_joint_torques checks the shapes of its three arrays, and every query returns what pinocchio computes for the resolved frame and the given reference frame.", "quantifier": "all libraries that meet the stated contract of pinocchio, all models, all sequences of calls with any arguments, all frames", "why_tests_cant": "There are no tests of multibody.py, and the property is about all sequences of calls.", "anchors": ["src/rigeo/unused/multibody.py:MultiBody.compute_forward_kinematics", "src/rigeo/unused/multibody.py:MultiBody.compute_joint_torques", "src/rigeo/unused/multibody.py:MultiBody.get_frame_pose", "src/rigeo/unused/multibody.py:MultiBody.get_frame_velocity", "src/rigeo/unused/multibody.py:MultiBody.compute_frame_jacobian", "src/rigeo/unused/multibody.py:MultiBody._resolve_frame_index"]}
{"id": "C111", "title": "Moment matrices of order zero", "statement": "For d >= 1 the array MomentMatrix(n, d).indices holds the sums of the multi-indices of degree at most d, and moment_constraints and localize computed with it give the values, constraints and exceptions of the model over exponent vectors. For d = 0 the array is the single integer 0 instead of a multi-index: moment_constraints accepts every matrix, localize raises AttributeError for polynomials of degree zero and ValueError for all others, and localizing_matrix(0, p) raises AttributeError, or TypeError if p has no coefficients. At order d >= 1 localizing_matrix(d', p) holds the localized polynomials for d' <= d and raises IndexError for d' > d.", "quantifier": "every number of variables, every order, every matrix of values and every polynomial", "why_tests_cant": "The tests use orders one and two only, and tests at more orders would still leave the rest of the orders, polynomials and matrices open.", "anchors": ["src/rigeo/moment.py:MomentMatrix.__init__", "src/rigeo/moment.py:MomentMatrix._compute_var_map", "src/rigeo/moment.py:MomentMatrix.localizing_matrix", "src/rigeo/moment.py:MomentMatrix.moment_constraints", "src/rigeo/moment.py:MomentMatrix.localize"]}
{"id": "C112", "title": "Array arguments of the constructors", "statement": "Box, Cylinder and Ellipsoid called with numbers or arrays of any shape return exactly for the arguments of the documented shapes with nonnegative sizes, and on those agree with the model over vectors and matrices; every other call raises AssertionError, except that Ellipsoid raises IndexError for half extents without axes and accepts half extents with more than one axis, and Ellipsoid.sphere accepts a negative radius in zero dimensions. clean_transform checks both shapes. The parts of a SpatialVector must have shape (3,). InertialParameters checks the shape of I only: it stores any other arrays, J raises ValueError exactly if H cannot be broadcast to (3, 3) or com to (3,), and a one-dimensional H is repeated in every row.", "quantifier": "arguments of every kind, number of axes and lengths of axes, with every entries", "why_tests_cant": "The tests pass vectors and matrices of the documented shapes only, and there are infinitely many shapes.", "anchors": ["src/rigeo/shape/ellipsoid.py:Ellipsoid.__init__", "src/rigeo/shape/ellipsoid.py:Ellipsoid.sphere", "src/rigeo/shape/box.py:Box.__init__", "src/rigeo/shape/cylinder.py:Cylinder.__init__", "src/rigeo/spatial.py:SpatialVector.__init__", "src/rigeo/inertial.py:InertialParameters.__init__", "src/rigeo/inertial.py:InertialParameters.J", "src/rigeo/util.py:clean_transform"]}
{"id": "C113", "title": "schur on arguments of any kind", "statement": "schur(A, B, C) for numbers, arrays and cvxpy expressions with one or two axes returns exactly if A and B have equally many rows, C has as many rows as B has columns and both rows of blocks have equally many columns, where a number stands for a one by one matrix and a vector for a column; otherwise it raises ValueError. The entries are those of the blocks A, B, B.T, C; for a square matrix, a vector and a number it is the matrix used in the containment constraints; and for square blocks with C positive definite it is positive semidefinite exactly if A - B inv(C) B.T is. Blocks that are not square are accepted if they fit.", "quantifier": "all numbers, arrays and values of expressions, all lengths of their axes", "why_tests_cant": "schur has no test of its own, and the containment tests use it in three dimensions with one kind of arguments only.", "anchors": ["src/rigeo/constraint.py:schur", "src/rigeo/constraint.py:_shape_schur_var"]}
{"id": "C114", "title": "Rounding in parameter vectors and sums of parameters", "statement": "In binary64 arithmetic InertialParameters.from_vec(p.vec) returns the mass and the products of inertia exactly, the diagonal second moments within 30 u times their sum, and the center of mass within a relative error of 3 u, u = 2**-53, in whichever order the traces are summed. Parameters whose pseudo-inertia matrix has all eigenvalues above 1e-14 times the sum of its diagonal second moments and first moments stay consistent; without a margin a thin plate with a positive definite pseudo-inertia matrix becomes inconsistent. A sum of two sets of parameters has relative errors u in mass and second moments and 5 u in the first moments.", "quantifier": "all float parameters within the stated ranges, every rounding to nearest and every order of summation", "why_tests_cant": "test_inertial_params.py converts one random set of parameters back and forth with np.allclose, which does not see the loss of a second moment 1e-16 times smaller than the others.", "anchors": ["src/rigeo/inertial.py:H2I", "src/rigeo/inertial.py:I2H", "src/rigeo/inertial.py:InertialParameters.vec", "src/rigeo/inertial.py:InertialParameters.from_vec", "src/rigeo/inertial.py:InertialParameters.__add__"]}
{"id": "C115", "title": "Rounding in random weights and points", "statement": "In binary64 arithmetic random_weight_vectors returns weights in [0, 1] whose exact sum is one within (3 n + 3) u, u = 2**-53, random_points_on_hypersphere returns a point whose exact squared length is one within (5 d + 25) u for d coordinates, and random_points_in_ball one whose squared length is at most 1 + (5 d + 40) u, in whichever order the sums are added. The point on the sphere, and with it the point in the ball, can lie outside the unit ball.", "quantifier": "all draws within the stated ranges, all dimensions up to 10**9, every rounding to nearest and every order of summation", "why_tests_cant": "test_random.py draws from one seed with np.isclose for weights and directions, and asserts norm <= 1.0 without tolerance for the ball, which the drawn samples happen to meet.", "anchors": ["src/rigeo/random.py:random_weight_vectors", "src/rigeo/random.py:random_points_on_hypersphere", "src/rigeo/random.py:random_points_in_ball"]}
{"id": "C116", "title": "Rounding in Ellipsoid.can_realize", "statement": "In binary64 arithmetic the trace that Ellipsoid.can_realize compares with zero is within 1e-9 times the mass of the exact one, in whichever order the matrix products are added. So on a non-degenerate ellipsoid the answer yes for parameters with positive semidefinite pseudo-inertia matrix means they can be realized in the ellipsoid enlarged by 1 + 1e-9, and parameters realizable in the ellipsoid shrunk by 1 - 1e-9 get the answer yes if the computed smallest eigenvalue is at least eps. The comparison has no tolerance, so some parameters that can be realized in the ellipsoid itself are rejected.", "quantifier": "all ellipsoids and parameters within the stated ranges, every rounding to nearest and every order of summation", "why_tests_cant": "The tests of can_realize take a disk and a segment with a few literal masses, so they never reach the comparison of the non-degenerate case, and a bound over all inputs and orders of summation is beyond sampling.", "anchors": ["src/rigeo/shape/ellipsoid.py:Ellipsoid.can_realize", "src/rigeo/shape/ellipsoid.py:Ellipsoid.S", "src/rigeo/shape/ellipsoid.py:Ellipsoid.Q", "src/rigeo/shape/ellipsoid.py:_Q_matrix"]}
{"id": "C117", "title": "Programs that build bodies", "statement": "Consider any expression built from RigidBody(shapes), RigidBody(shapes, params) with parameters of positive mass, from_point_masses, + and transform by rotations, on valid shapes. If no sum has two massless operands it evaluates to a body whose shapes cover the region and whose parameters have the mass, first and second moments of the expression read as a description of moved and united distributions; otherwise it divides by zero. If each part can be realized on its own shapes, the result can be realized on its shapes and is consistent. Expressions that describe the same moments have the same parameters, in particular transforming a sum equals summing the transformed bodies, and a body built from point masses has the parameters of from_point_masses on all the moved points.", "quantifier": "all expressions of any size and nesting, all shapes, masses, points, rotations and translations", "why_tests_cant": "Tests evaluate a few fixed combinations of two or three bodies; the number of expressions is unbounded.", "anchors": ["src/rigeo/rigidbody.py:RigidBody.__init__", "src/rigeo/rigidbody.py:RigidBody.__add__", "src/rigeo/rigidbody.py:RigidBody.transform", "src/rigeo/inertial.py:InertialParameters.from_point_masses", "src/rigeo/inertial.py:InertialParameters.__add__", "src/rigeo/inertial.py:InertialParameters.transform"]}
{"id": "C118", "title": "Programs that build polynomials", "statement": "Any expression built from Polynomial(dict), zeros, ones, affine, + and localize over n variables evaluates, unless it contains ones(n, 0), to a dictionary with distinct keys and no zeros whose entries are the coefficients of the polynomial that the expression denotes in the polynomial ring. So evaluate agrees with evaluation in the ring, the keys are the exponents that occur, degree is the total degree (ValueError for zero), substitute replaces each monomial by its value (KeyError if one has none), and two expressions denote the same polynomial exactly if their dictionaries have the same items up to order. An expression with ones(n, 0) raises a TypeError.", "quantifier": "all expressions of any size and nesting, any number of variables, all coefficients, exponents and points", "why_tests_cant": "Tests add and localize a few fixed polynomials; expressions are unbounded and equality in the polynomial ring cannot be sampled.", "anchors": ["src/rigeo/moment.py:Polynomial.__init__", "src/rigeo/moment.py:Polynomial.zeros", "src/rigeo/moment.py:Polynomial.ones", "src/rigeo/moment.py:Polynomial.affine", "src/rigeo/moment.py:Polynomial.__add__", "src/rigeo/moment.py:Polynomial.localize", "src/rigeo/moment.py:Polynomial.degree", "src/rigeo/moment.py:Polynomial.evaluate", "src/rigeo/moment.py:Polynomial.substitute"]}
{"id": "C119", "title": "Programs that build polyhedra", "statement": "Any expression built from ConvexPolyhedron.from_vertices, from_halfspaces, simplex, intersect and transform with valid arguments denotes a set of points. If no operation is applied to an empty intersection, the expression evaluates to None if that set is empty and otherwise to a polyhedron whose faces and whose vertices both describe exactly that set. Then contains_polyhedron is inclusion and is_same is equality of the denoted sets. Applied to an empty intersection, transform and intersect raise an AttributeError, and intersect with one as argument raises an AssertionError; so transform distributes over intersect exactly if the polyhedra meet.", "quantifier": "all expressions of any size and nesting, all dimensions, all valid arguments", "why_tests_cant": "Tests intersect and transform a few fixed polyhedra; expressions are unbounded and equality of point sets cannot be sampled.", "anchors": ["src/rigeo/shape/poly.py:ConvexPolyhedron.from_vertices", "src/rigeo/shape/poly.py:ConvexPolyhedron.from_halfspaces", "src/rigeo/shape/poly.py:ConvexPolyhedron.simplex", "src/rigeo/shape/poly.py:ConvexPolyhedron.intersect", "src/rigeo/shape/poly.py:ConvexPolyhedron.transform", "src/rigeo/shape/poly.py:ConvexPolyhedron.contains", "src/rigeo/shape/poly.py:ConvexPolyhedron.is_same"]}
{"id": "C120", "title": "The text of moment indices and polynomials", "statement": "Two moment indices over the same variables have different texts if their degree is at most 10 or if all exponents have one digit, and with two or more variables there are different indices of degree 11 with the same text. So in a MomentMatrix(n, d) entries with the same text are the same moment exactly if n <= 1 or d <= 5. The text of a polynomial determines the coefficients and the texts of the indices in their order; up to degree 10, or in one variable, it determines the polynomial, and from degree 11 on it does not.", "quantifier": "all numbers of variables, all exponents, all orders, all polynomials, all texts of coefficients that can be read back and contain no space", "why_tests_cant": "No test looks at the text; the orders and exponents are unbounded, and the first clash occurs at degree 11.", "anchors": ["src/rigeo/moment.py:MomentIndex.__str__", "src/rigeo/moment.py:Polynomial.__str__", "src/rigeo/moment.py:MomentMatrix.__str__"]}
{"id": "C121", "title": "Rounding in repeated transforms of shapes", "statement": "Calling Box.transform, Ellipsoid.transform or Cylinder.transform N times in binary64 arithmetic, with matrices whose entries are within 8 units of 2^-53 of a rotation or reflection, gives a shape whose points are within 160 (N + 1) 2^-53 (S + E) of those of the truly moved shape in every coordinate, and conversely; S bounds the coordinates of the centers on the way and E is the sum of the extents. The rotation stays orthogonal up to 1200 (N + 1) 2^-53. So Box.contains of the transformed box still accepts every point within 1e-10 of the truly moved box, and accepts only points of that box grown by 3e-8, as long as the first bound is at most 5e-10.", "quantifier": "all numbers of calls up to 10^12 (10^11 for contains), all such matrices, all translations, every order of the additions, with or without fused operations, every rounding to nearest", "why_tests_cant": "Tests transform a shape once or twice and compare with tolerances; they cannot bound the error of every sequence of calls.", "anchors": ["src/rigeo/shape/box.py:Box.transform", "src/rigeo/shape/ellipsoid.py:Ellipsoid.transform", "src/rigeo/shape/cylinder.py:Cylinder.transform", "src/rigeo/shape/poly.py:ConvexPolyhedron.contains"]}
{"id": "C122", "title": "Rounding in the inertial parameters of point masses", "statement": "InertialParameters.from_point_masses in binary64 arithmetic, for n masses, none negative, with total mass M at points whose coordinates are at most L: the mass is off by at most 3 (n + 1) 2^-53 M, the center of mass by 8 (n + 1) 2^-53 L in every coordinate, so it is that close to the convex hull of the points, and the second moments by 3 (n + 1) 2^-53 M L^2. The second moment matrix is exactly symmetric, and the second moments about the computed center of mass are positive semidefinite up to 70 (n + 1) 2^-53 M L^2. The margin is needed: a mass 1 at the float 1 + 2^-52 on the first axis gives parameters that no body has.", "quantifier": "all numbers of masses up to 10^9, all masses and points with M and L between 1e-30 and 1e30, every rounding to nearest", "why_tests_cant": "Tests build a few bodies from random points and compare with tolerances; they cannot bound the error for every number of masses.", "anchors": ["src/rigeo/inertial.py:InertialParameters.from_point_masses", "src/rigeo/inertial.py:InertialParameters.from_pim", "src/rigeo/inertial.py:InertialParameters.__init__"]}
{"id": "C123", "title": "Rounding in repeated transforms of inertial parameters", "statement": "Calling InertialParameters.transform N times in binary64 arithmetic, with matrices whose entries are within 8 units of 2^-53 of a rotation or reflection, keeps the mass, gives a center of mass within 160 N 2^-53 S of the truly moved one in every coordinate, and second moments about the center of mass within 1700 N 2^-53 m S^2 of the truly turned ones, which are those of the moved masses. S bounds the coordinates of the center of mass on its way, and m S^2 the second moments about it. Consistent parameters stay consistent up to 5100 N 2^-53 m S^2.", "quantifier": "all numbers of calls up to 10^10, all such matrices, all translations, every order of the additions, with or without fused operations, every rounding to nearest", "why_tests_cant": "Tests transform parameters once and compare with tolerances; they cannot bound the error of every sequence of calls.", "anchors": ["src/rigeo/inertial.py:InertialParameters.transform", "src/rigeo/inertial.py:InertialParameters.Hc"]}
{"id": "C124", "title": "Rounding in body wrenches and regressors", "statement": "InertialParameters.body_wrench(V, A) and RigidBody.regressor(V, A) @ params.vec in binary64 arithmetic: with parameters (mass, first moments, second moments) of at most B, velocities of at most v and accelerations of at most a, every component of the first is within 4500 * 2^-53 B (a + v^2) of the exact body wrench, and of the second within 7500 * 2^-53 B (a + v^2). So the two computed wrenches differ by at most 12000 * 2^-53 B (a + v^2).", "quantifier": "all bodies with a symmetric second moment matrix, all velocities and accelerations with B, v and a between 1e-10 and 1e10, every order of the additions, with or without fused operations, every rounding to nearest", "why_tests_cant": "Tests compare the two wrenches for a few random bodies with a tolerance; they cannot bound the difference for all.", "anchors": ["src/rigeo/inertial.py:InertialParameters.body_wrench", "src/rigeo/inertial.py:InertialParameters.M", "src/rigeo/inertial.py:InertialParameters.vec", "src/rigeo/rigidbody.py:RigidBody.regressor", "src/rigeo/util.py:lift6"]}
{"id": "C125", "title": "Rounding in axis-aligned bounding boxes", "statement": "Box.from_two_vertices, Box.from_points_to_bound, ConvexPolyhedron.aabb and Box.aabb in binary64 arithmetic: for points with coordinates of at most S the result is an axis-aligned box; grown by 6 * 2^-53 S on every side it contains every point, and it lies within every axis-aligned box around the points grown by as much. contains() with its default tolerance and with rounding accepts each of the points if S <= 9e5. The aabb of a box in any pose contains the box, and is tight, up to 175 * 2^-53 S. The computed box itself may miss a point: (-2^-60, 0, 0) and (1, 0, 0) give a box from 0 to 1.", "quantifier": "all non-empty lists of points with S between 1e-60 and 1e60, all boxes with rotation within 8 * 2^-53 of an orthogonal matrix, every order of the additions, with or without fused operations, every rounding to nearest", "why_tests_cant": "Tests bound a few random points and check contains; whether any list of points can be lost by rounding needs a bound for all.", "anchors": ["src/rigeo/shape/box.py:Box.from_two_vertices", "src/rigeo/shape/box.py:Box.from_points_to_bound", "src/rigeo/shape/box.py:_box_vertices", "src/rigeo/shape/poly.py:ConvexPolyhedron.aabb"]}
{"id": "C126", "title": "Rounding in random points, vertices and grids of boxes", "statement": "Box.random_points, the vertices of a Box and Box.grid(n) in binary64 arithmetic: with |center_i| + sum(half_extents) <= S, every coordinate of every point is within 200 * 2^-53 S of the exact one (160 for vertices), and the grid has the points of the exact grid in the same order. If S <= 4000, contains() with its default tolerance and with rounding accepts every such point.", "quantifier": "all boxes with rotation within 8 * 2^-53 of an orthogonal matrix and S between 1e-60 and 1e59, all draws in [-1, 1]^3, all grids with at most 1e9 points per direction, every order of the additions, with or without fused operations, every rounding to nearest", "why_tests_cant": "Tests draw random points of a few boxes and check contains; that rounding never makes contains reject a sampled point needs a bound for all.", "anchors": ["src/rigeo/shape/box.py:Box.random_points", "src/rigeo/shape/box.py:Box.grid", "src/rigeo/shape/box.py:_box_vertices", "src/rigeo/shape/poly.py:ConvexPolyhedron.contains"]}
{"id": "C127", "title": "Rounding in random points of ellipsoids", "statement": "Ellipsoid.random_points in three dimensions in binary64 arithmetic: with |center_i| + sum(half_extents) <= S, every coordinate of the point is within 1700 * 2^-53 S of the exact image of the point drawn in the unit ball. If every half extent is zero (with S <= 500) or between 2e-8 and 1e10 and at least S / 500, then contains() with its default tolerance and with rounding accepts every point, whatever the draws.", "quantifier": "all ellipsoids with rotation within 8 * 2^-53 of an orthogonal matrix, all normal draws N with 1e-20 <= |N|^2 <= 1e60, all uniform draws in [0, 1], every order of the additions, with or without fused operations, every rounding to nearest, every power function with relative error of at most 2 * 2^-53", "why_tests_cant": "Tests draw some points of a few ellipsoids; that rounding never makes contains reject a sampled point needs a bound for all draws.", "anchors": ["src/rigeo/shape/ellipsoid.py:Ellipsoid.random_points", "src/rigeo/random.py:random_points_in_ball", "src/rigeo/shape/ellipsoid.py:Ellipsoid.contains"]}
{"id": "C128", "title": "Rounding in random points of cylinders", "statement": "Cylinder.random_points in binary64 arithmetic: with |center_i| + 3 radius + length <= S, every coordinate of the point is within 200 * 2^-53 S of the exact image of the draws. If half the length and the radius are each zero (with S <= 1000) or between 1.2e-7 and 9e9 and at least S / 1000, then contains() with its default tolerance and with rounding accepts every point, whatever the draws.", "quantifier": "all cylinders with rotation within 8 * 2^-53 of an orthogonal matrix, all axial draws in [-0.5, 0.5], all normal draws N with 1e-20 <= |N|^2 <= 1e60, all uniform draws in [0, 1], every order of the additions, with or without fused operations, every rounding to nearest, every power function with relative error of at most 2 * 2^-53", "why_tests_cant": "Tests draw some points of a few cylinders; that rounding never makes contains reject a sampled point, also at the rim, needs a bound for all draws.", "anchors": ["src/rigeo/shape/cylinder.py:Cylinder.random_points", "src/rigeo/random.py:random_points_in_ball", "src/rigeo/shape/cylinder.py:Cylinder.contains"]}
{"id": "C129", "title": "Rounding in points on the surface and the edges of boxes", "statement": "In binary64 arithmetic, with |center_i| + sum(half_extents) <= S: every coordinate of a point of Box.random_points_on_edges is within 200 * 2^-53 S of the exact point of the edge. For S <= 4000, Box.on_surface with its default tolerance and with rounding accepts every such point, whatever the draws; for S <= 1000 it also accepts every point of random_points_on_surface of a box at the origin that is not rotated. Conversely a point that on_surface with rounding accepts is at most 1.8e-8 outside of each face and within 1.1e-8 of the plane of some face.", "quantifier": "all boxes with rotation within 8 * 2^-53 of an orthogonal matrix, all half extents, all draws in [-1, 1], all edges and faces, every order of the additions, with or without fused operations, every rounding to nearest", "why_tests_cant": "Tests draw some points on a few boxes; that rounding never makes on_surface reject a sampled point, nor accept one away from the surface, needs a bound for all draws and points.", "anchors": ["src/rigeo/shape/box.py:Box.on_surface", "src/rigeo/shape/box.py:Box.random_points_on_edges", "src/rigeo/shape/box.py:Box.random_points_on_surface"]}
{"id": "C130", "title": "Rounding in the inertial parameters of uniform densities", "statement": "uniform_density_params of boxes, ellipsoids and cylinders in binary64 arithmetic, with all half extents, the radius, half the length and the coordinates of the center at most S: the mass is exact, every coordinate of the center of mass is within 160 * 2^-53 S and every entry of H within 2100 * 2^-53 m S^2 of those of the uniform density of mass m on the shape.", "quantifier": "all masses in [1e-20, 1e20], all S in [1e-15, 1e15], all shapes of positive extents with rotation within 8 * 2^-53 of an orthogonal matrix, every order of the additions, with or without fused operations, every rounding to nearest, every squaring of single numbers with relative error of at most 2 * 2^-53", "why_tests_cant": "Tests compare a few shapes with sampled points and a loose tolerance; the distance of the computed parameters to the integrals over the shape for all poses needs a proof.", "anchors": ["src/rigeo/shape/box.py:Box.uniform_density_params", "src/rigeo/shape/ellipsoid.py:Ellipsoid.uniform_density_params", "src/rigeo/shape/cylinder.py:Cylinder.uniform_density_params"]}
{"id": "C131", "title": "Rounding in the inertial parameters of hollow boxes, wireframes and hollow spheres", "statement": "hollow_density_params and wireframe_density_params of boxes and hollow_density_params of spheres in binary64 arithmetic, with all edges of the box or the diameter and the coordinates of the center at most S: the mass is exact, every coordinate of the center of mass is within 160 * 2^-53 S and every entry of H within 2100 * 2^-53 m S^2 of those of the mass m spread evenly over the faces or the edges of the box, or over the sphere.", "quantifier": "all masses in [1e-20, 1e20], all S in [1e-15, 1e15], all boxes and spheres of half extents of at least 1e-15 with rotation within 8 * 2^-53 of an orthogonal matrix, every order of the additions inside matrix products, with or without fused operations there, every rounding to nearest, every squaring of single numbers with relative error of at most 2 * 2^-53", "why_tests_cant": "Tests compare a few boxes with a few values of the extents; quotients of sums of products of extents of very different sizes could lose all digits for some boxes, and only a proof covers all of them.", "anchors": ["src/rigeo/shape/box.py:Box.hollow_density_params", "src/rigeo/shape/box.py:Box.wireframe_density_params", "src/rigeo/shape/ellipsoid.py:Ellipsoid.hollow_density_params"]}
{"id": "C132", "title": "Rounding in the volumes", "statement": "volume of boxes, ellipsoids (in three dimensions) and cylinders in binary64 arithmetic is the volume of the set of points of the shape up to a relative error of 15, 16 and 9 times 2^-53.", "quantifier": "all half extents, radii and lengths in [1e-15, 1e15], all poses, every order of the factors of np.prod, every rounding to nearest, every squaring of single numbers with relative error of at most 2 * 2^-53, every constant within 2^-53 pi of pi", "why_tests_cant": "Tests compare a few volumes with isclose; a bound on the relative error for all sizes needs a proof.", "anchors": ["src/rigeo/shape/box.py:Box.volume", "src/rigeo/shape/box.py:Box.side_lengths", "src/rigeo/shape/ellipsoid.py:Ellipsoid.volume", "src/rigeo/shape/cylinder.py:Cylinder.volume"]}
{"id": "C133", "title": "Rounding in bounding ellipsoids and inscribed boxes", "statement": "In binary64 arithmetic, Box.mbe() enlarged by the factor 1 + 6 * 2^-53 contains the box, and Ellipsoid.mib() and Cylinder.mib() are inside the ellipsoid or cylinder enlarged by that factor. The volume of Box.mbe() is at most 1 + 16 * 2^-53 times that of any ellipsoid containing the box; no box inside the ellipsoid, and no box in the pose of the cylinder inside the cylinder, has more than 1 + 16 * 2^-53 times the volume of mib().", "quantifier": "all half extents, radii and lengths in [1e-15, 1e15], all poses, all competing ellipsoids and boxes, every rounding to nearest", "why_tests_cant": "Tests check vertices of a few shapes with a tolerance of 1e-8; containment of all points and optimality among all ellipsoids and boxes need a proof.", "anchors": ["src/rigeo/shape/box.py:Box.mbe", "src/rigeo/shape/ellipsoid.py:Ellipsoid.mib", "src/rigeo/shape/cylinder.py:Cylinder.mib"]}
