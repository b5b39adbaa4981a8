{
 "claims": [
  {
   "property": "C01",
   "status": "proved",
   "theorems": [
    "Rigeo.C01_unvech_vech",
    "Rigeo.C01_vech_unvech",
    "Rigeo.C01_unvech_ok",
    "Rigeo.C01_unvech_error"
   ],
   "note": ""
  },
  {
   "property": "C02",
   "status": "proved",
   "theorems": [
    "Rigeo.C02_isTriangularNumber",
    "Rigeo.C02_not_triangular"
   ],
   "note": "Exact real square root; the binary64 version is C94."
  },
  {
   "property": "C03",
   "status": "proved",
   "theorems": [
    "Rigeo.C03_skew3_mulVec",
    "Rigeo.C03_skew3_transpose",
    "Rigeo.C03_contactJacobian_wrench",
    "Rigeo.C03_contactJacobian_velocity"
   ],
   "note": ""
  },
  {
   "property": "C04",
   "status": "proved",
   "theorems": [
    "Rigeo.C04_lift3",
    "Rigeo.C04_lift6",
    "Rigeo.C04_regressor"
   ],
   "note": ""
  },
  {
   "property": "C05",
   "status": "proved",
   "theorems": [
    "Rigeo.C05_newton_euler",
    "Rigeo.C05_passive",
    "Rigeo.C05_newton_second_law"
   ],
   "note": ""
  },
  {
   "property": "C06",
   "status": "proved",
   "theorems": [
    "Rigeo.C06_defaults",
    "Rigeo.C06_transformMatrix_acts",
    "Rigeo.C06_transformMatrix_mul",
    "Rigeo.C06_transformMatrixInv",
    "Rigeo.C06_transformMatrixInv_dim3",
    "Rigeo.C06_transformMatrixInv_other_dim"
   ],
   "note": "The default-argument cases are C06_defaults."
  },
  {
   "property": "C07",
   "status": "proved",
   "theorems": [
    "Rigeo.C07_computeEvaluationTimes",
    "Rigeo.C07_error"
   ],
   "note": ""
  },
  {
   "property": "C08",
   "status": "proved",
   "theorems": [
    "Rigeo.C08_length",
    "Rigeo.C08_mem",
    "Rigeo.C08_nodup"
   ],
   "note": ""
  },
  {
   "property": "C09",
   "status": "proved",
   "theorems": [
    "Rigeo.C09_inverse",
    "Rigeo.C09_linear",
    "Rigeo.C09_moment_about_axis",
    "Rigeo.C09_triangle"
   ],
   "note": ""
  },
  {
   "property": "C10",
   "status": "proved",
   "theorems": [
    "Rigeo.C10_fromVec_vec",
    "Rigeo.C10_fromPim_J",
    "Rigeo.C10_init_com_I",
    "Rigeo.C10_zero_mass"
   ],
   "note": "C10_* rebuild theorems need mass != 0; the 0/0 case is the error value .nonfinite."
  },
  {
   "property": "C11",
   "status": "proved",
   "theorems": [
    "Rigeo.C11_ok_iff",
    "Rigeo.C11_errors",
    "Rigeo.C11_values",
    "Rigeo.C11_parallel_axis"
   ],
   "note": ""
  },
  {
   "property": "C12",
   "status": "proved",
   "theorems": [
    "Rigeo.C12_J_injective",
    "Rigeo.C12_pim_of_vec",
    "Rigeo.C12_vec_iff_J",
    "Rigeo.C12_fromPim_of_vec"
   ],
   "note": ""
  },
  {
   "property": "C13",
   "status": "proved",
   "theorems": [
    "Rigeo.C13_moments",
    "Rigeo.C13_errors",
    "Rigeo.C13_perm",
    "Rigeo.C13_append",
    "Rigeo.C13_consistent"
   ],
   "note": ""
  },
  {
   "property": "C14",
   "status": "proved",
   "theorems": [
    "Rigeo.C14_J",
    "Rigeo.C14_point_masses",
    "Rigeo.C14_compose",
    "Rigeo.C14_inverse",
    "Rigeo.C14_inertia_rotates"
   ],
   "note": ""
  },
  {
   "property": "C15",
   "status": "proved",
   "theorems": [
    "Rigeo.C15_add",
    "Rigeo.C15_comm",
    "Rigeo.C15_assoc",
    "Rigeo.C15_sum",
    "Rigeo.C15_zero",
    "Rigeo.C15_radd"
   ],
   "note": ""
  },
  {
   "property": "C16",
   "status": "proved",
   "theorems": [
    "Rigeo.C16_consistent_iff",
    "Rigeo.C16_realizable_iff",
    "Rigeo.C16_zero_mass_counterexample"
   ],
   "note": "The mass-zero exception is proved as a counterexample."
  },
  {
   "property": "C17",
   "status": "proved",
   "theorems": [
    "Rigeo.C17_energy",
    "Rigeo.C17_Hc",
    "Rigeo.C17_closure",
    "Rigeo.C17_consistent"
   ],
   "note": ""
  },
  {
   "property": "C18",
   "status": "proved",
   "theorems": [
    "Rigeo.C18_random",
    "Rigeo.C18_random_consistent"
   ],
   "note": "Quantifies over every value of the draws; no distributional claim."
  },
  {
   "property": "C19",
   "status": "proved",
   "theorems": [
    "Rigeo.C19_errors",
    "Rigeo.C19_mat",
    "Rigeo.C19_vec",
    "Rigeo.C19_vec_symmetric",
    "Rigeo.C19_builders",
    "Rigeo.C19_body"
   ],
   "note": ""
  },
  {
   "property": "C20",
   "status": "proved",
   "theorems": [
    "Rigeo.C20_basis",
    "Rigeo.C20_length",
    "Rigeo.C20_start",
    "Rigeo.C20_prefix",
    "Rigeo.C20_degree_zero"
   ],
   "note": "d >= 1 as stated; basis(n, 0) returning the int 0 is C20's documented exception."
  },
  {
   "property": "C21",
   "status": "proved",
   "theorems": [
    "Rigeo.C21_wf",
    "Rigeo.C21_add",
    "Rigeo.C21_add_coeff",
    "Rigeo.C21_localize",
    "Rigeo.C21_affine",
    "Rigeo.C21_degree",
    "Rigeo.C21_zeros",
    "Rigeo.C21_ones"
   ],
   "note": ""
  },
  {
   "property": "C22",
   "status": "proved",
   "theorems": [
    "Rigeo.C22_substitute",
    "Rigeo.C22_no_key_error",
    "Rigeo.C22_degree_too_high",
    "Rigeo.C22_key_error"
   ],
   "note": "Includes C22_key_error: a KeyError is raised exactly for monomials missing from the table."
  },
  {
   "property": "C23",
   "status": "proved",
   "theorems": [
    "Rigeo.C23_moment_matrix",
    "Rigeo.C23_localizing"
   ],
   "note": ""
  },
  {
   "property": "C24",
   "status": "proved",
   "theorems": [
    "Rigeo.C24_structure",
    "Rigeo.C24_localizing",
    "Rigeo.C24_localizing_all"
   ],
   "note": ""
  },
  {
   "property": "C25",
   "status": "proved",
   "theorems": [
    "Rigeo.C25_contains",
    "Rigeo.C25_contains_tol",
    "Rigeo.C25_vertices"
   ],
   "note": ""
  },
  {
   "property": "C26",
   "status": "proved",
   "theorems": [
    "Rigeo.C26_fromTwoVertices",
    "Rigeo.C26_fromPointsToBound",
    "Rigeo.C26_empty"
   ],
   "note": ""
  },
  {
   "property": "C27",
   "status": "proved",
   "theorems": [
    "Rigeo.C27_sound",
    "Rigeo.C27_contains",
    "Rigeo.C27_mono",
    "Rigeo.C27_unresolved"
   ],
   "note": "Literal statement holds for half extents that are 0 or > 1e-8 (Spec.Resolved). half extents/radii in (0, 1e-8] are treated as zero by numpy.isclose; C27_unresolved proves what contains computes there, so the literal claim fails only in that range."
  },
  {
   "property": "C28",
   "status": "proved",
   "theorems": [
    "Rigeo.C28_representations",
    "Rigeo.C28_degenerate",
    "Rigeo.C28_fromShapeMatrix",
    "Rigeo.C28_fromAffine",
    "Rigeo.C28_singular"
   ],
   "note": "The round trips need half extents in (1e-8, 1e8), because from_affine/from_shape_matrix compare eigenvalues 1/h^2 with 0 by numpy.isclose. Every valid eigendecomposition is covered."
  },
  {
   "property": "C29",
   "status": "proved",
   "theorems": [
    "Rigeo.C29_mustContain",
    "Rigeo.C29_unit_scale",
    "Rigeo.C29_zero_scale",
    "Rigeo.C29_negative_scale"
   ],
   "note": ""
  },
  {
   "property": "C30",
   "status": "proved",
   "theorems": [
    "Rigeo.C30_poly",
    "Rigeo.C30_box",
    "Rigeo.C30_cylinder",
    "Rigeo.C30_capsule",
    "Rigeo.C30_com",
    "Rigeo.C30_cylinder_contains",
    "Rigeo.C30_cylinder_gap"
   ],
   "note": "Cylinder.contains itself has a built-in 1e-8 slack (C31), so for cylinders and capsules the equivalence is stated with the exact point set; C30_cylinder_contains gives the comparison with contains, C30_cylinder_gap shows that the slack matters."
  },
  {
   "property": "C31",
   "status": "proved",
   "theorems": [
    "Rigeo.C31_tol_ignored",
    "Rigeo.C31_contains",
    "Rigeo.C31_complete",
    "Rigeo.C31_sound"
   ],
   "note": "Extents 0 or > 1e-8; two-sided bounds with the built-in slack."
  },
  {
   "property": "C32",
   "status": "proved",
   "theorems": [
    "Rigeo.C32_sound_default",
    "Rigeo.C32_union",
    "Rigeo.C32_hull",
    "Rigeo.C32_complete",
    "Rigeo.C32_sound"
   ],
   "note": "Capsule.contains(tol=0) still uses the cylinder's built-in 1e-8 slack, so it contains the exact capsule and is contained in the capsule enlarged by that slack; equality of the exact set with the hull of the end spheres is proved without slack."
  },
  {
   "property": "C33",
   "status": "partial",
   "theorems": [
    "Rigeo.C33_poly_partial",
    "Rigeo.C33_poly_compose",
    "Rigeo.C33_box",
    "Rigeo.C33_ellipsoid",
    "Rigeo.C33_cylinder",
    "Rigeo.C33_capsule_partial",
    "Rigeo.C33_compose",
    "Rigeo.C33_defaults",
    "Rigeo.C33_rotateAboutCenter",
    "Rigeo.C33_poly_tol",
    "Rigeo.C33_capsule_tol"
   ],
   "note": "Boxes, ellipsoids and cylinders: every tolerance. Polyhedra: tolerance 0 (C33_poly_partial); capsules: radius > 1e-8 or tolerance <= 0 (C33_capsule_partial). The rest of the statement is false: C33_poly_tol shows that for tol > 0 the result for outside points depends on cdd's row scaling, C33_capsule_tol shows that every capsule of radius <= 1e-8 fails for every tolerance >= the default 1e-8. Marked partial because the statement as written ('every tolerance') does not hold."
  },
  {
   "property": "C34",
   "status": "proved",
   "theorems": [
    "Rigeo.C34_poly",
    "Rigeo.C34_box",
    "Rigeo.C34_ellipsoid",
    "Rigeo.C34_cylinder",
    "Rigeo.C34_capsule"
   ],
   "note": ""
  },
  {
   "property": "C35",
   "status": "proved",
   "theorems": [
    "Rigeo.C35_box_mie",
    "Rigeo.C35_box_mbe",
    "Rigeo.C35_ellipsoid",
    "Rigeo.C35_cylinder",
    "Rigeo.C35_capsule"
   ],
   "note": "Box.mbe(sphere=True) included; minimality is the subject of C36-C39."
  },
  {
   "property": "C36",
   "status": "proved",
   "theorems": [
    "Rigeo.C36_box_mbe",
    "Rigeo.C36_cylinder_mbe"
   ],
   "note": ""
  },
  {
   "property": "C37",
   "status": "proved",
   "theorems": [
    "Rigeo.C37_box_mie",
    "Rigeo.C37_box_mie_sphere"
   ],
   "note": ""
  },
  {
   "property": "C38",
   "status": "proved",
   "theorems": [
    "Rigeo.C38_ellipsoid_boxes"
   ],
   "note": ""
  },
  {
   "property": "C39",
   "status": "proved",
   "theorems": [
    "Rigeo.C39_ellipsoid_mbe",
    "Rigeo.C39_box_mbe"
   ],
   "note": ""
  },
  {
   "property": "C40",
   "status": "proved",
   "theorems": [
    "Rigeo.C40_length",
    "Rigeo.C40_points",
    "Rigeo.C40_inside",
    "Rigeo.C40_corners",
    "Rigeo.C40_shape",
    "Rigeo.C40_poly",
    "Rigeo.C40_ellipsoid"
   ],
   "note": ""
  },
  {
   "property": "C41",
   "status": "proved",
   "theorems": [
    "Rigeo.C41_box",
    "Rigeo.C41_box_onto",
    "Rigeo.C41_ellipsoid_ball",
    "Rigeo.C41_cylinder_disk",
    "Rigeo.C41_poly",
    "Rigeo.C41_poly_contains",
    "Rigeo.C41_ellipsoid",
    "Rigeo.C41_cylinder"
   ],
   "note": ""
  },
  {
   "property": "C42",
   "status": "proved",
   "theorems": [
    "Rigeo.C42_edges",
    "Rigeo.C42_edges_ok",
    "Rigeo.C42_surface_centred",
    "Rigeo.C42_surface_ok",
    "Rigeo.C42_surface_translated_wrong",
    "Rigeo.C42_surface_rotated_wrong",
    "Rigeo.C42_ellipsoid_symmetric",
    "Rigeo.C42_ellipsoid_sphere",
    "Rigeo.C42_ellipsoid_inverse",
    "Rigeo.C42_ellipsoid_wrong",
    "Rigeo.C42_ellipsoid_surface",
    "Rigeo.C42_acceptance"
   ],
   "note": "The failing cases are proved with rational witnesses; C42_surface_ok lists exactly when the call raises."
  },
  {
   "property": "C43",
   "status": "proved",
   "theorems": [
    "Rigeo.C43_box",
    "Rigeo.C43_box_tol",
    "Rigeo.C43_ellipsoid",
    "Rigeo.C43_degenerate",
    "Rigeo.C43_box_frontier",
    "Rigeo.C43_ellipsoid_frontier"
   ],
   "note": "Half extents 0 or > 1e-8 for ellipsoids."
  },
  {
   "property": "C44",
   "status": "proved",
   "theorems": [
    "Rigeo.C44_poly_tol",
    "Rigeo.C44_poly",
    "Rigeo.C44_box",
    "Rigeo.C44_ellipsoid_tol",
    "Rigeo.C44_ellipsoid",
    "Rigeo.C44_cylinder",
    "Rigeo.C44_capsule"
   ],
   "note": "For cylinders and capsules contains has a built-in 1e-8 slack, so next to the exact equivalence with contains on every hull point the set-theoretic statement is two-sided."
  },
  {
   "property": "C45",
   "status": "proved",
   "theorems": [
    "Rigeo.C45_poly",
    "Rigeo.C45_poly_tol",
    "Rigeo.C45_box",
    "Rigeo.C45_box_poly",
    "Rigeo.C45_capsule",
    "Rigeo.C45_cylinder_tol",
    "Rigeo.C45_cylinder_refl",
    "Rigeo.C45_cylinder_flip",
    "Rigeo.C45_ellipsoid",
    "Rigeo.C45_ellipsoid_same",
    "Rigeo.C45_degenerate",
    "Rigeo.C45_degenerate_aligned",
    "Rigeo.C45_degenerate_points",
    "Rigeo.C45_degenerate_disks",
    "Rigeo.C45_cylinder_iff",
    "Rigeo.C45_degenerate_self"
   ],
   "note": "numpy.allclose keeps rtol=1e-5 even when tol=0, so for ellipsoids 'same set' is equivalent to Q = Q' (exact) and is_same to closeness of Q and Q' (C45_ellipsoid)."
  },
  {
   "property": "C46",
   "status": "proved",
   "theorems": [
    "Rigeo.C46_spheres",
    "Rigeo.C46_wrong",
    "Rigeo.C46_intended_sound",
    "Rigeo.C46_intended_exact",
    "Rigeo.C46_decides",
    "Rigeo.C46_centred"
   ],
   "note": "The posed problem is characterised exactly for centred spheres (C46_spheres) and refuted in both directions (C46_wrong). For all non-degenerate pairs C46_decides says exactly which containment the posed problem decides when the posed quadratic inequality has an interior point; for ellipsoids around the origin it is that of the ellipsoid with the square roots of the half extents (C46_centred). The corrected S-procedure condition is proved sound and complete (C46_intended_sound, C46_intended_exact)."
  },
  {
   "property": "C47",
   "status": "proved",
   "theorems": [
    "Rigeo.C47_intended",
    "Rigeo.C47_spheres_guarantee",
    "Rigeo.C47_unit_spheres",
    "Rigeo.C47_sphere",
    "Rigeo.C47_capsule",
    "Rigeo.C47_intended_exact",
    "Rigeo.C47_feasible_iff",
    "Rigeo.C47_centred"
   ],
   "note": "mbe_of_ellipsoids as written is refuted (C47_sphere); what it does guarantee for spheres is C47_spheres_guarantee. C47_feasible_iff says exactly which containments the posed constraints stand for, C47_centred that for ellipsoids around the origin these are the ellipsoids with the square roots of the half extents. The corrected constraint is sound (C47_intended) and complete (C47_intended_exact)."
  },
  {
   "property": "C48",
   "status": "proved",
   "theorems": [
    "Rigeo.C48_contains",
    "Rigeo.C48_sphere_displaced",
    "Rigeo.C48_sphere_wrong",
    "Rigeo.C48_empty",
    "Rigeo.C48_minimal",
    "Rigeo.C48_poly"
   ],
   "note": "sphere=False for the containment claim; with sphere=True the code overwrites the offset r with the cvxpy variable (C48_sphere_displaced, C48_sphere_wrong). The conic solver is an oracle returning a feasible point."
  },
  {
   "property": "C49",
   "status": "proved",
   "theorems": [
    "Rigeo.C49_inside",
    "Rigeo.C49_ok",
    "Rigeo.C49_maximal",
    "Rigeo.C49_poly"
   ],
   "note": "Solver is an oracle; the code needs eigenvalues of B^-1 above 1e-8, hence the hypothesis |B v| < 1e8 |v|."
  },
  {
   "property": "C50",
   "status": "proved",
   "theorems": [
    "Rigeo.C50_exact_eps",
    "Rigeo.C50_exact",
    "Rigeo.C50_degenerate",
    "Rigeo.C50_degenerate_eps",
    "Rigeo.C50_unresolved",
    "Rigeo.C50_degenerate_gap"
   ],
   "note": "Half extents 0 or > 1e-8; C50_unresolved shows the AssertionError below that. For degenerate ellipsoids the code's isclose accepts a slack of 1e-8 (C50_degenerate_gap); with the trace equality taken exactly the test is exact."
  },
  {
   "property": "C51",
   "status": "proved",
   "theorems": [
    "Rigeo.C51_mat",
    "Rigeo.C51_vec",
    "Rigeo.C51_agrees",
    "Rigeo.C51_degenerate_eps",
    "Rigeo.C51_unresolved"
   ],
   "note": "Half extents 0 or > 1e-8 (C51_unresolved). Agreement with can_realize for non-degenerate ellipsoids; for degenerate ones they differ by can_realize's 1e-8 slack."
  },
  {
   "property": "C52",
   "status": "proved",
   "theorems": [
    "Rigeo.C52_relaxation",
    "Rigeo.C52_com",
    "Rigeo.C52_necessary",
    "Rigeo.C52_trivial_row"
   ],
   "note": "Every face row must be non-trivial: a row 0.x <= 0 makes the code raise ValueError (C52_trivial_row)."
  },
  {
   "property": "C53",
   "status": "proved",
   "theorems": [
    "Rigeo.C53_necessary",
    "Rigeo.C53_com",
    "Rigeo.C53_default"
   ],
   "note": "With eps > 0 necessity needs J - eps I PSD of the distribution, as the constraint itself asks for it."
  },
  {
   "property": "C54",
   "status": "proved",
   "theorems": [
    "Rigeo.C54_necessary",
    "Rigeo.C54_com",
    "Rigeo.C54_mbe",
    "Rigeo.C54_default"
   ],
   "note": "With eps > 0 necessity needs J - eps I PSD."
  },
  {
   "property": "C55",
   "status": "proved",
   "theorems": [
    "Rigeo.C55_sdp_com",
    "Rigeo.C55_vertex_necessary",
    "Rigeo.C55_vertex_com",
    "Rigeo.C55_vertex_eps",
    "Rigeo.C55_sdp_necessary"
   ],
   "note": "The custom vertex constraints are also sufficient (C88). Radius 0 or > 1e-8 for the custom vertex constraints."
  },
  {
   "property": "C56",
   "status": "proved",
   "theorems": [
    "Rigeo.C56_necessary",
    "Rigeo.C56_ellipsoids",
    "Rigeo.C56_no_shapes",
    "Rigeo.C56_capsule",
    "Rigeo.C56_default"
   ],
   "note": "Shapes must have moment_sdp_constraints (a Capsule has none and raises AttributeError, C79_capsule)."
  },
  {
   "property": "C57",
   "status": "proved",
   "theorems": [
    "Rigeo.C57_box",
    "Rigeo.C57_cylinder",
    "Rigeo.C57_ellipsoid",
    "Rigeo.C57_box_flat",
    "Rigeo.C57_cylinder_flat",
    "Rigeo.C57_disk_wrong"
   ],
   "note": "Proved with Lebesgue integrals. A degenerate ellipsoid (disk) gets r^2/5 instead of r^2/4 (C57_disk_wrong), so the claim is for shapes of positive volume and for the degenerate boxes and cylinders treated separately."
  },
  {
   "property": "C58",
   "status": "proved",
   "theorems": [
    "Rigeo.C58_hollow",
    "Rigeo.C58_wireframe",
    "Rigeo.C58_nonfinite",
    "Rigeo.C58_area",
    "Rigeo.C58_sphere_shell",
    "Rigeo.C58_disk_shell_wrong"
   ],
   "note": "Surface and edge integrals are iterated interval integrals over faces and edges. Ellipsoid.hollow_density_params is additionally analysed: right for spheres, not for other ellipsoids."
  },
  {
   "property": "C59",
   "status": "proved",
   "theorems": [
    "Rigeo.C59_box",
    "Rigeo.C59_cylinder",
    "Rigeo.C59_ellipsoid_uniform",
    "Rigeo.C59_ellipsoid_hollow",
    "Rigeo.C59_vertices",
    "Rigeo.C59_consistent",
    "Rigeo.C59_can_realize",
    "Rigeo.C59_constraints"
   ],
   "note": ""
  },
  {
   "property": "C60",
   "status": "proved",
   "theorems": [
    "Rigeo.C60_point_masses",
    "Rigeo.C60_measure",
    "Rigeo.C60_iff",
    "Rigeo.C60_shapes"
   ],
   "note": "Compact sets, as stated."
  },
  {
   "property": "C61",
   "status": "proved",
   "theorems": [
    "Rigeo.C61_span_init",
    "Rigeo.C61_face_init",
    "Rigeo.C61_span_from_cdd",
    "Rigeo.C61_span_from_cdd_assert",
    "Rigeo.C61_face_from_cdd",
    "Rigeo.C61_face_roundtrip",
    "Rigeo.C61_span_roundtrip",
    "Rigeo.C61_span_none",
    "Rigeo.C61_to_face_form",
    "Rigeo.C61_to_span_form",
    "Rigeo.C61_canonical"
   ],
   "note": "cdd is an oracle with contract Spec.IsCdd where it is called."
  },
  {
   "property": "C62",
   "status": "proved",
   "theorems": [
    "Rigeo.C62_stack",
    "Rigeo.C62_intersect",
    "Rigeo.C62_boxes"
   ],
   "note": "cdd is an oracle with contract Spec.IsCdd."
  },
  {
   "property": "C63",
   "status": "proved",
   "theorems": [
    "Rigeo.C63_face",
    "Rigeo.C63_face_defaults",
    "Rigeo.C63_span",
    "Rigeo.C63_span_rotation",
    "Rigeo.C63_span_rays_wrong"
   ],
   "note": "Includes the counterexample for rays."
  },
  {
   "property": "C64",
   "status": "proved",
   "theorems": [
    "Rigeo.C64_from_vertices",
    "Rigeo.C64_from_vertices_prune",
    "Rigeo.C64_convex_hull",
    "Rigeo.C64_face_form",
    "Rigeo.C64_rejects",
    "Rigeo.C64_rejects_rays",
    "Rigeo.C64_from_halfspaces",
    "Rigeo.C64_from_halfspaces_prune",
    "Rigeo.C64_simplex",
    "Rigeo.C64_as_poly"
   ],
   "note": "cdd is an oracle with contract Spec.IsCdd."
  },
  {
   "property": "C65",
   "status": "proved",
   "theorems": [
    "Rigeo.C65_returns",
    "Rigeo.C65_fails",
    "Rigeo.C65_all_accepted",
    "Rigeo.C65_no_shapes",
    "Rigeo.C65_capsule"
   ],
   "note": "The random batches are an arbitrary sequence; the loop is fuel-free recursion over max_tries."
  },
  {
   "property": "C66",
   "status": "proved",
   "theorems": [
    "Rigeo.C66_sound",
    "Rigeo.C66_shape",
    "Rigeo.C66_exact",
    "Rigeo.C66_refl",
    "Rigeo.C66_complete",
    "Rigeo.C66_incomplete",
    "Rigeo.C66_not_symmetric"
   ],
   "note": ""
  },
  {
   "property": "C67",
   "status": "proved",
   "theorems": [
    "Rigeo.C67_closest",
    "Rigeo.C67_intersect",
    "Rigeo.C67_symm"
   ],
   "note": "The solver is an oracle with contract 'returns an optimum'."
  },
  {
   "property": "C68",
   "status": "proved",
   "theorems": [
    "Rigeo.C68_weights",
    "Rigeo.C68_weights_fail",
    "Rigeo.C68_psd",
    "Rigeo.C68_hypersphere",
    "Rigeo.C68_hypersphere_ok",
    "Rigeo.C68_hypersphere_dim0",
    "Rigeo.C68_ball",
    "Rigeo.C68_ball_radius",
    "Rigeo.C68_ball_dim1",
    "Rigeo.C68_ball_ok"
   ],
   "note": "Quantifies over all draws with nonzero normaliser."
  },
  {
   "property": "C69",
   "status": "proved",
   "theorems": [
    "Rigeo.C69_add",
    "Rigeo.C69_add_realizable",
    "Rigeo.C69_massless",
    "Rigeo.C69_assoc",
    "Rigeo.C69_sum",
    "Rigeo.C69_shape_transform",
    "Rigeo.C69_transform",
    "Rigeo.C69_transform_default",
    "Rigeo.C69_mbes",
    "Rigeo.C69_mbes_ellipsoid",
    "Rigeo.C69_mbes_sphere",
    "Rigeo.C69_mbes_capsule"
   ],
   "note": "mbes: boxes, cylinders and polyhedra become larger; ellipsoids raise TypeError (C69_mbes_ellipsoid); capsules go through mbe_of_ellipsoids, whose defect is C47, so 'larger' holds for radius 1 (C47_capsule) and fails for every radius above 1 (C69_mbes_capsule: the capsule becomes a smaller ball)."
  },
  {
   "property": "C70",
   "status": "proved",
   "theorems": [
    "Rigeo.C70_representation",
    "Rigeo.C70_componentwise",
    "Rigeo.C70_adjoint"
   ],
   "note": ""
  },
  {
   "property": "C71",
   "status": "proved",
   "theorems": [
    "Rigeo.C71_value",
    "Rigeo.C71_zero_iff",
    "Rigeo.C71_weight_ignored"
   ],
   "note": ""
  },
  {
   "property": "C72",
   "status": "proved",
   "theorems": [
    "Rigeo.C72_ellipsoid",
    "Rigeo.C72_vertex",
    "Rigeo.C72_box",
    "Rigeo.C72_sdp_ignores_eps",
    "Rigeo.C72_sdp_witness",
    "Rigeo.C72_vec",
    "Rigeo.C72_vec_ignored"
   ],
   "note": "The positive part and the failing part (C72 for poly/cylinder) are both proved."
  },
  {
   "property": "C73",
   "status": "proved",
   "theorems": [
    "Rigeo.C73_box",
    "Rigeo.C73_cylinder",
    "Rigeo.C73_ellipsoid",
    "Rigeo.C73_ellipse_wrong"
   ],
   "note": ""
  },
  {
   "property": "C74",
   "status": "proved",
   "theorems": [
    "Rigeo.C74_cube",
    "Rigeo.C74_side_lengths",
    "Rigeo.C74_diaglen"
   ],
   "note": ""
  },
  {
   "property": "C75",
   "status": "proved",
   "theorems": [
    "Rigeo.C75_iff",
    "Rigeo.C75_refl",
    "Rigeo.C75_not_symmetric",
    "Rigeo.C75_light"
   ],
   "note": ""
  },
  {
   "property": "C76",
   "status": "proved",
   "theorems": [
    "Rigeo.C76_value",
    "Rigeo.C76_defined",
    "Rigeo.C76_singular",
    "Rigeo.C76_symm",
    "Rigeo.C76_zero_iff",
    "Rigeo.C76_congr",
    "Rigeo.C76_scale",
    "Rigeo.C76_frame"
   ],
   "note": "Generalised eigenvalues by scipy.linalg.eigh(B, A) are defined through congruence diagonalisation."
  },
  {
   "property": "C77",
   "status": "proved",
   "theorems": [
    "Rigeo.C77_divergence",
    "Rigeo.C77_minimum",
    "Rigeo.C77_convex",
    "Rigeo.C77_frame",
    "Rigeo.C77_errors"
   ],
   "note": ""
  },
  {
   "property": "C78",
   "status": "proved",
   "theorems": [
    "Rigeo.C78_value",
    "Rigeo.C78_empty",
    "Rigeo.C78_zero_iff",
    "Rigeo.C78_wrench"
   ],
   "note": ""
  },
  {
   "property": "C79",
   "status": "proved",
   "theorems": [
    "Rigeo.C79_init",
    "Rigeo.C79_result",
    "Rigeo.C79_ellipsoids",
    "Rigeo.C79_optimal",
    "Rigeo.C79_recovers",
    "Rigeo.C79_errors",
    "Rigeo.C79_capsule",
    "Rigeo.C79_massless"
   ],
   "note": "cvxpy's solver is an oracle (Spec.IsSolver, Spec.FindsOptimum)."
  },
  {
   "property": "C80",
   "status": "proved",
   "theorems": [
    "Rigeo.C80_result",
    "Rigeo.C80_recovers",
    "Rigeo.C80_ignored",
    "Rigeo.C80_errors"
   ],
   "note": "cvxpy's solver is an oracle (Spec.IsSolver, Spec.FindsOptimum)."
  },
  {
   "property": "C81",
   "status": "proved",
   "theorems": [
    "Rigeo.C81_cone",
    "Rigeo.C81_cone_missed",
    "Rigeo.C81_bounded",
    "Rigeo.C81_rows",
    "Rigeo.C81_face_rows"
   ],
   "note": ""
  },
  {
   "property": "C82",
   "status": "proved",
   "theorems": [
    "Rigeo.C82_shape",
    "Rigeo.C82_shape_errors",
    "Rigeo.C82_bodies",
    "Rigeo.C82_init",
    "Rigeo.C82_get_bodies",
    "Rigeo.C82_resolve_frame",
    "Rigeo.C82_unknown_joint"
   ],
   "note": "pinocchio's data (inertias, geometries, names) are inputs of the model."
  },
  {
   "property": "C83",
   "status": "proved",
   "theorems": [
    "Rigeo.C83_product",
    "Rigeo.C83_torques",
    "Rigeo.C83_index_error",
    "Rigeo.C83_too_few"
   ],
   "note": "pinocchio's computeJointTorqueRegressor is an arbitrary matrix; its meaning enters as hypothesis in C83_torques."
  },
  {
   "property": "C84",
   "status": "proved",
   "theorems": [
    "Rigeo.C84_objective",
    "Rigeo.C84_not_tighter",
    "Rigeo.C84_not_sufficient",
    "Rigeo.C84_order_one",
    "Rigeo.C84_implies_order_one"
   ],
   "note": "Added property: compares two constraint sets of the library."
  },
  {
   "property": "C85",
   "status": "proved",
   "theorems": [
    "Rigeo.C85_objective",
    "Rigeo.C85_box",
    "Rigeo.C85_not_exact",
    "Rigeo.C85_box_measure"
   ],
   "note": "Added property. Necessity at every order is C52_necessary; this is the other direction, refuted."
  },
  {
   "property": "C86",
   "status": "proved",
   "theorems": [
    "Rigeo.C86_objective",
    "Rigeo.C86_measure"
   ],
   "note": "Added property. Necessity at every order is C55_sdp_necessary; this is the other direction, refuted."
  },
  {
   "property": "C87",
   "status": "proved",
   "theorems": [
    "Rigeo.C87_poly",
    "Rigeo.C87_poly_close",
    "Rigeo.C87_poly_objective",
    "Rigeo.C87_box",
    "Rigeo.C87_cylinder",
    "Rigeo.C87_cylinder_close",
    "Rigeo.C87_cylinder_objective",
    "Rigeo.C87_body",
    "Rigeo.C87_body_close",
    "Rigeo.C87_body_objective"
   ],
   "note": "Added property. Putinar's Positivstellensatz is proved in Lemmas/Putinar.lean. Unbounded polyhedra are excluded; the order needed for a tolerance is not computed."
  },
  {
   "property": "C88",
   "status": "proved",
   "theorems": [
    "Rigeo.C88_exact",
    "Rigeo.C88_exact_vec",
    "Rigeo.C88_tighter",
    "Rigeo.C88_strictly_tighter",
    "Rigeo.C88_measure",
    "Rigeo.C88_inequalities"
   ],
   "note": "Added property. The box analogue is false (C84). With eps > 0 the constraints are never satisfiable (C55_vertex_eps)."
  },
  {
   "property": "C89",
   "status": "proved",
   "theorems": [
    "Rigeo.C89_ellipsoid",
    "Rigeo.C89_box",
    "Rigeo.C89_on_surface"
   ],
   "note": "Added property. The shell between the two ellipsoids is not of constant thickness, so for ellipsoids other than spheres this is not the area measure; for spheres see C58_sphere_shell."
  },
  {
   "property": "C90",
   "status": "proved",
   "theorems": [
    "Rigeo.C90_hypersphere",
    "Rigeo.C90_ball",
    "Rigeo.C90_box",
    "Rigeo.C90_ellipsoid",
    "Rigeo.C90_cylinder",
    "Rigeo.C90_weights"
   ],
   "note": "Added property. The generator is modelled by independent exact real draws; the surface sampler of the ellipsoid is C92, those of the box are C93."
  },
  {
   "property": "C91",
   "status": "proved",
   "theorems": [
    "Rigeo.C91_law",
    "Rigeo.C91_success",
    "Rigeo.C91_capsule_points",
    "Rigeo.C91_capsule",
    "Rigeo.C91_capsule_success",
    "Rigeo.C91_capsule_bound"
   ],
   "note": "Added property. The candidates of all rounds are independent; numpy's generator is not modelled."
  },
  {
   "property": "C92",
   "status": "proved",
   "theorems": [
    "Rigeo.C92_area",
    "Rigeo.C92_ellipsoid"
   ],
   "note": "Added property. The transposed rotation is defect 6; for a symmetric rotation matrix (such as the identity) the surface is the requested one."
  },
  {
   "property": "C93",
   "status": "proved",
   "theorems": [
    "Rigeo.C93_edges",
    "Rigeo.C93_surface_posed",
    "Rigeo.C93_surface"
   ],
   "note": "Added property. The law of the surface sampler for a posed box (C93_surface_posed) is not the uniform one: defect of applying the pose twice."
  },
  {
   "property": "C94",
   "status": "proved",
   "theorems": [
    "Rigeo.C94_triangular",
    "Rigeo.C94_unvech",
    "Rigeo.C94_triangular_wrong",
    "Rigeo.C94_times",
    "Rigeo.C94_times_wrong",
    "Rigeo.C94_bound",
    "Rigeo.C94_bound_wrong"
   ],
   "note": "Added property. Rounding is to a nearest binary64 number with ties left open; infinities and signed zeros are not modelled. Bounding boxes are modelled one axis at a time."
  },
  {
   "property": "C95",
   "status": "proved",
   "theorems": [
    "Rigeo.C95_wireframe",
    "Rigeo.C95_box_shell",
    "Rigeo.C95_box_shell_single",
    "Rigeo.C95_ellipsoid",
    "Rigeo.C95_sphere",
    "Rigeo.C95_ellipsoid_shell"
   ],
   "note": "Added property. For the ellipsoid the number of rounds of the rejection loop tends to infinity first, then the number of samples."
  },
  {
   "property": "C96",
   "status": "proved",
   "theorems": [
    "Rigeo.C96_box_shell",
    "Rigeo.C96_cube_shell",
    "Rigeo.C96_ellipsoid_shell",
    "Rigeo.C96_sphere_shell",
    "Rigeo.C96_vertices",
    "Rigeo.C96_cube_vertices",
    "Rigeo.C96_wireframe",
    "Rigeo.C96_cube_wireframe",
    "Rigeo.C96_cuboid",
    "Rigeo.C96_cylinder",
    "Rigeo.C96_cuboid_necessary"
   ],
   "note": "Added property. sympy's symbols are modelled as arbitrary numbers."
  },
  {
   "property": "C97",
   "status": "proved",
   "theorems": [
    "Rigeo.C97_report",
    "Rigeo.C97_cylinder",
    "Rigeo.C97_cylinder_report",
    "Rigeo.C97_cylinder_runs",
    "Rigeo.C97_box",
    "Rigeo.C97_box_runs",
    "Rigeo.C97_box_report"
   ],
   "note": "Added property. The solver is an oracle that returns the supremum up to a tolerance."
  },
  {
   "property": "C98",
   "status": "proved",
   "theorems": [
    "Rigeo.C98_weights",
    "Rigeo.C98_poly",
    "Rigeo.C98_poly_one",
    "Rigeo.C98_poly_line",
    "Rigeo.C98_box",
    "Rigeo.C98_box_one",
    "Rigeo.C98_back",
    "Rigeo.C98_back_one",
    "Rigeo.C98_hypersphere",
    "Rigeo.C98_hypersphere_one",
    "Rigeo.C98_ball",
    "Rigeo.C98_ball_one",
    "Rigeo.C98_ball_line",
    "Rigeo.C98_ellipsoid",
    "Rigeo.C98_ellipsoid_one",
    "Rigeo.C98_cylinder",
    "Rigeo.C98_cylinder_one",
    "Rigeo.C98_box_inside",
    "Rigeo.C98_ellipsoid_inside",
    "Rigeo.C98_cylinder_inside",
    "Rigeo.C98_poly_inside",
    "Rigeo.C98_one_tuple"
   ],
   "note": "Added property. Shapes given as Python lists and negative sizes are not modelled; the draws are parameters."
  },
  {
   "property": "C99",
   "status": "proved",
   "theorems": [
    "Rigeo.C99_poly",
    "Rigeo.C99_poly_three_axes",
    "Rigeo.C99_ellipsoid",
    "Rigeo.C99_ellipsoid_surface",
    "Rigeo.C99_box_surface",
    "Rigeo.C99_cylinder",
    "Rigeo.C99_capsule",
    "Rigeo.C99_axes",
    "Rigeo.C99_axes_cylinder",
    "Rigeo.C99_axes_capsule",
    "Rigeo.C99_ellipsoid_broadcast",
    "Rigeo.C99_ellipsoid_scalar",
    "Rigeo.C99_broadcast"
   ],
   "note": "Added property. Covers the misuse cases (three axes, one column, bare number) as well as the documented shapes."
  },
  {
   "property": "C100",
   "status": "proved",
   "theorems": [
    "Rigeo.C100_index_add",
    "Rigeo.C100_index_static",
    "Rigeo.C100_basis",
    "Rigeo.C100_degree",
    "Rigeo.C100_evaluate",
    "Rigeo.C100_substitute",
    "Rigeo.C100_init",
    "Rigeo.C100_affine",
    "Rigeo.C100_add",
    "Rigeo.C100_localize",
    "Rigeo.C100_localize_mixed",
    "Rigeo.C100_evaluate_mixed",
    "Rigeo.C100_evaluate_broadcast",
    "Rigeo.C100_string_roundtrip",
    "Rigeo.C100_string_ambiguous",
    "Rigeo.C100_cylinder_keys"
   ],
   "note": "Added property. Relates the tuple-of-any-length classes to the fixed-arity model and shows what happens for mixed lengths."
  },
  {
   "property": "C101",
   "status": "proved",
   "theorems": [
    "Rigeo.C101_first",
    "Rigeo.C101_second",
    "Rigeo.C101_first_greatest",
    "Rigeo.C101_second_greatest",
    "Rigeo.C101_infeasible",
    "Rigeo.C101_order_one",
    "Rigeo.C101_box_weighted",
    "Rigeo.C101_box_inertia"
   ],
   "note": "Added property. The bounds hold at every order; the exact maxima use the mass bound of the tests."
  },
  {
   "property": "C102",
   "status": "proved",
   "theorems": [
    "Rigeo.C102_passes",
    "Rigeo.C102_detects",
    "Rigeo.C102_same",
    "Rigeo.C102_two_points",
    "Rigeo.C102_cylinder",
    "Rigeo.C102_ellipsoid",
    "Rigeo.C102_ball"
   ],
   "note": "Added property. Draws are independent random variables with the laws of C90; the fixed seed of the tests is not modelled."
  },
  {
   "property": "C103",
   "status": "proved",
   "theorems": [
    "Rigeo.C103_ellipsoid",
    "Rigeo.C103_poly",
    "Rigeo.C103_box",
    "Rigeo.C103_cylinder",
    "Rigeo.C103_capsule",
    "Rigeo.C103_capsule_unique",
    "Rigeo.C103_ellipsoid_moments",
    "Rigeo.C103_cylinder_moments"
   ],
   "note": "Added property. The solver is not modelled: the optimum is the greatest element of the set of attainable values."
  },
  {
   "property": "C104",
   "status": "proved",
   "theorems": [
    "Rigeo.C104_points_to_bound",
    "Rigeo.C104_no_vertex",
    "Rigeo.C104_mixed_span",
    "Rigeo.C104_open_box",
    "Rigeo.C104_inscribed",
    "Rigeo.C104_inscribed_poly",
    "Rigeo.C104_inscribed_redundant",
    "Rigeo.C104_mib_vertices",
    "Rigeo.C104_hollow_ratio",
    "Rigeo.C104_hollow_linear"
   ],
   "note": "Added property. The span forms rest on the contract of the double description library (Spec.IsCdd)."
  },
  {
   "property": "C105",
   "status": "proved",
   "theorems": [
    "Rigeo.C105_dot",
    "Rigeo.C105_sum",
    "Rigeo.C105_poly_accepts",
    "Rigeo.C105_poly_sound",
    "Rigeo.C105_box_accepts",
    "Rigeo.C105_box_sound",
    "Rigeo.C105_box",
    "Rigeo.C105_ellipsoid_accepts",
    "Rigeo.C105_ellipsoid_sound",
    "Rigeo.C105_ellipsoid",
    "Rigeo.C105_poly_rejects",
    "Rigeo.C105_total"
   ],
   "note": "Added property. Overflow is outside the stated sizes; the hypothesis on the hardware is Spec.IsRounding, rounding to a nearest binary64 number."
  },
  {
   "property": "C106",
   "status": "proved",
   "theorems": [
    "Rigeo.C106_span_form",
    "Rigeo.C106_face_form",
    "Rigeo.C106_face_set",
    "Rigeo.C106_to_cdd",
    "Rigeo.C106_spans",
    "Rigeo.C106_faces"
   ],
   "note": "Added property. The order of the half-spaces of linear rows follows the iteration order of lin_set, hence equality of sets of half-spaces for face forms."
  },
  {
   "property": "C107",
   "status": "proved",
   "theorems": [
    "Rigeo.C107_poly",
    "Rigeo.C107_box",
    "Rigeo.C107_cylinder",
    "Rigeo.C107_box_not_exact",
    "Rigeo.C107_box_vertices",
    "Rigeo.C107_capsule",
    "Rigeo.C107_random"
   ],
   "note": "Added property. The optimal value is the infimum of the constant objective over the feasible set; solver tolerances are not modelled."
  },
  {
   "property": "C108",
   "status": "proved",
   "theorems": [
    "Rigeo.C108_add",
    "Rigeo.C108_localize",
    "Rigeo.C108_polynomial",
    "Rigeo.C108_localizing",
    "Rigeo.C108_body_add",
    "Rigeo.C108_body_transform",
    "Rigeo.C108_body_shared",
    "Rigeo.C108_body_sum",
    "Rigeo.C108_multibody",
    "Rigeo.C108_gravity",
    "Rigeo.C108_gravity_failed",
    "Rigeo.C108_gravity_none",
    "Rigeo.C108_box",
    "Rigeo.C108_params",
    "Rigeo.C108_params_shared"
   ],
   "note": "Added property. One kind of object per memory (dictionaries, lists of shapes, arrays, models); the contents are those of the models without memory, and the results agree with them."
  },
  {
   "property": "C109",
   "status": "proved",
   "theorems": [
    "Rigeo.C109_cylinder",
    "Rigeo.C109_capsule",
    "Rigeo.C109_total"
   ],
   "note": "Added property. The sizes are part of the statement; zero length or radius is covered for acceptance."
  },
  {
   "property": "C110",
   "status": "proved",
   "theorems": [
    "Rigeo.C110_kinematics",
    "Rigeo.C110_failed",
    "Rigeo.C110_frame",
    "Rigeo.C110_torques",
    "Rigeo.C110_query",
    "Rigeo.C110_unresolved",
    "Rigeo.C110_pose",
    "Rigeo.C110_initial"
   ],
   "note": "Added property. pinocchio is not modelled: the contract is an assumption on its algorithms, met by the library simplePin of the examples."
  },
  {
   "property": "C111",
   "status": "proved",
   "theorems": [
    "Rigeo.C111_zero_indices",
    "Rigeo.C111_zero_constraints",
    "Rigeo.C111_zero_localize",
    "Rigeo.C111_zero_matrix",
    "Rigeo.C111_indices",
    "Rigeo.C111_constraints",
    "Rigeo.C111_localize",
    "Rigeo.C111_matrix",
    "Rigeo.C111_matrix_large",
    "Rigeo.C111_zero_face"
   ],
   "note": "Added property."
  },
  {
   "property": "C112",
   "status": "proved",
   "theorems": [
    "Rigeo.C112_ellipsoid",
    "Rigeo.C112_ellipsoid_error",
    "Rigeo.C112_ellipsoid_vector",
    "Rigeo.C112_ellipsoid_matrix",
    "Rigeo.C112_box",
    "Rigeo.C112_box_vector",
    "Rigeo.C112_clean_transform",
    "Rigeo.C112_cylinder",
    "Rigeo.C112_sphere_vector",
    "Rigeo.C112_sphere",
    "Rigeo.C112_spatial",
    "Rigeo.C112_spatial_vector",
    "Rigeo.C112_params_stores",
    "Rigeo.C112_params_inertia",
    "Rigeo.C112_params_J",
    "Rigeo.C112_params_vector",
    "Rigeo.C112_params_row"
   ],
   "note": "Added property."
  },
  {
   "property": "C113",
   "status": "proved",
   "theorems": [
    "Rigeo.C113_block",
    "Rigeo.C113_schur",
    "Rigeo.C113_schur_vector",
    "Rigeo.C113_schur_psd"
   ],
   "note": "Added property."
  },
  {
   "property": "C114",
   "status": "proved",
   "theorems": [
    "Rigeo.C114_second_moments",
    "Rigeo.C114_center_of_mass",
    "Rigeo.C114_consistent",
    "Rigeo.C114_result",
    "Rigeo.C114_thin_plate",
    "Rigeo.C114_add"
   ],
   "note": "Added property."
  },
  {
   "property": "C115",
   "status": "proved",
   "theorems": [
    "Rigeo.C115_weights",
    "Rigeo.C115_sphere",
    "Rigeo.C115_ball",
    "Rigeo.C115_sphere_outside",
    "Rigeo.C115_ball_outside",
    "Rigeo.C115_result"
   ],
   "note": "Added property."
  },
  {
   "property": "C116",
   "status": "proved",
   "theorems": [
    "Rigeo.C116_trace",
    "Rigeo.C116_sound",
    "Rigeo.C116_accepts",
    "Rigeo.C116_rejects",
    "Rigeo.C116_boundary",
    "Rigeo.C116_result"
   ],
   "note": "Added property."
  },
  {
   "property": "C117",
   "status": "proved",
   "theorems": [
    "Rigeo.C117_run",
    "Rigeo.C117_fails",
    "Rigeo.C117_realizable",
    "Rigeo.C117_consistent",
    "Rigeo.C117_same",
    "Rigeo.C117_points",
    "Rigeo.C117_distribute",
    "Rigeo.C117_density"
   ],
   "note": "Added property."
  },
  {
   "property": "C118",
   "status": "proved",
   "theorems": [
    "Rigeo.C118_run",
    "Rigeo.C118_fails",
    "Rigeo.C118_queries",
    "Rigeo.C118_same",
    "Rigeo.C118_substitute"
   ],
   "note": "Added property."
  },
  {
   "property": "C119",
   "status": "proved",
   "theorems": [
    "Rigeo.C119_run",
    "Rigeo.C119_fails",
    "Rigeo.C119_errors",
    "Rigeo.C119_compare",
    "Rigeo.C119_distribute",
    "Rigeo.C119_distribute_empty"
   ],
   "note": "Added property."
  },
  {
   "property": "C120",
   "status": "proved",
   "theorems": [
    "Rigeo.C120_index",
    "Rigeo.C120_index_digits",
    "Rigeo.C120_index_ambiguous",
    "Rigeo.C120_matrix",
    "Rigeo.C120_terms",
    "Rigeo.C120_polynomial",
    "Rigeo.C120_polynomial_ambiguous"
   ],
   "note": "Added property."
  },
  {
   "property": "C121",
   "status": "proved",
   "theorems": [
    "Rigeo.C121_box",
    "Rigeo.C121_ellipsoid",
    "Rigeo.C121_cylinder",
    "Rigeo.C121_orthogonal",
    "Rigeo.C121_contains_accepts",
    "Rigeo.C121_contains_sound",
    "Rigeo.C121_result"
   ],
   "note": "Added property. With rounding; overflow is excluded by the bounds on the sizes."
  },
  {
   "property": "C122",
   "status": "proved",
   "theorems": [
    "Rigeo.C122_errors",
    "Rigeo.C122_symmetric",
    "Rigeo.C122_consistent",
    "Rigeo.C122_hull",
    "Rigeo.C122_unit_mass",
    "Rigeo.C122_result"
   ],
   "note": "Added property. With rounding; overflow is excluded by the bounds on the sizes."
  },
  {
   "property": "C123",
   "status": "proved",
   "theorems": [
    "Rigeo.C123_transforms",
    "Rigeo.C123_consistent",
    "Rigeo.C123_moved_masses",
    "Rigeo.C123_result"
   ],
   "note": "Added property. With rounding; overflow is excluded by the bounds on the sizes."
  },
  {
   "property": "C124",
   "status": "proved",
   "theorems": [
    "Rigeo.C124_body_wrench",
    "Rigeo.C124_regressor",
    "Rigeo.C124_agree",
    "Rigeo.C124_result"
   ],
   "note": "Added property. With rounding; overflow is excluded by the bounds on the sizes."
  },
  {
   "property": "C125",
   "status": "proved",
   "theorems": [
    "Rigeo.C125_two_vertices",
    "Rigeo.C125_bound",
    "Rigeo.C125_contains",
    "Rigeo.C125_loses_point",
    "Rigeo.C125_empty",
    "Rigeo.C125_aabb",
    "Rigeo.C125_result"
   ],
   "note": "Added property. With rounding; overflow is excluded by the bounds on the sizes. That the box itself contains the points is false; the bound says by how much."
  },
  {
   "property": "C126",
   "status": "proved",
   "theorems": [
    "Rigeo.C126_random",
    "Rigeo.C126_vertices",
    "Rigeo.C126_grid",
    "Rigeo.C126_accepts",
    "Rigeo.C126_result"
   ],
   "note": "Added property. With rounding; overflow is excluded by the bounds on the sizes."
  },
  {
   "property": "C127",
   "status": "proved",
   "theorems": [
    "Rigeo.C127_point",
    "Rigeo.C127_accepts",
    "Rigeo.C127_result"
   ],
   "note": "Added property. With rounding; overflow is excluded by the bounds on the sizes. Three dimensions only."
  },
  {
   "property": "C128",
   "status": "proved",
   "theorems": [
    "Rigeo.C128_point",
    "Rigeo.C128_accepts",
    "Rigeo.C128_result"
   ],
   "note": "Added property. With rounding; overflow is excluded by the bounds on the sizes."
  },
  {
   "property": "C129",
   "status": "proved",
   "theorems": [
    "Rigeo.C129_edges",
    "Rigeo.C129_edges_accepted",
    "Rigeo.C129_surface_accepted",
    "Rigeo.C129_sound",
    "Rigeo.C129_result"
   ],
   "note": "Added property. With rounding; overflow is excluded by the bounds on the sizes. random_points_on_surface of boxes in other poses leaves the surface even in exact arithmetic, so it is bounded only for boxes at the origin."
  },
  {
   "property": "C130",
   "status": "proved",
   "theorems": [
    "Rigeo.C130_box",
    "Rigeo.C130_ellipsoid",
    "Rigeo.C130_cylinder",
    "Rigeo.C130_result"
   ],
   "note": "Added property. With rounding; overflow is excluded by the bounds on the sizes. Shells and wireframes are in C131."
  },
  {
   "property": "C131",
   "status": "proved",
   "theorems": [
    "Rigeo.C131_hollow",
    "Rigeo.C131_wireframe",
    "Rigeo.C131_sphere",
    "Rigeo.C131_result"
   ],
   "note": "Added property. With rounding; overflow and underflow are excluded by the bounds on the sizes. For ellipsoids that are not spheres the formula is not that of the surface even without rounding (C58), and `ellipsoid_shell_close` compares with the formula."
  },
  {
   "property": "C132",
   "status": "proved",
   "theorems": [
    "Rigeo.C132_box",
    "Rigeo.C132_ellipsoid",
    "Rigeo.C132_cylinder",
    "Rigeo.C132_result"
   ],
   "note": "Added property. With rounding; overflow and underflow are excluded by the bounds on the sizes."
  },
  {
   "property": "C133",
   "status": "proved",
   "theorems": [
    "Rigeo.C133_box_mbe",
    "Rigeo.C133_ellipsoid_mib",
    "Rigeo.C133_cylinder_mib"
   ],
   "note": "Added property. With rounding; overflow and underflow are excluded by the bounds on the sizes. The sphere variants are modelled without rounding only."
  }
 ]
}