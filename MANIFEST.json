{
 "claims": [
  {
   "property": "C01",
   "status": "proved",
   "theorems": [
    "RBDyn.C01_neutral_pose",
    "RBDyn.C01_neutral_pose_old",
    "RBDyn.C01_mimic_spherical_counterexample"
   ],
   "note": "all types, axes, directions; a mimic joint of type Spherical is shown to violate it (the claim excludes mimics)"
  },
  {
   "property": "C02",
   "status": "proved",
   "theorems": [
    "RBDyn.C02_reversed_pose"
   ],
   "note": "two-sided inverse"
  },
  {
   "property": "C03",
   "status": "proved",
   "theorems": [
    "RBDyn.C03_pose_rigid"
   ],
   "note": "all joints reachable through constructors, forward(bool) and makeMimic"
  },
  {
   "property": "C04",
   "status": "proved",
   "theorems": [
    "RBDyn.C04_setForward_sequence",
    "RBDyn.C04_setForward_sequence_mimic",
    "RBDyn.C04_forward_reported"
   ],
   "note": "induction over the call sequence; equality of all fields"
  },
  {
   "property": "C05",
   "status": "proved",
   "theorems": [
    "RBDyn.C05_motion_subspace",
    "RBDyn.C05_subspace_columns",
    "RBDyn.C05_checked"
   ],
   "note": ""
  },
  {
   "property": "C06",
   "status": "proved",
   "theorems": [
    "RBDyn.C06_motion_is_derivative",
    "RBDyn.C06_reversed_planar_counterexample"
   ],
   "note": "entrywise derivatives over the reals; a reversed planar joint is shown not to satisfy it (the claim excludes reversed Spherical/Planar/Free)"
  },
  {
   "property": "C07",
   "status": "proved",
   "theorems": [
    "RBDyn.C07_layout",
    "RBDyn.C07_partition",
    "RBDyn.C07_too_few_joints"
   ],
   "note": "constructor loop invariant; segments partition the vector; too few joints is shown to be undefined behaviour"
  },
  {
   "property": "C08",
   "status": "proved",
   "theorems": [
    "RBDyn.C08_body_lookup",
    "RBDyn.C08_joint_lookup",
    "RBDyn.C08_unknown_names"
   ],
   "note": ""
  },
  {
   "property": "C09",
   "status": "proved",
   "theorems": [
    "RBDyn.C09_checked_accessors",
    "RBDyn.C09_checked_setters"
   ],
   "note": "accessors and setters"
  },
  {
   "property": "C10",
   "status": "proved",
   "theorems": [
    "RBDyn.C10_fresh_sizes",
    "RBDyn.C10_zero_neutral",
    "RBDyn.C10_neutral_pose"
   ],
   "note": "for arbitrary contents of uninitialised memory"
  },
  {
   "property": "C11",
   "status": "proved",
   "theorems": [
    "RBDyn.C11_param_roundtrip",
    "RBDyn.C11_dof_roundtrip",
    "RBDyn.C11_vector_roundtrip",
    "RBDyn.C11_checked"
   ],
   "note": ""
  },
  {
   "property": "C12",
   "status": "proved",
   "theorems": [
    "RBDyn.C12_convert",
    "RBDyn.C12_roundtrip",
    "RBDyn.C12_checked",
    "RBDyn.C12_convert_joint"
   ],
   "note": "conversion, round trip, checked versions"
  },
  {
   "property": "C13",
   "status": "proved",
   "theorems": [
    "RBDyn.C13_unique_names",
    "RBDyn.C13_addBody",
    "RBDyn.C13_addJoint"
   ],
   "note": "Induction over arbitrary call sequences, exceptions included; the memory may hold other graphs."
  },
  {
   "property": "C14",
   "status": "proved",
   "theorems": [
    "RBDyn.C14_unknown",
    "RBDyn.C14_known",
    "RBDyn.C14_self",
    "RBDyn.C14_flip_pose"
   ],
   "note": "Known and unknown names, self links; the two directed views have inverse poses."
  },
  {
   "property": "C15",
   "status": "proved",
   "theorems": [
    "RBDyn.C15_api_trees",
    "RBDyn.C15_makeMultiBody",
    "RBDyn.C15_joint_names",
    "RBDyn.C15_unknown_root",
    "RBDyn.C15_calls"
   ],
   "note": "Explicit pointer model; trees are acyclic connected link graphs where each joint is used by one link, and all graphs built by the API in that way are such trees."
  },
  {
   "property": "C16",
   "status": "proved",
   "theorems": [
    "RBDyn.C16_mass"
   ],
   "note": ""
  },
  {
   "property": "C17",
   "status": "proved",
   "theorems": [
    "RBDyn.C17_root_independent",
    "RBDyn.C17_placement",
    "RBDyn.C17_needs_base_transform"
   ],
   "note": "Body frames of the graph, i.e. bodyPosW composed with bodiesBaseTransform of the same root; bodyPosW alone depends on the root when link transforms are not identity (shown by a theorem)."
  },
  {
   "property": "C18",
   "status": "proved",
   "theorems": [
    "RBDyn.C18_removeJoint",
    "RBDyn.C18_removed_iff",
    "RBDyn.C18_lookup",
    "RBDyn.C18_removeJoints",
    "RBDyn.C18_unknown",
    "RBDyn.C18_root_name_clash"
   ],
   "note": "removeJoint and removeJoints as a cut of the undirected link graph: bodies, joints, arcs, name maps, memory frame; the result is again a tree. A joint at the root body must not bear the name of the root joint: a theorem shows that removeJoint then silently does nothing."
  },
  {
   "property": "C19",
   "status": "proved",
   "theorems": [
    "RBDyn.C19_merge",
    "RBDyn.C19_total",
    "RBDyn.C19_errors",
    "RBDyn.C19_noop"
   ],
   "note": "For every placement of the bodies consistent with the joint configuration; also the exact conditions for the exceptions (graph unchanged) and the no-op cases. Same restriction on the root joint's name as C18."
  },
  {
   "property": "C20",
   "status": "proved",
   "theorems": [
    "RBDyn.C20_fixJoints",
    "RBDyn.C20_fixAll",
    "RBDyn.C20_pose",
    "RBDyn.C20_unknown",
    "RBDyn.C20_registry_not_fixed",
    "RBDyn.C20_fixAll_empty_counterexample",
    "RBDyn.C20_fixAll_then_remove_counterexample"
   ],
   "note": "fixJoints by names, and fixAllJoints with at least one name; poses equal those of the original with the fixed joints neutral. Theorems also show what the code does wrong: fixAllJoints with an empty list fixes nothing, jointByName keeps returning the unfixed joint, and removeJoint after fixAllJoints is undefined behaviour."
  },
  {
   "property": "C21",
   "status": "proved",
   "theorems": [
    "RBDyn.C21_copy",
    "RBDyn.C21_same_results",
    "RBDyn.C21_copy_ops",
    "RBDyn.C21_original_ops",
    "RBDyn.C21_queries",
    "RBDyn.C21_interleaved",
    "RBDyn.C21_assign"
   ],
   "note": "Copy constructor and assignment on the heap model: any interleaving of mutating operations on the copy and on the original (with exceptions) leaves the other one unchanged."
  },
  {
   "property": "C22",
   "status": "proved",
   "theorems": [
    "RBDyn.C22_predecessor",
    "RBDyn.C22_successors",
    "RBDyn.C22_base_transform"
   ],
   "note": "All three functions, including absent names; base transforms for rigid link transforms."
  },
  {
   "property": "C23",
   "status": "proved",
   "theorems": [
    "RBDyn.C23_forward_kinematics",
    "RBDyn.C23_recursive",
    "RBDyn.C23_rigid",
    "RBDyn.C23_posReady"
   ],
   "note": "path product, recursive form, rigidity, frame condition, no out-of-bounds access"
  },
  {
   "property": "C24",
   "status": "proved",
   "theorems": [
    "RBDyn.C24_forward_velocity",
    "RBDyn.C24_velReady",
    "RBDyn.C24_velocity_is_derivative"
   ],
   "note": "path sum and, over the reals, the derivative of the pose"
  },
  {
   "property": "C25",
   "status": "proved",
   "theorems": [
    "RBDyn.C25_forward_acceleration",
    "RBDyn.C25_acceleration_is_derivative"
   ],
   "note": "path sum and, over the reals, the derivative of the velocity"
  },
  {
   "property": "C26",
   "status": "proved",
   "theorems": [
    "RBDyn.C26_inverse_dynamics",
    "RBDyn.C26_no_inertia",
    "RBDyn.C26_newton_euler"
   ],
   "note": "inverseDynamics and inverseDynamicsNoInertia closed forms, and Newton-Euler with true time derivatives along trajectories (for joints whose S is the derivative of the pose, see C06)"
  },
  {
   "property": "C27",
   "status": "proved",
   "theorems": [
    "RBDyn.C27_constructor",
    "RBDyn.C27_equation_of_motion",
    "RBDyn.C27_forward_then_inverse",
    "RBDyn.C27_inverse_then_forward",
    "RBDyn.C27_inverse_then_forward_physical"
   ],
   "note": "equation of motion, and both round trips for an exact linear solve (Eigen LDLT is a parameter)"
  },
  {
   "property": "C28",
   "status": "proved",
   "theorems": [
    "RBDyn.C28_symmetric"
   ],
   "note": ""
  },
  {
   "property": "C29",
   "status": "proved",
   "theorems": [
    "RBDyn.C29_kinetic_energy",
    "RBDyn.C29_nonneg",
    "RBDyn.C29_positive_definite"
   ],
   "note": "kinetic energy identity, positive semidefiniteness, positive definiteness"
  },
  {
   "property": "C30",
   "status": "proved",
   "theorems": [
    "RBDyn.C30_constructor",
    "RBDyn.C30_bias",
    "RBDyn.C30_mass_derivative"
   ],
   "note": "Bodies need positive mass or no first moment; body names resolve to their index. Over R: C + C^T is the time derivative of the mass matrix, so Hdot - 2C is skew-symmetric."
  },
  {
   "property": "C31",
   "status": "proved",
   "theorems": [
    "RBDyn.C31_vector_roundtrip",
    "RBDyn.C31_inertia_roundtrip",
    "RBDyn.C31_checked",
    "RBDyn.C31_constructor",
    "RBDyn.C31_regressor",
    "RBDyn.C31_regressor_free"
   ],
   "note": "parameter round trips and size check; regressor times stacked parameters = inverse dynamics torque minus the external-force torque, and the force-free case"
  },
  {
   "property": "C32",
   "status": "proved",
   "theorems": [
    "RBDyn.C32_inverse_statics"
   ],
   "note": "torques, body accelerations and working memory agree; frame condition"
  },
  {
   "property": "C33",
   "status": "proved",
   "theorems": [
    "RBDyn.C33_power_balance"
   ],
   "note": "power balance with true time derivatives of kinetic and potential energy"
  },
  {
   "property": "C34",
   "status": "proved",
   "theorems": [
    "RBDyn.C34_constructor",
    "RBDyn.C34_jacobian",
    "RBDyn.C34_bodyJacobian",
    "RBDyn.C34_jacobian_frame",
    "RBDyn.C34_any_velocity",
    "RBDyn.C34_velocity_is_derivative"
   ],
   "note": "Absolute Jacobians built by Jacobian(mb, bodyName, point). Over R also: the linear rows times alpha are the time derivative of the world position of the point."
  },
  {
   "property": "C35",
   "status": "proved",
   "theorems": [
    "RBDyn.C35_normal_acceleration",
    "RBDyn.C35_acceleration",
    "RBDyn.C35_cached",
    "RBDyn.C35_dot_is_derivative"
   ],
   "note": "Also over R: every column of jacobianDot / bodyJacobianDot is the time derivative of the column of jacobian / bodyJacobian."
  },
  {
   "property": "C36",
   "status": "proved",
   "theorems": [
    "RBDyn.C36_full_jacobian",
    "RBDyn.C36_add_full_jacobian",
    "RBDyn.C36_compact_path",
    "RBDyn.C36_expand",
    "RBDyn.C36_point_velocity"
   ],
   "note": "fullJacobian, addFullJacobian, compactPath, both addFullJacobian overloads, expand and both expandAdd overloads."
  },
  {
   "property": "C37",
   "status": "partial",
   "theorems": [
    "RBDyn.C37_relative_partial",
    "RBDyn.C37_derivative_partial",
    "RBDyn.C37_counterexample_root",
    "RBDyn.C37_counterexample_ancestor",
    "RBDyn.C37_counterexample_self"
   ],
   "note": "Proved where the body is not an ancestor of the reference and the common ancestor has a parent (or is the reference, or is a root joint without dof); the other cases are shown to be wrong by counterexample theorems. Over R also the derivative of the relative position."
  },
  {
   "property": "C38",
   "status": "proved",
   "theorems": [
    "RBDyn.C38_translate",
    "RBDyn.C38_translate_body"
   ],
   "note": "The translation is relative to the point of the Jacobian: the result is the Jacobian of p0 + p."
  },
  {
   "property": "C39",
   "status": "proved",
   "theorems": [
    "RBDyn.C39_com",
    "RBDyn.C39_no_mass",
    "RBDyn.C39_constructor",
    "RBDyn.C39_constructor_default",
    "RBDyn.C39_jacobian",
    "RBDyn.C39_velocity",
    "RBDyn.C39_dummy",
    "RBDyn.C39_jacobianDot",
    "RBDyn.C39_acceleration",
    "RBDyn.C39_velocity_is_derivative",
    "RBDyn.C39_acceleration_is_derivative",
    "RBDyn.C39_jacobianDot_is_derivative"
   ],
   "note": "Total mass positive; weights any list of the right size. CoMJacobian and CoMJacobianDummy, velocity, normal acceleration, Jacobian and its dot; over R also that velocity, acceleration and jacobianDot are time derivatives."
  },
  {
   "property": "C40",
   "status": "proved",
   "theorems": [
    "RBDyn.C40_momentum",
    "RBDyn.C40_linear",
    "RBDyn.C40_shift",
    "RBDyn.C40_constructor",
    "RBDyn.C40_matrix",
    "RBDyn.C40_matrix_momentum",
    "RBDyn.C40_matrixDot",
    "RBDyn.C40_rate",
    "RBDyn.C40_both",
    "RBDyn.C40_rate_is_derivative",
    "RBDyn.C40_matrixDot_is_derivative"
   ],
   "note": "All weights and reference points. Also: momentum in terms of the centres of mass, shift of the reference point, computeMatrixAndMatrixDot agrees with the two separate functions, and over R the rate and cmMatDot are time derivatives."
  },
  {
   "property": "C41",
   "status": "proved",
   "theorems": [
    "RBDyn.C41_one_parameter",
    "RBDyn.C41_cylindrical",
    "RBDyn.C41_fixed",
    "RBDyn.C41_rest",
    "RBDyn.C41_integration",
    "RBDyn.C41_negative_step_counterexample"
   ],
   "note": "Over the reals. Free and Planar joints need a non-negative step (a theorem shows the undefined behaviour otherwise) and a positive precision."
  },
  {
   "property": "C42",
   "status": "proved",
   "theorems": [
    "RBDyn.C42_so3",
    "RBDyn.C42_valid",
    "RBDyn.C42_terminates",
    "RBDyn.C42_zero_precision_diverges"
   ],
   "note": "Norm preserved exactly over the reals; the recursion terminates for every positive precision (and provably not for precision zero)."
  },
  {
   "property": "C43",
   "status": "partial",
   "theorems": [
    "RBDyn.C43_zmp",
    "RBDyn.C43_zmp_iff",
    "RBDyn.C43_noGravity",
    "RBDyn.C43_agree",
    "RBDyn.C43_complete_no_wrench",
    "RBDyn.C43_complete_partial",
    "RBDyn.C43_complete_iff",
    "RBDyn.C43_gravity_counterexample",
    "RBDyn.C43_complete_altitude_counterexample",
    "RBDyn.C43_complete_vertical_counterexample"
   ],
   "note": "computeCentroidalZMP is proved for vertical gravity, computeCentroidalZMPNoGravity for all inputs; computeCentroidalZMPComplete only when there is no external wrench, or when the vertical acceleration vanishes and the plane is at altitude zero or the wrench has no horizontal force. Exact conditions: C43_zmp_iff, C43_complete_iff. Counterexample theorems show that each restriction is needed."
  },
  {
   "property": "C44",
   "status": "partial",
   "theorems": [
    "RBDyn.C44_image_point",
    "RBDyn.C44_jacobian_dot",
    "RBDyn.C44_acceleration",
    "RBDyn.C44_depth_partial",
    "RBDyn.C44_depth_order_counterexample",
    "RBDyn.C44_depth_speed_counterexample",
    "RBDyn.C44_angle_axis",
    "RBDyn.C44_axis_not_unit_counterexample",
    "RBDyn.C44_pose_partial",
    "RBDyn.C44_pose_counterexample",
    "RBDyn.C44_pose_iff"
   ],
   "note": "Point Jacobian, its dot and the acceleration are true time derivatives. Depth and pose Jacobians only in special cases, with counterexample theorems for the general claim; C44_pose_iff says exactly for which rotations the pose Jacobian is right."
  },
  {
   "property": "C45",
   "status": "proved",
   "theorems": [
    "RBDyn.C45_inverse_kinematics",
    "RBDyn.C45_constructor",
    "RBDyn.C45_quaternion_counterexample"
   ],
   "note": "Paths without Spherical and Free joints (a theorem shows the out of bounds access otherwise). The SVD solver is a parameter of which only the size of the solution is used, the rotation error of SpaceVecAlg is a parameter. Also: every update is exactly lambda times the solution along the path, and the poses and velocities match the final positions."
  },
  {
   "property": "C46",
   "status": "proved",
   "theorems": [
    "RBDyn.C46_urdf_links_and_joints",
    "RBDyn.C46_yaml_links_and_joints"
   ],
   "note": "URDF and YAML, on documents given as trees of elements. Removed links and their joints are neither in the graph nor in the multibody, everything else is in the graph, and joint types follow the tables."
  },
  {
   "property": "C47",
   "status": "partial",
   "theorems": [
    "RBDyn.C47_urdf_round_trip_partial",
    "RBDyn.C47_frame_partial",
    "RBDyn.C47_frame_iff",
    "RBDyn.C47_not_frame",
    "RBDyn.C47_not_point_mass",
    "RBDyn.C47_not_rotated",
    "RBDyn.C47_C48_not_rerooted",
    "RBDyn.C47_C48_not_spherical"
   ],
   "note": "False in general: the writer prints angles about moving axes and the reader takes them about fixed axes, so almost every rotation is lost (C47_not_frame, for every choice of the angles; C47_not_rotated on the whole programs; C47_frame_iff says exactly which frames survive: those that turn about a coordinate axis); a point mass gives a document the reader crashes on; a robot re-rooted by base_link gets other static transforms; spherical joints cannot be written. Proved: under conditions on links, joints and frames the whole robot is recovered."
  },
  {
   "property": "C48",
   "status": "partial",
   "theorems": [
    "RBDyn.C48_yaml_round_trip_partial",
    "RBDyn.C48_frame",
    "RBDyn.C48_not_point_mass",
    "RBDyn.C47_C48_not_rerooted",
    "RBDyn.C47_C48_not_spherical",
    "RBDyn.C48_not_floating"
   ],
   "note": "False in general: a point mass is read back with the identity as inertia, a robot re-rooted by base_link gets other static transforms, a floating joint with limits cannot be read back, spherical joints cannot be written. Proved: under conditions on links and joints the whole robot is recovered, for all rigid frames (C48_frame: with no tolerance and angles that give the rotation back)."
  },
  {
   "property": "C49",
   "status": "partial",
   "theorems": [
    "RBDyn.C49_not_same_rotation",
    "RBDyn.C49_rpy_partial",
    "RBDyn.C49_rpy_iff"
   ],
   "note": "False in general: the two readers compose the three rotations in opposite orders (counterexample theorem). Proved exactly when they agree: iff two of the three angles are the same half or full turn (C49_rpy_iff)."
  },
  {
   "property": "C50",
   "status": "proved",
   "theorems": [
    "RBDyn.C50_prefix_path"
   ],
   "note": ""
  },
  {
   "property": "C51",
   "status": "partial",
   "theorems": [
    "RBDyn.C51_kinematics_partial",
    "RBDyn.C51_velocity",
    "RBDyn.C51_acceleration",
    "RBDyn.C51_inverse_dynamics",
    "RBDyn.C51_inverse_dynamics_no_inertia",
    "RBDyn.C51_forward_dynamics",
    "RBDyn.C51_compute_H",
    "RBDyn.C51_compute_C",
    "RBDyn.C51_jacobian",
    "RBDyn.C51_jacobian_dot",
    "RBDyn.C51_jacobian_foreign",
    "RBDyn.C51_jacobian_velocity",
    "RBDyn.C51_not_kinematics",
    "RBDyn.C51_not_normal_acceleration",
    "RBDyn.C51_not_inverse_kinematics",
    "RBDyn.C51_not_weight",
    "RBDyn.C51_not_com_normal_acceleration",
    "RBDyn.C51_com",
    "RBDyn.C51_com_jacobian_dummy",
    "RBDyn.C51_com_jacobian",
    "RBDyn.C51_com_jacobian_foreign",
    "RBDyn.C51_com_normal_acceleration_partial",
    "RBDyn.C51_momentum",
    "RBDyn.C51_momentum_matrix",
    "RBDyn.C51_normal_momentum_partial",
    "RBDyn.C51_regressor",
    "RBDyn.C51_inverse_statics",
    "RBDyn.C51_translate",
    "RBDyn.C51_jacobian_normal_acceleration_of",
    "RBDyn.C51_jacobian_normal_acceleration_partial",
    "RBDyn.C51_integration",
    "RBDyn.C51_not_normal_momentum",
    "RBDyn.C51_not_foreign_object"
   ],
   "note": "Proved for sForwardVelocity, sForwardAcceleration, sInverseDynamics(NoInertia), sForwardDynamics, sComputeH, sComputeC, sInverseStatics, IDIM::sComputeY, sIntegration, all sJacobian variants, velocities and normal accelerations, sTranslateJacobian, sFullJacobian and the checked functions of CoM.cpp and Momentum.cpp. Missing checks: sForwardKinematics (motionSubspace is written but not checked; C51_not_kinematics) and the normal accelerations (jointVelocity), proved with the sizes of those fields assumed (names with _partial). Counterexamples: C51_not_*."
  },
  {
   "property": "C52",
   "status": "proved",
   "theorems": [
    "RBDyn.C52_joint",
    "RBDyn.C52_integration"
   ],
   "note": ""
  },
  {
   "property": "C53",
   "status": "proved",
   "theorems": [
    "RBDyn.C53_free",
    "RBDyn.C53_planar"
   ],
   "note": ""
  },
  {
   "property": "C54",
   "status": "partial",
   "theorems": [
    "RBDyn.C54_neglected_partial",
    "RBDyn.C54_early_exit_counterexample",
    "RBDyn.C54_bound_counterexample"
   ],
   "note": "The claim of the documentation is false in two regions (two counterexample theorems: early exit on small angular acceleration; wrong bound for the fourth term). Proved outside of them."
  },
  {
   "property": "C55",
   "status": "proved",
   "theorems": [
    "RBDyn.C55_urdf_tree",
    "RBDyn.C55_yaml_tree"
   ],
   "note": "Both formats, documents of any size, without filtering; the inertial frames must not be rotated (the rotated case depends on a dependency, SpaceVecAlg)."
  },
  {
   "property": "C56",
   "status": "partial",
   "theorems": [
    "RBDyn.C56_constructor",
    "RBDyn.C56_torque_jacobian_partial",
    "RBDyn.C56_prismatic_counterexample",
    "RBDyn.C56_force_jacobian_counterexample",
    "RBDyn.C56_sticky_size_counterexample"
   ],
   "note": "False in general: the sign is wrong below a prismatic joint (C56_prismatic_counterexample), the matrices given for the external forces are added instead of subtracted (C56_force_jacobian_counterexample), and an object used once without force Jacobians fails when it is given some later (C56_sticky_size_counterexample). Proved: exact derivative for trees of any shape whose joints below the root joints are revolute or fixed, when the matrices given are minus the derivatives of the forces; the matrices may have further columns for other variables of the forces, and the object may be new or already sized."
  },
  {
   "property": "C57",
   "status": "proved",
   "theorems": [
    "RBDyn.C57_vector_jacobians",
    "RBDyn.C57_vector_derivative"
   ],
   "note": ""
  },
  {
   "property": "C58",
   "status": "partial",
   "theorems": [
    "RBDyn.C58_chain",
    "RBDyn.C58_relative_partial",
    "RBDyn.C58_turn_counterexample",
    "RBDyn.C58_turn_iff"
   ],
   "note": "Proved for Jacobians from the root, with velocities (C58_chain). False for relative Jacobians whose path turns: the two static transforms at the turn are multiplied in the wrong order (C58_turn_counterexample). Exactly when it is right there, for all values of the joints: if and only if those two transforms commute (C58_turn_iff); always when the reference body is an ancestor (C58_relative_partial)."
  },
  {
   "property": "C59",
   "status": "proved",
   "theorems": [
    "RBDyn.C59_urdf",
    "RBDyn.C59_yaml",
    "RBDyn.C59_stable"
   ],
   "note": "Origins as far as C47 and C48 recover frames: any rigid transform in YAML, in URDF those whose angles are read back."
  },
  {
   "property": "C60",
   "status": "partial",
   "theorems": [
    "RBDyn.C60_urdf_material",
    "RBDyn.C60_yaml_material",
    "RBDyn.C60_urdf_total",
    "RBDyn.C60_urdf",
    "RBDyn.C60_yaml_total",
    "RBDyn.C60_yaml",
    "RBDyn.C60_writable",
    "RBDyn.C60_not_mesh",
    "RBDyn.C60_not_scale",
    "RBDyn.C60_not_box",
    "RBDyn.C60_not_same_material",
    "RBDyn.C60_urdf_element",
    "RBDyn.C60_yaml_element"
   ],
   "note": "Proved: what is collected, what is taken from each element (C60_urdf_element, C60_yaml_element), exact conditions of success, resolution of materials, and that both writers accept everything read. False: malformed meshes, scales and boxes are undefined behaviour instead of an exception (C60_not_mesh, C60_not_scale, C60_not_box), and the two formats resolve a material defined twice differently (C60_not_same_material)."
  },
  {
   "property": "C61",
   "status": "partial",
   "theorems": [
    "RBDyn.C61_content",
    "RBDyn.C61_detect_urdf",
    "RBDyn.C61_detect_yaml",
    "RBDyn.C61_not_comment",
    "RBDyn.C61_usage_partial",
    "RBDyn.C61_written",
    "RBDyn.C61_not_two_files",
    "RBDyn.C61_not_available",
    "RBDyn.C61_to_yaml_partial",
    "RBDyn.C61_to_urdf_partial"
   ],
   "note": "Proved: what is read, when each format is recognised (exactly), what is written and where, for every argument list except two files with data on the standard input; that only a successful conversion is written; and that the robot is kept under the conditions of C47, C48, C59. False: with two files and data on the standard input both names are ignored (C61_not_two_files); the word robot in a comment before the root decides the format (C61_not_comment)."
  },
  {
   "property": "C62",
   "status": "partial",
   "theorems": [
    "RBDyn.C62_geometry_eq",
    "RBDyn.C62_visual_eq",
    "RBDyn.C62_ne_iff",
    "RBDyn.C62_not_geometry_ne",
    "RBDyn.C62_not_visual_ne",
    "RBDyn.C62_not_negation"
   ],
   "note": "Proved: == answers and says exactly whether the described fields are the same; exactly when != is its negation for each kind of shape. False: != of two geometries or of two visual elements is never true, and fails on different kinds (C62_not_geometry_ne, C62_not_visual_ne, C62_not_negation)."
  },
  {
   "property": "C63",
   "status": "partial",
   "theorems": [
    "RBDyn.C63_body",
    "RBDyn.C63_joint",
    "RBDyn.C63_joint_plain",
    "RBDyn.C63_joint_motion",
    "RBDyn.C63_multibody",
    "RBDyn.C63_multibody_plain",
    "RBDyn.C63_not_mimic",
    "RBDyn.C63_not_renamed"
   ],
   "note": "Proved: bodies, all joints up to the mimic information, and all constructed robots (also with other inertias and transforms) come back; unchanged if no joint mimics another. False: the mimic information is lost (C63_not_mimic); a renamed body changes the answers of the lookups (C63_not_renamed)."
  },
  {
   "property": "C64",
   "status": "partial",
   "theorems": [
    "RBDyn.C64_get",
    "RBDyn.C64_get_negative",
    "RBDyn.C64_get_int",
    "RBDyn.C64_set_partial",
    "RBDyn.C64_set_int",
    "RBDyn.C64_get_slice",
    "RBDyn.C64_set_slice",
    "RBDyn.C64_not_set"
   ],
   "note": "Proved: reading by index and by slice, writing by slice within the vector and exactly what every assignment by index does, writing of configurations. False: an assignment past the end writes outside the vector, negative indices are not those of a list (C64_not_set)."
  },
  {
   "property": "C65",
   "status": "partial",
   "theorems": [
    "RBDyn.C65_not_planar",
    "RBDyn.C65_planar_ratio",
    "RBDyn.C65_planar_partial",
    "RBDyn.C65_planar",
    "RBDyn.C65_free_ratio",
    "RBDyn.C65_free_partial",
    "RBDyn.C65_free"
   ],
   "note": "False in general: the number of sub-steps looks at the fourth derivative only at the two ends of the step, and a planar joint can miss the precision (C65_not_planar). Proved: planar joints with constant velocity of the rotation or constant velocity of the translation (C65_planar), free joints with constant angular velocity, or a fixed axis and no linear acceleration (C65_free); for a fixed axis in general when the fourth derivative is largest at an end of the step (C65_planar_partial, C65_free_partial), and in general up to the ratio of its largest value to its value at the ends (C65_planar_ratio, C65_free_ratio). Missing: free joints whose axis moves."
  },
  {
   "property": "C66",
   "status": "proved",
   "theorems": [
    "RBDyn.C66_spherical",
    "RBDyn.C66_free"
   ],
   "note": ""
  },
  {
   "property": "C67",
   "status": "partial",
   "theorems": [
    "RBDyn.C67_order",
    "RBDyn.C67_corrected",
    "RBDyn.C67_third_term_counterexample"
   ],
   "note": "False as stated: magnusExpansion adds the third term with the wrong sign, which leaves an error of exactly the order five whenever the velocity and the acceleration are not parallel (C67_third_term_counterexample gives the limit of error/h^5). Proved: order five when the expansion does not stop at the acceleration test, order three otherwise, for all tolerances (C67_order); order seven with the third term negated (C67_corrected)."
  },
  {
   "property": "C68",
   "status": "partial",
   "theorems": [
    "RBDyn.C68_spherical",
    "RBDyn.C68_free",
    "RBDyn.C68_planar_partial",
    "RBDyn.C68_free_axis_partial"
   ],
   "note": "Spherical joints and free joints whose axis moves: always, with the order of convergence (C68_spherical, C68_free). Planar joints and free joints with a fixed axis: unless the fifth derivative of the position vanishes at both ends of the step but not in between, since the number of sub-steps then does not depend on the precision (C68_planar_partial, C68_free_axis_partial). Other joints are exact (C52)."
  },
  {
   "property": "C69",
   "status": "proved",
   "theorems": [
    "RBDyn.C69_extension",
    "RBDyn.C69_file",
    "RBDyn.C69_positional",
    "RBDyn.C69_python"
   ],
   "note": "The files and the behaviour of tinyxml2 and yaml-cpp are parameters of the model. A path that is just the word yaml, yml or urdf counts as its own extension."
  },
  {
   "property": "C70",
   "status": "partial",
   "theorems": [
    "RBDyn.C70_returns",
    "RBDyn.C70_bodies",
    "RBDyn.C70_tree",
    "RBDyn.C70_ring_diverges",
    "RBDyn.C70_duplicates"
   ],
   "note": "True of trees only. Exactly when the functions return (C70_returns), which bodies the result contains (C70_bodies) and when each is there once (C70_tree) is proved for all graphs made with the three functions; a closed chain never returns (C70_ring_diverges), double links and links of a body to itself give bodies several times without an exception (C70_duplicates)."
  },
  {
   "property": "C71",
   "status": "proved",
   "theorems": [
    "RBDyn.C71_root_torque",
    "RBDyn.C71_rate",
    "RBDyn.C71_floating",
    "RBDyn.C71_free_fall"
   ],
   "note": "The linear system of forward dynamics is assumed to be solved exactly, as in C27."
  },
  {
   "property": "C72",
   "status": "proved",
   "theorems": [
    "RBDyn.C72_poses",
    "RBDyn.C72_mass_matrix",
    "RBDyn.C72_torques",
    "RBDyn.C72_bias",
    "RBDyn.C72_accelerations",
    "RBDyn.C72_momentum",
    "RBDyn.C72_placed",
    "RBDyn.C72_root_joint",
    "RBDyn.C72_mass_matrix_root",
    "RBDyn.C72_makeMultiBody"
   ],
   "note": "The accelerations agree for every linear solver. For makeMultiBody the graph is a tree, as in C15."
  },
  {
   "property": "C73",
   "status": "partial",
   "theorems": [
    "RBDyn.C73_urdf",
    "RBDyn.C73_yaml",
    "RBDyn.C73_not_defaults",
    "RBDyn.C73_not_lengths",
    "RBDyn.C73_not_infinite",
    "RBDyn.C73_not_list"
   ],
   "note": "What is stored is proved for every document that is read, in both formats. The code disagrees with the statement where attributes are missing from a limit element, for lengths when angles are in degrees, and for infinite limits written to URDF; each disagreement is proved with a witness. Limits surviving the round trip: C47, C48."
  },
  {
   "property": "C74",
   "status": "partial",
   "theorems": [
    "RBDyn.C74_velocity_partial",
    "RBDyn.C74_derivative_partial",
    "RBDyn.C74_ancestor_derivative_partial",
    "RBDyn.C74_normal_acceleration_partial",
    "RBDyn.C74_counterexample_orientation",
    "RBDyn.C74_counterexample_sign"
   ],
   "note": "False in general: none of these functions uses the signs of the path or the reference body. Proved for all pairs for which the relative constructor is right (C37): how far each result is from the documented one (C74_velocity_partial, C74_derivative_partial), hence exactly when it is right; bodyJacobianDot is right for every reference that is an ancestor and jacobianDot for body 0 (C74_ancestor_derivative_partial); for ancestors also the normal acceleration (C74_normal_acceleration_partial). Witnesses: C74_counterexample_orientation, C74_counterexample_sign."
  },
  {
   "property": "C75",
   "status": "partial",
   "theorems": [
    "RBDyn.C75_velocities",
    "RBDyn.C75_same_motion",
    "RBDyn.C75_same_acceleration",
    "RBDyn.C75_torques",
    "RBDyn.C75_com_momentum",
    "RBDyn.C75_forward_dynamics",
    "RBDyn.C75_spherical_counterexample"
   ],
   "note": "Proved when the joints that have opposite directions in the two robots are revolute, prismatic, cylindrical or fixed (the others may have any type), with any root joint where no torque is involved; the torques agree when a free root joint needs none, the accelerations when both roots are free joints without torque and the linear system is solved exactly. False for spherical joints that change direction (C75_spherical_counterexample), since the reversed joint has the wrong velocity (C06)."
  },
  {
   "property": "C76",
   "status": "partial",
   "theorems": [
    "RBDyn.C76_inverse_dynamics",
    "RBDyn.C76_inverse_statics",
    "RBDyn.C76_torque_jacobian_counterexample",
    "RBDyn.C76_forward_dynamics",
    "RBDyn.C76_short_torque_counterexample",
    "RBDyn.C76_jacobian",
    "RBDyn.C76_vector_jacobian_rows",
    "RBDyn.C76_coriolis",
    "RBDyn.C76_com_jacobian_dummy",
    "RBDyn.C76_com_jacobian",
    "RBDyn.C76_momentum_matrix",
    "RBDyn.C76_regressor",
    "RBDyn.C76_inverse_kinematics"
   ],
   "note": "Proved for every class and every sequence of successful calls, with two exceptions where the code disagrees: computeTorqueJacobian of InverseStatics (C76_torque_jacobian_counterexample), and forwardDynamics without the checks when joint torques are missing (C76_short_torque_counterexample). Of vectorJacobian the documented rows are meant. The result of Eigen's solver is assumed to have the size of the unknown."
  },
  {
   "property": "C77",
   "status": "proved",
   "theorems": [
    "RBDyn.C77_lagrange",
    "RBDyn.C77_hamel",
    "RBDyn.C77_statics",
    "RBDyn.C77_every_state"
   ],
   "note": "For joints of any type in the tree; joints whose motion subspace is the derivative of their pose, as in C06 (reversed Spherical, Planar and Free joints are excluded). C77_every_state: through every state with up to date poses and velocities passes a trajectory that meets the hypotheses."
  },
  {
   "property": "C78",
   "status": "proved",
   "theorems": [
    "RBDyn.C78_fixed_motion",
    "RBDyn.C78_fixed_torques",
    "RBDyn.C78_fixed_equation",
    "RBDyn.C78_fixed_forward_dynamics",
    "RBDyn.C78_merge_motion",
    "RBDyn.C78_merge_torques",
    "RBDyn.C78_merge_com_momentum",
    "RBDyn.C78_merge_forward_dynamics"
   ],
   "note": "The graph is a tree with rigid transforms and unit axes, as in C19 and C20. The forward dynamics assume a linear system solved exactly, as in C27, and for the robot before positive definite inertias and no zero axis, as in C29. Fixed joints may not mimic another joint."
  },
  {
   "property": "C79",
   "status": "proved",
   "theorems": [
    "RBDyn.C79_contact_torques",
    "RBDyn.C79_contact_bias",
    "RBDyn.C79_contact_accelerations",
    "RBDyn.C79_contact_statics",
    "RBDyn.C79_contact_no_inertia",
    "RBDyn.C79_weight",
    "RBDyn.C79_weight_statics",
    "RBDyn.C79_linear_momentum",
    "RBDyn.C79_mass_matrix",
    "RBDyn.C79_root_rows"
   ],
   "note": "Forward dynamics assumes a linear system solved exactly, as in C27. The theorems about weight and momentum need masses and mass centres as in C39, the one about the rows of the root joint a single root. In inverseDynamicsNoInertia the wrench counts with the opposite sign (C79_contact_no_inertia), see DESIGN 5."
  },
  {
   "property": "C80",
   "status": "partial",
   "theorems": [
    "RBDyn.C80_add_body",
    "RBDyn.C80_add_joint",
    "RBDyn.C80_link_bodies",
    "RBDyn.C80_remove_joint_partial",
    "RBDyn.C80_remove_joints_partial",
    "RBDyn.C80_not_remove_joints",
    "RBDyn.C80_merge_partial",
    "RBDyn.C80_not_merge",
    "RBDyn.C80_not_merge_exceptions",
    "RBDyn.C80_make_multibody",
    "RBDyn.C80_make_multibody_rejected",
    "RBDyn.C80_queries_partial",
    "RBDyn.C80_not_text",
    "RBDyn.C80_joint",
    "RBDyn.C80_joint_rejected",
    "RBDyn.C80_not_forward",
    "RBDyn.C80_not_multibody",
    "RBDyn.C80_not_convert_joint",
    "RBDyn.C80_constructors_partial",
    "RBDyn.C80_jacobian_partial",
    "RBDyn.C80_not_constructor_one",
    "RBDyn.C80_not_constructor_forward",
    "RBDyn.C80_not_constructor_weights",
    "RBDyn.C80_not_jacobian_constructor",
    "RBDyn.C80_not_coriolis"
   ],
   "note": "Proved for addBody, addJoint, linkBodies, makeMultiBody, the constructors of Joint, and with bytes names or in python 2 for removeJoint, removeJoints, bodiesBaseTransform, successorJoints, mergeSubBodies without exceptions and the Jacobian constructor. Elsewhere the code disagrees, proved for all arguments: in python 3 removeJoints and mergeSubBodies never change a graph (C80_not_remove_joints, C80_not_merge) and several functions reject str (C80_not_text); convertJoint returns nothing (C80_not_convert_joint); constructors accept wrong arguments and later calls are undefined (C80_not_constructor_one, C80_not_constructor_forward, C80_not_constructor_weights, C80_not_jacobian_constructor); unchecked MultiBody and Coriolis (C80_not_multibody, C80_not_coriolis); forward(-1) means forward (C80_not_forward); exceptions of mergeSubBodies end the program (C80_not_merge_exceptions)."
  },
  {
   "property": "C81",
   "status": "partial",
   "theorems": [
    "RBDyn.C81_robot",
    "RBDyn.C81_motion",
    "RBDyn.C81_torques",
    "RBDyn.C81_mass_matrix",
    "RBDyn.C81_bias",
    "RBDyn.C81_state",
    "RBDyn.C81_accelerations",
    "RBDyn.C81_momentum",
    "RBDyn.C81_jacobian",
    "RBDyn.C81_inverse_kinematics_counterexample"
   ],
   "note": "Proved for everything but inverseKinematics, for which it is false: its stopping threshold is one number for radians and lengths together (C81_inverse_kinematics_counterexample). Forward dynamics assumes a linear system solved exactly, as in C27, positive definite inertias and no zero axis, as in C29; the centre of mass needs masses as in C39."
  },
  {
   "property": "C82",
   "status": "proved",
   "theorems": [
    "RBDyn.C82_energy_rate",
    "RBDyn.C82_energy_conserved",
    "RBDyn.C82_energy_dissipated",
    "RBDyn.C82_equilibrium",
    "RBDyn.C82_equilibrium_only",
    "RBDyn.C82_torques_backwards",
    "RBDyn.C82_accelerations_backwards",
    "RBDyn.C82_backwards"
   ],
   "note": "Energy: joints in the directions for which C06 holds (DirOK), as in C33; equilibrium and reversal: all joints, positive definite inertias and no zero axis, as in C29. The linear system is solved exactly, as in C27. The motions over all times are hypotheses (Simulated), met by the robot of Sample.falling."
  },
  {
   "property": "C83",
   "status": "proved",
   "theorems": [
    "RBDyn.C83_torques",
    "RBDyn.C83_accelerations",
    "RBDyn.C83_gravity"
   ],
   "note": "Torques: all joints. Accelerations: positive definite inertias, no zero axis and an exact linear solver, as in C29 and C27."
  },
  {
   "property": "C84",
   "status": "proved",
   "theorems": [
    "RBDyn.C84_kinematics",
    "RBDyn.C84_torques",
    "RBDyn.C84_accelerations",
    "RBDyn.C84_mass_matrix",
    "RBDyn.C84_com_momentum",
    "RBDyn.C84_jacobian",
    "RBDyn.C84_same_parts",
    "RBDyn.C84_call_order",
    "RBDyn.C84_build_order"
   ],
   "note": "Both sequences of calls must return: a linkBodies before the addBody of its bodies throws, as in C14. The graph must be a tree, as in C15. Forward dynamics: positive definite inertias, no zero axis and an exact linear solver, as in C29 and C27."
  },
  {
   "property": "C85",
   "status": "proved",
   "theorems": [
    "RBDyn.C85_virtual_work",
    "RBDyn.C85_least_constraint",
    "RBDyn.C85_superposition",
    "RBDyn.C85_reciprocity"
   ],
   "note": "Positive definite inertias, no zero axis and an exact linear solver (FDCase), as in C29 and C27."
  },
  {
   "property": "C86",
   "status": "partial",
   "theorems": [
    "RBDyn.C86_regular_partial",
    "RBDyn.C86_regular_default_partial",
    "RBDyn.C86_sliding_partial",
    "RBDyn.C86_default_partial",
    "RBDyn.C86_out_of_reach",
    "RBDyn.C86_stuck",
    "RBDyn.C86_stuck_counterexample",
    "RBDyn.C86_redundant_partial",
    "RBDyn.C86_redundant_default_partial"
   ],
   "note": "The code violates the statement when joints turn: C86_stuck_counterexample is an arm whose stretched configuration is a local minimum for a target that it can reach, and C86_stuck shows that this happens wherever the residual is orthogonal to the columns of the Jacobian. C86_sliding_partial and C86_default_partial prove convergence for paths of sliding and fixed joints of any length, for a solver that returns a solution whenever the linear system has one and when no entry of the Jacobian is small enough to be rounded to zero by the code; C86_out_of_reach holds for every path without quaternion joints. C86_regular_partial and C86_regular_default_partial prove local convergence when joints turn: near every configuration where the Jacobian of the path (revolute, sliding, cylindrical and fixed joints) has independent columns, with the rounding of the code included, for exact least squares and a rotation error that is right to first order, which the rotation vector is shown to be (logErr_firstOrder). C86_redundant_partial and C86_redundant_default_partial prove the same for paths with more coordinates than needed: near every configuration where the rows of the Jacobian are independent each iteration makes the error smaller by a factor, for the pseudo-inverse, which is shown to exist. Missing: the size of the neighbourhood, paths whose Jacobian has neither independent columns nor independent rows, and planar joints."
  },
  {
   "property": "C87",
   "status": "proved",
   "theorems": [
    "RBDyn.C87_never_fails",
    "RBDyn.C87_stale",
    "RBDyn.C87_held",
    "RBDyn.C87_computed_torque",
    "RBDyn.C87_braking",
    "RBDyn.C87_reaches"
   ],
   "note": "The program of the calls (`period`, `simulate`) is a client of RBDyn, written in Props/Simulate.lean. The linear solver is assumed exact on symmetric positive definite systems (Eigen's LDLT is not modelled), arithmetic is exact, and the recursion depth of the integration of spherical and free joints is bounded by a fuel: from some fuel on the result does not depend on it. C87_stale records that the poses left behind by a period belong to the old joint positions."
  },
  {
   "property": "C88",
   "status": "proved",
   "theorems": [
    "RBDyn.C88_smooth",
    "RBDyn.C88_unique",
    "RBDyn.C88_exists",
    "RBDyn.C88_converges",
    "RBDyn.C88_limit"
   ],
   "note": "For revolute, prismatic, cylindrical and fixed joints. The linear solver is assumed exact on symmetric positive definite systems and arithmetic is exact, as in C87. Control law and forces are evaluated at the beginning of every period. C88_exists gives a motion for some time; how long motions last is the subject of C90. The convergence theorems hold on every interval on which the motion exists."
  },
  {
   "property": "C89",
   "status": "proved",
   "theorems": [
    "RBDyn.C89_joint_integration",
    "RBDyn.C89_integration",
    "RBDyn.C89_robot",
    "RBDyn.C89_twice",
    "RBDyn.C89_motion",
    "RBDyn.C89_torques",
    "RBDyn.C89_mass_matrix",
    "RBDyn.C89_bias",
    "RBDyn.C89_state",
    "RBDyn.C89_accelerations",
    "RBDyn.C89_momentum",
    "RBDyn.C89_jacobian"
   ],
   "note": "The plane is y = 0 of the world frame; other planes follow by C17-like changes of frame and are not stated. For forward dynamics the linear solver is assumed exact on symmetric positive definite systems and the inertias positive definite, as in C27; the centre of mass needs masses as in C39; integration needs a positive precision and a non-negative step, as in C41."
  },
  {
   "property": "C90",
   "status": "proved",
   "theorems": [
    "RBDyn.C90_forever",
    "RBDyn.C90_bounded_forces",
    "RBDyn.C90_simulation",
    "RBDyn.C90_blowup"
   ],
   "note": "For revolute, prismatic, cylindrical and fixed joints, positive definite inertias, an exact linear solver and exact arithmetic, as in C88. C90_blowup shows that a growth condition is needed: for every robot with a degree of freedom there is a smooth law of quadratic growth without motions that last one second."
  },
  {
   "property": "C91",
   "status": "proved",
   "theorems": [
    "RBDyn.C91_smooth",
    "RBDyn.C91_unique",
    "RBDyn.C91_exists",
    "RBDyn.C91_forever",
    "RBDyn.C91_bounded_forces"
   ],
   "note": "Joints of all types (built by the constructors of Joint), positive definite inertias, an exact linear solver and exact arithmetic. The velocities which a motion demands are those of Trajectory, as in C41 and C82. C91_smooth, C91_unique and C91_exists are for all robots; C91_forever for robots whose planar and free joints have no parent body (as the base of makeMultiBody) and whose spherical, planar and free joints are forward: for the reversed ones the motion subspace is not the derivative of the pose (C06)."
  },
  {
   "property": "C92",
   "status": "proved",
   "theorems": [
    "RBDyn.C92_joint_step",
    "RBDyn.C92_converges",
    "RBDyn.C92_limit",
    "RBDyn.C92_simulation"
   ],
   "note": "Joints of all types (built by the constructors of Joint), positive definite inertias, an exact linear solver and exact arithmetic, as in C88 and C91; the precision of the integration is any positive number. Control law and forces are evaluated at the beginning of every period. The period below which C92_joint_step and C92_converges hold depends on the bounds of the state and on the precision. C92_simulation has the conditions of C91_forever."
  },
  {
   "property": "C93",
   "status": "proved",
   "theorems": [
    "RBDyn.C93_settles",
    "RBDyn.C93_energy",
    "RBDyn.C93_exists",
    "RBDyn.C93_simulation",
    "RBDyn.C93_undamped"
   ],
   "note": "For revolute, prismatic, cylindrical and fixed joints, positive definite inertias, an exact linear solver and exact arithmetic, as in C88 and C90. The gains are one stiffness and one damping per degree of freedom. The joints turn without limits: the goal of a revolute joint is one value of its coordinate, not an angle modulo a turn. ServoLaw speaks of inverseStatics; servoLaw is a law that satisfies it."
  },
  {
   "property": "C94",
   "status": "proved",
   "theorems": [
    "RBDyn.C94_tracks",
    "RBDyn.C94_critical",
    "RBDyn.C94_follows",
    "RBDyn.C94_exists",
    "RBDyn.C94_simulation"
   ],
   "note": "For revolute, prismatic, cylindrical and fixed joints, positive definite inertias, an exact linear solver and exact arithmetic, as in C88, C90 and C93; the controller knows the robot, gravity and the external forces exactly. The gains are one pair per degree of freedom; the error of a revolute joint is the difference of coordinates, not of angles modulo a turn. TrackLaw speaks of inverseDynamics; trackLaw is a law that satisfies it."
  },
  {
   "property": "C95",
   "status": "proved",
   "theorems": [
    "RBDyn.C95_stable",
    "RBDyn.C95_attracts",
    "RBDyn.C95_rest",
    "RBDyn.C95_bounded"
   ],
   "note": "For revolute, prismatic, cylindrical and fixed joints, positive definite inertias, an exact linear solver and exact arithmetic, as in C88 and C90, without external forces; one spring and one damper per degree of freedom. The potential energy is computed from the poses of forwardKinematics. C95_attracts asks that up to some distance only the minimum is a balance; that a strict minimum alone is not enough is not shown."
  },
  {
   "property": "C96",
   "status": "proved",
   "theorems": [
    "RBDyn.C96_backwards",
    "RBDyn.C96_turns",
    "RBDyn.C96_periodic",
    "RBDyn.C96_damped"
   ],
   "note": "Positive definite inertias, an exact linear solver and exact arithmetic, as in C91. The motion is defined for all times (C96_damped: on an interval). For reversed joints of type Spherical, Planar and Free the joint velocities are those of the code (see C06)."
  },
  {
   "property": "C97",
   "status": "proved",
   "theorems": [
    "RBDyn.C97_action",
    "RBDyn.C97_stationary",
    "RBDyn.C97_passive",
    "RBDyn.C97_motion"
   ],
   "note": "For revolute, prismatic, cylindrical and fixed joints, positive definite inertias, an exact linear solver and exact arithmetic, as in C88, without external forces. The path is defined for all times and its accelerations and torques are continuous. Energies is the predicate of C77: it speaks of the results of forwardKinematics and forwardVelocity."
  },
  {
   "property": "C98",
   "status": "proved",
   "theorems": [
    "RBDyn.C98_hamilton",
    "RBDyn.C98_cyclic"
   ],
   "note": "For revolute, prismatic, cylindrical and fixed joints, positive definite inertias, an exact linear solver and exact arithmetic, as in C88 and C97, without external forces. The path is defined for all times and its accelerations and torques are continuous."
  },
  {
   "property": "C99",
   "status": "proved",
   "theorems": [
    "RBDyn.C99_bounded",
    "RBDyn.C99_near",
    "RBDyn.C99_disturbed"
   ],
   "note": "For the robots of C88, exact arithmetic and an exact linear solver; the law and the forces are as in C90_forever, which also gives the existence of the motions for all times."
  }
 ]
}