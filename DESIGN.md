# Formal model of RBDyn in Lean 4: design

Source of truth: `/repo` (jrl-umi3218/RBDyn), read as text.  Model: `/verif/lean/Verif`.

## 1. Layout

* `Verif/Base`   error outcomes, checked list access, loop invariant lemmas
* `Verif/Model`  the model of the code, one module per C++ file, every definition cites file and lines
* `Verif/Spec`   small specifications written without reference to the code (paths, subtrees, derivatives)
* `Verif/Lemmas` helper lemmas
* `Verif/Props`  the property theorems, one module per group, with `example`s showing that the hypotheses are satisfiable

## 2. Modelling decisions

* **Scalars.** `double` is idealised by an ordered field `K` with `cos`/`sin` satisfying the usual laws (class `Scalar`).
  Instances: `ℝ` (the intended reading) and `ℚ` with quarter-turn trigonometry on integers (so that examples are
  computable).  Rounding, overflow, NaN and infinities are not modelled.  Statements about derivatives are over `ℝ`.
  In Lean `x / 0` is `0`, where the code gets an infinity or NaN: for inputs that make a divisor zero a theorem says nothing
  about the code, whether or not it excludes them.
* **Undefined behaviour is an outcome.**  Model functions that index vectors or dereference iterators return
  `Except Err α` with `Err.ub` (out-of-bounds/`end()` dereference), `Err.outOfRange` (`std::out_of_range`),
  `Err.domainError` (`std::domain_error`), `Err.runtimeError`, `Err.invalidArgument`.
* **Vectors** `std::vector<T>` are `List T`; writes go through a bounds-checked `wr`.  `int`/`size_t` are `Int`/`Nat`
  (no overflow).  Loops are `List.foldlM` over index lists.
* **Mutation** of a configuration through a reference becomes returning the new configuration.
* **SpaceVecAlg and Eigen** are not part of the repository.  Their operations (`PTransform`, `MotionVec`, `ForceVec`,
  `RBInertia`, cross products, `AngleAxis`, `Quaternion`, `RotX/Y/Z`, block assignment) are modelled from their documented
  semantics in `Verif/Model/Spatial.lean`; this is part of the trusted base.
* **Numerical integration** is modelled over `ℝ` only, because it takes square roots.  `sva::sinc` is `sin x / x` extended by `1` at
  zero; converting NaN or infinity to `int` is undefined behaviour; recursion carries a fuel and `Err.diverges` stands for a
  recursion deeper than the fuel.
* **Graph.** `MultiBodyGraph` with its `shared_ptr` nodes and joints is a heap model: nodes and joints have addresses, maps go
  from names to addresses.

## 3. Properties: what is modelled and how it is proved

| property | model | proof idea |
|---|---|---|
| C01-C05 | `Joint` completely | case split on the joint type, ring identities |
| C06 | `Joint::pose`, `Joint::motion` over ℝ | `HasDerivAt` of each entry of the rotation and of the translation |
| C07-C09 | `MultiBody` ctor and accessors | induction on the joint list (prefix sums), list lookups |
| C10-C12 | `MultiBodyConfig`, `paramToVector`, `vectorToParam`, `ConfigConverter` | induction, list lookups |
| C13-C22 | `MultiBodyGraph` | invariants over operation sequences; refinement to an undirected tree |
| C23-C25 | `forwardKinematics/Velocity/Acceleration` loops | loop invariant to a recursion on the tree, then closed forms along the path |
| C26-C33 | `ID`, `FD`, `Coriolis`, `IDIM`, `IS` loops | forward/backward sweep invariants, subtree sums, duality of motion and force transforms |
| C34-C38 | `Jacobian` | path loops, linearity |
| C39-C40 | `CoM`, `Momentum` | sums over bodies, reuse of Jacobian lemmas |
| C41-C42 | `NumericalIntegration` | algebra; induction on the recursion of the integrator |
| C52 | as C41, over ℝ | the returned configuration as a function of the step is differentiated |
| C53-C54 | error estimates of the integrator | derivatives in a rotating frame; norm inequalities |
| C43-C44 | `ZMP`, `VisServo` | field identities / derivatives |
| C45 | `IK` loop | induction on iterations, linear solver as a parameter |
| C46-C50 | parser logic on abstract documents | case analysis, matrix identities, string lemmas |
| C56 | `InverseStatics` object (`IS.cpp:28-72,105-218`) | sweep invariants, then derivatives of the closed form of C33 |
| C57 | `vectorJacobian`, `vectorBodyJacobian` (`Jacobian.cpp:239-308`) | columns of the path, velocity as a sum over the path |
| C58 | `subMultiBody`, `sSubMultiBody` (`Jacobian.cpp:105-159,670-679`) | loop invariant, then induction along the path |
| C59-C60 | visual, collision, geometry and material elements of both readers and both writers (`Model/Visuals.lean`) | the loops as one fold over the links that are kept, case analysis per element; `Props/Elements.lean` describes one element of a file without the functions of the model |
| C61 | the program `urdf_yaml_conv.cpp`: its streams, files and arguments (`Model/Conv.lean`), on whole documents | induction on the text, case analysis, then C47, C48, C59 |
| C62 | the comparisons of the python classes of parsed shapes (`Model/Binding.lean`), with python exceptions and crashes as outcomes | case analysis on the kinds |
| C63 | python pickling: what is written, and the constructors that read it | algebra per joint type, simulation of the constructor loop |
| C64 | the python wrappers of vectors: indices and slices as python integers, conversions to C types as outcomes | induction on the slice, integer arithmetic |
| C65 | Simpson's rule in `planarJointIntegration` and `freeJointIntegration_` against exact solutions of the kinematic equations | error of Simpson's rule from the fourth derivative, uniqueness of the motion, convexity of the fourth derivative's norm |
| C66 | recursion of `sphericalJointIntegration` and `freeJointIntegration`, all depths | induction on the fuel, composite Simpson sums |
| C67 | `magnusExpansion`, `SO3Integration` against exact solutions of the quaternion kinematics | defect of the truncated series as a polynomial, Grönwall-free distance bound in the quaternions, power series for existence |
| C68 | the whole integration of planar, spherical and free joints, all recursion depths, as the precision goes to zero | local errors of C67 summed over the pieces of C66, Simpson's rule along the perturbed orientations, compactness |
| C69 | all entry points of the readers, C++ overloads and python functions (`Model/Entry.lean`) | unfolding, induction on the path |
| C70 | all graphs made with `addBody`, `addJoint`, `linkBodies` | both directions of a link counted over the calls; the traversal goes on without end exactly if a cycle or two self-linked bodies can be reached (`Lemmas/GraphWalk.lean`, `Lemmas/GraphLoop.lean`); unique paths |
| C71 | a robot with one root: torque of the root joint, momentum of a robot on a free joint, free fall over whole motions | Newton-Euler of the whole tree in world coordinates (`wrenchAt_world`), the six columns of a free joint span, constant derivatives (`Props/Floating.lean`) |
| C72 | a robot displaced as a whole, by `X_0_j0` or by its root joint: mass matrix, bias, torques, accelerations unchanged; poses, centre of mass, momentum displaced | relative poses cancel the displacement (`Displaced.relAt`), `makeTree` only extends its lists (`makeTree_prefix`) (`Props/Displaced.lean`) |
| C73 | the limits stored by `from_urdf` and `from_yaml`, for every document that is read | map of joint names (`limits_find`), loop invariant of the conversion of units (`Props/Limits.lean`) |
| C74 | `jacobianDot`, `bodyJacobianDot`, `velocity`, `normalAcceleration` of a relative Jacobian: distance from the documented value | derivative of each signed column, sums over the signed path (`Props/JacRelDot.lean`) |
| C75 | Velocities, accelerations, momentum, inverse and forward dynamics of two `MultiBody`s made from one graph | flow of velocities over the links (`Lemmas/GraphMotion.lean`), virtual power of the joints from both roots (`Lemmas/GraphForce.lean`, `Lemmas/GraphTwin.lean`), `Props/GraphDyn.lean` |
| C76 | Memory of the algorithm objects | two runs that differ in the working memory give related results (`Alike`, `Lemmas/Reuse*.lean`), objects of a program as inductive predicates (`X.Used`), `Props/Reuse.lean` |
| C77 | Lagrange's equations | derivatives of the body velocities in one coordinate (`velAt_displaced`) and of the columns in time differ by a bracket (`mixed_derivatives`), summed over the bodies; a trajectory through every state (`Props/Through.lean`), `Props/Lagrange.lean` |
| C78 | merged and fixed joints are held joints | one body carries those cut off (`Graph.MergedAt`, `Lemmas/GraphLock.lean`): sums over the bodies agree, torques by virtual power; `Props/Locked.lean`; for `fixJoints` all terms of the sums agree, `Props/LockedFix.lean` |
| C79 | the algorithms agree about the Jacobians | columns of `fullJacobian` as power of a wrench at a point (`Lemmas/Transpose.lean`), torques by `wf.power`; `Props/Transpose.lean` |
| C80 | the calls of the python bindings: kinds of arguments, both python versions, exceptions of C++ and crashes as outcomes (`Model/BindingCalls.lean`) | case analysis on the arguments, induction on lists of names and on the dictionary, propagation of undefined behaviour; `Props/BindingCalls.lean` |
| C81 | the robot and the state in other units (`MultiBody.inUnits`, `InUnits`), factors per joint type (`paramUnit`, `dofUnit`) | scaling commutes with the operations of SpaceVecAlg (`Lemmas/Units.lean`), sums over paths and subtrees, uniqueness of the accelerations for positive definite mass matrices; `Props/Units.lean` |
| C82 | motions whose accelerations are those of forward dynamics (`Simulated`), energy and powers as sums over bodies and degrees of freedom, states moving the other way (`MBC.backwards`) | C33 with the torques of C27, constant functions have derivative zero; velocities are odd and accelerations even in the joint velocities, uniqueness of the accelerations; `Props/Energy.lean` |
| C83 | two states in one posture that differ by a uniform velocity and acceleration of the whole robot and by gravity (`Boosted`, `addLin`) | induction over the bodies: velocities grow by the transported `u`, accelerations by `-v × u`; the law of Newton and Euler does not see this; uniqueness of the accelerations; `Props/FreeFall.lean` |
| C84 | `runAll` on two permuted lists of calls; graphs with the same parts (`SameParts`: bodies and, per body, the list of links by name up to order); robots with other numbers (`Renumbered`) | invariant of the calls done so far (`PartsInv`: arcs of a body = arcs of the calls that name it); isomorphism of the heaps, parents correspond by induction on the depth; every specification function commutes with the renumbering; `Lemmas/GraphParts.lean`, `Props/Renumber.lean`, `Props/BuildOrder.lean` |
| C85 | the accelerations of forward dynamics against all rival accelerations and under changed loads (`VirtualWork`, `constraintAt`, `OnLine`) | the torque equation tested with all virtual velocities; the difference of two accelerations of a body is a velocity, so Gauss's function grows by half the inertial square of it; uniqueness of the accelerations; symmetry of the inertias; `Props/LeastConstraint.lean` |
| C86 | the sequence of configurations of C45 with a linear solver specified by what it must return (`SolvesExactly`, `SolvesOrthogonal`), reachability as the existence of a valid configuration | on a path of sliding joints positions are affine and the Jacobian is constant (`slide_pos`, `slide_cols`, induction along the path), hence a geometric sequence; for revolute joints a real arm and the fixed point of the iteration; local convergence near regular configurations from the Fréchet derivative of the error in all coordinates of the path at once (`mainErr_fderiv`: minus the Jacobian), the normal equations (`normal_step`) and bounds for the rounding and for the rotation error (`FirstOrder`); with independent rows instead of columns the strict derivative, the pseudo-inverse (`pinv_step`) and the exact size of the cross products of the axes (`crossErr_normSq`), by induction that the coordinates stay in a ball (`redundant_step`) |
| C87 | a client program that calls the modelled functions in a loop (`period`, `simulate`); controllers and forces are arbitrary functions of the time and of the state, the linear solver is specified by `SolvesPositive` | one period from an arbitrary proper state (`period_of`, from C24, C27, C41), runs by recursion on the number of periods (`run_exists`), then invariants by induction: rest (C82, C41), equality of accelerations (uniqueness, C29), recurrences of the entries |
| C88 | the client program of C87 with a control law and forces evaluated at the beginning of every period (`sampled`, `sampledForces`); the motion is specified as in C82, on an interval of times (`Motion`) | poses, Jacobians, mass matrix and bias forces are C¹ functions of the state (`DiffDof.*`), the accelerations by Cramer's rule (`accOf`, `DiffDof.accOf`), which are those of forward dynamics by C27, C29 (`accOf_iff`); uniqueness and existence by Picard-Lindelöf for the resulting C¹ vector field; a period is an Euler step with a correction of second order (`PeriodOf.euler`), and a discrete Gronwall argument keeps it in a ball around the motion (`euler_converges`) |
| C89 | the reflected robot `MultiBody.mirrored` and state `MBC.mirrored`, built with the constructors of the model (the reflected robot is well formed, `C89_robot`, and reflecting twice gives the robot back, `C89_twice`) | reflections of vectors, rotations, spatial motions, forces and inertias are homomorphisms (Lemmas/Mirror.lean); joint by joint, then induction over the tree on the closed forms of C23-C41; integration per joint type (`C89_joint_integration`) and `C41_integration` |
| C90 | nothing new; `LinearLaw`, `LinearForces`, `BoundedForces` and `squareLaw` in Props/Forever.lean | the kinetic energy bounds all body and joint velocities uniformly in the joint positions (positive definite forms are coercive, and every joint velocity is the power of a force that the joint transmits unchanged, Lemmas/Coercive.lean); its rate is the power of torques, weights and external forces (as C33, Lemmas/EnergyGrowth.lean), hence kinetic energy plus squared joint positions grows at most exponentially, and the differential equation, cut off outside a ball, has solutions for all times (Lemmas/OdeGlobal.lean) |
| C91 | nothing new; the coordinates of a state are all joint parameters and velocities (`MultiBody.FullSpace`), the torques and forces are `FullLaw`, `FullForces`, `FullLinearLaw`, `FullLinearForces` | the differential equation is extended from unit quaternions to all quaternions by normalising them and cutting off near zero with a smooth function of the squared norms, which makes it C¹ everywhere (Lemmas/FullState.lean, FullFlow.lean); the squared norms are constants of the motion, hence the unit quaternions are invariant (`unitSpace_stays`); solutions for all times as in C90, on the invariant set (`solution_global_on`) |
| C92 | nothing new; the simulator is `simulate` of C87, the motions are those of C91 | one step of every joint type is compared with the rate of its parameters (`Lemmas/StepError`, `StepJoint`, `StepFamily`): the Magnus terms of the integration are expanded to second order in the period, with explicit bounds; Euler's method with steps that are right up to the square of the period converges (`euler_converges_near`) |
| C93 | nothing new; `ServoLaw` says in terms of `inverseStatics` what the control law computes | the weight cancels (`ServoLaw.acc`), the energy of motion and springs decreases with the power of the dampers (`servoEnergy_rate`), and Barbalat's lemma, used twice (Lemmas/Settle.lean), shows that velocities and accelerations go to zero, hence the springs relax |
| C94 | nothing new; `TrackLaw` says in terms of `inverseDynamics` what the control law computes | forwardDynamics inverts inverseDynamics (C27), so the errors obey one linear equation per degree of freedom (`TrackLaw.errors`), solved by the exponential of `errorMap`; convergence by the energy of the error and Barbalat's lemma, the critical case in closed form |
| C95 | nothing new; `MBC.potential` is the weight of the poses of `forwardKinematics` plus springs | the theorem of Lagrange and Dirichlet (`dirichlet`) with the energy as Lyapunov function, whose rate is the power of the dampers (`weightEnergy_rate`); the limit by Barbalat's lemma, and `balance_of_rest` says in terms of `inverseStatics` what rest without acceleration means |
| C96 | nothing new | forward dynamics does not depend on the direction of the velocities (C82), so the reflected motion is a motion (`C96_backwards`), and by uniqueness (C91) the same one; the composition of two reflections is a translation in time; with dampers the energy of C95 decreases strictly while the robot moves |
| C97 | nothing new | the energies are continuously differentiable functions of the numbers in `q` and `alpha`; Lagrange's equations (C77) say that the torque of inverse dynamics is what their partial derivatives lack; differentiation under the integral and integration by parts give the rate of the integral, and a continuous function that does no work along any variation is zero |
| C98 | nothing new | Legendre transform of the energies of C97: the mass matrix is regular and continuously differentiable, so the velocities are a function of positions and momenta; `Momenta` speaks of the matrix of `computeH` |
| C99 | nothing new | the differential equation `flow` of C88; the energy bound of C90, which holds with one constant for all torques near the law, keeps the motions in a ball, where the equation is Lipschitz and the inverse mass matrix is bounded; Grönwall |
| C51 | `checkMatch*` and the `s*` entry points | case analysis, loop invariants |

## 4. Trusted base

* Lean 4 kernel; axioms `propext`, `Classical.choice`, `Quot.sound` only.
* The reading of `/repo` into the model (each definition cites the lines it models).
* The semantics given to SpaceVecAlg/Eigen/STL operations.
* Real arithmetic instead of IEEE doubles.

Parsers: a document is the tree of the elements and attributes the code reads, each present or not. Visual and collision
elements are read in a pass of their own over the links (in the code just before the body of the link is made), so only the choice between two
errors of one document can differ. What the code gets from Eigen (`eulerAngles`, `normalized`, the tolerance of `isZero`), from the text
conversion of numbers (six digits in URDF) and `M_PI / 180` are parameters (`ParserEnv`); theorems state what they need of them.

The converter: a stream is its whole text with what `in_avail` answers (a contract `Stream.Honest` is stated where needed), a file is its stream and
whether it can be opened for writing; tinyxml2 and yaml-cpp are functions between texts and documents (`Formats`), nothing is supposed of them.

The python bindings: the behaviour of Cython and of the interpreter that C62-C64 rely on is listed at the head of `Model/Binding.lean`,
for C80 at the head of `Model/BindingCalls.lean`.

Not modelled: bindings (except the comparisons, pickling and sequence wrappers of C62-C64 and the calls of C80), benchmarks, build system, stream output, XML/YAML lexing, numerical linear algebra kernels (LDLT, SVD; they
enter as parameters with stated assumptions).

## 5. Disagreements between code and properties

Each entry is a theorem about the model (a concrete witness), beside the theorem for the inputs where the code is right.

* **C01** A mimic joint of type Spherical: `zeroParam` adds the mimic offset to the quaternion (`C01_*` counterexample, Props/Joint).
* **C06** A reversed Planar joint: `-S` is not the velocity of the inverse pose (counterexample in Props/JointDeriv).
* **C07** Fewer joints than bodies: the constructor reads out of bounds.
* **C27/C26** `inverseDynamicsNoInertia` adds the external forces where `inverseDynamics` subtracts them; each is stated with its own sign.
* **C37** Relative Jacobians (`Jacobian.cpp:44-103`): wrong when the deepest common ancestor is the root and the root joint has degrees of
  freedom (`C37_counterexample_root`), when the body is an ancestor of the reference body (`C37_counterexample_ancestor`), and undefined when
  both are the same body (`C37_counterexample_self`).
* **C74** Other functions of a relative Jacobian (`Jacobian.cpp:310-460`): `jacobianDot`, `bodyJacobianDot`, `velocity`, `bodyVelocity` and the
  normal accelerations use neither `jointsSign_` nor `refBodyIndex_`. `jacobianDot` is not the derivative of `jacobian`
  (`C74_counterexample_orientation`), `bodyJacobianDot` has the wrong sign for the joints of the branch of the reference body
  (`C74_counterexample_sign`), `velocity` is the velocity in the world, which is `J·alpha` exactly if the reference body is at rest
  (`C74_velocity_partial`).
* **C75** Choice of the root body (`MultiBodyGraph.cpp: makeMultiBody`, `Joint.h: motionSubspace`): exchanging the two bodies of a spherical joint by the choice of the
  root gives the bodies other velocities, and so other dynamics, for the same joint velocities (`C75_spherical_counterexample`); the reversed joint
  has the negated motion subspace, which is not the velocity of the inverse rotation (C06). When only revolute, prismatic, cylindrical and
  fixed joints are reversed, nothing depends on the root.
* **C17** `bodyPosW` of two `MultiBody` made from the same graph differ between roots when link transforms are not identity; the pose of a
  body frame of the graph is `bodyPosW` composed with `bodiesBaseTransform` (`C17_needs_base_transform`).
* **C18/C19** A joint at the root body that has the name of the graph's root joint cannot be removed: `removeJoint` silently does nothing
  (`C18_root_name_clash`).
* **C20** `fixJoints(…, fixAllJoints = true)` with an empty list fixes nothing (`C20_fixAll_empty_counterexample`); `jointByName` of the result
  still returns the unfixed joint (`C20_registry_not_fixed`); `removeJoint` after `fixAllJoints` is undefined behaviour
  (`C20_fixAll_then_remove_counterexample`).
* **C41** `jointIntegration` with a negative step: for Planar and Free joints the number of sub-steps is the conversion of a NaN to `int`
  (`C41_negative_step_counterexample`).
* **C42** With precision zero the recursion for Spherical and Free joints never ends, even at rest (`C42_zero_precision_diverges`).
* **C54** The documented tolerance of `magnusExpansion` does not hold: the early exit compares a squared norm with the tolerance and ignores
  the velocity (`C54_early_exit_counterexample`), and the "upper bound for ||O4||^2" is not one when the acceleration dominates
  (`C54_bound_counterexample`).
* **C43** `computeCentroidalZMP` ignores horizontal gravity (`C43_gravity_counterexample`). `computeCentroidalZMPComplete` uses the height of the
  centre of mass instead of its height above the plane for the external force (`C43_complete_altitude_counterexample`), and divides by the
  weight where it should divide by the vertical reaction (`C43_complete_vertical_counterexample`). Exactly when each of them gives the point
  of zero moment is `C43_zmp_iff` and `C43_complete_iff`.
* **C44** `depthDotJacobian` assumes linear-first motion vectors (`C44_depth_order_counterexample`) and takes the image speed where the
  image position is needed (`C44_depth_speed_counterexample`). `getAngleAxis` returns an axis that is not of norm one
  (`C44_axis_not_unit_counterexample`). The rotational part of `poseJacobian` is right only for rotation about the current axis
  (`C44_pose_counterexample`), or when the sine of the angle happens to be one half (`C44_pose_iff`).
* **C45** With a Spherical or Free joint on the path, `inverseKinematics` walks through the solution once per parameter and reads past its end
  (`C45_quaternion_counterexample`). When it returns true, the threshold was met *before* the last update, the returned configuration is one
  step further.
* **C49** URDF composes roll, pitch and yaw as Rz·Ry·Rx, YAML as Rx·Ry·Rz: the same angles are different rotations in general
  (`C49_not_same_rotation`). They agree exactly when, up to full turns, two of the three angles are both zero or both a half turn (`C49_rpy_iff`).
* **C46** `planar` joints are read as fixed by URDF and rejected by YAML (visible in `declaredURDF` and `declaredYAML`).
* **C47** `to_urdf` prints `eulerAngles(0, 1, 2)` (moving axes x, y, z), `from_urdf` takes them about fixed axes: a rotation whose entries
  (0,1), (0,2) and (1,2) are not zero is never read back (`C47_frame_partial`, `C47_not_frame`, `C47_not_rotated`); those read back are exactly the rotations about a coordinate
  axis (`C47_frame_iff`). A point mass at the origin
  of its link is written without `<inertia>`, which `from_urdf` dereferences (`C47_not_point_mass`). Spherical and cylindrical joints cannot be
  written (`C47_C48_not_spherical`). When `base_link` makes a joint be traversed backwards, the writers print the transform of the arc of the
  graph instead of the one of the `MultiBody` (`C47_C48_not_rerooted`).
* **C48** The last two, and: a point mass is read back with the identity as inertia (`C48_not_point_mass`); the limits of a floating joint are
  written as a sequence in a sequence, which `from_yaml` refuses (`C48_not_floating`). `to_yaml` does not write mimic information. Both writers
  drop the torque and velocity limits of continuous joints.
* **C55** The default axis of URDF joints is z in the code, x in the format's specification; YAML axes are not normalised (visible in
  `XJoint.described` and `YJoint.described`).
* **C51** `sForwardKinematics` does not check the size of `motionSubspace`, which `forwardKinematics` writes (`C51_not_kinematics`). Other
  checked functions with missing checks: `Jacobian::sNormalAcceleration` and `sBodyNormalAcceleration` (`C51_not_normal_acceleration`),
  `sInverseKinematics` (`C51_not_inverse_kinematics`), `CoMJacobian::sWeight`, which checks the old weights instead of the new ones
  (`C51_not_weight`), `CoMJacobian::sNormalAcceleration` (`C51_not_com_normal_acceleration`),
  `CentroidalMomentumMatrix::sNormalMomentumDot` (`C51_not_normal_momentum`). Most checked member functions check the configuration but not
  whether the object itself was built for the robot (`C51_not_foreign_object`).
* **C56** `computeTorqueJacobianJoint`: the derivative of the transform from a child to its parent has the wrong sign for the translation of a
  joint (`MJ.block<3,3>(0, 3)`), so the result is wrong below a prismatic joint (`C56_prismatic_counterexample`: -10 instead of 10), and the
  angular part lacks the rotation of the joint for spherical, planar and free joints. The external forces are subtracted from the wrench but
  their Jacobians are added (`C56_force_jacobian_counterexample`). After one call without force Jacobians a later call with some multiplies
  matrices whose sizes differ (`C56_sticky_size_counterexample`).
* **C58** `subMultiBody`: where the path of a relative Jacobian turns from going up to going down, the static transform is
  `Xt(up)⁻¹ * Xt(down)`, but transforms compose from right to left, as everywhere else in the library, and `Xt(down) * Xt(up)⁻¹` is needed
  (`C58_turn_counterexample`; for every configuration the pose is right if and only if the two transforms commute, `C58_turn_iff`). On the way up the bodies are attached at the base of their joint, so their inertia is not where it should be.
* **C59** The writers do not write the names of visual and collision elements, drop elements of an unknown geometry and put `file://` before
  file names without a scheme (`Visual.stored`, `VMap.stored`). A second round trip changes nothing more (`C59_stable`).
* **C60** A mesh without a file name is undefined behaviour in URDF (`C60_not_mesh`), a scale of two numbers reaches an `assert` in both formats
  (`C60_not_scale`), and a YAML box or superellipsoid with less than three numbers is read out of bounds, because the check of the size looks at
  the vector that has already been built (`C60_not_box`). A material defined twice is resolved differently by the two readers
  (`C60_not_same_material`).
* **C61** `urdf_yaml_conv input output` ignores both names and converts the standard input to the standard output when the standard input has
  data, against its usage (`C61_not_two_files`). The format is decided by the first `robot` of the text, even in a comment
  (`C61_not_comment`). Data on the standard input that are not available yet are ignored (`C61_not_available`).
* **C62** In python `a != b` is never true for two geometries or two visual elements: the code joins the inequalities of the fields with `and`, and
  different kinds of shapes are compared only after their kinds were found different, which raises `TypeError` or reads the fields of `None`
  (`C62_not_geometry_ne`, `C62_not_visual_ne`, `C62_not_negation`). The material is not compared.
* **C63** Pickling a joint that mimics another loses what it mimics, the multiplier and the offset; the result compares equal (`C63_not_mimic`).
* **C64** Assigning through the python wrapper of a vector past its end writes outside the vector, also for slices that a list would cut
  (`C64_not_set`); negative indices other than -1 raise, and -1 can be read but not written.
* **C65** The number of sub-steps of Simpson's rule is computed from the fourth derivative at the two ends of the step, not from its
  largest value on it.  When the rotation and the translation both accelerate the derivative can be largest inside, and the returned
  translation of a planar joint misses the precision (`C65_not_planar`: error above 0.07 for `prec = 0.05`).
* **C67** `magnusExpansion` adds the third term of the Magnus series with the wrong sign: `O3 = wD.cross(O2) * step2 / 20` should be
  `O2.cross(wD) * step2 / 20`. With it the error of a step is of order five, exactly (`C67_third_term_counterexample`), so that the terms
  three to five bring nothing; with the sign corrected it is of order seven (`C67_corrected`).
* **C70** Nothing checks that the links form a tree. From a closed chain of bodies `makeMultiBody`, `bodiesBaseTransform`, `successorJoints` and
  `predecessorJoint` recurse without end (`C70_ring_diverges`), as they do when two bodies are linked to themselves; two bodies linked twice or one
  body linked to itself give a `MultiBody` with the same body in it several times (`C70_duplicates`); bodies that are not connected to the
  root are left out (`C70_bodies`). No exception is thrown in any of these cases.
* **C73** A `<limit>` element that leaves `lower` and `upper` to their URDF defaults gives empty lists for a joint with one degree of freedom,
  and `to_urdf` and `to_yaml` then read the first element of an empty vector (`C73_not_defaults`); with `anglesInDegrees: true` the limits of a
  prismatic joint, which are lengths, are converted like angles (`C73_not_lengths`); a limit that is infinite on one side is written to URDF as
  `inf`, which the reader does not read back, and the robot so obtained can no longer be written (`C73_not_infinite`); the limit of a joint with
  one degree of freedom given as a list of one number is dropped without a message (`C73_not_list`).
* **C76** `forwardDynamics` without checks accepts too few joint torques and takes the others from the accelerations of the last call, which
  are kept in the same vector (`C76_short_torque_counterexample`). An `InverseStatics` object that was used without force Jacobians
  cannot be used with them (`C76_torque_jacobian_counterexample`, C56). The first three rows of the result of `vectorJacobian` are
  those of the last call, as documented (`C76_vector_jacobian_rows`).
* **C80** In python 3 `MultiBodyGraph.removeJoints` never removes a joint and `mergeSubBodies` never merges a body, whatever the arguments: the first
  raises `TypeError` for a list of `str` (the names are not encoded) and ignores a list of `bytes` (`basestring` is `str`), the second takes
  `arg.values()[0]`, which python 3 does not have (`C80_not_remove_joints`, `C80_not_merge`). `removeJoint`, `bodiesBaseTransform`, `successorJoints` and
  `Jacobian` accept names as `bytes` only (`C80_not_text`). In python 2 an exception of `mergeSubBodies` ends the program, since the declaration lacks
  `except +` (`C80_not_merge_exceptions`).
* **C80** `ConfigConverter.convertJoint` computes the converted values and returns `None` (`C80_not_convert_joint`). `Joint.forward(-1.)` makes a joint
  forward (`C80_not_forward`).
* **C80** `InverseDynamics(x)`, `ForwardDynamics(x)`, `IDIM(x)` with any `x`, and `Jacobian(mb, name, x)`, `CoMJacobian(mb, x)`, `CoMJacobianDummy(mb, x)`
  and `CentroidalMomentumMatrix(mb, x)` with an `x` of the wrong type (a list as point, a tuple or a numpy array as weights) succeed and give a
  default-constructed object, whose first use reads outside its vectors (`C80_not_constructor_one`, `C80_not_constructor_forward`,
  `C80_not_constructor_weights`, `C80_not_jacobian_constructor`). `MultiBody(...)` with fewer joints than bodies and `Coriolis.coriolis` with a short state
  are undefined behaviour and not exceptions (`C80_not_multibody`, `C80_not_coriolis`). `makeMultiBody` does not check the number of a joint type.
* **C81** `InverseKinematics` stops when the norm of the residual, in which radians and lengths are added, is below `1e-8`, and rounds entries of the
  Jacobian below `1e-8` to zero. The solution returned therefore depends on the unit of length: for one sliding joint the remaining error is `5e-10`
  in metres and `5e-13` metres when everything is given in millimetres (`C81_inverse_kinematics_counterexample`).
* **C86** Inverse kinematics misses targets that can be reached: the iteration does not move where the residual is orthogonal to the columns of the
  Jacobian, which a stretched arm with a target on its own line is an example of (`C86_stuck`, `C86_stuck_counterexample`, over the real numbers and
  with exact least squares). Convergence is proved everywhere for paths of sliding joints,
  and near configurations with a regular Jacobian when joints turn (`C86_regular_partial`, `C86_redundant_partial`).
