{"id": "C01", "title": "Neutral joint configuration gives the identity pose", "statement": "For a joint of any type, axis and direction that is not a mimic joint, pose(zeroParam()) is the identity transform and motion(zeroDof()) is the zero motion; the two neutral vectors have exactly params() and dof() entries.", "quantifier": "all joint types, all axes (also non-unit), both directions, all names", "why_tests_cant": "tests instantiate a handful of axes; the claim is over the continuum of axes and every type/direction combination", "anchors": ["src/RBDyn/RBDyn/Joint.h: Joint::pose, Joint::zeroParam, Joint::zeroDof, Joint::ZeroParam, Joint::ZeroDof, Joint::constructJoint"]}
{"id": "C02", "title": "Reversing a joint inverts its pose", "statement": "A joint built with forward=false has, at every configuration, the inverse pose of the same joint built with forward=true.", "quantifier": "all joint types, all unit axes, all configurations (unit quaternions for Spherical/Free)", "why_tests_cant": "the configuration space is a continuum; a test samples finitely many configurations", "anchors": ["src/RBDyn/RBDyn/Joint.h: Joint::pose, Joint::constructJoint"]}
{"id": "C03", "title": "A joint pose is a proper rigid transform", "statement": "For every configuration the rotation part of pose(q) is orthonormal with determinant +1.", "quantifier": "all types, all unit axes, both directions, all configurations (unit quaternions for Spherical/Free)", "why_tests_cant": "finitely many sampled angles cannot establish orthonormality for all angles and axes", "anchors": ["src/RBDyn/RBDyn/Joint.h: Joint::pose, QuatToE"]}
{"id": "C04", "title": "Setting the direction of a joint is the same as building it in that direction", "statement": "After any sequence of forward(bool) calls a joint behaves (pose, motion, tanAccel, motionSubspace, params, dof, direction, name) exactly as a joint freshly constructed with the last requested direction.", "quantifier": "all joints, all finite sequences of forward(bool) calls", "why_tests_cant": "sequences of calls are unbounded; a test exercises one or two toggles", "anchors": ["src/RBDyn/RBDyn/Joint.h: Joint::forward(bool), Joint::constructJoint"]}
{"id": "C05", "title": "Joint velocity and tangential acceleration are the motion subspace applied to the generalized velocity", "statement": "motion(a) and tanAccel(a) equal motionSubspace()*a for every joint and every vector a of dof() entries; the safe variants sPose/sMotion/sTanAccel throw domain_error exactly when the size is wrong, otherwise return what the unchecked variant returns, and never read out of bounds.", "quantifier": "all joints, all vectors of all sizes", "why_tests_cant": "quantifies over all vectors and all sizes, including every wrong size", "anchors": ["src/RBDyn/RBDyn/Joint.h: Joint::motion, Joint::tanAccel, Joint::sPose, Joint::sMotion, Joint::sTanAccel"]}
{"id": "C06", "title": "The motion subspace is the time derivative of the pose", "statement": "Along every differentiable configuration trajectory whose generalized velocity is alpha(t), the joint pose moves with spatial velocity motion(alpha(t)) expressed in the successor frame.", "quantifier": "all forward joints of every type, all differentiable trajectories, all times; both directions for Rev, Prism and Cylindrical", "why_tests_cant": "a statement about derivatives of all trajectories; finite differences in tests are approximate and pointwise", "anchors": ["src/RBDyn/RBDyn/Joint.h: Joint::pose, Joint::motion"]}
{"id": "C07", "title": "Generalized coordinates are laid out contiguously without overlap", "statement": "jointPosInParam/jointPosInDof of joint i is the sum of params/dof of the joints before it; the segments of the joints are disjoint and exactly cover [0,nrParams) and [0,nrDof).", "quantifier": "all MultiBody objects of any number of joints", "why_tests_cant": "unbounded number of joints and type mixes", "anchors": ["src/RBDyn/MultiBody.cpp: MultiBody::MultiBody", "src/RBDyn/RBDyn/MultiBody.h: jointPosInParam, jointPosInDof, nrParams, nrDof"]}
{"id": "C08", "title": "Name lookup is the inverse of indexing", "statement": "If body (joint) names are pairwise distinct, looking up the name of body (joint) i gives i; the checked lookup throws out_of_range exactly for names that do not occur, the unchecked lookup is undefined exactly for those.", "quantifier": "all MultiBody objects with distinct names, all names", "why_tests_cant": "all name sets and sizes", "anchors": ["src/RBDyn/MultiBody.cpp: MultiBody::MultiBody", "src/RBDyn/RBDyn/MultiBody.h: bodyIndexByName, jointIndexByName, sBodyIndexByName, sJointIndexByName"]}
{"id": "C09", "title": "Checked MultiBody accessors throw exactly when the index is invalid", "statement": "sBody, sJoint, sPredecessor, sSuccessor, sParent, sTransform, sJointPosInParam and sJointPosInDof throw out_of_range for exactly the invalid indices (including negative ones) and otherwise return what the unchecked accessor returns.", "quantifier": "all MultiBody objects, all int indices", "why_tests_cant": "all sizes and all integers", "anchors": ["src/RBDyn/RBDyn/MultiBody.h: sBody, sJoint, sPredecessor, sSuccessor, sParent, sTransform, sJointPosInParam, sJointPosInDof"]}
{"id": "C10", "title": "A fresh configuration is consistent and zero() is neutral", "statement": "MultiBodyConfig(mb) has one entry per joint/body in every per-joint/per-body vector; after zero(mb) it passes every size check of the library, and every joint is at its neutral position, velocity and acceleration.", "quantifier": "all MultiBody objects", "why_tests_cant": "unbounded number of bodies and joint mixes", "anchors": ["src/RBDyn/MultiBodyConfig.cpp: MultiBodyConfig::MultiBodyConfig, MultiBodyConfig::zero", "src/RBDyn/MultiBodyConfig.cpp: checkMatch* functions"]}
{"id": "C11", "title": "Flattening and unflattening configurations are mutually inverse", "statement": "paramToVector/vectorToParam and dofToVector/vectorToDof are mutually inverse on well-sized data and place joint i's entries at jointPosInParam(i)/jointPosInDof(i); the checked versions throw out_of_range exactly on a size mismatch.", "quantifier": "all MultiBody objects, all well-sized per-joint vectors, all vectors of all lengths", "why_tests_cant": "all sizes and values", "anchors": ["src/RBDyn/MultiBodyConfig.cpp: paramToVector, vectorToParam, sParamToVector, sVectorToParam, dofToVector, vectorToDof"]}
{"id": "C12", "title": "Configuration conversion between two MultiBody of the same graph is lossless", "statement": "For two MultiBody objects having the same joints (by name) in different orders, a ConfigConverter copies the values of every non-root joint to the joint of the same name, leaves the root joint of the destination alone, and converting back restores the original values.", "quantifier": "all pairs of MultiBody objects whose non-root joints carry the same distinct names, all configurations", "why_tests_cant": "all sizes, all permutations", "anchors": ["src/RBDyn/MultiBodyConfig.cpp: ConfigConverter::ConfigConverter, ConfigConverter::convert, sConvert"]}
{"id": "C13", "title": "Graph construction keeps names unique", "statement": "addBody and addJoint throw domain_error exactly when the name is already used by a body (joint), leave the graph unchanged in that case, and otherwise make exactly the new element available under its name; every graph reachable from the empty graph has pairwise distinct body names and pairwise distinct joint names.", "quantifier": "all finite sequences of addBody/addJoint/linkBodies calls", "why_tests_cant": "unbounded histories of calls", "anchors": ["src/RBDyn/MultiBodyGraph.cpp: MultiBodyGraph::addBody, MultiBodyGraph::addJoint, nodeByName, jointByName"]}
{"id": "C14", "title": "Linking bodies creates the two directed views of one joint", "statement": "linkBodies throws out_of_range exactly if one of the names is unknown (leaving the graph unchanged); otherwise each of the two bodies sees the other through the same joint, once in its declared direction and once reversed, with the two static transforms exchanged.", "quantifier": "all graphs, all names, all transforms", "why_tests_cant": "all graphs and histories", "anchors": ["src/RBDyn/MultiBodyGraph.cpp: MultiBodyGraph::linkBodies"]}
{"id": "C15", "title": "makeMultiBody on a tree visits every body exactly once, parents first", "statement": "If the links of the graph form a tree, makeMultiBody(root) contains every body exactly once with the root body at index 0, joint i moves body i, its predecessor and parent are an earlier body which is the neighbour of body i in the graph, and joint and body counts agree.", "quantifier": "all tree-shaped graphs built through the API, all choices of root body", "why_tests_cant": "all trees of any size and branching, and all roots", "anchors": ["src/RBDyn/MultiBodyGraph.cpp: MultiBodyGraph::makeMultiBody"]}
{"id": "C16", "title": "makeMultiBody preserves total mass", "statement": "The total mass of the bodies of the MultiBody is the total mass of the bodies of the graph, whatever root is chosen.", "quantifier": "all tree-shaped graphs, all roots", "why_tests_cant": "all trees and all roots", "anchors": ["src/RBDyn/MultiBodyGraph.cpp: MultiBodyGraph::makeMultiBody"]}
{"id": "C17", "title": "Relative body poses do not depend on the chosen root", "statement": "For the same joint positions, the transform between any two bodies computed by forward kinematics is the same for every root body from which the MultiBody was built.", "quantifier": "all tree-shaped graphs, all pairs of roots, all pairs of bodies, all configurations (unit axes, unit quaternions)", "why_tests_cant": "tests compare a few roots of one robot at a few configurations", "anchors": ["src/RBDyn/MultiBodyGraph.cpp: MultiBodyGraph::makeMultiBody", "src/RBDyn/FK.cpp: forwardKinematics"]}
{"id": "C18", "title": "removeJoint removes exactly the far side of the joint", "statement": "On a tree, removeJoint(root, j) removes from the graph exactly the bodies and joints that are separated from root by j (and j itself); every other body, joint and link is untouched. An unknown joint name is a no-op and an unknown root throws out_of_range.", "quantifier": "all tree-shaped graphs, all roots at which no joint bears the root joint's name, all joint names", "why_tests_cant": "all trees; the reachable side is unbounded", "anchors": ["src/RBDyn/MultiBodyGraph.cpp: MultiBodyGraph::removeJoint, rmArc, rmNodeFromJoint"]}
{"id": "C19", "title": "mergeSubBodies preserves mass, first moment and inertia", "statement": "Merging the sub-bodies below the given joints at a given configuration gives the kept body the spatial inertia that the merged bodies have together, expressed in the kept body's frame, so total mass, centre of mass and total inertia of the system at that configuration are unchanged.", "quantifier": "all tree-shaped graphs, all roots at which no joint bears the root joint's name, all joints, all configurations", "why_tests_cant": "all trees and configurations", "anchors": ["src/RBDyn/MultiBodyGraph.cpp: MultiBodyGraph::mergeSubBodies, findMergeSubNodes, mergeInertia, merge"]}
{"id": "C20", "title": "fixJoints freezes the named joints and keeps everything else", "statement": "After fixJoints on a set of joints, a MultiBody made from the resulting graph has the same bodies and topology, the named joints have no degree of freedom, the others are unchanged; the pose of the bodies equals that of the original at the neutral position of the fixed joints.", "quantifier": "all tree-shaped graphs, all sets of joint names", "why_tests_cant": "all graphs and subsets of joints", "anchors": ["src/RBDyn/MultiBodyGraph.cpp: MultiBodyGraph::fixJoints"]}
{"id": "C21", "title": "A copied graph is independent of the original", "statement": "Copying a MultiBodyGraph gives a graph with the same bodies, joints and links on which later operations never affect the original, and conversely.", "quantifier": "all graphs, all later sequences of operations on either copy", "why_tests_cant": "aliasing bugs show only under particular later histories", "anchors": ["src/RBDyn/MultiBodyGraph.cpp: MultiBodyGraph copy constructor and assignment"]}
{"id": "C22", "title": "successorJoints, predecessorJoint and bodiesBaseTransform agree with the built MultiBody", "statement": "For a tree and a root, the joints reported as successors of a body, the joint reported as its predecessor and the reported base transform are those of the MultiBody made with the same root.", "quantifier": "all tree-shaped graphs, all roots, all bodies", "why_tests_cant": "all trees and roots", "anchors": ["src/RBDyn/MultiBodyGraph.cpp: MultiBodyGraph::successorJoints, predecessorJoint, bodiesBaseTransform"]}
{"id": "C23", "title": "Forward kinematics composes transforms along the path to the root", "statement": "For every body, the world pose after forwardKinematics is the product of the parent-to-son transforms of all joints from that body up to the root; nothing else in the configuration than joint poses, motion subspaces, parent-to-son and world transforms changes, and no out-of-bounds access happens when the sizes match.", "quantifier": "all MultiBody objects with predecessors before successors, all configurations", "why_tests_cant": "all trees of any depth", "anchors": ["src/RBDyn/FK.cpp: forwardKinematics, sForwardKinematics"]}
{"id": "C24", "title": "Forward velocity is the sum of the joint velocities along the path", "statement": "For every body, the body velocity after forwardVelocity equals the sum over the joints from root to body of the joint velocity transported to the body frame, and bodyVelW is bodyVelB rotated to the world frame orientation.", "quantifier": "all MultiBody objects with predecessors before successors, all velocities", "why_tests_cant": "all trees of any depth, all values", "anchors": ["src/RBDyn/FV.cpp: forwardVelocity, sForwardVelocity"]}
{"id": "C25", "title": "Forward acceleration is the time derivative of the velocity", "statement": "For every body, the body acceleration after forwardAcceleration is the sum along the path of transported joint accelerations S*alphaD plus the velocity product terms, plus the transported base acceleration.", "quantifier": "all MultiBody objects, all velocities, accelerations and base accelerations", "why_tests_cant": "all trees of any depth, all values", "anchors": ["src/RBDyn/FA.cpp: forwardAcceleration, sForwardAcceleration"]}
{"id": "C26", "title": "Inverse dynamics satisfies Newton-Euler for every subtree", "statement": "The torque computed by inverseDynamics for each joint is the projection on its motion subspace of the sum, over all bodies of the subtree it carries, of (rate of change of momentum - external force - weight), transported to the joint.", "quantifier": "all MultiBody objects, all configurations, velocities, accelerations, external forces, gravity", "why_tests_cant": "all trees and all real inputs", "anchors": ["src/RBDyn/ID.cpp: InverseDynamics::inverseDynamics"]}
{"id": "C27", "title": "Forward and inverse dynamics are mutually inverse", "statement": "With H from computeH and C from computeC, inverse dynamics torque equals H*alphaD + C for all accelerations; hence whenever the linear solve is exact, the accelerations from forwardDynamics reproduce the applied torques through inverseDynamics.", "quantifier": "all MultiBody objects, states, accelerations, external forces, gravity", "why_tests_cant": "all trees and all real inputs; the tests check single robots with random states and a tolerance", "anchors": ["src/RBDyn/FD.cpp: ForwardDynamics::computeH, computeC, forwardDynamics", "src/RBDyn/ID.cpp: inverseDynamics"]}
{"id": "C28", "title": "The mass matrix is symmetric", "statement": "computeH produces a symmetric matrix.", "quantifier": "all MultiBody objects and configurations", "why_tests_cant": "all trees and configurations", "anchors": ["src/RBDyn/FD.cpp: ForwardDynamics::computeH"]}
{"id": "C29", "title": "The mass matrix is the kinetic energy metric", "statement": "For every velocity, alpha^T H alpha is the sum over bodies of v^T I v; hence it is non-negative when body inertias are physically valid (positive semidefinite).", "quantifier": "all MultiBody objects, configurations and velocities", "why_tests_cant": "all trees and all real inputs", "anchors": ["src/RBDyn/FD.cpp: ForwardDynamics::computeH", "src/RBDyn/FV.cpp: forwardVelocity"]}
{"id": "C30", "title": "The centrifugal/Coriolis matrix reproduces the bias force and makes Hdot-2C skew", "statement": "The matrix C returned by Coriolis::coriolis satisfies C*alpha = bias torque without gravity and external forces, and C + C^T is the time derivative of the mass matrix.", "quantifier": "all MultiBody objects, configurations, velocities", "why_tests_cant": "all trees and all real inputs", "anchors": ["src/RBDyn/Coriolis.cpp: Coriolis::coriolis"]}
{"id": "C31", "title": "The inverse dynamics identification regressor is exact", "statement": "computeY(mb,mbc) multiplied by the stacked inertial parameters of the bodies equals the inverse dynamics torque without external forces; inertiaToVector and vectorToInertia are mutually inverse.", "quantifier": "all MultiBody objects, states and inertial parameters", "why_tests_cant": "all trees and all real inputs", "anchors": ["src/RBDyn/IDIM.cpp: IDIM::computeY, inertiaToVector, vectorToInertia, multiBodyToInertialVector, IMPhi"]}
{"id": "C32", "title": "Inverse statics equals inverse dynamics at rest", "statement": "inverseStatics gives the torque that inverseDynamics gives with zero velocity and zero acceleration.", "quantifier": "all MultiBody objects, configurations, external forces, gravity", "why_tests_cant": "all trees and all real inputs", "anchors": ["src/RBDyn/IS.cpp: InverseStatics::inverseStatics", "src/RBDyn/ID.cpp: inverseDynamics"]}
{"id": "C33", "title": "Power balance", "statement": "The joint power tau^T alpha of inverseDynamics equals the rate of change of kinetic energy minus the power of gravity and external forces.", "quantifier": "all MultiBody objects, states, external forces, gravity", "why_tests_cant": "all trees and all real inputs", "anchors": ["src/RBDyn/ID.cpp: InverseDynamics::inverseDynamics", "src/RBDyn/FV.cpp", "src/RBDyn/FA.cpp"]}
{"id": "C34", "title": "The Jacobian maps generalized velocity to the velocity of the point", "statement": "For every body and point, jacobian(mb,mbc)*alpha is the velocity of the point expressed with world orientation and bodyJacobian(mb,mbc)*alpha the velocity in body coordinates, as given by forwardVelocity.", "quantifier": "all MultiBody objects, bodies, points, configurations, velocities", "why_tests_cant": "all trees and all real inputs", "anchors": ["src/RBDyn/Jacobian.cpp: Jacobian::jacobian, bodyJacobian, velocity, bodyVelocity"]}
{"id": "C35", "title": "The Jacobian derivative gives the normal acceleration", "statement": "jacobianDot*alpha equals normalAcceleration and bodyJacobianDot*alpha equals bodyNormalAcceleration; with jacobian*alphaD it adds up to the acceleration of the point from forwardAcceleration.", "quantifier": "all MultiBody objects, bodies, points, states", "why_tests_cant": "all trees and all real inputs", "anchors": ["src/RBDyn/Jacobian.cpp: Jacobian::jacobianDot, bodyJacobianDot, normalAcceleration, bodyNormalAcceleration"]}
{"id": "C36", "title": "Expanding a Jacobian to full size is faithful", "statement": "fullJacobian places each path joint's columns at that joint's position in the dof vector and zero elsewhere, so full*alpha equals compact*alpha restricted to the path; addFullJacobian adds the same; compactPath and expandAdd agree with fullJacobian products.", "quantifier": "all MultiBody objects, bodies, matrices", "why_tests_cant": "all trees and sizes", "anchors": ["src/RBDyn/Jacobian.cpp: Jacobian::fullJacobian, addFullJacobian, compactPath, expand, expandAdd"]}
{"id": "C37", "title": "The relative Jacobian is the difference of the two body Jacobians", "statement": "A Jacobian built for a body relative to a reference body, multiplied by alpha, gives the velocity of the body point relative to the reference body.", "quantifier": "all MultiBody objects, all pairs of bodies", "why_tests_cant": "all trees and pairs", "anchors": ["src/RBDyn/Jacobian.cpp: Jacobian::Jacobian(mb, bodyName, refBodyName, ...), jacobian"]}
{"id": "C38", "title": "Translating a Jacobian moves the point", "statement": "translateJacobian(J, mbc, p) is the Jacobian of the point p for the same body.", "quantifier": "all MultiBody objects, bodies, points, configurations", "why_tests_cant": "all trees and real inputs", "anchors": ["src/RBDyn/Jacobian.cpp: Jacobian::translateJacobian, translateBodyJacobian"]}
{"id": "C39", "title": "Centre of mass velocity, Jacobian and accelerations are consistent", "statement": "CoM Jacobian*alpha is the CoM velocity, both implementations give the same matrix, Jdot*alpha is the normal acceleration, and J*alphaD + normal acceleration is the CoM acceleration.", "quantifier": "all MultiBody objects with non-zero total mass, weights one, states", "why_tests_cant": "all trees and real inputs", "anchors": ["src/RBDyn/CoM.cpp: computeCoM, computeCoMVelocity, computeCoMAcceleration, CoMJacobian, CoMJacobianDummy"]}
{"id": "C40", "title": "Centroidal momentum matrix gives the momentum", "statement": "The centroidal momentum matrix times alpha is the total momentum of the bodies about the CoM, its derivative gives the normal momentum rate, and total linear momentum is total mass times CoM velocity.", "quantifier": "all MultiBody objects, states", "why_tests_cant": "all trees and real inputs", "anchors": ["src/RBDyn/Momentum.cpp: computeCentroidalMomentum, computeCentroidalMomentumDot, CentroidalMomentumMatrix"]}
{"id": "C41", "title": "Closed form integration of one-parameter joints", "statement": "Integrating a Rev, Prism or Cylindrical joint over a step with constant acceleration gives exactly q + alpha*dt + alphaD*dt^2/2, Fixed joints are unchanged, velocities become alpha + alphaD*dt for every joint type, and zero velocity and acceleration leave every configuration unchanged (for unit quaternions).", "quantifier": "all joints, states, steps", "why_tests_cant": "all real inputs", "anchors": ["src/RBDyn/NumericalIntegration.cpp: eulerJointIntegration, eulerIntegration, jointIntegration, integration"]}
{"id": "C42", "title": "Integration preserves unit quaternions", "statement": "If the quaternion of a Spherical or Free joint has unit norm before integration, it has unit norm afterwards.", "quantifier": "all states, steps and precisions for which the integration returns", "why_tests_cant": "all real inputs, unbounded number of integration sub-steps", "anchors": ["src/RBDyn/NumericalIntegration.cpp: SO3Integration"]}
{"id": "C43", "title": "ZMP is the point of the ground plane without horizontal moment", "statement": "computeCentroidalZMP variants return the point of the plane at the given altitude where the gravito-inertial wrench has no horizontal moment, and agree with each other when angular momentum rate and external wrench vanish.", "quantifier": "all CoM positions, accelerations, altitudes with non-zero vertical force", "why_tests_cant": "all real inputs", "anchors": ["src/RBDyn/ZMP.cpp: computeCentroidalZMP, computeCentroidalZMPNoGravity, computeCentroidalZMPComplete"]}
{"id": "C44", "title": "Image feature Jacobians are the derivatives of the projection", "statement": "The point interaction matrix maps the camera velocity to the velocity of the projected point, and its derivative gives the acceleration bias.", "quantifier": "all points in front of the camera, all velocities", "why_tests_cant": "all real inputs", "anchors": ["src/RBDyn/VisServo.cpp: imagePointJacobian, imagePointJacobianDot, poseJacobian, depthDotJacobian"]}
{"id": "C45", "title": "Inverse kinematics touches only the path and reports honestly", "statement": "InverseKinematics changes only the configuration of joints between root and end effector, performs at most max_iterations updates, and returns true only when the residual measured in the last iteration is below the threshold.", "quantifier": "all MultiBody objects with single-parameter joints on the path, all targets", "why_tests_cant": "all iteration histories", "anchors": ["src/RBDyn/IK.cpp: InverseKinematics::inverseKinematics"]}
{"id": "C46", "title": "Removed links and their joints never appear in a parsed robot", "statement": "After parsing, no filtered link (remove mode), no link without inertial element (if virtual links are removed) and no joint attached to one of them is in the graph; in keep mode exactly the joints whose child is filtered become fixed.", "quantifier": "all robot descriptions, all parser parameters", "why_tests_cant": "all documents", "anchors": ["src/parsers/urdf.cpp: parseMultiBodyGraphFromURDF", "src/parsers/yaml.cpp: parseLink, parseJoint"]}
{"id": "C47", "title": "Writing a robot to URDF and reading it back preserves joint frames and link inertias", "statement": "For every link with positive mass, from_urdf(to_urdf(r)) recovers mass, first moment and inertia; for every joint it recovers the static transform.", "quantifier": "all links, all joint frames", "why_tests_cant": "all rotations and inertias", "anchors": ["src/parsers/to_urdf.cpp: to_urdf", "src/parsers/urdf.cpp: RPY, originFromTag, from_urdf"]}
{"id": "C48", "title": "Writing a robot to YAML and reading it back preserves joint frames and link inertias", "statement": "For every link with positive mass, from_yaml(to_yaml(r)) recovers mass, first moment and inertia; for every joint it recovers the static transform.", "quantifier": "all links, all joint frames", "why_tests_cant": "all rotations and inertias", "anchors": ["src/parsers/to_yaml.cpp: to_yaml", "src/parsers/yaml.cpp: MatrixFromRPY, parseFrame, parseInertial"]}
{"id": "C49", "title": "The same angles mean the same rotation in URDF and YAML", "statement": "Roll-pitch-yaw angles denote the same rotation in both input formats.", "quantifier": "all triples of angles", "why_tests_cant": "continuum of angles", "anchors": ["src/parsers/urdf.cpp: RPY", "src/parsers/yaml.cpp: MatrixFromRPY"]}
{"id": "C50", "title": "Mesh path prefixing is idempotent", "statement": "prefix_path leaves prefixed paths alone, always returns a prefixed path, is idempotent and never alters the part after the prefix.", "quantifier": "all strings", "why_tests_cant": "all strings", "anchors": ["src/parsers/common.cpp: prefix_path"]}
{"id": "C51", "title": "Checked algorithm entry points reject exactly the mis-sized configurations", "statement": "sForwardKinematics, sForwardVelocity, sForwardAcceleration, sInverseDynamics, sForwardDynamics and sJacobian throw domain_error on a configuration whose sizes do not fit the MultiBody and otherwise never access out of bounds.", "quantifier": "all MultiBody objects, all configurations of any shape", "why_tests_cant": "all shapes of mis-sized data", "anchors": ["src/RBDyn/FK.cpp: sForwardKinematics", "src/RBDyn/FV.cpp: sForwardVelocity", "src/RBDyn/FA.cpp: sForwardAcceleration", "src/RBDyn/ID.cpp: sInverseDynamics", "src/RBDyn/FD.cpp: sForwardDynamics", "src/RBDyn/MultiBodyConfig.cpp: checkMatch*"]}
{"id": "C52", "title": "Integration is exact for the motions it treats in closed form", "statement": "For constant joint accelerations with a fixed rotation axis (spherical: velocity and acceleration parallel; planar and free: no rotation; all one and two parameter joints) the configuration returned by integration, as a function of the step, is the solution of the kinematic equations with the given initial state, for every step (negative ones included).", "quantifier": "all robots, all valid states, all steps", "why_tests_cant": "continuum of steps and states", "anchors": ["src/RBDyn/NumericalIntegration.cpp: integration, jointIntegration"]}
{"id": "C53", "title": "The error estimates are the fourth derivatives they claim to be", "statement": "fourthDerivativeSquaredNormFree and ...Planar return the squared norm of the fourth time derivative of R(t) v(t) along every motion with constant angular and linear acceleration.", "quantifier": "all rotations, velocities and accelerations", "why_tests_cant": "continuum of motions", "anchors": ["src/RBDyn/NumericalIntegration.cpp: fourthDerivativeSquaredNormFree, fourthDerivativeSquaredNormPlanar"]}
{"id": "C54", "title": "Terms neglected by the Magnus expansion are within tolerance", "statement": "When magnusExpansion returns without warning, each neglected term up to the fifth is smaller than the absolute tolerance and than the relative tolerance times the first term.", "quantifier": "all velocities, accelerations, steps and tolerances", "why_tests_cant": "continuum of inputs", "anchors": ["src/RBDyn/NumericalIntegration.cpp: magnusExpansion"]}
{"id": "C55", "title": "Reading a tree yields that tree", "statement": "Every URDF or YAML document whose links and joints have distinct names and make a tree rooted at the base link, and whose elements can be read, is read without error (no filtering); the bodies are the links with the mass, first moment and inertia about the link origin the document describes, the joints are the root joint and the joints of the document with their type, axis, static transform (and mimic in URDF) between the links they name, each parent before its child.", "quantifier": "all documents that describe a tree, of any size and shape", "why_tests_cant": "unbounded documents", "anchors": ["src/parsers/urdf.cpp: from_urdf, parseMultiBodyGraphFromURDF", "src/parsers/yaml.cpp: RBDynFromYAML::RBDynFromYAML, parseLink, parseJoint, from_yaml", "src/RBDyn/MultiBodyGraph.cpp: makeMultiBody"]}
{"id": "C56", "title": "The torque Jacobian of inverse statics is the derivative of its torques", "statement": "computeTorqueJacobianJoint returns, for each joint, the matrix that maps the generalized velocity to the time derivative of the torque inverse statics computes, for every trajectory, every gravity and external forces with the given Jacobians; the object accepts every robot and can be reused.", "quantifier": "all robots, all valid configurations, all trajectories through them", "why_tests_cant": "continuum of configurations, unbounded trees", "anchors": ["src/RBDyn/IS.cpp: InverseStatics::InverseStatics, setJacobianSize, computeTorqueJacobianJoint, inverseStatics"]}
{"id": "C57", "title": "The vector Jacobians give the rate of change of a vector fixed in a body", "statement": "vectorJacobian and vectorBodyJacobian return matrices whose linear rows times the velocities of the path joints are the time derivative of a vector attached to the body, with the orientation of the world and of the body; nothing else of the object changes and it can be used again.", "quantifier": "all robots, all valid configurations, velocities and vectors, all trajectories", "why_tests_cant": "continuum of configurations, unbounded trees", "anchors": ["src/RBDyn/Jacobian.cpp: vectorJacobian, vectorBodyJacobian"]}
{"id": "C58", "title": "The sub-robot of a Jacobian has the kinematics of its path", "statement": "subMultiBody returns the serial chain of the bodies and joints of the path, with as many degrees of freedom as the Jacobian has columns; forward kinematics (and velocity) on it with the joint values of the robot gives the last body its pose (and velocity) in the robot, or relative to the reference body for a relative Jacobian.", "quantifier": "all robots, all bodies and pairs of bodies, all valid configurations", "why_tests_cant": "unbounded chains, continuum of configurations", "anchors": ["src/RBDyn/Jacobian.cpp: subMultiBody, sSubMultiBody"]}
{"id": "C59", "title": "Visual and collision elements survive writing and reading", "statement": "Writing a robot with to_urdf or to_yaml and reading it back with the same format gives every body the same visual and collision elements, in the same order, with the same origin, geometry and material, except that element names are lost, elements of unknown geometry are dropped and file names get a scheme; a second round trip changes nothing.", "quantifier": "all lists of bodies, all lists of elements of every kind", "why_tests_cant": "unbounded lists, all kinds of geometry", "anchors": ["src/parsers/to_urdf.cpp: to_urdf", "src/parsers/to_yaml.cpp: to_yaml", "src/parsers/urdf.cpp: visualFromTag, materialFromTag", "src/parsers/yaml.cpp: parseVisuals, parseGeometry, parseMaterial"]}
{"id": "C60", "title": "Readers collect exactly the visual and collision elements of the links they keep", "statement": "from_urdf and from_yaml give each kept link exactly its elements that have a geometry, in order; they fail with an exception exactly on elements that cannot be read; a material reference is resolved in the same way in both formats; whatever a reader accepts, both writers can write.", "quantifier": "all documents, all filters", "why_tests_cant": "unbounded documents, malformed elements", "anchors": ["src/parsers/urdf.cpp: parseMultiBodyGraphFromURDF, visualFromTag, materialFromTag, geometryFromMesh", "src/parsers/yaml.cpp: parseVisuals, parseGeometry, parseMaterial, parseLink", "src/parsers/RBDyn/parsers/common.h: Geometry, Material, Visual"]}
{"id": "C61", "title": "The converter does what its usage says and keeps the robot", "statement": "The program urdf_yaml_conv reads the input its arguments and the standard input select, recognises its format, and writes the conversion where its usage says; it writes nothing and ends with an error when the input, the format or the output is missing; the document it writes describes the same robot, with the same visuals, as the one it read.", "quantifier": "all argument lists, all input texts, all file systems, all robots", "why_tests_cant": "unbounded texts and robots, all combinations of arguments and streams", "anchors": ["src/parsers/urdf_yaml_conv.cpp: main, getContent"]}
{"id": "C62", "title": "Python comparisons of parsed shapes", "statement": "In the python bindings, == of two geometries or two visual elements says whether the described fields are the same, != is its negation, and no comparison of two well formed values fails.", "quantifier": "all well formed geometries, dimensions, names, origins", "why_tests_cant": "all pairs of kinds and of dimensions; the existing tests use == only", "anchors": ["binding/python/rbdyn/parsers/parsers.pyx: __richcmp__"]}
{"id": "C63", "title": "Python pickling round trip", "statement": "Pickling a body, a joint or a robot in python and loading it back gives an object with the same members: axis, direction, sizes, names, layout and transforms.", "quantifier": "all joints reachable through the interface in both directions, all constructed robots with any number of bodies", "why_tests_cant": "unbounded robots, real axes, all sequences of direction changes", "anchors": ["binding/python/rbdyn/rbdyn.pyx: Body.pickle, Joint.pickle, MultiBody.pickle"]}
{"id": "C64", "title": "Python sequence wrappers", "statement": "Indexing, slicing and assigning through the python wrappers of vectors touches the elements a python list would touch, or raises an exception, and never reads or writes outside the vector.", "quantifier": "all vectors, indices, slices and values", "why_tests_cant": "unbounded vectors and all integers", "anchors": ["binding/python/rbdyn/rbdyn.pyx: DoubleVectorWrapper, DoubleVectorVectorWrapper, MultiBodyVector, MultiBodyConfigVector", "binding/python/include/rbdyn_wrapper.hpp: dv_set_item, dvv_set_item, mbcv_set_item"]}
{"id": "C65", "title": "The integrated translation is within the requested precision", "statement": "The translation that integration returns for a planar or free joint is, in each coordinate, within the precision prec of the translation of the exact motion with the given constant joint acceleration.", "quantifier": "all valid states, velocities, accelerations, non-negative steps and positive precisions", "why_tests_cant": "continuum of motions, exact solution not available to a test", "anchors": ["src/RBDyn/NumericalIntegration.cpp: planarJointIntegration, freeJointIntegration_, fourthDerivativeSquaredNormFree, fourthDerivativeSquaredNormPlanar"]}
{"id": "C66", "title": "Halving the step follows the motion", "statement": "Whatever the depth of the recursion, the integration of spherical and free joints is a sequence of expansions without warning over adjacent pieces that cover the step, each started with the state where the one before stopped and the velocity reached at that time; for free joints each piece is Simpson's rule with as many sub-steps as its error bound needs.", "quantifier": "all velocities, accelerations, steps, precisions, all recursion depths", "why_tests_cant": "unbounded recursion, continuum of inputs", "anchors": ["src/RBDyn/NumericalIntegration.cpp: sphericalJointIntegration, freeJointIntegration, freeJointIntegration_, SO3Integration"]}
{"id": "C67", "title": "The orientation step has the order of its series", "statement": "One step of SO3Integration with constant angular acceleration differs from the exact solution of the quaternion kinematics by at most a constant times the seventh power of the duration, as a Magnus expansion truncated after the fifth term does; when the expansion stops after the second term the power is the fifth.", "quantifier": "all angular velocities and accelerations of a bounded set, all durations, all tolerances, all exact motions", "why_tests_cant": "exact solution not available to a test, order of convergence is a limit", "anchors": ["src/RBDyn/NumericalIntegration.cpp: magnusExpansion, SO3Integration"]}
{"id": "C68", "title": "The integration converges", "statement": "When the precision goes to zero, the configuration that integration returns for a spherical, planar or free joint converges to the configuration of the exact motion with the given constant joint acceleration.", "quantifier": "all valid states, velocities, accelerations and steps (non-negative for planar and free joints), all recursion depths", "why_tests_cant": "a limit over all precisions and recursion depths, exact solution not available to a test", "anchors": ["src/RBDyn/NumericalIntegration.cpp: sphericalJointIntegration, freeJointIntegration, freeJointIntegration_, planarJointIntegration, SO3Integration, magnusExpansion"]}
{"id": "C69", "title": "All entry points of the readers are one reader", "statement": "The C++ overloads of from_urdf, from_urdf_file, from_yaml, from_yaml_file and from_file with positional arguments, the overloads with ParserParameters and the python functions of the same names give the same result for the same options; a file that can be opened is read like its text and one that cannot throws std::runtime_error; from_file takes the YAML reader exactly for paths ending in .yaml or .yml, the URDF reader exactly for paths ending in .urdf, and throws std::runtime_error exactly for the others.", "quantifier": "for all paths, texts, file systems, behaviours of the XML and YAML libraries, and options", "why_tests_cant": "Tests read a few files with a few of the overloads; they cannot cover all paths and combinations of seven options times five functions in two languages.", "anchors": ["src/parsers/common.cpp:10-45", "src/parsers/urdf.cpp:584-643", "src/parsers/yaml.cpp:720-760", "src/parsers/RBDyn/parsers/common.h:133-225", "binding/python/rbdyn/parsers/parsers.pyx:316-433"]}
{"id": "C70", "title": "Graphs that are not trees", "statement": "For every graph made with addBody, addJoint and linkBodies, makeMultiBody and the other functions that walk the graph return; the MultiBody contains every body of the graph exactly once, and where that is impossible (a closed chain, a body linked to itself, two bodies linked twice, bodies not connected to the root) an exception is thrown.", "quantifier": "all sequences of calls, all roots, unbounded graphs", "why_tests_cant": "unbounded graphs and call sequences; the tests build trees only", "anchors": ["src/RBDyn/MultiBodyGraph.cpp:18-120 addBody, addJoint, linkBodies", "src/RBDyn/MultiBodyGraph.cpp:127-325 makeMultiBody, bodiesBaseTransform, successorJoints, predecessorJoint"]}
{"id": "C71", "title": "A robot that is not attached to the world is moved by external forces only", "statement": "When the only root joint of a robot is a free joint without torque, the rate of change of the momentum that computeCentroidalMomentumDot gives for the accelerations computed by ForwardDynamics is the sum of the external forces and the weight, and its couple about the centre of mass is that of the external forces alone, whatever the torques of the other joints; along a whole motion without external forces the angular momentum about the centre of mass does not change and the centre of mass moves on a parabola.", "quantifier": "all trees of joints below one free root joint, all valid configurations, velocities, torques of the other joints, external forces and gravity; all differentiable motions", "why_tests_cant": "relates four algorithms (forward and inverse dynamics, centre of mass, centroidal momentum) over unbounded trees, real inputs and whole motions", "anchors": ["src/RBDyn/FD.cpp: forwardDynamics", "src/RBDyn/ID.cpp: inverseDynamics", "src/RBDyn/Momentum.cpp: computeCentroidalMomentum, computeCentroidalMomentumDot", "src/RBDyn/CoM.cpp: computeCoM, computeCoMVelocity"]}
{"id": "C72", "title": "The dynamics do not depend on where the robot stands", "statement": "When a whole robot is displaced rigidly, by another transform X_0_j0 of makeMultiBody or by another configuration of its root joint, and gravity and the external forces are displaced with it, then the mass matrix, the bias vector, the torques of inverse dynamics and the accelerations of forward dynamics are unchanged, and the poses, the centre of mass and the momentum are displaced with it.", "quantifier": "all rigid displacements, robots, root joint types, states, linear solvers", "why_tests_cant": "continuum of displacements and unbounded robots; tests use one placement", "anchors": ["src/RBDyn/FD.cpp: computeH, computeC, forwardDynamics", "src/RBDyn/ID.cpp: inverseDynamics", "src/RBDyn/CoM.cpp: computeCoM", "src/RBDyn/Momentum.cpp: computeCentroidalMomentum", "src/RBDyn/MultiBodyGraph.cpp: makeMultiBody"]}
{"id": "C73", "title": "Joint limits are those of the document", "statement": "After from_urdf and from_yaml the limits hold an entry for exactly the joints read; a fixed joint has no limit, a joint for which the document gives no limit is unlimited, and otherwise the lower, upper, velocity and effort limits are the numbers of the document, angles in degrees being converted to radians and lengths left as they are; the robot so read can be written again with the same limits.", "quantifier": "all documents that are read, all parameters, joints with any number of degrees of freedom", "why_tests_cant": "all documents and real limits; the tests read one robot with complete limits", "anchors": ["src/parsers/urdf.cpp:546-578", "src/parsers/yaml.cpp: parseJointLimits", "src/parsers/to_urdf.cpp: is_continuous", "src/parsers/to_yaml.cpp: is_continuous"]}
{"id": "C74", "title": "Derivatives and velocities of a relative Jacobian", "statement": "For a Jacobian object built with a reference body, jacobianDot and bodyJacobianDot are the time derivatives of jacobian and bodyJacobian, velocity and bodyVelocity are J\u00b7alpha and JBody\u00b7alpha, and normalAcceleration and bodyNormalAcceleration are JDot\u00b7alpha and JBodyDot\u00b7alpha, as the header documents.", "quantifier": "all robots, bodies, reference bodies, points, states and differentiable motions", "why_tests_cant": "continuum of motions and unbounded trees; the derivative is a limit; the tests of relative Jacobians check jacobian and bodyJacobian only", "anchors": ["src/RBDyn/Jacobian.cpp:44-103 Jacobian", "src/RBDyn/Jacobian.cpp:310-437 jacobianDot, bodyJacobianDot, velocity, bodyVelocity, normalAcceleration", "src/RBDyn/RBDyn/Jacobian.h:114-182"]}
{"id": "C75", "title": "The motion and the dynamics do not depend on the root body", "statement": "Two MultiBodies made from one graph with different root bodies describe the same robot: for the same joint positions and velocities all relative velocities of the bodies agree; when one body has the same pose and velocity all bodies have, and the centre of mass and the momentum agree; when moreover gravity and external forces agree, inverse dynamics finds the same joint torques for the same accelerations, and forward dynamics the same joint and body accelerations for the same torques.", "quantifier": "all trees of bodies, all pairs of root bodies, root joints, transforms and states", "why_tests_cant": "unbounded graphs, all pairs of roots and a continuum of states; reversed joints and moved body frames enter every algorithm", "anchors": ["src/RBDyn/MultiBodyGraph.cpp: makeMultiBody, bodiesBaseTransform", "src/RBDyn/FV.cpp: forwardVelocity", "src/RBDyn/FA.cpp: forwardAcceleration", "src/RBDyn/ID.cpp: inverseDynamics", "src/RBDyn/FD.cpp: forwardDynamics", "src/RBDyn/CoM.cpp: computeCoM", "src/RBDyn/Momentum.cpp: computeCentroidalMomentum", "src/RBDyn/RBDyn/Joint.h: motionSubspace"]}
{"id": "C76", "title": "Algorithm objects have no memory", "statement": "The objects that hold an algorithm and its working memory (InverseDynamics, ForwardDynamics, InverseStatics, Jacobian, Coriolis, CoMJacobianDummy, CoMJacobian, CentroidalMomentumMatrix, IDIM, InverseKinematics) can be reused: the result of a call, or its error, depends on its arguments and the parameters of the object only, not on which calls were made before nor on the contents of memory that the constructor left uninitialised.", "quantifier": "all robots, all sequences of calls of any length with any states, all contents of uninitialised memory", "why_tests_cant": "unbounded sequences of calls and arbitrary initial memory; a test sees the memory its allocator returns", "anchors": ["src/RBDyn/ID.cpp", "src/RBDyn/FD.cpp", "src/RBDyn/IS.cpp: inverseStatics, computeTorqueJacobian", "src/RBDyn/Jacobian.cpp", "src/RBDyn/Coriolis.cpp", "src/RBDyn/CoM.cpp: CoMJacobianDummy, CoMJacobian", "src/RBDyn/Momentum.cpp: CentroidalMomentumMatrix", "src/RBDyn/IDIM.cpp: computeY", "src/RBDyn/IK.cpp: inverseKinematics"]}
{"id": "C77", "title": "Inverse dynamics satisfies Lagrange's equations", "statement": "For every degree of freedom whose coordinate is the integral of its velocity (Rev, Prism, Cylindrical joints), the torque computed by inverseDynamics is d/dt dT/d(alpha) - dT/dq + dU/dq minus the generalized external force, where T and U are the kinetic and the potential energy of the poses and velocities computed by forwardKinematics and forwardVelocity; for the other joints Hamel's form of the equations holds, with the bracket of the motion subspace; the torque of inverseStatics without external forces is dU/dq.", "quantifier": "all robots, joint types, trajectories, inertias, gravities and external forces", "why_tests_cant": "derivatives along a continuum of motions, unbounded trees", "anchors": ["src/RBDyn/ID.cpp:18-45 inverseDynamics", "src/RBDyn/ID.cpp:100 computeJointTorques", "src/RBDyn/IS.cpp:74 inverseStatics", "src/RBDyn/FK.cpp: forwardKinematics", "src/RBDyn/FV.cpp: forwardVelocity", "src/RBDyn/RBDyn/Joint.h: motionSubspace"]}
{"id": "C78", "title": "Merging or fixing joints is holding them still", "statement": "The robot made from a graph after mergeSubBodies moves like the robot made from the graph before whose merged joints are held at the positions given to mergeSubBodies: the bodies left have the same poses, velocities and accelerations, the centre of mass and the momentum are the same, inverse dynamics finds the same torques of the joints left when the forces on merged bodies act on the body they were merged into, and forward dynamics finds the same accelerations when the merged joints are held. The same is true of fixJoints with the fixed joints held at their neutral positions; the mass matrix and the nonlinear terms lose the rows and columns of the fixed joints.", "quantifier": "all trees of bodies, merged or fixed joints, root bodies, root joints and states", "why_tests_cant": "unbounded graphs and a continuum of states; the tests compare the inertias of one merged robot", "anchors": ["src/RBDyn/MultiBodyGraph.cpp:230-236 mergeSubBodies", "src/RBDyn/MultiBodyGraph.cpp:327-371 fixJoints", "src/RBDyn/MultiBodyGraph.cpp: makeMultiBody, mergeInertia", "src/RBDyn/FK.cpp: forwardKinematics", "src/RBDyn/FV.cpp: forwardVelocity", "src/RBDyn/FA.cpp: forwardAcceleration", "src/RBDyn/ID.cpp: inverseDynamics", "src/RBDyn/FD.cpp: computeH, computeC, forwardDynamics", "src/RBDyn/CoM.cpp: computeCoM", "src/RBDyn/Momentum.cpp: computeCentroidalMomentum"]}
{"id": "C79", "title": "The algorithms agree about the Jacobians", "statement": "A wrench w that acts at a point of a body changes the torques of inverseDynamics and inverseStatics and the vector C of forwardDynamics by minus Jt*w, where J is the Jacobian that fullJacobian gives for this point, and forwardDynamics solves H*alphaD + C = torques + Jt*w; gravity changes the torques by the total mass times the transposed Jacobian of the centre of mass times gravity; the last three rows of the centroidal momentum matrix are the total mass times the Jacobian of the centre of mass; the mass matrix is the sum over the bodies of Jt*I*J with the Jacobians of bodyJacobian, and its rows of the root joint are the centroidal momentum matrix projected on the motion subspace of this joint.", "quantifier": "all robots, bodies, points, wrenches, gravities, weights and valid states", "why_tests_cant": "relates seven algorithms that compute their matrices in different ways, over unbounded trees and a continuum of states", "anchors": ["src/RBDyn/ID.cpp:18-45 inverseDynamics", "src/RBDyn/ID.cpp:47 inverseDynamicsNoInertia", "src/RBDyn/FD.cpp:44 computeH", "src/RBDyn/FD.cpp:95 computeC", "src/RBDyn/FD.cpp: forwardDynamics", "src/RBDyn/IS.cpp:74 inverseStatics", "src/RBDyn/Jacobian.cpp:195-212 jacobian", "src/RBDyn/Jacobian.cpp:494 fullJacobian", "src/RBDyn/CoM.cpp:280 CoMJacobian::jacobian", "src/RBDyn/Momentum.cpp:141 computeMatrix"]}
{"id": "C80", "title": "A python call does what the C++ call does", "statement": "A call of the python bindings with arguments of a documented kind (names as str or bytes, both python versions) does what the C++ function does with the values the arguments stand for: it returns the same result, leaves the same graph, and where C++ throws it raises the python exception of that kind; arguments of another kind are rejected with a python exception and change nothing. This covers building, editing and querying a MultiBodyGraph, makeMultiBody, the constructors of Joint, MultiBody, Jacobian and of the algorithm objects, and the calls of these objects.", "quantifier": "all graphs, names, argument lists of any length, states and objects, python 2 and 3", "why_tests_cant": "argument lists and graphs are unbounded; the binding tests call each function once with one kind of argument, and the functions that edit a graph not at all", "anchors": ["binding/python/rbdyn/rbdyn.pyx:236-280 Joint", "binding/python/rbdyn/rbdyn.pyx:380-410 MultiBody", "binding/python/rbdyn/rbdyn.pyx:580-696 MultiBodyGraph", "binding/python/rbdyn/rbdyn.pyx:953-960 convertJoint", "binding/python/rbdyn/rbdyn.pyx:1010-1036 Jacobian", "binding/python/rbdyn/rbdyn.pyx:1202-1281 InverseDynamics, ForwardDynamics, Coriolis", "binding/python/rbdyn/rbdyn.pyx:1310-1426 CoMJacobian, CentroidalMomentumMatrix", "binding/python/rbdyn/c_rbdyn.pxd"]}
{"id": "C81", "title": "The results do not depend on the units", "statement": "Describing the same robot and the same state in other units of length, mass and time (inertias, static transforms, joint positions, velocities, accelerations, gravity, forces and torques multiplied by the powers of the factors that belong to them) changes every result only by the powers that belong to it: the poses and velocities of the bodies, the torques and accelerations of inverseDynamics, the mass matrix, the vector C, the accelerations of forwardDynamics, the centre of mass, the momentum, the Jacobians and the solution of inverseKinematics.", "quantifier": "all robots, joint types, states and all positive factors of length and mass and factors of time", "why_tests_cant": "unbounded trees and a continuum of states and factors; no test uses two systems of units", "anchors": ["src/RBDyn/RBDyn/Joint.h:341-381 pose", "src/RBDyn/FK.cpp: forwardKinematics", "src/RBDyn/FV.cpp: forwardVelocity", "src/RBDyn/ID.cpp:18-45 inverseDynamics", "src/RBDyn/FD.cpp: computeH, computeC, forwardDynamics", "src/RBDyn/CoM.cpp: computeCoM", "src/RBDyn/Momentum.cpp: computeCentroidalMomentum", "src/RBDyn/Jacobian.cpp: jacobian, fullJacobian", "src/RBDyn/IK.cpp:42-81 inverseKinematics"]}
{"id": "C82", "title": "Motions under forward dynamics conserve energy, rest in equilibrium and run backwards", "statement": "Along every motion whose accelerations are those of forwardDynamics the kinetic plus potential energy changes with the power of the joint torques and external forces: without both it never changes, and with torques that never drive the robot it never grows. A robot at rest stays at rest (forwardDynamics finds no acceleration) exactly when its torques are those of inverseStatics. The torques of inverseDynamics and the accelerations of forwardDynamics do not change when all velocities change sign, so a motion under forwardDynamics run backwards is again one.", "quantifier": "all robots with positive definite inertias (any joint types; for the energy, reversed joints of type Rev, Prism, Cylindrical, Fixed), all motions over unbounded time, torques, gravities and external forces", "why_tests_cant": "statements about whole motions in continuous time and about all states; a test integrates one motion with an error of its own", "anchors": ["src/RBDyn/FD.cpp: forwardDynamics, computeH, computeC", "src/RBDyn/ID.cpp:18-45 inverseDynamics", "src/RBDyn/IS.cpp:74 inverseStatics", "src/RBDyn/FK.cpp: forwardKinematics", "src/RBDyn/FV.cpp: forwardVelocity", "src/RBDyn/RBDyn/Joint.h: motionSubspace"]}
{"id": "C83", "title": "A free-floating robot notices neither uniform motion nor gravity", "statement": "When the only root joint of a robot is a free joint, inverseDynamics finds the same torques of all joints when the whole robot moves with an additional uniform velocity u and an additional acceleration b while gravity is diminished by b; forwardDynamics then changes the acceleration of the free joint by that of the frame and no acceleration of any other joint. In particular gravity has no influence on the accelerations of the other joints.", "quantifier": "all robots with one free root joint (forward or reversed), joint types, states, torques, external forces, velocities u and accelerations b", "why_tests_cant": "Galilean invariance is a statement about all frames and states; the code has no notion of it, since gravity enters as an acceleration of the world and the velocity of the free joint is in the turning frame of the body", "anchors": ["src/RBDyn/ID.cpp:18-45 inverseDynamics", "src/RBDyn/FD.cpp: forwardDynamics, computeC", "src/RBDyn/FV.cpp: forwardVelocity", "src/RBDyn/RBDyn/Joint.h: motionSubspace"]}
{"id": "C84", "title": "The order of building and the numbers of the bodies do not matter", "statement": "Two sequences of the same calls of addBody, addJoint and linkBodies in different orders, none of which throws, build graphs with the same bodies and links, and makeMultiBody with the same root makes from them the same robot up to the numbers of its bodies and joints. The results for a robot with other numbers are the same under the other numbers: the poses and velocities of the bodies, the torques and accelerations of inverseDynamics, the accelerations of forwardDynamics, the entries of the mass matrix, the columns of the Jacobians, the centre of mass and the momentum.", "quantifier": "all sequences of calls of any length and all their permutations that do not throw, all trees, roots, root joints, and all robots, renumberings and states", "why_tests_cant": "permutations of unbounded sequences of calls; the tests build each robot in one order", "anchors": ["src/RBDyn/MultiBodyGraph.cpp:61-105 addBody, addJoint, linkBodies", "src/RBDyn/MultiBodyGraph.cpp:127-230 makeMultiBody", "src/RBDyn/FK.cpp: forwardKinematics", "src/RBDyn/FV.cpp: forwardVelocity", "src/RBDyn/ID.cpp:18-45 inverseDynamics", "src/RBDyn/FD.cpp: computeH, forwardDynamics", "src/RBDyn/Jacobian.cpp: jacobian, fullJacobian", "src/RBDyn/CoM.cpp: computeCoM", "src/RBDyn/Momentum.cpp: computeCentroidalMomentum"]}
{"id": "C85", "title": "Forward dynamics obeys the principles of d'Alembert and Gauss, superposition and reciprocity", "statement": "The accelerations of forwardDynamics are the only ones for which, for every virtual velocity of the joints, the power of the joint torques equals that of the inertial forces minus gravity and external forces (d'Alembert), and the only ones of least constraint (Gauss). They depend affinely on the joint torques, the external forces and gravity together (superposition). The power of one change of torques and external forces along the change of acceleration that another causes is the power of the other along the effect of the first (reciprocity), and a change has positive power along its own effect.", "quantifier": "all robots with positive definite inertias, joint types, states, torques, external forces, gravities and all virtual velocities and rival accelerations", "why_tests_cant": "minimality and uniqueness are statements about all rival accelerations; symmetry and linearity about all pairs of loads", "anchors": ["src/RBDyn/FD.cpp:32-42 forwardDynamics", "src/RBDyn/FD.cpp:44-93 computeH", "src/RBDyn/FD.cpp: computeC", "src/RBDyn/ID.cpp:18-45 inverseDynamics"]}
{"id": "C86", "title": "Inverse kinematics finds reachable targets", "statement": "If a target pose of the end effector can be reached, inverseKinematics finds it: in exact arithmetic and with exact least squares every iteration takes away the fraction lambda of the distance, true is returned after as many iterations as that takes (everything within 10^41 is found by the default 50), and the returned configuration is nearer than threshold*(1-lambda) to the target. If no configuration is within the threshold of the target, false is returned.", "quantifier": "for all robots, start configurations, targets, learning rates, thresholds and iteration counts", "why_tests_cant": "convergence is a statement about all targets and start configurations; the tests run the solver from a few configurations towards targets that were generated nearby", "anchors": ["src/RBDyn/IK.cpp:42-81 inverseKinematics", "src/RBDyn/IK.cpp:24-33 CwiseRoundOp", "src/RBDyn/RBDyn/IK.h:23-26 constants"]}
{"id": "C87", "title": "A simulation can be run for ever", "statement": "A program that repeats forwardKinematics, forwardVelocity, forwardDynamics and integration, with joint torques from any controller and any external forces of the right sizes, computes any number of periods without exception, undefined behaviour or endless recursion, and keeps the sizes of the state and the unit quaternions. A robot at rest on which the torques of inverseStatics act stays where it is for ever. With the torques that inverseDynamics computes for wished accelerations the simulated robot has exactly these accelerations in every period, whatever its inertias, gravity and the external forces: it brakes geometrically when asked to, and a robot with revolute, prismatic, cylindrical and fixed joints can be brought to any position and to rest in two periods.", "quantifier": "all robots with positive definite inertias, controllers (functions of the time and of the state), external forces, start states, non-negative periods, positive precisions and any number of periods", "why_tests_cant": "executions of unbounded length under arbitrary controllers; the tests integrate a few joints over a few steps and never run dynamics and integration together", "anchors": ["src/RBDyn/FK.cpp:17-38 forwardKinematics", "src/RBDyn/FV.cpp:17-40 forwardVelocity", "src/RBDyn/FD.cpp:32-42 forwardDynamics", "src/RBDyn/NumericalIntegration.cpp:358-371 integration", "src/RBDyn/ID.cpp:18-45 inverseDynamics", "src/RBDyn/IS.cpp: inverseStatics"]}
{"id": "C88", "title": "Simulations converge to the motion of the robot", "statement": "For control laws and external forces that are continuously differentiable functions of time and state, the accelerations of forwardDynamics are a continuously differentiable function of time, joint positions and joint velocities. Hence from every state there is a motion that obeys forwardDynamics, and only one, before and after. A program that repeats forwardKinematics, forwardVelocity, forwardDynamics and integration with a period h, started with an error of at most d, stays within C (d + h) of this motion in all joint positions and velocities over any time over which the motion exists, with a constant C that depends on neither d nor h.", "quantifier": "all robots with positive definite inertias and revolute, prismatic, cylindrical and fixed joints, all continuously differentiable control laws and forces, start states, lengths of time, sufficiently small periods and any number of periods", "why_tests_cant": "a statement about the limit of infinitely many simulations of unbounded length; a test compares one simulation with another that has errors of its own", "anchors": ["src/RBDyn/FK.cpp:17-38 forwardKinematics", "src/RBDyn/FV.cpp:17-40 forwardVelocity", "src/RBDyn/FD.cpp:32-42 forwardDynamics", "src/RBDyn/FD.cpp:44-93 computeH", "src/RBDyn/FD.cpp: computeC", "src/RBDyn/NumericalIntegration.cpp:358-371 integration", "src/RBDyn/NumericalIntegration.cpp: jointIntegration"]}
{"id": "C89", "title": "The mirror image of a robot moves as the mirror image", "statement": "Let a robot be reflected in a plane: placements of the joints, axes of revolute, prismatic and cylindrical joints, and the inertias of the bodies. When its joint positions, velocities, accelerations, torques, gravity and external forces are those of the original up to the signs which the reflection gives them, all poses, velocities and accelerations of its bodies, the joint torques of inverseDynamics, the mass matrix, the bias forces, the accelerations of forwardDynamics, the centre of mass, the momentum, the Jacobians and the state after integration are the reflections of those of the original.", "quantifier": "all robots, all joint types (forward and reversed), states, gravities, external forces, steps and precisions", "why_tests_cant": "a symmetry between all pairs of states of all robots; it distinguishes left-handed from right-handed conventions, which a test that compares the code with itself does not", "anchors": ["src/RBDyn/RBDyn/Joint.h:341-381 pose", "src/RBDyn/FK.cpp: forwardKinematics", "src/RBDyn/FV.cpp: forwardVelocity", "src/RBDyn/ID.cpp:18-45 inverseDynamics", "src/RBDyn/FD.cpp: computeH, computeC, forwardDynamics", "src/RBDyn/CoM.cpp: computeCoM", "src/RBDyn/Momentum.cpp: computeCentroidalMomentum", "src/RBDyn/Jacobian.cpp: jacobian, fullJacobian", "src/RBDyn/NumericalIntegration.cpp:358-371 integration", "src/RBDyn/NumericalIntegration.cpp: SO3Integration"]}
{"id": "C90", "title": "Motions under forward dynamics last for ever", "statement": "When control law and external forces are continuously differentiable functions of time and state and grow, over any bounded time, at most linearly with the joint positions and velocities (the forces as the bodies see them; bounded forces in the world frame do), the motion that obeys forwardDynamics from any state exists for all times, past and future: joint positions and velocities never become infinite in finite time, although Coriolis and centrifugal terms are quadratic in the velocities. So simulations of any length converge to it when the period goes to zero. Without the growth condition this fails for every robot with a moving joint.", "quantifier": "all robots with positive definite inertias and revolute, prismatic, cylindrical and fixed joints, all control laws and forces of linear growth, start states and times", "why_tests_cant": "a statement about all times: no simulation of finite length shows that the velocities stay finite later, and the exact motion cannot be run", "anchors": ["src/RBDyn/FD.cpp:32-42 forwardDynamics", "src/RBDyn/FD.cpp:44-93 computeH", "src/RBDyn/FD.cpp: computeC", "src/RBDyn/FV.cpp:17-40 forwardVelocity", "src/RBDyn/NumericalIntegration.cpp:358-371 integration"]}
{"id": "C91", "title": "Robots with floating bases and joints of all types have exactly one motion", "statement": "For robots with joints of all types, free, spherical and planar ones included, and control laws and external forces that are continuously differentiable functions of time and state: the accelerations of forwardDynamics are a continuously differentiable function of time, joint parameters and joint velocities. From every state with unit quaternions there is a motion that obeys forwardDynamics, and only one; along it the quaternions stay unit quaternions. If torques and forces grow, over any bounded time, at most linearly with positions and velocities (bounded forces in the world frame do), the planar and free joints connect bodies to the world, and the spherical, planar and free joints are forward, the motion lasts for all times, past and future.", "quantifier": "all robots with positive definite inertias and joints of all types, all continuously differentiable control laws and forces, start states and times", "why_tests_cant": "a statement about all solutions of a differential equation on the space of unit quaternions and about all times", "anchors": ["src/RBDyn/FD.cpp:32-42 forwardDynamics", "src/RBDyn/FD.cpp:44-93 computeH", "src/RBDyn/FD.cpp: computeC", "src/RBDyn/FK.cpp:17-38 forwardKinematics", "src/RBDyn/FV.cpp:17-40 forwardVelocity", "src/RBDyn/RBDyn/Joint.h:341-381 pose"]}
{"id": "C92", "title": "Simulations of robots with joints of all types converge", "statement": "One call of jointIntegration moves a joint of any type, the spherical, planar and free ones included, along the rate of its parameters, up to an error of the order of the square of the period that is uniform over bounded parameters, velocities and accelerations; with short periods it neither recurses nor fails. Hence a program that repeats forwardKinematics, forwardVelocity, forwardDynamics and integration with a period h, for a robot with joints of all types, started with an error of at most d, stays within C (d + h) of the motion that obeys forwardDynamics, in all joint parameters (quaternions included) and velocities, with a constant C that depends on neither d nor h. Under the growth conditions of C91 there is exactly one motion from every state and simulations of any length converge to it.", "quantifier": "all robots with positive definite inertias and joints of all types, all continuously differentiable control laws and forces, start states, precisions, lengths of time, sufficiently small periods and any number of periods", "why_tests_cant": "a statement about the limit of infinitely many simulations of unbounded length; the tests of the integration compare single steps of single joints", "anchors": ["src/RBDyn/NumericalIntegration.cpp: jointIntegration, SO3Integration, freeJointIntegration_, planarJointIntegration", "src/RBDyn/NumericalIntegration.cpp:358-371 integration", "src/RBDyn/FK.cpp:17-38 forwardKinematics", "src/RBDyn/FV.cpp:17-40 forwardVelocity", "src/RBDyn/FD.cpp:32-42 forwardDynamics"]}
{"id": "C93", "title": "Springs and dampers bring the robot to its goal", "statement": "When the joint torques are those that inverseStatics computes at the momentary positions, plus springs of positive stiffness towards a goal and dampers of positive strength (proportional and derivative control with compensation of weight and external forces), the robot, moving as forwardDynamics prescribes, comes to rest at the goal from all positions and velocities, whatever gravity and external forces are; the energy of motion and springs never grows on the way, and the motion exists for all times. For every tolerance, sufficiently long simulations with forwardKinematics, forwardVelocity, forwardDynamics and integration and sufficiently many periods end at the goal and at rest up to the tolerance. Without dampers no motion that starts elsewhere comes to rest at the goal.", "quantifier": "all robots with positive definite inertias and revolute, prismatic, cylindrical and fixed joints, all goals, gains, start states, gravities and continuously differentiable external forces, all times", "why_tests_cant": "a statement about the limit for infinite time from all start states; a simulation shows one start and a finite time", "anchors": ["src/RBDyn/IS.cpp: inverseStatics", "src/RBDyn/FD.cpp:32-42 forwardDynamics", "src/RBDyn/FD.cpp:44-93 computeH", "src/RBDyn/FD.cpp: computeC", "src/RBDyn/FV.cpp:17-40 forwardVelocity", "src/RBDyn/NumericalIntegration.cpp:358-371 integration"]}
{"id": "C94", "title": "Inverse dynamics makes the robot follow every trajectory", "statement": "When the joint torques are those that inverseDynamics computes at the momentary positions and velocities for the accelerations of a reference trajectory minus gains times the errors of velocity and position (computed torque control), the robot, moving as forwardDynamics prescribes, follows the reference: with positive gains the errors of positions and velocities go to zero from every start, whatever gravity, external forces and reference are; started on the reference the robot stays on it; with gains r^2 and 2 r every degree of freedom has exactly the error (e0 + (v0 + r e0) t) exp(-r t) of a critically damped oscillator, uncoupled from the others; the motion exists for all times. For every tolerance, sufficiently long simulations with forwardKinematics, forwardVelocity, forwardDynamics and integration and sufficiently many periods end on the reference up to the tolerance.", "quantifier": "all robots with positive definite inertias and revolute, prismatic, cylindrical and fixed joints, all reference trajectories, gains, start states, gravities and continuously differentiable external forces, all times", "why_tests_cant": "a statement about the limit for infinite time, all references and all start states; a simulation shows one of each and a finite time", "anchors": ["src/RBDyn/ID.cpp:18-45 inverseDynamics", "src/RBDyn/FD.cpp:32-42 forwardDynamics", "src/RBDyn/FD.cpp:44-93 computeH", "src/RBDyn/FD.cpp: computeC", "src/RBDyn/FV.cpp:17-40 forwardVelocity", "src/RBDyn/NumericalIntegration.cpp:358-371 integration"]}
{"id": "C95", "title": "Robots are stable where their potential energy is least", "statement": "A robot that moves as forwardDynamics prescribes under its weight, springs (of any stiffness, also none) and dampers (also none) is stable where the potential energy of weight and springs has a strict minimum: for every tolerance, motions that start sufficiently near and slow remain near and slow within the tolerance for ever, and at rest at the minimum the robot stays there. If all joints have dampers and up to some distance the torques of the springs equal those of inverseStatics only at the minimum, motions that start sufficiently near and slow come to rest at the minimum. With dampers every motion with bounded positions comes to rest, and wherever its positions accumulate the torques of inverseStatics are those of the springs.", "quantifier": "all robots with positive definite inertias and revolute, prismatic, cylindrical and fixed joints, all gravities, springs and dampers, all motions and all times", "why_tests_cant": "a statement about all motions that start in a neighbourhood and about infinite time; a simulation shows one start and a finite time", "anchors": ["src/RBDyn/FD.cpp:32-42 forwardDynamics", "src/RBDyn/FD.cpp:44-93 computeH", "src/RBDyn/FD.cpp: computeC", "src/RBDyn/FK.cpp:17-38 forwardKinematics", "src/RBDyn/FV.cpp:17-40 forwardVelocity", "src/RBDyn/IS.cpp: inverseStatics"]}
{"id": "C96", "title": "Undamped robots swing back and forth, damped ones never return", "statement": "A motion that obeys forwardDynamics, run backwards, obeys it under the control law and forces run backwards. Hence, if joint torques and external forces depend only on positions and not on the direction of the velocities or on time, a robot that is at rest at one time goes on the way it came: its positions, poses and accelerations are the same at equal times before and after, its velocities opposite. If it is at rest at two times its motion repeats itself for ever, with twice the time between them as period. With dampers in all joints and springs, a robot that moves never returns to a state it was in.", "quantifier": "all robots with positive definite inertias and joints of all types (for the dampers: revolute, prismatic, cylindrical and fixed joints), all laws that are continuously differentiable, all gravities, motions and times", "why_tests_cant": "a statement about whole motions over infinite time and all laws; every simulation deviates from it by its discretisation", "anchors": ["src/RBDyn/FD.cpp:32-42 forwardDynamics", "src/RBDyn/FD.cpp:44-93 computeH", "src/RBDyn/FD.cpp: computeC", "src/RBDyn/FK.cpp:17-38 forwardKinematics", "src/RBDyn/FV.cpp:17-40 forwardVelocity"]}
{"id": "C97", "title": "Robots move along paths of stationary action", "statement": "Hamilton's principle: when a robot follows any path under gravity, the integral over time of its kinetic minus its potential energy, computed from forwardKinematics and forwardVelocity, changes with every variation of the path with fixed ends at a rate which is minus the work of the torques of inverseDynamics along the variation. Hence forwardDynamics computes the accelerations of the path from its joint torques, between two times, if and only if this rate is minus the work of the joint torques for every variation. A robot without motors falls along the paths on which the integral is stationary, and only along these.", "quantifier": "all robots with positive definite inertias and revolute, prismatic, cylindrical and fixed joints, all twice continuously differentiable paths, gravities, intervals of time and variations", "why_tests_cant": "a statement about integrals over all paths near a path and all variations, an infinite-dimensional space", "anchors": ["src/RBDyn/FD.cpp:32-42 forwardDynamics", "src/RBDyn/FD.cpp:44-93 computeH", "src/RBDyn/FD.cpp: computeC", "src/RBDyn/ID.cpp:18-45 inverseDynamics", "src/RBDyn/FK.cpp:17-38 forwardKinematics", "src/RBDyn/FV.cpp:17-40 forwardVelocity"]}
{"id": "C98", "title": "Robots obey Hamilton's equations", "statement": "The momenta of a robot are the product of the matrix of computeH and its joint velocities. The sum of kinetic and potential energy, computed from forwardKinematics and forwardVelocity, is a continuously differentiable function E of positions and momenta, whose derivatives by the momenta are the joint velocities. Forward dynamics computes the accelerations of a path from its joint torques if and only if the momenta change at the rate of the torques minus the derivatives of E by the positions. If neither energy depends on the position of one degree of freedom and no torque acts there, its momentum is constant along every motion that obeys forwardDynamics.", "quantifier": "all robots with positive definite inertias and revolute, prismatic, cylindrical and fixed joints, all twice continuously differentiable paths, gravities and times", "why_tests_cant": "a statement about derivatives of a function of all states and about whole motions; tests compare single states up to a tolerance", "anchors": ["src/RBDyn/FD.cpp:32-42 forwardDynamics", "src/RBDyn/FD.cpp:44-93 computeH", "src/RBDyn/FD.cpp: computeC", "src/RBDyn/FK.cpp:17-38 forwardKinematics", "src/RBDyn/FV.cpp:17-40 forwardVelocity"]}
{"id": "C99", "title": "Motions depend continuously on their start", "statement": "When forwardDynamics computes the accelerations from the torques of a control law and from external forces, motions whose joint positions and velocities at some time are bounded stay bounded over every bounded time before and after it, by a bound which depends only on the bound at that time, the law, the forces, gravity and the duration. Two such motions differ, over that time, by at most a constant times their difference at the start: small errors of the start cause small errors of the motion. If the torques of one of them deviate from the law by a bounded amount, for any reason, it is bounded too, and the motions differ by at most a constant times the sum of this amount and of the difference of the starts.", "quantifier": "all robots with positive definite inertias and revolute, prismatic, cylindrical and fixed joints, all continuously differentiable control laws and forces that grow at most linearly with positions and velocities in bounded time, all gravities, start times, durations, bounds and pairs of motions", "why_tests_cant": "a statement about all pairs of motions over continuous time; tests simulate single motions", "anchors": ["src/RBDyn/FD.cpp:32-42 forwardDynamics", "src/RBDyn/FD.cpp:44-93 computeH", "src/RBDyn/FD.cpp: computeC", "src/RBDyn/FK.cpp:17-38 forwardKinematics", "src/RBDyn/FV.cpp:17-40 forwardVelocity"]}
