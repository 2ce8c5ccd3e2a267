import Verif.Model.Jacobian

/-!
Model of `src/RBDyn/IK.cpp`. Two external functions are parameters of the model: `solve`, which stands for
`JacobiSVD::compute` followed by `JacobiSVD::solve` (Eigen), and `rotErr` for `sva::rotationError` (SpaceVecAlg).
-/

namespace RBDyn
variable {K : Type} [Scalar K]

/-- Class `InverseKinematics`, IK.h:31-73. -/
structure IK (K : Type) where
  maxIterations : Int
  lambda : K
  threshold : K
  almostZero : K
  efIndex : Int
  jac : Jac K

/-- The constructor, IK.cpp:36-40, with the constants of IK.h:23-26. -/
def IK.mk' (junk : Nat → MotionVec K) (mb : MultiBody K) (efIndex : Int) : Res (IK K) := do
  let jac ← Jac.mk' junk mb (← mb.body efIndex).name 0
  return ⟨50, 9 / 10, 1 / 10 ^ 8, 1 / 10 ^ 8, efIndex, jac⟩

/-- `CwiseRoundOp(-z, z)`, IK.cpp:24-33. -/
def roundOp (z x : K) : K := if x > -z ∧ x < z then 0 else x

/-- `jacMat.unaryExpr(CwiseRoundOp(…))`, IK.cpp:58. -/
def roundCols (z : K) (cols : List (MotionVec K)) : List (MotionVec K) :=
  cols.map fun c => ⟨⟨roundOp z c.ang.x, roundOp z c.ang.y, roundOp z c.ang.z⟩, ⟨roundOp z c.lin.x, roundOp z c.lin.y, roundOp z c.lin.z⟩⟩

/-- Inner loop of the update, IK.cpp:69-73: one joint, starting with entry `dof` of `res`. Returns the new parameters and the new `dof`;
`res[dof]` out of range is undefined behaviour. -/
def ikJoint (lambda : K) (res : List K) (qi : List K) (dof : Nat) : Res (List K × Nat) :=
  qi.foldlM (fun s qv => do return (s.1 ++ [qv + lambda * (← rd res s.2)], s.2 + 1)) ([], dof)

/-- Loop over the path, IK.cpp:66-74. -/
def ikUpdate (lambda : K) (res : List K) (path : List Nat) (s : List (List K) × Nat) : Res (List (List K) × Nat) :=
  path.foldlM (fun s index => do
    let r ← ikJoint lambda res (← rd s.1 index) s.2
    return (← wr s.1 index r.1, r.2)) s

/-- `v.norm() < threshold`, IK.cpp:62, without the square root. -/
def normLt (v : MotionVec K) (threshold : K) : Prop := 0 < threshold ∧ v.ang.normSq + v.lin.normSq < threshold * threshold

instance (v : MotionVec K) (t : K) : Decidable (normLt v t) := inferInstanceAs (Decidable (_ ∧ _))

/-- `while(!converged && iter < max_iterations_)`, IK.cpp:54-79; the first argument is the number of iterations that are left. Returns the
configuration, the Jacobian object and `converged`. -/
def ikLoop (solve : List (MotionVec K) → MotionVec K → List K) (rotErr : Mat3 K → Mat3 K → Vec3 K) (ik : IK K) (mb : MultiBody K)
    (target : PTransform K) : Nat → MBC K → Jac K → Res (MBC K × Jac K × Bool)
  | 0, mbc, J => return (mbc, J, false)
  | k + 1, mbc, J => do
    let J ← J.jacobian mb mbc
    let jacMat := roundCols ik.almostZero J.jac
    let W ← rd mbc.bodyPosW (← toIdx ik.efIndex)
    let v : MotionVec K := ⟨rotErr W.E target.E, target.r - W.r⟩
    let res := solve jacMat v
    let s ← ikUpdate ik.lambda res J.path (mbc.q, 0)
    let mbc ← forwardKinematics mb { mbc with q := s.1 }
    let mbc ← forwardVelocity mb mbc
    if normLt v ik.threshold then return (mbc, J, true) else ikLoop solve rotErr ik mb target k mbc J

/-- `InverseKinematics::inverseKinematics`, IK.cpp:42-81. -/
def inverseKinematics (solve : List (MotionVec K) → MotionVec K → List K) (rotErr : Mat3 K → Mat3 K → Vec3 K) (ik : IK K) (mb : MultiBody K)
    (mbc : MBC K) (target : PTransform K) : Res (MBC K × Jac K × Bool) := do
  let mbc ← forwardKinematics mb mbc
  ikLoop solve rotErr ik mb target ik.maxIterations.toNat mbc ik.jac

/-- `InverseKinematics::sInverseKinematics`, IK.cpp:83-93. -/
def sInverseKinematics (solve : List (MotionVec K) → MotionVec K → List K) (rotErr : Mat3 K → Mat3 K → Vec3 K) (ik : IK K) (mb : MultiBody K)
    (mbc : MBC K) (target : PTransform K) : Res (MBC K × Jac K × Bool) := do
  checkMatchQ mb mbc
  checkMatchBodyPos mb mbc
  checkMatchJointConf mb mbc
  checkMatchParentToSon mb mbc
  inverseKinematics solve rotErr ik mb mbc target

end RBDyn
