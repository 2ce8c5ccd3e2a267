import Verif.Model.CoM

/-!
Model of `src/RBDyn/Momentum.cpp`. The `6 × 6` matrices `jacProjector` and `jacProjectorDot` are represented by the linear maps they stand
for (`dualMatrix() * v` is `dualMul`, `RBInertia::matrix() * v` is the product with a motion vector, `vector6ToCrossDualMatrix(v) * f` is
`v.crossDual(f)`).
-/

namespace RBDyn
variable {K : Type} [Scalar K]
open scoped Mat3

/-- `computeCentroidalMomentum(mb, mbc, com)`, Momentum.cpp:17-35. -/
def computeCentroidalMomentum (mb : MultiBody K) (mbc : MBC K) (com : Vec3 K) : Res (ForceVec K) :=
  let Xcom0 := PTransform.ofTrans (-com)
  (List.range mb.nrBodies).foldlM (fun cm i => do
    let b ← rd mb.bodies i
    let hi := b.inertia.mulMotion (← rd mbc.bodyVelB i)
    return cm + ((← rd mbc.bodyPosW i) * Xcom0).transMul hi) 0

/-- The summand of body `i` in `computeCentroidalMomentumDot`, Momentum.cpp:52-72, and `normalMomentumDot`, Momentum.cpp:291-311, with the
acceleration `A` of the body. -/
def momentumDotTerm (W : PTransform K) (I : RBInertia K) (V A : MotionVec K) (com comDot : Vec3 K) : ForceVec K :=
  let Xcomi := W * PTransform.ofTrans (-com)
  let Xicom := Xcomi.inv
  let comVel : MotionVec K := ⟨0, comDot⟩
  let h := I.mulMotion V
  Xicom.dualMul (V.crossDual h) - comVel.crossDual (Xicom.dualMul h) + Xcomi.transMul (I.mulMotion A)

/-- `computeCentroidalMomentumDot(mb, mbc, com, comDot)`, Momentum.cpp:37-76. -/
def computeCentroidalMomentumDot (mb : MultiBody K) (mbc : MBC K) (com comDot : Vec3 K) : Res (ForceVec K) :=
  (List.range mb.nrBodies).foldlM (fun cm i => do
    let b ← rd mb.bodies i
    return cm + momentumDotTerm (← rd mbc.bodyPosW i) b.inertia (← rd mbc.bodyVelB i) (← rd mbc.bodyAccB i) com comDot) 0

/-- `sComputeCentroidalMomentum`, Momentum.cpp:78-85. -/
def sComputeCentroidalMomentum (mb : MultiBody K) (mbc : MBC K) (com : Vec3 K) : Res (ForceVec K) := do
  checkMatchBodyPos mb mbc
  checkMatchBodyVel mb mbc
  computeCentroidalMomentum mb mbc com

/-- `sComputeCentroidalMomentumDot`, Momentum.cpp:87-96. -/
def sComputeCentroidalMomentumDot (mb : MultiBody K) (mbc : MBC K) (com comDot : Vec3 K) : Res (ForceVec K) := do
  checkMatchBodyPos mb mbc
  checkMatchBodyVel mb mbc
  checkMatchBodyAcc mb mbc
  computeCentroidalMomentumDot mb mbc com comDot

/-- `jacProjector(X_i_com, I_i)`, Momentum.cpp:98-101, applied to a vector. -/
def jacProjector (X : PTransform K) (I : RBInertia K) (v : MotionVec K) : ForceVec K := X.dualMul (I.mulMotion v)

/-- `jacProjectorDot(X_i_com, I_i, V_i, V_com)`, Momentum.cpp:103-111, applied to a vector. -/
def jacProjectorDot (X : PTransform K) (I : RBInertia K) (V Vcom : MotionVec K) (v : MotionVec K) : ForceVec K :=
  X.dualMul (V.crossDual (I.mulMotion v)) - Vcom.crossDual (X.dualMul (I.mulMotion v))

/-- Components of a force vector, couple first. -/
def ForceVec.toList (f : ForceVec K) : List K := [f.couple.x, f.couple.y, f.couple.z, f.force.x, f.force.y, f.force.z]

/-- The matrix with six rows and the given columns. -/
def DMat.ofForceCols (cols : List (ForceVec K)) : DMat K := ⟨6, cols.length, fun r c => ((cols.getD c 0).toList).getD r 0⟩

/-- Class `CentroidalMomentumMatrix`, Momentum.h: its members. -/
structure CMM (K : Type) where
  cmMat : DMat K
  cmMatDot : DMat K
  jacVec : List (Jac K)
  blocks : List (List Blk)
  jacWork : List (List (ForceVec K))
  weight : List K
  normalAcc : List (MotionVec K)

/-- Loop body of `init`, Momentum.cpp:388-394. The elements of `jacVec_`, `blocksVec_` and `jacWork_` are appended instead of overwritten. -/
def CMM.initStep (junk : Nat → MotionVec K) (junkF : Nat → ForceVec K) (mb : MultiBody K) (c : CMM K) (i : Nat) : Res (CMM K) := do
  let b ← rd mb.bodies i
  let J ← Jac.mk' junk mb b.name 0
  let P ← J.compactPath mb
  return { c with jacVec := c.jacVec ++ [J], blocks := c.blocks ++ [P], jacWork := c.jacWork ++ [(List.range J.dof).map junkF] }

/-- `CentroidalMomentumMatrix(mb, weight)`, Momentum.cpp:126-139. `junk…` is uninitialised memory. -/
def CMM.mk' (junk : Nat → MotionVec K) (junkF : Nat → ForceVec K) (junkM : Nat → Nat → K) (mb : MultiBody K) (weight : List K) :
    Res (CMM K) := do
  let m : DMat K := ⟨6, mb.nrDof, junkM⟩
  let c ← (List.range mb.nrBodies).foldlM (CMM.initStep junk junkF mb) ⟨m, m, [], [], [], weight, (List.range mb.nrBodies).map junk⟩
  if c.weight.length ≠ mb.nrBodies then .error .domainError else return c

/-- `CentroidalMomentumMatrix(mb)`, Momentum.cpp:118-124 (the size check of the other constructor never fails here). -/
def CMM.mkOnes (junk : Nat → MotionVec K) (junkF : Nat → ForceVec K) (junkM : Nat → Nat → K) (mb : MultiBody K) : Res (CMM K) :=
  CMM.mk' junk junkF junkM mb (List.replicate mb.nrBodies 1)

/-- Loop body of `computeMatrix`, Momentum.cpp:150-158. -/
def CMM.matStep (mb : MultiBody K) (mbc : MBC K) (com : Vec3 K) (c : CMM K) (i : Nat) : Res (CMM K) := do
  let J ← (← rd c.jacVec i).bodyJacobian mb mbc
  let X := PTransform.ofTrans com * (← rd mbc.bodyPosW i).inv
  let w ← rd c.weight i
  let b ← rd mb.bodies i
  let work := J.jac.map fun v => w • jacProjector X b.inertia v
  let m ← addFullBlocks (← rd c.blocks i) (DMat.ofForceCols work) c.cmMat
  return { c with cmMat := m, jacVec := ← wr c.jacVec i J, jacWork := ← wr c.jacWork i work }

/-- `computeMatrix(mb, mbc, com)`, Momentum.cpp:141-159. The result is `cmMat`. -/
def CMM.computeMatrix (c : CMM K) (mb : MultiBody K) (mbc : MBC K) (com : Vec3 K) : Res (CMM K) :=
  (List.range mb.nrBodies).foldlM (CMM.matStep mb mbc com) { c with cmMat := c.cmMat.setZero }

/-- `proj * jacDot + projDot * jac`, Momentum.cpp:181 and 210: Eigen asserts equal dimensions. -/
def cmmDotCols (w : K) (X : PTransform K) (I : RBInertia K) (V Vcom : MotionVec K) (jac jacDot : List (MotionVec K)) :
    Res (List (ForceVec K)) :=
  if jacDot.length = jac.length then
    .ok (List.zipWith (fun d v => w • jacProjector X I d + w • jacProjectorDot X I V Vcom v) jacDot jac)
  else .error .ub

/-- Loop body of `computeMatrixDot`, Momentum.cpp:172-183. -/
def CMM.matDotStep (mb : MultiBody K) (mbc : MBC K) (com comDot : Vec3 K) (c : CMM K) (i : Nat) : Res (CMM K) := do
  let J ← (← rd c.jacVec i).bodyJacobian mb mbc
  let J ← J.bodyJacobianDot mb mbc
  let X := PTransform.ofTrans com * (← rd mbc.bodyPosW i).inv
  let w ← rd c.weight i
  let b ← rd mb.bodies i
  let work ← cmmDotCols w X b.inertia (← rd mbc.bodyVelB i) ⟨0, comDot⟩ J.jac J.jacDot
  let m ← addFullBlocks (← rd c.blocks i) (DMat.ofForceCols work) c.cmMatDot
  return { c with cmMatDot := m, jacVec := ← wr c.jacVec i J, jacWork := ← wr c.jacWork i work }

/-- `computeMatrixDot(mb, mbc, com, comDot)`, Momentum.cpp:161-184. The result is `cmMatDot`. -/
def CMM.computeMatrixDot (c : CMM K) (mb : MultiBody K) (mbc : MBC K) (com comDot : Vec3 K) : Res (CMM K) :=
  (List.range mb.nrBodies).foldlM (CMM.matDotStep mb mbc com comDot) { c with cmMatDot := c.cmMatDot.setZero }

/-- Loop body of `computeMatrixAndMatrixDot`, Momentum.cpp:198-212. -/
def CMM.matBothStep (mb : MultiBody K) (mbc : MBC K) (com comDot : Vec3 K) (c : CMM K) (i : Nat) : Res (CMM K) := do
  let J ← (← rd c.jacVec i).bodyJacobian mb mbc
  let J ← J.bodyJacobianDot mb mbc
  let X := PTransform.ofTrans com * (← rd mbc.bodyPosW i).inv
  let w ← rd c.weight i
  let b ← rd mb.bodies i
  let work := J.jac.map fun v => w • jacProjector X b.inertia v
  let m ← addFullBlocks (← rd c.blocks i) (DMat.ofForceCols work) c.cmMat
  let work ← cmmDotCols w X b.inertia (← rd mbc.bodyVelB i) ⟨0, comDot⟩ J.jac J.jacDot
  let m' ← addFullBlocks (← rd c.blocks i) (DMat.ofForceCols work) c.cmMatDot
  return { c with cmMat := m, cmMatDot := m', jacVec := ← wr c.jacVec i J, jacWork := ← wr c.jacWork i work }

/-- `computeMatrixAndMatrixDot(mb, mbc, com, comDot)`, Momentum.cpp:186-213. -/
def CMM.computeMatrixAndMatrixDot (c : CMM K) (mb : MultiBody K) (mbc : MBC K) (com comDot : Vec3 K) : Res (CMM K) :=
  (List.range mb.nrBodies).foldlM (CMM.matBothStep mb mbc com comDot)
    { c with cmMat := c.cmMat.setZero, cmMatDot := c.cmMatDot.setZero }

/-- `momentum(mb, mbc, com)`, Momentum.cpp:225-245. -/
def CMM.momentum (c : CMM K) (mb : MultiBody K) (mbc : MBC K) (com : Vec3 K) : Res (ForceVec K) :=
  let Xcom0 := PTransform.ofTrans (-com)
  (List.range mb.nrBodies).foldlM (fun cm i => do
    let b ← rd mb.bodies i
    let hi := b.inertia.mulMotion (← rd mbc.bodyVelB i)
    return cm + (← rd c.weight i) • ((← rd mbc.bodyPosW i) * Xcom0).transMul hi) 0

/-- `normalMomentumDot(mb, mbc, com, comDot, normalAccB)`, Momentum.cpp:275-316. -/
def CMM.normalMomentumDotOf (c : CMM K) (mb : MultiBody K) (mbc : MBC K) (com comDot : Vec3 K) (normalAccB : List (MotionVec K)) :
    Res (ForceVec K) :=
  (List.range mb.nrBodies).foldlM (fun cm i => do
    let b ← rd mb.bodies i
    return cm + (← rd c.weight i) •
      momentumDotTerm (← rd mbc.bodyPosW i) b.inertia (← rd mbc.bodyVelB i) (← rd normalAccB i) com comDot) 0

/-- `normalMomentumDot(mb, mbc, com, comDot)`, Momentum.cpp:247-273: the result and the new state of the object. -/
def CMM.normalMomentumDot (c : CMM K) (mb : MultiBody K) (mbc : MBC K) (com comDot : Vec3 K) : Res (ForceVec K × CMM K) := do
  let acc ← (List.range mb.nrJoints).foldlM (normalAccStep mb mbc) c.normalAcc
  let c := { c with normalAcc := acc }
  return (← c.normalMomentumDotOf mb mbc com comDot acc, c)

/-- `sComputeMatrix`, Momentum.cpp:318-325. -/
def CMM.sComputeMatrix (c : CMM K) (mb : MultiBody K) (mbc : MBC K) (com : Vec3 K) : Res (CMM K) := do
  checkMatchBodyPos mb mbc
  checkMatchMotionSubspace mb mbc
  c.computeMatrix mb mbc com

/-- `sComputeMatrixDot`, Momentum.cpp:327-336. -/
def CMM.sComputeMatrixDot (c : CMM K) (mb : MultiBody K) (mbc : MBC K) (com comDot : Vec3 K) : Res (CMM K) := do
  checkMatchBodyPos mb mbc
  checkMatchBodyVel mb mbc
  checkMatchMotionSubspace mb mbc
  c.computeMatrixDot mb mbc com comDot

/-- `sComputeMatrixAndMatrixDot`, Momentum.cpp:338-347. -/
def CMM.sComputeMatrixAndMatrixDot (c : CMM K) (mb : MultiBody K) (mbc : MBC K) (com comDot : Vec3 K) : Res (CMM K) := do
  checkMatchBodyPos mb mbc
  checkMatchBodyVel mb mbc
  checkMatchMotionSubspace mb mbc
  c.computeMatrixAndMatrixDot mb mbc com comDot

/-- `sMomentum`, Momentum.cpp:349-357. -/
def CMM.sMomentum (c : CMM K) (mb : MultiBody K) (mbc : MBC K) (com : Vec3 K) : Res (ForceVec K) := do
  checkMatchBodyPos mb mbc
  checkMatchBodyVel mb mbc
  c.momentum mb mbc com

/-- `sNormalMomentumDot(mb, mbc, com, comDot)`, Momentum.cpp:359-370. -/
def CMM.sNormalMomentumDot (c : CMM K) (mb : MultiBody K) (mbc : MBC K) (com comDot : Vec3 K) : Res (ForceVec K × CMM K) := do
  checkMatchBodyPos mb mbc
  checkMatchBodyVel mb mbc
  checkMatchJointConf mb mbc
  checkMatchParentToSon mb mbc
  c.normalMomentumDot mb mbc com comDot

/-- `sNormalMomentumDot(mb, mbc, com, comDot, normalAccB)`, Momentum.cpp:372-382. -/
def CMM.sNormalMomentumDotOf (c : CMM K) (mb : MultiBody K) (mbc : MBC K) (com comDot : Vec3 K) (normalAccB : List (MotionVec K)) :
    Res (ForceVec K) := do
  checkMatchBodyPos mb mbc
  checkMatchBodyVel mb mbc
  checkMatchBodiesVector mb normalAccB
  c.normalMomentumDotOf mb mbc com comDot normalAccB

end RBDyn
