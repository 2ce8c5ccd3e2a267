import Verif.Model.MultiBody

/-!
Model of `src/RBDyn/RBDyn/MultiBodyConfig.h` and `src/RBDyn/MultiBodyConfig.cpp`.
-/

namespace RBDyn
variable {K : Type}

/-- Struct `MultiBodyConfig`, MultiBodyConfig.h:23-77. -/
structure MBC (K : Type) where
  q : List (List K)
  alpha : List (List K)
  alphaD : List (List K)
  force : List (ForceVec K)
  jointConfig : List (PTransform K)
  jointVelocity : List (MotionVec K)
  jointTorque : List (List K)
  motionSubspace : List (List (MotionVec K))
  bodyPosW : List (PTransform K)
  parentToSon : List (PTransform K)
  bodyVelW : List (MotionVec K)
  bodyVelB : List (MotionVec K)
  bodyAccB : List (MotionVec K)
  gravity : Vec3 K
  deriving DecidableEq, Repr

/-- The indeterminate contents of default-constructed (uninitialised) SpaceVecAlg objects and of a freshly resized
Eigen matrix. -/
structure Uninit (K : Type) where
  X : Nat → PTransform K
  mv : Nat → MotionVec K
  fv : Nat → ForceVec K
  col : Nat → Nat → MotionVec K

namespace MBC
variable [Field K]

/-- Body of the constructor loop, MultiBodyConfig.cpp:29-36. -/
def ctorStep (u : Uninit K) (mb : MultiBody K) (mbc : MBC K) (i : Nat) : Res (MBC K) := do
  let j ← mb.joint i
  let q ← wr mbc.q i (List.replicate j.params 0)
  let alpha ← wr mbc.alpha i (List.replicate j.dof 0)
  let alphaD ← wr mbc.alphaD i (List.replicate j.dof 0)
  let jointTorque ← wr mbc.jointTorque i (List.replicate j.dof 0)
  let motionSubspace ← wr mbc.motionSubspace i ((List.range j.dof).map (u.col i))
  return { mbc with q, alpha, alphaD, jointTorque, motionSubspace }

/-- `MultiBodyConfig(mb)`, MultiBodyConfig.cpp:18-38. -/
def mk' (u : Uninit K) (mb : MultiBody K) : Res (MBC K) :=
  let nj := mb.nrJoints
  let nb := mb.nrBodies
  (List.range nj).foldlM (ctorStep u mb)
    { q := List.replicate nj [], alpha := List.replicate nj [], alphaD := List.replicate nj [],
      force := (List.range nb).map u.fv, jointConfig := (List.range nj).map u.X,
      jointVelocity := (List.range nj).map u.mv, jointTorque := List.replicate nj [],
      motionSubspace := List.replicate nj [], bodyPosW := (List.range nb).map u.X,
      parentToSon := (List.range nb).map u.X, bodyVelW := (List.range nb).map u.mv,
      bodyVelB := (List.range nb).map u.mv, bodyAccB := (List.range nb).map u.mv,
      gravity := ⟨0, 981 / 100, 0⟩ }

end MBC

section zero
variable [Scalar K]

/-- Body of the first loop of `zero`, MultiBodyConfig.cpp:44-50. -/
def MBC.zeroStep (mb : MultiBody K) (mbc : MBC K) (i : Nat) : Res (MBC K) := do
  let j ← mb.joint i
  let q ← wr mbc.q i j.zeroParam
  let alpha ← wr mbc.alpha i j.zeroDof
  let alphaD ← wr mbc.alphaD i j.zeroDof
  let jointTorque ← wr mbc.jointTorque i j.zeroDof
  return { mbc with q, alpha, alphaD, jointTorque }

/-- `zero(mb)`, MultiBodyConfig.cpp:40-57 (the second loop sets every force to zero). -/
def MBC.zero (mb : MultiBody K) (mbc : MBC K) : Res (MBC K) := do
  let mbc ← (List.range mbc.q.length).foldlM (MBC.zeroStep mb) mbc
  return { mbc with force := mbc.force.map (fun _ => 0) }
end zero

/-! ### `ConfigConverter` -/

/-- Class `ConfigConverter`, MultiBodyConfig.h:119-120. -/
structure ConfigConverter where
  jInd : List Int
  bInd : List Int
  deriving DecidableEq, Repr

namespace ConfigConverter

/-- `ConfigConverter(from, to)`, MultiBodyConfig.cpp:84-101.  For a `MultiBody` without joint, `nrJoints() - 1` wraps to the
maximal `size_t` and the allocation throws `std::length_error`/`std::bad_alloc`; it is modelled as `ub`. -/
def mk' (src dst : MultiBody K) : Res ConfigConverter := do
  if src.nrJoints = 0 then
    throw .ub
  let jInd ← (List.range (src.joints.length - 1)).foldlM (fun (l : List Int) i => do
    let j ← rd src.joints (i + 1)
    let k ← dst.jointIndexByName j.name
    wr l i k) (List.replicate (src.nrJoints - 1) 0)
  let bInd ← (List.range src.bodies.length).foldlM (fun (l : List Int) i => do
    let b ← rd src.bodies i
    let k ← dst.bodyIndexByName b.name
    wr l i k) (List.replicate src.nrBodies 0)
  return ⟨jInd, bInd⟩

/-- Body of the first loop of `convert`, MultiBodyConfig.cpp:107-111. -/
def convertStep (c : ConfigConverter) (src : MBC K) (dst : MBC K) (i : Nat) : Res (MBC K) := do
  let k ← rd c.jInd i
  let q ← wrI dst.q k (← rd src.q (i + 1))
  let alpha ← wrI dst.alpha k (← rd src.alpha (i + 1))
  let alphaD ← wrI dst.alphaD k (← rd src.alphaD (i + 1))
  return { dst with q, alpha, alphaD }

/-- Body of the second loop of `convert`, MultiBodyConfig.cpp:116. -/
def convertForceStep (c : ConfigConverter) (src : MBC K) (dst : MBC K) (i : Nat) : Res (MBC K) := do
  let k ← rd c.bInd i
  let force ← wrI dst.force k (← rd src.force i)
  return { dst with force }

/-- `convert(from, to)`, MultiBodyConfig.cpp:103-118. -/
def convert (c : ConfigConverter) (src dst : MBC K) : Res (MBC K) := do
  let dst ← (List.range c.jInd.length).foldlM (c.convertStep src) dst
  (List.range c.bInd.length).foldlM (c.convertForceStep src) dst

/-- `convertJoint(from, to)`, MultiBodyConfig.h:272-279. -/
def convertJoint {α : Type} (c : ConfigConverter) (src dst : List α) : Res (List α) :=
  (List.range c.jInd.length).foldlM (fun dst i => do
    let k ← rd c.jInd i
    wrI dst k (← rd src (i + 1))) dst

/-- `sConvertJoint(from, to)`, MultiBodyConfig.h:281-290. -/
def sConvertJoint {α : Type} (c : ConfigConverter) (src dst : List α) : Res (List α) :=
  if src.length ≠ dst.length then .error .domainError else c.convertJoint src dst

/-- `convertJoint(from)`, MultiBodyConfig.h:292-302; `dflt` is the value-initialised `T()`. -/
def convertJointNew {α : Type} (c : ConfigConverter) (dflt : α) (src : List α) : Res (List α) :=
  (List.range c.jInd.length).foldlM (fun dst i => do
    let k ← rd c.jInd i
    wrI dst k (← rd src (i + 1))) (List.replicate src.length dflt)

/-- `sConstructor(from, to)`, MultiBodyConfig.cpp:120-164. -/
def sConstructor (src dst : MultiBody K) : Res ConfigConverter :=
  if src.nrBodies ≠ dst.nrBodies ∨ src.nrJoints ≠ dst.nrJoints then .error .domainError
  else if ¬ (src.joints.all fun j => (dst.jointNameToInd.find j.name).isSome) then .error .domainError
  else if ¬ (src.bodies.all fun b => (dst.bodyNameToInd.find b.name).isSome) then .error .domainError
  else mk' src dst

/-- `sConvert(from, to)`, MultiBodyConfig.cpp:166-184. -/
def sConvert (c : ConfigConverter) (src dst : MBC K) : Res (MBC K) :=
  if src.q.length ≠ dst.q.length ∨ src.alpha.length ≠ dst.alpha.length ∨ src.alphaD.length ≠ dst.alphaD.length ∨
      src.force.length ≠ dst.force.length then .error .domainError
  else c.convert src dst

end ConfigConverter

/-! ### Flattening -/

/-- `paramToVector(v, e)`, MultiBodyConfig.cpp:190-201. Writing past the end of `e` is undefined behaviour. -/
def paramToVectorInto (v : List (List K)) (e : List K) : Res (List K) := do
  let r ← v.foldlM (fun (st : Nat × List K) inV =>
    inV.foldlM (fun (st : Nat × List K) d => do
      let e ← wr st.2 st.1 d
      return (st.1 + 1, e)) st) (0, e)
  return r.2

/-- `sParamToVector(v, e)`, MultiBodyConfig.cpp:203-219. -/
def sParamToVectorInto (v : List (List K)) (e : List K) : Res (List K) :=
  if (v.map List.length).sum ≠ e.length then .error .outOfRange else paramToVectorInto v e

/-- `paramToVector(mb, v)`, MultiBodyConfig.cpp:221-227; `junk` is the uninitialised vector. -/
def paramToVector (junk : Nat → K) (mb : MultiBody K) (v : List (List K)) : Res (List K) :=
  paramToVectorInto v ((List.range mb.nrParams).map junk)

/-- `dofToVector(mb, v)`, MultiBodyConfig.cpp:253-259. -/
def dofToVector (junk : Nat → K) (mb : MultiBody K) (v : List (List K)) : Res (List K) :=
  paramToVectorInto v ((List.range mb.nrDof).map junk)

/-- The loop `MultiBodyConfig.cpp:238-248` (and 270-279): every joint vector has the expected size. -/
def checkJointVecSizes {α : Type} (mb : MultiBody K) (sz : Joint K → Nat) (e : Err) (n : Nat) (v : List (List α)) :
    Res Unit :=
  (List.range n).foldlM (fun _ i => do
    let x ← rd v i
    let j ← mb.joint i
    if x.length ≠ sz j then throw e) ()

/-- `sParamToVector(mb, v)`, MultiBodyConfig.cpp:229-251. -/
def sParamToVector (junk : Nat → K) (mb : MultiBody K) (v : List (List K)) : Res (List K) := do
  if v.length ≠ mb.nrJoints then
    throw .outOfRange
  checkJointVecSizes mb (·.params) .outOfRange mb.nrJoints v
  paramToVector junk mb v

/-- `sDofToVector(mb, v)`, MultiBodyConfig.cpp:261-282. -/
def sDofToVector (junk : Nat → K) (mb : MultiBody K) (v : List (List K)) : Res (List K) := do
  if v.length ≠ mb.nrJoints then
    throw .outOfRange
  checkJointVecSizes mb (·.dof) .outOfRange mb.nrJoints v
  dofToVector junk mb v

/-- Inner loop of `vectorToParam`, MultiBodyConfig.cpp:289-293. -/
def fillFrom (e : List K) (pos : Nat) : List K → Res (Nat × List K)
  | [] => .ok (pos, [])
  | _ :: l => do
    let d ← rd e pos
    let r ← fillFrom e (pos + 1) l
    return (r.1, d :: r.2)

/-- Outer loop of `vectorToParam`, MultiBodyConfig.cpp:287-294. -/
def fillAllFrom (e : List K) (pos : Nat) : List (List K) → Res (Nat × List (List K))
  | [] => .ok (pos, [])
  | inV :: v => do
    let r ← fillFrom e pos inV
    let s ← fillAllFrom e r.1 v
    return (s.1, r.2 :: s.2)

/-- `vectorToParam(e, v)`, MultiBodyConfig.cpp:284-295. -/
def vectorToParamInto (e : List K) (v : List (List K)) : Res (List (List K)) := do
  return (← fillAllFrom e 0 v).2

/-- `sVectorToParam(e, v)`, MultiBodyConfig.cpp:297-313. -/
def sVectorToParamInto (e : List K) (v : List (List K)) : Res (List (List K)) :=
  if (v.map List.length).sum ≠ e.length then .error .outOfRange else vectorToParamInto e v

section
variable [Field K]
/-- `vectorToParam(mb, e)`, MultiBodyConfig.cpp:315-328. -/
def vectorToParam (mb : MultiBody K) (e : List K) : Res (List (List K)) :=
  vectorToParamInto e (mb.joints.map fun j => List.replicate j.params 0)
/-- `sVectorToParam(mb, e)`, MultiBodyConfig.cpp:330-339. -/
def sVectorToParam (mb : MultiBody K) (e : List K) : Res (List (List K)) :=
  if mb.nrParams ≠ e.length then .error .outOfRange else vectorToParam mb e
/-- `vectorToDof(mb, e)`, MultiBodyConfig.cpp:341-354. -/
def vectorToDof (mb : MultiBody K) (e : List K) : Res (List (List K)) :=
  vectorToParamInto e (mb.joints.map fun j => List.replicate j.dof 0)
/-- `sVectorToDof(mb, e)`, MultiBodyConfig.cpp:356-365. -/
def sVectorToDof (mb : MultiBody K) (e : List K) : Res (List (List K)) :=
  if mb.nrDof ≠ e.length then .error .outOfRange else vectorToDof mb e
end

/-! ### Size checks -/

/-- `checkMatchBodiesVector`, MultiBodyConfig.h:250-259. -/
def checkMatchBodiesVector {α : Type} (mb : MultiBody K) (v : List α) : Res Unit :=
  if v.length ≠ mb.nrBodies then .error .domainError else .ok ()
/-- `checkMatchJointsVector`, MultiBodyConfig.h:261-270. -/
def checkMatchJointsVector {α : Type} (mb : MultiBody K) (v : List α) : Res Unit :=
  if v.length ≠ mb.nrJoints then .error .domainError else .ok ()

/-- `checkMatchBodyPos`, MultiBodyConfig.cpp:367-370. -/
def checkMatchBodyPos (mb : MultiBody K) (mbc : MBC K) : Res Unit := checkMatchBodiesVector mb mbc.bodyPosW
/-- `checkMatchParentToSon`, MultiBodyConfig.cpp:372-375. -/
def checkMatchParentToSon (mb : MultiBody K) (mbc : MBC K) : Res Unit := checkMatchJointsVector mb mbc.parentToSon
/-- `checkMatchBodyVel`, MultiBodyConfig.cpp:377-381. -/
def checkMatchBodyVel (mb : MultiBody K) (mbc : MBC K) : Res Unit := do
  checkMatchBodiesVector mb mbc.bodyVelW
  checkMatchBodiesVector mb mbc.bodyVelB
/-- `checkMatchBodyAcc`, MultiBodyConfig.cpp:383-386. -/
def checkMatchBodyAcc (mb : MultiBody K) (mbc : MBC K) : Res Unit := checkMatchBodiesVector mb mbc.bodyAccB
/-- `checkMatchJointConf`, MultiBodyConfig.cpp:388-391. -/
def checkMatchJointConf (mb : MultiBody K) (mbc : MBC K) : Res Unit := checkMatchJointsVector mb mbc.jointConfig
/-- `checkMatchJointVelocity`, MultiBodyConfig.cpp:393-396. -/
def checkMatchJointVelocity (mb : MultiBody K) (mbc : MBC K) : Res Unit := checkMatchJointsVector mb mbc.jointVelocity
/-- `checkMatchJointTorque`, MultiBodyConfig.cpp:398-413. -/
def checkMatchJointTorque (mb : MultiBody K) (mbc : MBC K) : Res Unit := do
  checkMatchJointsVector mb mbc.jointTorque
  checkJointVecSizes mb (·.dof) .domainError mbc.jointTorque.length mbc.jointTorque
/-- `checkMatchMotionSubspace`, MultiBodyConfig.cpp:415-430. -/
def checkMatchMotionSubspace (mb : MultiBody K) (mbc : MBC K) : Res Unit := do
  checkMatchJointsVector mb mbc.motionSubspace
  checkJointVecSizes mb (·.dof) .domainError mbc.motionSubspace.length mbc.motionSubspace
/-- `checkMatchQ`, MultiBodyConfig.cpp:432-447. -/
def checkMatchQ (mb : MultiBody K) (mbc : MBC K) : Res Unit := do
  checkMatchJointsVector mb mbc.q
  checkJointVecSizes mb (·.params) .domainError mbc.q.length mbc.q
/-- `checkMatchAlpha`, MultiBodyConfig.cpp:449-464. -/
def checkMatchAlpha (mb : MultiBody K) (mbc : MBC K) : Res Unit := do
  checkMatchJointsVector mb mbc.alpha
  checkJointVecSizes mb (·.dof) .domainError mbc.alpha.length mbc.alpha
/-- `checkMatchAlphaD`, MultiBodyConfig.cpp:466-481. -/
def checkMatchAlphaD (mb : MultiBody K) (mbc : MBC K) : Res Unit := do
  checkMatchJointsVector mb mbc.alphaD
  checkJointVecSizes mb (·.dof) .domainError mbc.alphaD.length mbc.alphaD
/-- `checkMatchForce`, MultiBodyConfig.cpp:483-486. -/
def checkMatchForce (mb : MultiBody K) (mbc : MBC K) : Res Unit := checkMatchBodiesVector mb mbc.force

end RBDyn
