import Verif.Model.Kinematics
import Verif.Base.Mat

/-!
Model of `src/RBDyn/ID.cpp` and `src/RBDyn/FD.cpp`. The classes carry working memory; it is threaded through explicitly.
-/

namespace RBDyn
variable {K : Type} [Scalar K]

/-! ### Inverse dynamics -/

/-- Class `InverseDynamics`, ID.h:73-76: its member `f_`. -/
structure ID (K : Type) where
  f : List (ForceVec K)
  deriving DecidableEq, Repr

/-- `InverseDynamics(mb)`, ID.cpp:16; `junk` is the uninitialised memory. -/
def ID.mk' (junk : Nat → ForceVec K) (mb : MultiBody K) : ID K := ⟨(List.range mb.nrBodies).map junk⟩

/-- Loop body of `inverseDynamics`, ID.cpp:28-41. -/
def idStep (mb : MultiBody K) (s : ID K × MBC K) (i : Nat) : Res (ID K × MBC K) := do
  let (d, mbc) := s
  let a0 : MotionVec K := ⟨0, mbc.gravity⟩
  let Xpi ← rd mbc.parentToSon i
  let vj ← rd mbc.jointVelocity i
  let j ← rd mb.joints i
  let atan ← j.tanAccel (← rd mbc.alphaD i)
  let vb ← rd mbc.bodyVelB i
  let pred ← rd mb.pred i
  let a ←
    if pred ≠ -1 then do pure (Xpi.mulMotion (← rdI mbc.bodyAccB pred) + atan + vb.cross vj)
    else pure (Xpi.mulMotion a0 + atan + vb.cross vj)
  let bodyAccB ← wr mbc.bodyAccB i a
  let b ← rd mb.bodies i
  let W ← rd mbc.bodyPosW i
  let fe ← rd mbc.force i
  let f ← wr d.f i (b.inertia.mulMotion a + vb.crossDual (b.inertia.mulMotion vb) - W.dualMul fe)
  return ({ d with f }, { mbc with bodyAccB })

/-- Inner loop of `computeJointTorques`, ID.cpp:109-113: `torque[j] = S.col(j)ᵀ * f` for `j < dof`. -/
def projectInto (S : List (MotionVec K)) (f : ForceVec K) (dof : Nat) (torque : List K) : Res (List K) :=
  (List.range dof).foldlM (fun t j => do
    let c ← rd S j
    wr t j (c.dot f)) torque

/-- Loop body of `computeJointTorques`, ID.cpp:108-119. -/
def torqueStep (mb : MultiBody K) (s : ID K × MBC K) (i : Nat) : Res (ID K × MBC K) := do
  let (d, mbc) := s
  let j ← rd mb.joints i
  let fi ← rd d.f i
  let t ← projectInto (← rd mbc.motionSubspace i) fi j.dof (← rd mbc.jointTorque i)
  let jointTorque ← wr mbc.jointTorque i t
  let pred ← rd mb.pred i
  let f ←
    if pred ≠ -1 then do
      let X ← rd mbc.parentToSon i
      wrI d.f pred ((← rdI d.f pred) + X.transMul fi)
    else pure d.f
  return ({ d with f }, { mbc with jointTorque })

/-- `computeJointTorques(mb, mbc)`, ID.cpp:100-121. -/
def ID.computeJointTorques (d : ID K) (mb : MultiBody K) (mbc : MBC K) : Res (ID K × MBC K) :=
  (List.range mb.bodies.length).reverse.foldlM (torqueStep mb) (d, mbc)

/-- `inverseDynamics(mb, mbc)`, ID.cpp:18-45. -/
def ID.inverseDynamics (d : ID K) (mb : MultiBody K) (mbc : MBC K) : Res (ID K × MBC K) := do
  let (d, mbc) ← (List.range mb.bodies.length).foldlM (idStep mb) (d, mbc)
  d.computeJointTorques mb mbc

/-- `inverseDynamicsNoInertia(mb, mbc)`, ID.cpp:47-55. -/
def ID.inverseDynamicsNoInertia (d : ID K) (mb : MultiBody K) (mbc : MBC K) : Res (ID K × MBC K) := do
  let d ← (List.range mb.nrBodies).foldlM (fun (d : ID K) i => do
    let W ← rd mbc.bodyPosW i
    let fe ← rd mbc.force i
    let f ← wr d.f i (W.dualMul fe)
    pure { d with f }) d
  d.computeJointTorques mb mbc

/-- The checks of `sInverseDynamics` and `sInverseDynamicsNoInertia`, ID.cpp:59-69 and 76-86. -/
def idChecks (mb : MultiBody K) (mbc : MBC K) : Res Unit := do
  checkMatchAlphaD mb mbc
  checkMatchForce mb mbc
  checkMatchJointConf mb mbc
  checkMatchJointVelocity mb mbc
  checkMatchBodyPos mb mbc
  checkMatchParentToSon mb mbc
  checkMatchBodyVel mb mbc
  checkMatchMotionSubspace mb mbc
  checkMatchBodyAcc mb mbc
  checkMatchJointTorque mb mbc

/-- `sInverseDynamics(mb, mbc)`, ID.cpp:57-72. -/
def ID.sInverseDynamics (d : ID K) (mb : MultiBody K) (mbc : MBC K) : Res (ID K × MBC K) := do
  idChecks mb mbc
  d.inverseDynamics mb mbc

/-- `sInverseDynamicsNoInertia(mb, mbc)`, ID.cpp:74-89. -/
def ID.sInverseDynamicsNoInertia (d : ID K) (mb : MultiBody K) (mbc : MBC K) : Res (ID K × MBC K) := do
  idChecks mb mbc
  d.inverseDynamicsNoInertia mb mbc

/-! ### Forward dynamics -/

/-- Class `ForwardDynamics`, FD.h: its members. A `6 × n` matrix of `F_` is the list of its columns as force vectors. -/
structure FD (K : Type) where
  H : DMat K
  C : List K
  Ist : List (RBInertia K)
  F : List (List (ForceVec K))
  acc : List (MotionVec K)
  f : List (ForceVec K)
  tmpFd : List K
  dofPos : List Nat

/-- Initialisation list of `ForwardDynamics(mb)`, FD.cpp:16-18; `junk` stands for the uninitialised memory. -/
def FD.alloc (junk : FD K) (mb : MultiBody K) : FD K :=
  { H := ⟨mb.nrDof, mb.nrDof, junk.H.get⟩
    C := (List.range mb.nrDof).map fun i => junk.C.getD i 0
    Ist := (List.range mb.nrBodies).map fun i => junk.Ist.getD i 0
    F := List.replicate mb.nrJoints []
    acc := (List.range mb.nrBodies).map fun i => junk.acc.getD i 0
    f := (List.range mb.nrBodies).map fun i => junk.f.getD i 0
    tmpFd := (List.range mb.nrDof).map fun i => junk.tmpFd.getD i 0
    dofPos := (List.range mb.nrJoints).map fun i => junk.dofPos.getD i 0 }

/-- `ForwardDynamics(mb)`, FD.cpp:16-30. -/
def FD.mk' (junk : FD K) (mb : MultiBody K) : Res (FD K) := do
  let r ← (List.range mb.nrJoints).foldlM (fun (s : FD K × Nat) i => do
    let j ← rd mb.joints i
    let F ← wr s.1.F i ((List.range j.dof).map fun c => (junk.F.getD i []).getD c 0)
    let dofPos ← wr s.1.dofPos i s.2
    pure ({ s.1 with F, dofPos }, s.2 + j.dof)) (FD.alloc junk mb, 0)
  return r.1

/-- `Sᵀ * F` for two matrices of six rows given by their columns. -/
def gram (S : List (MotionVec K)) (F : List (ForceVec K)) : DMat K :=
  ⟨S.length, F.length, fun a b => (S.getD a 0).dot (F.getD b 0)⟩

/-- `for (dof = 0; dof < n; ++dof) A.col(dof) = g(dof)`. -/
def setCols {α : Type} (n : Nat) (A : List α) (g : Nat → Res α) : Res (List α) :=
  (List.range n).foldlM (fun A c => do wr A c (← g c)) A

/-- The `while` loop of `computeH`, FD.cpp:74-91. It climbs from `j` to the root. `fuel` is the number of bodies plus one: a longer
climb visits a body twice and never ends. -/
def hUp (mb : MultiBody K) (mbc : MBC K) (i : Nat) : Nat → Nat → FD K → Res (FD K)
  | 0, _, _ => .error .diverges
  | fuel + 1, j, d => do
    let pred ← rd mb.pred j
    if pred ≠ -1 then
      let X ← rd mbc.parentToSon j
      let ji ← rd mb.joints i
      let Fi ← rd d.F i
      let Fi ← setCols ji.dof Fi fun c => do return X.transMul (← rd Fi c)
      let F ← wr d.F i Fi
      let d := { d with F }
      let j ← (if pred < 0 then .error .ub else pure pred.toNat : Res Nat)
      let jj ← rd mb.joints j
      let d ←
        if jj.dof ≠ 0 then do
          let pi ← rd d.dofPos i
          let pj ← rd d.dofPos j
          let H ← d.H.setBlock pi pj ji.dof jj.dof (gram (← rd mbc.motionSubspace j) Fi).tr
          let H ← H.setBlock pj pi jj.dof ji.dof (← H.block pi pj ji.dof jj.dof).tr
          pure { d with H }
        else pure d
      hUp mb mbc i fuel j d
    else return d

/-- Body of the second loop of `computeH`, FD.cpp:58-91. -/
def hStep (mb : MultiBody K) (mbc : MBC K) (d : FD K) (i : Nat) : Res (FD K) := do
  let pred ← rd mb.pred i
  let Ii ← rd d.Ist i
  let Ist ←
    if pred ≠ -1 then do
      let X ← rd mbc.parentToSon i
      wrI d.Ist pred ((← rdI d.Ist pred) + X.transMulI Ii)
    else pure d.Ist
  let d := { d with Ist }
  let j ← rd mb.joints i
  let Ii ← rd d.Ist i
  let S ← rd mbc.motionSubspace i
  let Fi ← setCols j.dof (← rd d.F i) fun c => do return Ii.mulMotion (← rd S c)
  let F ← wr d.F i Fi
  let p ← rd d.dofPos i
  let H ← d.H.setBlock p p j.dof j.dof (gram S Fi)
  hUp mb mbc i (mb.bodies.length + 1) i { d with F, H }

/-- `computeH(mb, mbc)`, FD.cpp:44-93. -/
def FD.computeH (d : FD K) (mb : MultiBody K) (mbc : MBC K) : Res (FD K) := do
  let d := { d with H := d.H.setZero }
  let d ← (List.range mb.bodies.length).foldlM (fun (d : FD K) i => do
    let b ← rd mb.bodies i
    let Ist ← wr d.Ist i b.inertia
    pure { d with Ist }) d
  (List.range mb.bodies.length).reverse.foldlM (hStep mb mbc) d

/-- Body of the first loop of `computeC`, FD.cpp:105-117. -/
def cStep (mb : MultiBody K) (mbc : MBC K) (d : FD K) (i : Nat) : Res (FD K) := do
  let a0 : MotionVec K := ⟨0, mbc.gravity⟩
  let Xpi ← rd mbc.parentToSon i
  let vj ← rd mbc.jointVelocity i
  let vb ← rd mbc.bodyVelB i
  let pred ← rd mb.pred i
  let a ←
    if pred ≠ -1 then do pure (Xpi.mulMotion (← rdI d.acc pred) + vb.cross vj)
    else pure (Xpi.mulMotion a0 + vb.cross vj)
  let acc ← wr d.acc i a
  let b ← rd mb.bodies i
  let W ← rd mbc.bodyPosW i
  let fe ← rd mbc.force i
  let f ← wr d.f i (b.inertia.mulMotion a + vb.crossDual (b.inertia.mulMotion vb) - W.dualMul fe)
  return { d with acc, f }

/-- Body of the second loop of `computeC`, FD.cpp:122-129. -/
def cBackStep (mb : MultiBody K) (mbc : MBC K) (d : FD K) (i : Nat) : Res (FD K) := do
  let j ← rd mb.joints i
  let S ← rd mbc.motionSubspace i
  let fi ← rd d.f i
  let C ← setSegment d.C (← rd d.dofPos i) j.dof (S.map fun c => c.dot fi)
  let pred ← rd mb.pred i
  let f ←
    if pred ≠ -1 then do
      let X ← rd mbc.parentToSon i
      wrI d.f pred ((← rdI d.f pred) + X.transMul fi)
    else pure d.f
  return { d with C, f }

/-- `computeC(mb, mbc)`, FD.cpp:95-131. -/
def FD.computeC (d : FD K) (mb : MultiBody K) (mbc : MBC K) : Res (FD K) := do
  let d ← (List.range mb.bodies.length).foldlM (cStep mb mbc) d
  (List.range mb.bodies.length).reverse.foldlM (cBackStep mb mbc) d

/-- Difference of two Eigen vectors; Eigen asserts that the sizes agree. -/
def vecSub (a b : List K) : Res (List K) :=
  if a.length = b.length then .ok (List.zipWith (· - ·) a b) else .error .ub

/-- `forwardDynamics(mb, mbc)`, FD.cpp:32-42. Eigen's `LDLT` factorisation and solve is the parameter `solve`, about which nothing
is assumed here. -/
def FD.forwardDynamics (solve : DMat K → List K → List K) (d : FD K) (mb : MultiBody K) (mbc : MBC K) :
    Res (FD K × MBC K) := do
  let d ← d.computeH mb mbc
  let d ← d.computeC mb mbc
  let tmpFd ← paramToVectorInto mbc.jointTorque d.tmpFd
  let rhs ← vecSub tmpFd d.C
  let tmpFd := solve d.H rhs
  let alphaD ← vectorToParamInto tmpFd mbc.alphaD
  return ({ d with tmpFd }, { mbc with alphaD })

/-- `sForwardDynamics(mb, mbc)`, FD.cpp:133-146. -/
def FD.sForwardDynamics (solve : DMat K → List K → List K) (d : FD K) (mb : MultiBody K) (mbc : MBC K) :
    Res (FD K × MBC K) := do
  checkMatchParentToSon mb mbc
  checkMatchMotionSubspace mb mbc
  checkMatchJointVelocity mb mbc
  checkMatchBodyVel mb mbc
  checkMatchBodyPos mb mbc
  checkMatchForce mb mbc
  checkMatchJointTorque mb mbc
  checkMatchAlphaD mb mbc
  d.forwardDynamics solve mb mbc

/-- `sComputeH(mb, mbc)`, FD.cpp:148-154. -/
def FD.sComputeH (d : FD K) (mb : MultiBody K) (mbc : MBC K) : Res (FD K) := do
  checkMatchParentToSon mb mbc
  checkMatchMotionSubspace mb mbc
  d.computeH mb mbc

/-- `sComputeC(mb, mbc)`, FD.cpp:156-166. -/
def FD.sComputeC (d : FD K) (mb : MultiBody K) (mbc : MBC K) : Res (FD K) := do
  checkMatchParentToSon mb mbc
  checkMatchMotionSubspace mb mbc
  checkMatchJointVelocity mb mbc
  checkMatchBodyVel mb mbc
  checkMatchBodyPos mb mbc
  checkMatchForce mb mbc
  d.computeC mb mbc

end RBDyn
