import Verif.Model.IDIM
import Verif.Model.Jacobian

/-!
The class `InverseStatics` with the derivatives of its torques (IS.h, IS.cpp). `inverseStatics` itself is modelled in `Model/IDIM.lean`.
-/

namespace RBDyn
variable {K : Type} [Scalar K]
open scoped Mat3

/-- `Eigen::MatrixXd` with six rows whose columns are force vectors. Columns outside the dimension are meaningless. -/
structure FMat (K : Type) where
  cols : Nat
  col : Nat → ForceVec K

/-- The members of `InverseStatics`, IS.h:93-101. -/
structure IS (K : Type) where
  f : List (ForceVec K)
  df : List (FMat K)
  jointTorqueDiff : List (DMat K)
  jacW : List (Jac K)
  fullJac : DMat K
  sizeSet : Bool

/-- First loop of the constructor, IS.cpp:34-38. The elements of `jacW_` and `df_` are appended instead of overwritten. -/
def IS.initStep (junk : Nat → MotionVec K) (mb : MultiBody K) (s : IS K) (i : Nat) : Res (IS K) := do
  let b ← rd mb.bodies i
  let J ← Jac.mk' junk mb b.name 0
  return { s with jacW := s.jacW ++ [J], df := s.df ++ [⟨mb.nrDof, fun _ => 0⟩] }

/-- `InverseStatics(mb)`, IS.cpp:28-45. `junk` and `junkF` are uninitialised memory. -/
def IS.mk' (junk : Nat → MotionVec K) (junkF : Nat → ForceVec K) (mb : MultiBody K) : Res (IS K) :=
  (List.range mb.nrBodies).foldlM (IS.initStep junk mb)
    ⟨(List.range mb.nrBodies).map junkF, [], mb.joints.map fun j => ⟨j.dof, mb.nrDof, fun _ _ => 0⟩, [],
      ⟨6, mb.nrDof, fun _ _ => 0⟩, false⟩

/-- Second loop of `setJacobianSize`, IS.cpp:61-70. -/
def IS.sizeStep (mbc : MBC K) (wanted : Nat) (s : IS K) (i : Nat) : Res (IS K) := do
  let d ← rd s.df i
  let cols := if d.cols < wanted then wanted else d.cols
  let df ← wr s.df i ⟨cols, fun _ => 0⟩
  let S ← rd mbc.motionSubspace i
  let diff ← wr s.jointTorqueDiff i ⟨S.length, cols, fun _ _ => 0⟩
  return { s with df := df, jointTorqueDiff := diff }

/-- `setJacobianSize(mb, mbc, jacMomentsAndForces)`, IS.cpp:47-72. -/
def IS.setJacobianSize (s : IS K) (mb : MultiBody K) (mbc : MBC K) (jac : List (FMat K)) : Res (IS K) := do
  let wanted ← (List.range mb.bodies.length).foldlM (fun w i => do
    let e ← rd jac i
    return if w < e.cols then e.cols else w) 0
  let s ← (List.range mb.bodies.length).foldlM (IS.sizeStep mbc wanted) s
  return { s with sizeSet := true }

/-- The product of the matrix `transMat(T)`, IS.cpp:111-120, and a vector. -/
def transMatMul (T : PTransform K) (f : ForceVec K) : ForceVec K :=
  ⟨T.E.tr *ᵥ f.couple + (Mat3.crossMat T.r * T.E.tr) *ᵥ f.force, T.E.tr *ᵥ f.force⟩

/-- Column of a matrix with six rows as a motion vector. -/
def DMat.motionCol (m : DMat K) (c : Nat) : MotionVec K := ⟨⟨m.get 0 c, m.get 1 c, m.get 2 c⟩, ⟨m.get 3 c, m.get 4 c, m.get 5 c⟩⟩

/-- The product of `inertia.matrix() * M - N`, IS.cpp:133-137 and 149-172, and a column of the Jacobian. -/
def isLocal (I : RBInertia K) (W : PTransform K) (gravity : Vec3 K) (fe : ForceVec K) (v : MotionVec K) : ForceVec K :=
  let aC : Vec3 K := 0
  let aF := gravity
  let hatAF := Mat3.crossMat aF
  let hatAC := Mat3.crossMat aC
  let hatFF := Mat3.crossMat fe.force
  let hatFC := Mat3.crossMat fe.couple
  let hattW := Mat3.crossMat W.r
  let hathattaC := Mat3.crossMat (hattW *ᵥ aC)
  let hathattfF := Mat3.crossMat (hattW *ᵥ fe.force)
  let Mv : MotionVec K := ⟨(W.E * hatAC) *ᵥ v.ang, (W.E * (-hathattaC + hatAF)) *ᵥ v.ang + (W.E * hatAC) *ᵥ v.lin⟩
  let Nv : ForceVec K := ⟨(W.E * (hatFC - hathattfF)) *ᵥ v.ang + (W.E * hatFF) *ᵥ v.lin, (W.E * hatFF) *ᵥ v.ang⟩
  I.mulMotion Mv - Nv

/-- First loop of `computeTorqueJacobianJoint`, IS.cpp:139-178. Eigen asserts that the block lies inside `df_[i]` and that the matrices
added have the same size. -/
def IS.jacStep (mb : MultiBody K) (jac : List (FMat K)) (s : IS K × MBC K) (i : Nat) : Res (IS K × MBC K) := do
  let (s, mbc) := s
  let d ← rd s.df i
  let J ← (← rd s.jacW i).jacobian mb mbc
  let full ← J.fullJacobian mb (DMat.ofCols J.jac) s.fullJac
  let W ← rd mbc.bodyPosW i
  let a := W.mulMotion ⟨0, mbc.gravity⟩
  let bodyAccB ← wr mbc.bodyAccB i a
  let fe ← rd mbc.force i
  let b ← rd mb.bodies i
  let f ← wr s.f i (b.inertia.mulMotion a - W.dualMul fe)
  let d ← (if full.cols ≤ d.cols then
      .ok ⟨d.cols, fun c => if c < full.cols then isLocal b.inertia W mbc.gravity fe (full.motionCol c) else 0⟩ else .error .ub : Res (FMat K))
  let e ← rd jac i
  let d ← (if 0 < e.cols then
      (if e.cols = d.cols then .ok ⟨d.cols, fun c => d.col c + W.dualMul (e.col c)⟩ else .error .ub) else .ok d : Res (FMat K))
  let df ← wr s.df i d
  let jacW ← wr s.jacW i J
  return ({ s with f := f, df := df, jacW := jacW, fullJac := full }, { mbc with bodyAccB := bodyAccB })

/-- The product of the matrix `MJ`, IS.cpp:193-207, and a column of the motion subspace. -/
def mjMul (X : PTransform K) (f : ForceVec K) (v : MotionVec K) : ForceVec K :=
  let RfC := X.E.tr *ᵥ f.couple
  let RfF := X.E.tr *ᵥ f.force
  ⟨(Mat3.crossMat RfC *ᵥ v.ang + X.r.dot v.ang • RfF - RfF.dot X.r • v.ang) + -(Mat3.crossMat RfF *ᵥ v.lin), Mat3.crossMat RfF *ᵥ v.ang⟩

/-- Second loop of `computeTorqueJacobianJoint`, IS.cpp:180-209. -/
def IS.jacBackStep (mb : MultiBody K) (mbc : MBC K) (s : IS K) (i : Nat) : Res (IS K) := do
  let S ← rd mbc.motionSubspace i
  let d ← rd s.df i
  let diff ← wr s.jointTorqueDiff i ⟨S.length, d.cols, fun r c => (S.getD r 0).dot (d.col c)⟩
  let pred ← rd mb.pred i
  if pred ≠ -1 then do
    let X ← rd mbc.parentToSon i
    let fi ← rd s.f i
    let f ← wrI s.f pred ((← rdI s.f pred) + X.transMul fi)
    let dp ← rdI s.df pred
    let Xj ← rd mbc.jointConfig i
    let Xt ← rd mb.Xt i
    let j ← rd mb.joints i
    let pos ← rd mb.jointPosInDof i
    let dp ← (if dp.cols = d.cols ∧ pos + j.dof ≤ dp.cols ∧ S.length = j.dof then
        .ok ⟨dp.cols, fun c => dp.col c + transMatMul X (d.col c) -
          if pos ≤ c ∧ c < pos + j.dof then transMatMul Xt (mjMul Xj fi (S.getD (c - pos) 0)) else 0⟩ else .error .ub : Res (FMat K))
    let df ← wrI s.df pred dp
    return { s with f := f, df := df, jointTorqueDiff := diff }
  else
    return { s with jointTorqueDiff := diff }

/-- `computeTorqueJacobianJoint(mb, mbc, jacMomentsAndForces)`, IS.cpp:105-210. A matrix of `jacMomentsAndForces` that has columns is
taken to have six rows. -/
def IS.computeTorqueJacobian (s : IS K) (mb : MultiBody K) (mbc : MBC K) (jac : List (FMat K)) : Res (IS K × MBC K) := do
  if jac.length ≠ mb.nrBodies then .error .ub
  else do
    let s ← if !s.sizeSet then s.setJacobianSize mb mbc jac else pure s
    let (s, mbc) ← (List.range mb.bodies.length).foldlM (IS.jacStep mb jac) (s, mbc)
    let s ← (List.range mb.joints.length).reverse.foldlM (IS.jacBackStep mb mbc) s
    return (s, mbc)

/-- `computeTorqueJacobianJoint(mb, mbc)`, IS.cpp:212-218. -/
def IS.computeTorqueJacobian0 (s : IS K) (mb : MultiBody K) (mbc : MBC K) : Res (IS K × MBC K) :=
  s.computeTorqueJacobian mb mbc (List.replicate mb.nrJoints ⟨0, fun _ => 0⟩)

end RBDyn
