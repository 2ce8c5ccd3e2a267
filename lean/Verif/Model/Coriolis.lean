import Verif.Model.Jacobian

/-! Model of `src/RBDyn/Coriolis.cpp`. -/

namespace RBDyn
variable {K : Type} [Scalar K]
open scoped Mat3

/-- Class `Coriolis`, Coriolis.h:38-41: its members. -/
structure Cor (K : Type) where
  jacs : List (Jac K)
  paths : List (List Blk)
  mat : DMat K
  res : DMat K

/-- The centre of mass of a body as the constructor computes it, Coriolis.cpp:16-24. -/
def Body.corCom (b : Body K) : Vec3 K := if 0 < b.inertia.m then (1 / b.inertia.m) • b.inertia.h else 0

/-- Loop body of the constructor, Coriolis.cpp:14-31. `junk` is uninitialised memory. -/
def Cor.mkStep (junk : Nat → MotionVec K) (junkM : Nat → Nat → K) (mb : MultiBody K) (c : Cor K) (i : Nat) : Res (Cor K) := do
  let b ← rd mb.bodies i
  let J ← Jac.mk' junk mb b.name b.corCom
  let jacs := c.jacs ++ [J]
  let paths := c.paths ++ [← J.compactPath mb]
  let res := if c.res.rows < J.dof then ⟨J.dof, J.dof, junkM⟩ else c.res
  return ⟨jacs, paths, c.mat, res⟩

/-- `Coriolis(mb)`, Coriolis.cpp:10-32. -/
def Cor.mk' (junk : Nat → MotionVec K) (junkM : Nat → Nat → K) (mb : MultiBody K) : Res (Cor K) :=
  (List.range mb.nrBodies).foldlM (Cor.mkStep junk junkM mb) ⟨[], [], ⟨mb.nrDof, mb.nrDof, junkM⟩, ⟨0, 0, junkM⟩⟩

/-- The matrix of one body, Coriolis.cpp:51-72: `m Jvᵀ J̇v + Jwᵀ (rot * ir * J̇w + rDot * ir * Jw)` with `W` the pose and `w` the angular
velocity of the body in the world, `I` its inertia and `p` its centre of mass. Eigen asserts that the products have matching sizes. -/
def corBlock (W : PTransform K) (w : Vec3 K) (I : RBInertia K) (p : Vec3 K) (jac jacDot : List (MotionVec K)) : Res (DMat K) :=
  let rot := W.E.tr
  let rDot := Mat3.crossMat w * rot
  let inertia := I.I.toMat - Mat3.crossMat (I.m • p) * (Mat3.crossMat p).tr
  let ir := inertia * rot.tr
  if jacDot.length = jac.length then
    .ok ⟨jac.length, jac.length, fun k l =>
      I.m * (jac.getD k 0).lin.dot (jacDot.getD l 0).lin +
        (jac.getD k 0).ang.dot ((rot * ir) *ᵥ (jacDot.getD l 0).ang + (rDot * ir) *ᵥ (jac.getD l 0).ang)⟩
  else .error .ub

/-- Loop body of `coriolis`, Coriolis.cpp:43-76. -/
def Cor.step (mb : MultiBody K) (mbc : MBC K) (c : Cor K) (i : Nat) : Res (Cor K) := do
  let J ← (← rd c.jacs i).jacobian mb mbc
  let J ← J.jacobianDot mb mbc
  let W ← rd mbc.bodyPosW i
  let vW ← rd mbc.bodyVelW i
  let b ← rd mb.bodies i
  let m ← corBlock W vW.ang b.inertia J.point.r J.jac J.jacDot
  let res ← c.res.setBlock 0 0 J.dof J.dof m
  let mat ← expandAddBlocks (← rd c.paths i) (← res.block 0 0 J.dof J.dof) c.mat
  return ⟨← wr c.jacs i J, c.paths, mat, res⟩

/-- `coriolis(mb, mbc)`, Coriolis.cpp:34-79; the result is `mat`. -/
def Cor.coriolis (c : Cor K) (mb : MultiBody K) (mbc : MBC K) : Res (Cor K) :=
  (List.range mb.nrBodies).foldlM (Cor.step mb mbc) { c with mat := c.mat.setZero }

end RBDyn
