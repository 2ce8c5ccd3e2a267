import Verif.Model.Kinematics
import Verif.Base.Mat

/-!
Model of `src/RBDyn/Jacobian.cpp` and `src/RBDyn/RBDyn/Jacobian.h`. A `6 × n` matrix is the list of its columns as motion vectors;
matrices of other sizes are `DMat`.
-/

namespace RBDyn
variable {K : Type} [Scalar K]
open scoped Mat3

/-- Class `Jacobian`, Jacobian.h: its members. `jointsPath_` holds `int`s; the indices stored there have been used as indices before, so they
are not negative. -/
structure Jac (K : Type) where
  path : List Nat
  sign : List K
  point : PTransform K
  jac : List (MotionVec K)
  jacDot : List (MotionVec K)
  bodyIndex : Int
  refBodyIndex : Int
  deriving DecidableEq, Repr

/-- An `int` used as an index: negative values are out of bounds. -/
def toIdx (i : Int) : Res Nat := if i < 0 then .error .ub else .ok i.toNat

/-- The matrix with six rows and the given columns. -/
def DMat.ofCols (cols : List (MotionVec K)) : DMat K := ⟨6, cols.length, fun r c => ((cols.getD c 0).toList).getD r 0⟩

/-! ### Constructors -/

/-- `while(index != -1)` of the first constructor, Jacobian.cpp:31-38. The state is the path, the signs and the number of degrees of
freedom. `fuel` bounds the iterations (the C++ loop has no bound; running out of fuel means it does not end). -/
def pathLoop (mb : MultiBody K) : Nat → Int → List Nat × List K × Nat → Res (List Nat × List K × Nat)
  | 0, _, _ => .error .diverges
  | fuel + 1, index, (path, sign, dof) =>
    if index ≠ -1 then do
      let i ← toIdx index
      let j ← mb.joint index
      pathLoop mb fuel (← mb.parentAt index) (i :: path, 1 :: sign, dof + j.dof)
    else return (path, sign, dof)

/-- `Jacobian(mb, bodyName, point)`, Jacobian.cpp:22-42; `junk` is the uninitialised contents of `jac_` and `jacDot_`. -/
def Jac.mk' (junk : Nat → MotionVec K) (mb : MultiBody K) (bodyName : String) (point : Vec3 K) : Res (Jac K) := do
  let bodyIndex ← mb.sBodyIndexByName bodyName
  let (path, sign, dof) ← pathLoop mb (mb.bodies.length + 1) bodyIndex ([], [], 0)
  return ⟨path, sign, .ofTrans point, (List.range dof).map junk, (List.range dof).map junk, bodyIndex, 0⟩

/-- First loop of the relative constructor, Jacobian.cpp:55-68: as `pathLoop`, but stops at the reference body. Also returns the last
value of `index`. -/
def pathLoopRef (mb : MultiBody K) (ref : Int) : Nat → Int → List Nat × List K × Nat → Res (Int × List Nat × List K × Nat)
  | 0, _, _ => .error .diverges
  | fuel + 1, index, (path, sign, dof) =>
    if index ≠ -1 then
      if index = ref then return (index, path, sign, dof)
      else do
        let i ← toIdx index
        let j ← mb.joint index
        pathLoopRef mb ref fuel (← mb.parentAt index) (i :: path, 1 :: sign, dof + j.dof)
    else return (index, path, sign, dof)

/-- The `do … while` loop of the relative constructor, Jacobian.cpp:75-84: `path` is inserted at position `count`, the sign at the
beginning. -/
def refLoop (mb : MultiBody K) : Nat → Int → Nat → List Nat × List K × Nat → Res (Int × Nat × List Nat × List K × Nat)
  | 0, _, _, _ => .error .diverges
  | fuel + 1, index, count, (path, sign, dof) => do
    let i ← toIdx index
    let path := path.insertIdx count i
    let j ← mb.joint index
    let dof := dof + j.dof
    let sign := -1 :: sign
    let index ← mb.parentAt index
    let count := count + 1
    if ((path.drop count).map Int.ofNat).contains index then return (index, count, path, sign, dof)
    else refLoop mb fuel index count (path, sign, dof)

/-- `while(jointsPath_[++commonIdx] != index)`, Jacobian.cpp:90-93. -/
def findCommon (path : List Nat) (index : Int) : Nat → Nat → Res Nat
  | 0, _ => .error .diverges
  | fuel + 1, commonIdx => do
    let c := commonIdx + 1
    if ((← rd path c : Nat) : Int) ≠ index then findCommon path index fuel c else return c

/-- Erase the elements `[a, b)` of a vector. -/
def eraseRange {α : Type} (l : List α) (a b : Nat) : List α := l.take a ++ l.drop b

/-- `Jacobian(mb, bodyName, refBodyName, point)`, Jacobian.cpp:44-103. The insertion at the beginning of `jointsSign_` and at `count` of
`jointsPath_` are kept as they are. -/
def Jac.mkRel (junk : Nat → MotionVec K) (mb : MultiBody K) (bodyName refBodyName : String) (point : Vec3 K) : Res (Jac K) := do
  let bodyIndex ← mb.sBodyIndexByName bodyName
  let ref ← mb.sBodyIndexByName refBodyName
  let (index, path, sign, dof) ← pathLoopRef mb ref (mb.bodies.length + 1) bodyIndex ([], [], 0)
  let (path, sign, dof) ←
    if index ≠ ref then do
      let (index, count, path, sign, dof) ← refLoop mb (mb.bodies.length + 1) ref 0 (path, sign, dof)
      if 0 < index then do
        let c ← findCommon path index (path.length + 1) count
        let del := (path.drop count).take (c + 1 - count)
        let n ← del.foldlM (fun (s i : Nat) => do return s + (← mb.joint (i : Int)).dof) 0
        pure (eraseRange path count (c + 1), eraseRange sign count (c + 1), dof - n)
      else pure (path, sign, dof)
    else pure (path, sign, dof)
  return ⟨path, sign, .ofTrans point, (List.range dof).map junk, (List.range dof).map junk, bodyIndex, ref⟩

/-- `jointsPath_.back()`: undefined behaviour on an empty path. -/
def Jac.back (J : Jac K) : Res Nat := if J.path = [] then .error .ub else rd J.path (J.path.length - 1)

/-- `dof()`, Jacobian.h: the number of columns of `jac_`. -/
def Jac.dof (J : Jac K) : Nat := J.jac.length

/-- `point(point)`, Jacobian.h. -/
def Jac.setPoint (J : Jac K) (p : Vec3 K) : Jac K := { J with point := .ofTrans p }

/-! ### Filling the columns of the path joints -/

/-- `for(dof = 0; dof < n; ++dof) m.col(cur + dof) = …`. The new column may depend on the old one. -/
def writeCols {α : Type} (cols : List α) (cur n : Nat) (g : Nat → α → Res α) : Res (List α) :=
  (List.range n).foldlM (fun cols a => do
    let old ← rd cols (cur + a)
    wr cols (cur + a) (← g a old)) cols

/-- The loop over the joints of the path that `jacobian_`, `vectorJacobian`, `vectorBodyJacobian`, `jacobianDot` and `bodyJacobianDot`
share: `prep index i` computes what does not depend on the column and returns the function that computes column `dof` of
joint `i`. -/
def fillCols {α : Type} (mb : MultiBody K) (path : List Nat) (prep : Nat → Nat → Res (Nat → α → Res α)) (cols : List α) : Res (List α × Nat) :=
  (List.range path.length).foldlM (fun (s : List α × Nat) index => do
    let i ← rd path index
    let g ← prep index i
    let j ← rd mb.joints i
    return (← writeCols s.1 s.2 j.dof g, s.2 + j.dof)) (cols, 0)

/-- `jacobian_(mb, mbc, Trans_0_p, jointsPath, jointsSign, jac)`, Jacobian.cpp:164-193. -/
def jacobianFill (mb : MultiBody K) (mbc : MBC K) (X0p : PTransform K) (path : List Nat) (sign : List K) (jac : List (MotionVec K)) :
    Res (List (MotionVec K)) := do
  let (jac, _) ← fillCols mb path (fun index i => do
    let X := X0p * (← rd mbc.bodyPosW i).inv
    return fun a _ => do return X.mulMotion ((← rd sign index) • (← rd (← rd mbc.motionSubspace i) a))) jac
  return jac

/-- `jac_.block(0, 0, 3, n) = E * …; jac_.block(3, 0, 3, n) = E * …`, Jacobian.cpp:203-207. -/
def rotCols (E : Mat3 K) (jac : List (MotionVec K)) : List (MotionVec K) := jac.map fun c => ⟨E *ᵥ c.ang, E *ᵥ c.lin⟩

/-- The change of base of `jacobian`, Jacobian.cpp:201-208 and 220-227. -/
def Jac.toRef (J : Jac K) (mbc : MBC K) (jac : List (MotionVec K)) : Res (List (MotionVec K)) :=
  if 0 < J.refBodyIndex then do return rotCols (← rdI mbc.bodyPosW J.refBodyIndex).E jac else pure jac

/-- `jacobian(mb, mbc, X_0_p)`, Jacobian.cpp:195-210. -/
def Jac.jacobianX (J : Jac K) (mb : MultiBody K) (mbc : MBC K) (X0p : PTransform K) : Res (Jac K) := do
  let jac ← jacobianFill mb mbc X0p J.path J.sign J.jac
  return { J with jac := ← J.toRef mbc jac }

/-- `jacobian(mb, mbc)`, Jacobian.cpp:212-229. -/
def Jac.jacobian (J : Jac K) (mb : MultiBody K) (mbc : MBC K) : Res (Jac K) := do
  let N ← J.back
  let T := (J.point * (← rd mbc.bodyPosW N)).r
  let jac ← jacobianFill mb mbc (.ofTrans T) J.path J.sign J.jac
  return { J with jac := ← J.toRef mbc jac }

/-- `bodyJacobian(mb, mbc)`, Jacobian.cpp:231-237. -/
def Jac.bodyJacobian (J : Jac K) (mb : MultiBody K) (mbc : MBC K) : Res (Jac K) := do
  let N ← J.back
  let X := J.point * (← rd mbc.bodyPosW N)
  return { J with jac := ← jacobianFill mb mbc X J.path J.sign J.jac }

/-- `vectorJacobian(mb, mbc, vector)`, Jacobian.cpp:239-273: only the last three rows of `jac_` are written. -/
def Jac.vectorJacobian (J : Jac K) (mb : MultiBody K) (mbc : MBC K) (vector : Vec3 K) : Res (Jac K) := do
  let N ← J.back
  let W ← rd mbc.bodyPosW N
  let EN0 := W.E.tr
  let XNp := J.point * W
  let vec := PTransform.ofTrans vector
  let (jac, _) ← fillCols mb J.path (fun _ i => do
    let XiN := XNp * (← rd mbc.bodyPosW i).inv
    let Ei0 := EN0 * XiN.E
    let XiNv := vec * XiN
    let diff := XiN.r - XiNv.r
    return fun a old => do return ⟨old.ang, Ei0 *ᵥ (diff.cross (← rd (← rd mbc.motionSubspace i) a).ang)⟩) J.jac
  return { J with jac := jac }

/-- `vectorBodyJacobian(mb, mbc, vector)`, Jacobian.cpp:275-308: only the last three rows of `jac_` are written. -/
def Jac.vectorBodyJacobian (J : Jac K) (mb : MultiBody K) (mbc : MBC K) (vector : Vec3 K) : Res (Jac K) := do
  let N ← J.back
  let XNp := J.point * (← rd mbc.bodyPosW N)
  let vec := PTransform.ofTrans vector
  let (jac, _) ← fillCols mb J.path (fun _ i => do
    let XiN := XNp * (← rd mbc.bodyPosW i).inv
    let XiNv := vec * XiN
    let diff := XiN.r - XiNv.r
    return fun a old => do return ⟨old.ang, XiN.E *ᵥ (diff.cross (← rd (← rd mbc.motionSubspace i) a).ang)⟩) J.jac
  return { J with jac := jac }

/-- `jacobianDot(mb, mbc)`, Jacobian.cpp:310-348. `E_N_0 * X_i_Np * S_ij` is `(E_N_0 * X_i_Np) * S_ij`. -/
def Jac.jacobianDot (J : Jac K) (mb : MultiBody K) (mbc : MBC K) : Res (Jac K) := do
  let N ← J.back
  let W ← rd mbc.bodyPosW N
  let X0Np := J.point * W
  let VNp := J.point.mulMotion (← rd mbc.bodyVelB N)
  let EN0 := PTransform.ofRot W.E.tr
  let EVN : MotionVec K := ⟨(← rd mbc.bodyVelW N).ang, 0⟩
  let (jacDot, _) ← fillCols mb J.path (fun _ i => do
    let X := X0Np * (← rd mbc.bodyPosW i).inv
    let V := X.mulMotion (← rd mbc.bodyVelB i) - VNp
    return fun a _ => do
      let S ← rd (← rd mbc.motionSubspace i) a
      return EVN.cross ((EN0 * X).mulMotion S) + EN0.mulMotion (V.cross (X.mulMotion S))) J.jacDot
  return { J with jacDot := jacDot }

/-- `bodyJacobianDot(mb, mbc)`, Jacobian.cpp:350-382. -/
def Jac.bodyJacobianDot (J : Jac K) (mb : MultiBody K) (mbc : MBC K) : Res (Jac K) := do
  let N ← J.back
  let X0Np := J.point * (← rd mbc.bodyPosW N)
  let VNp := J.point.mulMotion (← rd mbc.bodyVelB N)
  let (jacDot, _) ← fillCols mb J.path (fun _ i => do
    let X := X0Np * (← rd mbc.bodyPosW i).inv
    let V := X.mulMotion (← rd mbc.bodyVelB i) - VNp
    return fun a _ => do
      let S ← rd (← rd mbc.motionSubspace i) a
      return V.cross (X.mulMotion S)) J.jacDot
  return { J with jacDot := jacDot }

/-! ### Velocities and normal accelerations -/

/-- `velocity(mb, mbc, X_b_p)`, Jacobian.cpp:384-390. -/
def Jac.velocityX (J : Jac K) (mbc : MBC K) (Xbp : PTransform K) : Res (MotionVec K) := do
  return Xbp.mulMotion (← rd mbc.bodyVelB (← J.back))

/-- `velocity(mb, mbc)`, Jacobian.cpp:392-398. -/
def Jac.velocity (J : Jac K) (mbc : MBC K) : Res (MotionVec K) := do
  let N ← J.back
  let X : PTransform K := ⟨(← rd mbc.bodyPosW N).E.tr, J.point.r⟩
  return X.mulMotion (← rd mbc.bodyVelB N)

/-- `bodyVelocity(mb, mbc)`, Jacobian.cpp:400-404. -/
def Jac.bodyVelocity (J : Jac K) (mbc : MBC K) : Res (MotionVec K) := do
  return J.point.mulMotion (← rd mbc.bodyVelB (← J.back))

/-- `normalAccB_(mbc, jointsPath)`, Jacobian.cpp:406-419. -/
def normalAccB (mbc : MBC K) (path : List Nat) : Res (MotionVec K) :=
  (List.range path.length).foldlM (fun accel index => do
    let i ← rd path index
    let X ← rd mbc.parentToSon i
    let vj ← rd mbc.jointVelocity i
    let vb ← rd mbc.bodyVelB i
    return X.mulMotion accel + vb.cross vj) 0

/-- `normalAcceleration(mbc, bodyNNormalAcc, X_b_p, V_b_p)`, Jacobian.cpp:857-864. -/
def Jac.normalAccOfX (J : Jac K) (mbc : MBC K) (acc : MotionVec K) (Xbp : PTransform K) (Vbp : MotionVec K) : Res (MotionVec K) := do
  let N ← J.back
  return Xbp.mulMotion acc + Vbp.cross (Xbp.mulMotion (← rd mbc.bodyVelB N))

/-- `normalAcceleration(mbc, bodyNNormalAcc)`, Jacobian.cpp:866-873. -/
def Jac.normalAccOf (J : Jac K) (mbc : MBC K) (acc : MotionVec K) : Res (MotionVec K) := do
  let N ← J.back
  let X : PTransform K := ⟨(← rd mbc.bodyPosW N).E.tr, J.point.r⟩
  let E : MotionVec K := ⟨(← rd mbc.bodyVelW N).ang, 0⟩
  return X.mulMotion acc + E.cross (X.mulMotion (← rd mbc.bodyVelB N))

/-- `normalAcceleration(mb, mbc, X_b_p, V_b_p)`, Jacobian.cpp:421-427. -/
def Jac.normalAccelerationX (J : Jac K) (mbc : MBC K) (Xbp : PTransform K) (Vbp : MotionVec K) : Res (MotionVec K) := do
  J.normalAccOfX mbc (← normalAccB mbc J.path) Xbp Vbp

/-- `normalAcceleration(mb, mbc)`, Jacobian.cpp:429-432. -/
def Jac.normalAcceleration (J : Jac K) (mbc : MBC K) : Res (MotionVec K) := do
  J.normalAccOf mbc (← normalAccB mbc J.path)

/-- `bodyNormalAcceleration(mb, mbc)`, Jacobian.cpp:434-437 and 875-879. -/
def Jac.bodyNormalAcceleration (J : Jac K) (mbc : MBC K) : Res (MotionVec K) := do
  return J.point.mulMotion (← normalAccB mbc J.path)

/-- `normalAcceleration(mb, mbc, normalAccB, X_b_p, V_b_p)`, Jacobian.cpp:439-446. -/
def Jac.normalAccelerationVX (J : Jac K) (mbc : MBC K) (acc : List (MotionVec K)) (Xbp : PTransform K) (Vbp : MotionVec K) :
    Res (MotionVec K) := do
  J.normalAccOfX mbc (← rd acc (← J.back)) Xbp Vbp

/-- `normalAcceleration(mb, mbc, normalAccB)`, Jacobian.cpp:448-453. -/
def Jac.normalAccelerationV (J : Jac K) (mbc : MBC K) (acc : List (MotionVec K)) : Res (MotionVec K) := do
  J.normalAccOf mbc (← rd acc (← J.back))

/-- `bodyNormalAcceleration(mb, mbc, normalAccB)`, Jacobian.cpp:455-460 and 875-879. -/
def Jac.bodyNormalAccelerationV (J : Jac K) (acc : List (MotionVec K)) : Res (MotionVec K) := do
  return J.point.mulMotion (← rd acc (← J.back))

/-! ### Translating and expanding -/

/-- The loops of `translateJacobian` and `translateBodyJacobian`, Jacobian.cpp:472-477 and 486-491. -/
def translateCols (t : PTransform K) (jac res : List (MotionVec K)) : Res (List (MotionVec K)) :=
  (List.range jac.length).foldlM (fun res i => do wr res i (t.mulMotion (← rd jac i))) res

/-- `translateJacobian(jac, mbc, point, res)`, Jacobian.cpp:462-478, for a matrix with six rows. -/
def Jac.translateJacobian (J : Jac K) (jac : List (MotionVec K)) (mbc : MBC K) (point : Vec3 K) (res : List (MotionVec K)) :
    Res (List (MotionVec K)) := do
  let N ← J.back
  let EN0 := PTransform.ofRot (← rd mbc.bodyPosW N).E.tr
  translateCols (EN0 * .ofTrans point * EN0.inv) jac res

/-- `translateBodyJacobian(jac, mbc, point, res)`, Jacobian.cpp:480-492, for a matrix with six rows. -/
def Jac.translateBodyJacobian (_J : Jac K) (jac : List (MotionVec K)) (point : Vec3 K) (res : List (MotionVec K)) :
    Res (List (MotionVec K)) := translateCols (.ofTrans point) jac res

/-- `addFullJacobian(mb, jac, res)`, Jacobian.cpp:502-514. -/
def Jac.addFullJacobian (J : Jac K) (mb : MultiBody K) (jac res : DMat K) : Res (DMat K) := do
  let (res, _) ← (List.range J.path.length).foldlM (fun (s : DMat K × Nat) index => do
    let i ← rd J.path index
    let j ← rd mb.joints i
    let b ← jac.block 0 s.2 jac.rows j.dof
    return (← s.1.addBlock 0 (← rd mb.jointPosInDof i) jac.rows j.dof b, s.2 + j.dof)) (res, 0)
  return res

/-- `fullJacobian(mb, jac, res)`, Jacobian.cpp:494-500. -/
def Jac.fullJacobian (J : Jac K) (mb : MultiBody K) (jac res : DMat K) : Res (DMat K) := do
  J.addFullJacobian mb jac (← res.zeroBlock 0 0 jac.rows mb.nrDof)

/-- `struct Block`, Jacobian.h:20-34. -/
structure Blk where
  startDof : Nat
  startJac : Nat
  length : Nat
  deriving DecidableEq, Repr

/-- Loop body of `compactPath`, Jacobian.cpp:562-575: the state is `res`, `start_block`, `len_block`, `startJac`. -/
def compactStep (mb : MultiBody K) (s : List Blk × Nat × Nat × Nat) (i : Nat) : Res (List Blk × Nat × Nat × Nat) := do
  let (res, startBlock, lenBlock, startJac) := s
  let start ← rd mb.jointPosInDof i
  let j ← rd mb.joints i
  if start ≠ startBlock + lenBlock then
    return (res ++ [⟨startBlock, startJac, lenBlock⟩], start, j.dof, startJac + lenBlock)
  else return (res, startBlock, lenBlock + j.dof, startJac)

/-- `compactPath(mb)`, Jacobian.cpp:553-578. -/
def Jac.compactPath (J : Jac K) (mb : MultiBody K) : Res (List Blk) := do
  let i ← rd J.path 0
  let start ← rd mb.jointPosInDof i
  let j ← rd mb.joints i
  let (res, startBlock, lenBlock, startJac) ← (J.path.drop 1).foldlM (compactStep mb) ([], start, j.dof, 0)
  return res ++ [⟨startBlock, startJac, lenBlock⟩]

/-- `addFullJacobian(compactPath, jac, res)`, Jacobian.cpp:516-524. -/
def addFullBlocks (blocks : List Blk) (jac res : DMat K) : Res (DMat K) :=
  blocks.foldlM (fun res b => do
    res.addBlock 0 b.startDof jac.rows b.length (← jac.block 0 b.startJac jac.rows b.length)) res

/-- `expandAdd(mb, jac, res)`, Jacobian.cpp:533-551, with its assertion. -/
def Jac.expandAdd (J : Jac K) (mb : MultiBody K) (jac res : DMat K) : Res (DMat K) := do
  if ¬ (res.cols = mb.nrDof ∧ res.rows = mb.nrDof) then throw .ub
  let (res, _) ← J.path.foldlM (fun (s : DMat K × Nat) i => do
    let ji ← rd mb.joints i
    let (res, _) ← J.path.foldlM (fun (s' : DMat K × Nat) j => do
      let jj ← rd mb.joints j
      let b ← jac.block s.2 s'.2 ji.dof jj.dof
      return (← s'.1.addBlock (← rd mb.jointPosInDof i) (← rd mb.jointPosInDof j) ji.dof jj.dof b, s'.2 + jj.dof)) (s.1, 0)
    return (res, s.2 + ji.dof)) (res, 0)
  return res

/-- `expand(mb, jac)`, Jacobian.cpp:526-531. -/
def Jac.expand (J : Jac K) (mb : MultiBody K) (jac : DMat K) : Res (DMat K) :=
  J.expandAdd mb jac ⟨mb.nrDof, mb.nrDof, fun _ _ => 0⟩

/-- `expandAdd(compactPath, jacMat, res)`, Jacobian.cpp:580-592. -/
def expandAddBlocks (blocks : List Blk) (jac res : DMat K) : Res (DMat K) :=
  blocks.foldlM (fun res b1 => blocks.foldlM (fun res b2 => do
    res.addBlock b1.startDof b2.startDof b1.length b2.length
      (← jac.block b1.startJac b2.startJac b1.length b2.length)) res) res

/-! ### The sub-robot of the path -/

/-- Loop body of `subMultiBody`, Jacobian.cpp:115-156: the next body, joint and static transform. -/
def Jac.subStep (J : Jac K) (mb : MultiBody K) (s : List (Body K) × List (Joint K) × List (PTransform K)) (index : Nat) :
    Res (List (Body K) × List (Joint K) × List (PTransform K)) := do
  let (bodies, joints, Xt) := s
  let i ← rd J.path index
  let b ← rd mb.bodies i
  let X ←
    if index = 0 then do
      if (← rd J.sign index) = -1 then pure (PTransform.ofTrans 0) else rd mb.Xt i
    else do
      if (← rd J.sign (index - 1)) = -1 then do
        if (← rd J.sign index) = -1 then pure (← rd mb.Xt (← rd J.path (index - 1))).inv
        else pure ((← rd mb.Xt (← rd J.path (index - 1))).inv * (← rd mb.Xt (← rd J.path index)))
      else rd mb.Xt i
  let j ← rd mb.joints i
  let j := if (← rd J.sign index) = -1 then j.setForward (!j.isForward) else j
  return (bodies ++ [b], joints ++ [j], Xt ++ [X])

/-- `subMultiBody(mb)`, Jacobian.cpp:105-159. `parent`, `pred` and `succ` are `index - 1`, `index - 1` and `index`. -/
def Jac.subMultiBody (J : Jac K) (mb : MultiBody K) : Res (MultiBody K) := do
  let (bodies, joints, Xt) ← (List.range J.path.length).foldlM (J.subStep mb) ([], [], [])
  let pred := (List.range J.path.length).map fun i : Nat => (i : Int) - 1
  let succ := (List.range J.path.length).map fun i : Nat => (i : Int)
  MultiBody.mk' bodies joints pred succ pred Xt

/-! ### Checked versions -/

/-- `*std::max_element(path)` compared to the number of joints, e.g. Jacobian.cpp:601-605: dereferencing `end()` on an empty path is
undefined behaviour. -/
def Jac.checkPath (J : Jac K) (mb : MultiBody K) : Res Unit :=
  match J.path with
  | [] => .error .ub
  | i :: l => if mb.nrJoints ≤ l.foldl max i then .error .domainError else .ok ()

/-- `sJacobian(mb, mbc, X_0_p)`, Jacobian.cpp:594-608. -/
def Jac.sJacobianX (J : Jac K) (mb : MultiBody K) (mbc : MBC K) (X0p : PTransform K) : Res (Jac K) := do
  checkMatchBodyPos mb mbc
  checkMatchMotionSubspace mb mbc
  J.checkPath mb
  J.jacobianX mb mbc X0p

/-- `sJacobian(mb, mbc)`, Jacobian.cpp:610-622. -/
def Jac.sJacobian (J : Jac K) (mb : MultiBody K) (mbc : MBC K) : Res (Jac K) := do
  checkMatchBodyPos mb mbc
  checkMatchMotionSubspace mb mbc
  J.checkPath mb
  J.jacobian mb mbc

/-- `sBodyJacobian(mb, mbc)`, Jacobian.cpp:624-636. -/
def Jac.sBodyJacobian (J : Jac K) (mb : MultiBody K) (mbc : MBC K) : Res (Jac K) := do
  checkMatchBodyPos mb mbc
  checkMatchMotionSubspace mb mbc
  J.checkPath mb
  J.bodyJacobian mb mbc

/-- `sVectorJacobian(mb, mbc, vec)`, Jacobian.cpp:638-652. -/
def Jac.sVectorJacobian (J : Jac K) (mb : MultiBody K) (mbc : MBC K) (vec : Vec3 K) : Res (Jac K) := do
  checkMatchBodyPos mb mbc
  checkMatchMotionSubspace mb mbc
  J.checkPath mb
  J.vectorJacobian mb mbc vec

/-- `sVectorBodyJacobian(mb, mbc, vec)`, Jacobian.cpp:654-668. -/
def Jac.sVectorBodyJacobian (J : Jac K) (mb : MultiBody K) (mbc : MBC K) (vec : Vec3 K) : Res (Jac K) := do
  checkMatchBodyPos mb mbc
  checkMatchMotionSubspace mb mbc
  J.checkPath mb
  J.vectorBodyJacobian mb mbc vec

/-- `sSubMultiBody(mb)`, Jacobian.cpp:670-679. -/
def Jac.sSubMultiBody (J : Jac K) (mb : MultiBody K) : Res (MultiBody K) := do
  J.checkPath mb
  J.subMultiBody mb

/-- `sJacobianDot(mb, mbc)`, Jacobian.cpp:681-694. -/
def Jac.sJacobianDot (J : Jac K) (mb : MultiBody K) (mbc : MBC K) : Res (Jac K) := do
  checkMatchBodyPos mb mbc
  checkMatchBodyVel mb mbc
  checkMatchMotionSubspace mb mbc
  J.checkPath mb
  J.jacobianDot mb mbc

/-- `sBodyJacobianDot(mb, mbc)`, Jacobian.cpp:696-709. -/
def Jac.sBodyJacobianDot (J : Jac K) (mb : MultiBody K) (mbc : MBC K) : Res (Jac K) := do
  checkMatchBodyPos mb mbc
  checkMatchBodyVel mb mbc
  checkMatchMotionSubspace mb mbc
  J.checkPath mb
  J.bodyJacobianDot mb mbc

/-- `sTranslateJacobian(jac, mbc, point, res)`, Jacobian.cpp:711-738, for matrices with six rows. -/
def Jac.sTranslateJacobian (J : Jac K) (jac : List (MotionVec K)) (mbc : MBC K) (point : Vec3 K) (res : List (MotionVec K)) :
    Res (List (MotionVec K)) := do
  if mbc.bodyPosW.length ≤ (← J.back) then .error .domainError
  else if jac.length ≠ J.jac.length then .error .domainError
  else if res.length ≠ J.jac.length then .error .domainError
  else J.translateJacobian jac mbc point res

/-- `sFullJacobian(mb, jac, res)`, Jacobian.cpp:740-766. -/
def Jac.sFullJacobian (J : Jac K) (mb : MultiBody K) (jac res : DMat K) : Res (DMat K) := do
  J.checkPath mb
  if jac.cols ≠ J.jac.length ∨ jac.rows ≠ 6 then .error .domainError
  else if res.cols ≠ mb.nrDof ∨ res.rows ≠ 6 then .error .domainError
  else J.fullJacobian mb jac res

/-- `sVelocity(mb, mbc, X_b_p)`, Jacobian.cpp:768-776. -/
def Jac.sVelocityX (J : Jac K) (mb : MultiBody K) (mbc : MBC K) (Xbp : PTransform K) : Res (MotionVec K) := do
  checkMatchBodyPos mb mbc
  checkMatchBodyVel mb mbc
  J.velocityX mbc Xbp

/-- `sVelocity(mb, mbc)`, Jacobian.cpp:778-784. -/
def Jac.sVelocity (J : Jac K) (mb : MultiBody K) (mbc : MBC K) : Res (MotionVec K) := do
  checkMatchBodyPos mb mbc
  checkMatchBodyVel mb mbc
  J.velocity mbc

/-- `sBodyVelocity(mb, mbc)`, Jacobian.cpp:786-791. -/
def Jac.sBodyVelocity (J : Jac K) (mb : MultiBody K) (mbc : MBC K) : Res (MotionVec K) := do
  checkMatchBodyVel mb mbc
  J.bodyVelocity mbc

/-- `sNormalAcceleration(mb, mbc)`, Jacobian.cpp:806-814. -/
def Jac.sNormalAcceleration (J : Jac K) (mb : MultiBody K) (mbc : MBC K) : Res (MotionVec K) := do
  checkMatchBodyPos mb mbc
  checkMatchBodyVel mb mbc
  checkMatchJointConf mb mbc
  checkMatchParentToSon mb mbc
  J.normalAcceleration mbc

/-- `sBodyNormalAcceleration(mb, mbc)`, Jacobian.cpp:829-835. -/
def Jac.sBodyNormalAcceleration (J : Jac K) (mb : MultiBody K) (mbc : MBC K) : Res (MotionVec K) := do
  checkMatchJointConf mb mbc
  checkMatchParentToSon mb mbc
  J.bodyNormalAcceleration mbc

/-- `sNormalAcceleration(mb, mbc, X_b_p, V_b_p)`, Jacobian.cpp:793-804. -/
def Jac.sNormalAccelerationX (J : Jac K) (mb : MultiBody K) (mbc : MBC K) (Xbp : PTransform K) (Vbp : MotionVec K) :
    Res (MotionVec K) := do
  checkMatchBodyPos mb mbc
  checkMatchBodyVel mb mbc
  checkMatchJointConf mb mbc
  checkMatchParentToSon mb mbc
  J.normalAccelerationX mbc Xbp Vbp

/-- `sNormalAcceleration(mb, mbc, normalAccB, X_b_p, V_b_p)`, Jacobian.cpp:816-827. -/
def Jac.sNormalAccelerationVX (J : Jac K) (mb : MultiBody K) (mbc : MBC K) (acc : List (MotionVec K)) (Xbp : PTransform K)
    (Vbp : MotionVec K) : Res (MotionVec K) := do
  checkMatchBodyPos mb mbc
  checkMatchBodyVel mb mbc
  checkMatchBodiesVector mb acc
  J.normalAccelerationVX mbc acc Xbp Vbp

/-- `sNormalAcceleration(mb, mbc, normalAccB)`, Jacobian.cpp:837-846. -/
def Jac.sNormalAccelerationV (J : Jac K) (mb : MultiBody K) (mbc : MBC K) (acc : List (MotionVec K)) : Res (MotionVec K) := do
  checkMatchBodyPos mb mbc
  checkMatchBodyVel mb mbc
  checkMatchBodiesVector mb acc
  J.normalAccelerationV mbc acc

/-- `sBodyNormalAcceleration(mb, mbc, normalAccB)`, Jacobian.cpp:848-855. -/
def Jac.sBodyNormalAccelerationV (J : Jac K) (mb : MultiBody K) (acc : List (MotionVec K)) : Res (MotionVec K) := do
  checkMatchBodiesVector mb acc
  J.bodyNormalAccelerationV acc

end RBDyn
