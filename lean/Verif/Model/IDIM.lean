import Verif.Model.Dynamics

/-!
Model of `src/RBDyn/IDIM.cpp` (regressor of inverse dynamics in the inertial parameters) and of `inverseStatics` of
`src/RBDyn/IS.cpp`.
-/

namespace RBDyn
variable {K : Type} [Scalar K]

/-- `IMPhi(mv)`, IDIM.cpp:16-28: a 6×10 matrix, here the list of its columns. -/
def IMPhi (mv : MotionVec K) : List (ForceVec K) :=
  let w := mv.ang
  let v := mv.lin
  [⟨0, v⟩,
   -- columns of `hvphi = -crossMat(v)` over columns of `hwphi = crossMat(w)`
   ⟨⟨0, -v.z, v.y⟩, ⟨0, w.z, -w.y⟩⟩,
   ⟨⟨v.z, 0, -v.x⟩, ⟨-w.z, 0, w.x⟩⟩,
   ⟨⟨-v.y, v.x, 0⟩, ⟨w.y, -w.x, 0⟩⟩,
   -- columns of `iwphi`
   ⟨⟨w.x, 0, 0⟩, 0⟩, ⟨⟨w.y, w.x, 0⟩, 0⟩, ⟨⟨w.z, 0, w.x⟩, 0⟩, ⟨⟨0, w.y, 0⟩, 0⟩, ⟨⟨0, w.z, w.y⟩, 0⟩, ⟨⟨0, 0, w.z⟩, 0⟩]

/-- `inertiaToVector(rbi)`, IDIM.cpp:30-37. `rbi.inertia()` is the full symmetric matrix. -/
def inertiaToVector (a : RBInertia K) : List K :=
  let M := a.I.toMat
  [a.m, a.h.x, a.h.y, a.h.z, M.m00, M.m01, M.m02, M.m11, M.m12, M.m22]

/-- `vectorToInertia(vec)`, IDIM.cpp:39-44: `vec` has ten entries by its type. -/
def vectorToInertia (vec : List K) : Res (RBInertia K) := do
  let v0 ← rd vec 0
  let v1 ← rd vec 1
  let v2 ← rd vec 2
  let v3 ← rd vec 3
  let v4 ← rd vec 4
  let v5 ← rd vec 5
  let v6 ← rd vec 6
  let v7 ← rd vec 7
  let v8 ← rd vec 8
  let v9 ← rd vec 9
  return RBInertia.ofMat v0 ⟨v1, v2, v3⟩ ⟨v4, v5, v6, v5, v7, v8, v6, v8, v9⟩

/-- `sVectorToInertia(vec)`, IDIM.cpp:46-55. -/
def sVectorToInertia (vec : List K) : Res (RBInertia K) :=
  if vec.length ≠ 10 then .error .outOfRange else vectorToInertia vec

/-- `multiBodyToInertialVector(mb)`, IDIM.cpp:57-65; `junk` is the uninitialised contents of the vector. -/
def multiBodyToInertialVector (junk : Nat → K) (mb : MultiBody K) : Res (List K) :=
  (List.range mb.nrBodies).foldlM (fun vec i => do
    let b ← rd mb.bodies i
    setSegment vec (i * 10) 10 (inertiaToVector b.inertia)) ((List.range (mb.nrBodies * 10)).map junk)

/-- Class `IDIM`: its member `Y_`. -/
structure IDIM (K : Type) where
  Y : DMat K

/-- `IDIM(mb)`, IDIM.cpp:67. -/
def IDIM.mk' (mb : MultiBody K) : IDIM K := ⟨⟨mb.nrDof, mb.nrBodies * 10, fun _ _ => 0⟩⟩

/-- The `while` loop of `computeY`, IDIM.cpp:96-114; `fuel` as in `hUp`. -/
def yUp (mb : MultiBody K) (mbc : MBC K) (i : Nat) : Nat → Nat → List (ForceVec K) → DMat K → Res (DMat K)
  | 0, _, _, _ => .error .diverges
  | fuel + 1, j, F, Y => do
    let pred ← rd mb.pred j
    if pred ≠ -1 then
      let X ← rd mbc.parentToSon j
      let F ← setCols 10 F fun c => do return X.transMul (← rd F c)
      let j ← (if pred < 0 then .error .ub else pure pred.toNat : Res Nat)
      let jPos ← rd mb.jointPosInDof j
      let jj ← rd mb.joints j
      let Y ←
        if jj.dof ≠ 0 then do Y.setBlock jPos (i * 10) jj.dof 10 (gram (← rd mbc.motionSubspace j) F)
        else pure Y
      yUp mb mbc i fuel j F Y
    else return Y

/-- Loop body of `computeY`, IDIM.cpp:76-115. -/
def yStep (mb : MultiBody K) (mbc : MBC K) (Y : DMat K) (i : Nat) : Res (DMat K) := do
  let vb ← rd mbc.bodyVelB i
  let vPhi := IMPhi vb
  let F := IMPhi (← rd mbc.bodyAccB i)
  let F ← setCols 10 F fun c => do return (← rd F c) + vb.crossDual (← rd vPhi c)
  let iPos ← rd mb.jointPosInDof i
  let j ← rd mb.joints i
  let Y ← Y.setBlock iPos (i * 10) j.dof 10 (gram (← rd mbc.motionSubspace i) F)
  yUp mb mbc i (mb.bodies.length + 1) i F Y

/-- `computeY(mb, mbc)`, IDIM.cpp:69-116. -/
def IDIM.computeY (d : IDIM K) (mb : MultiBody K) (mbc : MBC K) : Res (IDIM K) := do
  return ⟨← (List.range mb.bodies.length).reverse.foldlM (yStep mb mbc) d.Y⟩

/-- `sComputeY(mb, mbc)`, IDIM.cpp:118-126. -/
def IDIM.sComputeY (d : IDIM K) (mb : MultiBody K) (mbc : MBC K) : Res (IDIM K) := do
  checkMatchParentToSon mb mbc
  checkMatchBodyVel mb mbc
  checkMatchMotionSubspace mb mbc
  checkMatchBodyAcc mb mbc
  d.computeY mb mbc

/-! ### Inverse statics -/

/-- First loop of `inverseStatics`, IS.cpp:82-86. `ID` stands for the member `f_` of `InverseStatics`. -/
def isStep (mb : MultiBody K) (s : ID K × MBC K) (i : Nat) : Res (ID K × MBC K) := do
  let (d, mbc) := s
  let W ← rd mbc.bodyPosW i
  let a := W.mulMotion ⟨0, mbc.gravity⟩
  let bodyAccB ← wr mbc.bodyAccB i a
  let b ← rd mb.bodies i
  let fe ← rd mbc.force i
  let f ← wr d.f i (b.inertia.mulMotion a - W.dualMul fe)
  return ({ d with f }, { mbc with bodyAccB })

/-- Second loop of `inverseStatics`, IS.cpp:88-102. `VectorXd::Map(data, dof) = fᵀ * S` writes `dof` entries; Eigen asserts that `S` has
`dof` columns. -/
def isBackStep (mb : MultiBody K) (s : ID K × MBC K) (i : Nat) : Res (ID K × MBC K) := do
  let (d, mbc) := s
  let t ← rd mbc.jointTorque i
  let j ← rd mb.joints i
  let fi ← rd d.f i
  let S ← rd mbc.motionSubspace i
  let t ← (if S.length = j.dof ∧ j.dof ≤ t.length then .ok (S.map (fun c => c.dot fi) ++ t.drop j.dof) else .error .ub : Res (List K))
  let jointTorque ← wr mbc.jointTorque i t
  let pred ← rd mb.pred i
  let f ←
    if pred ≠ -1 then do
      let X ← rd mbc.parentToSon i
      wrI d.f pred ((← rdI d.f pred) + X.transMul fi)
    else pure d.f
  return ({ d with f }, { mbc with jointTorque })

/-- `inverseStatics(mb, mbc)`, IS.cpp:74-103. -/
def inverseStatics (d : ID K) (mb : MultiBody K) (mbc : MBC K) : Res (ID K × MBC K) := do
  let (d, mbc) ← (List.range mb.bodies.length).foldlM (isStep mb) (d, mbc)
  (List.range mb.joints.length).reverse.foldlM (isBackStep mb) (d, mbc)

/-- `sInverseStatics(mb, mbc)`, IS.cpp:232-247. -/
def sInverseStatics (d : ID K) (mb : MultiBody K) (mbc : MBC K) : Res (ID K × MBC K) := do
  idChecks mb mbc
  inverseStatics d mb mbc

end RBDyn
