import Verif.Base.Err
import Verif.Model.Spatial

/-!
Model of `src/RBDyn/RBDyn/Joint.h`.
-/

namespace RBDyn
variable {K : Type}

/-- `Joint::Type`, Joint.h:39-48. -/
inductive JointType where
  | Rev | Prism | Spherical | Planar | Cylindrical | Free | Fixed
  deriving DecidableEq, Repr

/-- Class `Joint`, Joint.h:264-276. The 6×dof matrix `S_` is the list of its columns.
The default constructor (Joint.h:285, which leaves `type_` uninitialised) is not modelled. -/
structure Joint (K : Type) where
  type : JointType
  S : List (MotionVec K)
  dir : K
  params : Nat
  dof : Nat
  name : String
  isMimic : Bool
  mimicName : String
  mimicMultiplier : K
  mimicOffset : K
  deriving DecidableEq, Repr

namespace Joint

section
variable [Scalar K]

/-- The matrix `S_` set by `constructJoint`, Joint.h:526-576 (`dir_ * ...`). -/
def mkS (dir : K) (t : JointType) (a : Vec3 K) : List (MotionVec K) :=
  match t with
  | .Rev => [dir • ⟨a, 0⟩]
  | .Prism => [dir • ⟨0, a⟩]
  | .Spherical => [dir • ⟨⟨1, 0, 0⟩, 0⟩, dir • ⟨⟨0, 1, 0⟩, 0⟩, dir • ⟨⟨0, 0, 1⟩, 0⟩]
  | .Planar => [dir • ⟨⟨0, 0, 1⟩, 0⟩, dir • ⟨0, ⟨1, 0, 0⟩⟩, dir • ⟨0, ⟨0, 1, 0⟩⟩]
  | .Cylindrical => [dir • ⟨a, 0⟩, dir • ⟨0, a⟩]
  | .Free => [dir • ⟨⟨1, 0, 0⟩, 0⟩, dir • ⟨⟨0, 1, 0⟩, 0⟩, dir • ⟨⟨0, 0, 1⟩, 0⟩,
              dir • ⟨0, ⟨1, 0, 0⟩⟩, dir • ⟨0, ⟨0, 1, 0⟩⟩, dir • ⟨0, ⟨0, 0, 1⟩⟩]
  | .Fixed => []

/-- `params_` set by `constructJoint`, Joint.h:534-572. -/
def nParams : JointType → Nat
  | .Rev => 1 | .Prism => 1 | .Spherical => 4 | .Planar => 3 | .Cylindrical => 2 | .Free => 7 | .Fixed => 0

/-- `dof_` set by `constructJoint`, Joint.h:535-573. -/
def nDof : JointType → Nat
  | .Rev => 1 | .Prism => 1 | .Spherical => 3 | .Planar => 3 | .Cylindrical => 2 | .Free => 6 | .Fixed => 0

/-- `Joint(Type, axis, forward, name)`, Joint.h:316-320 with `constructJoint`, Joint.h:526-576. -/
def mk' (t : JointType) (axis : Vec3 K) (forward : Bool) (name : String) : Joint K :=
  let dir : K := if forward then 1 else -1
  { type := t, S := mkS dir t axis, dir := dir, params := nParams t, dof := nDof t, name := name,
    isMimic := false, mimicName := "", mimicMultiplier := 1, mimicOffset := 0 }

/-- `Joint(Type, forward, name)`, Joint.h:322-326. -/
def mkZ (t : JointType) (forward : Bool) (name : String) : Joint K := mk' t Vec3.unitZ forward name

/-- `Joint(name)`: a fixed joint, Joint.h:328-331. -/
def mkFixed (name : String) : Joint K := mk' .Fixed Vec3.unitZ true name

/-- `Joint::OldType`, Joint.h:51-59. -/
inductive OldType where
  | RevX | RevY | RevZ | PrismX | PrismY | PrismZ
  deriving DecidableEq, Repr

/-- `Joint(OldType, forward, name)`, Joint.h:287-314 (the `default` case is unreachable for enumerators). -/
def mkOld (t : OldType) (forward : Bool) (name : String) : Joint K :=
  match t with
  | .RevX => mk' .Rev Vec3.unitX forward name
  | .RevY => mk' .Rev Vec3.unitY forward name
  | .RevZ => mk' .Rev Vec3.unitZ forward name
  | .PrismX => mk' .Prism Vec3.unitX forward name
  | .PrismY => mk' .Prism Vec3.unitY forward name
  | .PrismZ => mk' .Prism Vec3.unitZ forward name

/-- `makeMimic`, Joint.h:333-339. -/
def makeMimic (j : Joint K) (name : String) (multiplier offset : K) : Joint K :=
  { j with isMimic := true, mimicName := name, mimicMultiplier := multiplier, mimicOffset := offset }

/-- `bool forward() const`, Joint.h:117-120. -/
def isForward (j : Joint K) : Bool := decide (j.dir = 1)

/-- `void forward(bool)`, Joint.h:123-127. -/
def setForward (j : Joint K) (fwd : Bool) : Joint K :=
  { j with S := if fwd != j.isForward then j.S.map (fun c => (-1 : K) • c) else j.S
           dir := if fwd then 1 else -1 }

/-- `QuatToE`, Joint.h:578-604 (`std::pow(p, 2)` is `p * p`). -/
def quatToE (p0 p1 p2 p3 : K) : Mat3 K :=
  (2 : K) • ⟨p0 * p0 + p1 * p1 - 1 / 2, p1 * p2 + p0 * p3, p1 * p3 - p0 * p2,
             p1 * p2 - p0 * p3, p0 * p0 + p2 * p2 - 1 / 2, p2 * p3 + p0 * p1,
             p1 * p3 + p0 * p2, p2 * p3 - p0 * p1, p0 * p0 + p3 * p3 - 1 / 2⟩

/-- `pose`, Joint.h:341-381. Reading past the end of `q` (or of the columns of `S_`) is undefined behaviour. -/
def pose (j : Joint K) (q : List K) : Res (PTransform K) :=
  match j.type with
  | .Rev => do
    let s ← rd j.S 0
    let q0 ← rd q 0
    return PTransform.ofRot (angleAxis (-q0) s.ang)
  | .Prism => do
    let s ← rd j.S 0
    let q0 ← rd q 0
    return PTransform.ofTrans (q0 • s.lin)
  | .Spherical => do
    let q0 ← rd q 0
    let q1 ← rd q 1
    let q2 ← rd q 2
    let q3 ← rd q 3
    return PTransform.ofRot (Quat.toRot (Quat.inverse ⟨q0, j.dir * q1, j.dir * q2, j.dir * q3⟩))
  | .Planar => do
    let q0 ← rd q 0
    let q1 ← rd q 1
    let q2 ← rd q 2
    let rot := rotZ q0
    let X : PTransform K := ⟨rot, rot.tr.mulVec ⟨q1, q2, 0⟩⟩
    return if j.dir = 1 then X else X.inv
  | .Cylindrical => do
    let s0 ← rd j.S 0
    let s1 ← rd j.S 1
    let q0 ← rd q 0
    let q1 ← rd q 1
    return ⟨angleAxis (-q0) s0.ang, q1 • s1.lin⟩
  | .Free => do
    let q0 ← rd q 0
    let q1 ← rd q 1
    let q2 ← rd q 2
    let q3 ← rd q 3
    let q4 ← rd q 4
    let q5 ← rd q 5
    let q6 ← rd q 6
    let X : PTransform K := ⟨quatToE q0 q1 q2 q3, ⟨q4, q5, q6⟩⟩
    return if j.dir = 1 then X else X.inv
  | .Fixed => return 1

/-- `motion`, Joint.h:383-406. -/
def motion (j : Joint K) (alpha : List K) : Res (MotionVec K) :=
  match j.type with
  | .Rev => do
    let s ← rd j.S 0
    let a0 ← rd alpha 0
    return ⟨a0 • s.ang, 0⟩
  | .Prism => do
    let s ← rd j.S 0
    let a0 ← rd alpha 0
    return ⟨0, a0 • s.lin⟩
  | .Spherical | .Planar => do
    let a0 ← rd alpha 0
    let a1 ← rd alpha 1
    let a2 ← rd alpha 2
    let s0 ← rd j.S 0
    let s1 ← rd j.S 1
    let s2 ← rd j.S 2
    return a0 • s0 + a1 • s1 + a2 • s2
  | .Cylindrical => do
    let a0 ← rd alpha 0
    let a1 ← rd alpha 1
    let s0 ← rd j.S 0
    let s1 ← rd j.S 1
    return a0 • s0 + a1 • s1
  | .Free => do
    let a0 ← rd alpha 0
    let a1 ← rd alpha 1
    let a2 ← rd alpha 2
    let a3 ← rd alpha 3
    let a4 ← rd alpha 4
    let a5 ← rd alpha 5
    let s0 ← rd j.S 0
    let s1 ← rd j.S 1
    let s2 ← rd j.S 2
    let s3 ← rd j.S 3
    let s4 ← rd j.S 4
    let s5 ← rd j.S 5
    return a0 • s0 + a1 • s1 + a2 • s2 + a3 • s3 + a4 • s4 + a5 • s5
  | .Fixed => return 0

/-- `tanAccel`, Joint.h:408-431. The C++ body is textually that of `motion`. -/
def tanAccel (j : Joint K) (alphaD : List K) : Res (MotionVec K) :=
  match j.type with
  | .Rev => do
    let s ← rd j.S 0
    let a0 ← rd alphaD 0
    return ⟨a0 • s.ang, 0⟩
  | .Prism => do
    let s ← rd j.S 0
    let a0 ← rd alphaD 0
    return ⟨0, a0 • s.lin⟩
  | .Spherical | .Planar => do
    let a0 ← rd alphaD 0
    let a1 ← rd alphaD 1
    let a2 ← rd alphaD 2
    let s0 ← rd j.S 0
    let s1 ← rd j.S 1
    let s2 ← rd j.S 2
    return a0 • s0 + a1 • s1 + a2 • s2
  | .Cylindrical => do
    let a0 ← rd alphaD 0
    let a1 ← rd alphaD 1
    let s0 ← rd j.S 0
    let s1 ← rd j.S 1
    return a0 • s0 + a1 • s1
  | .Free => do
    let a0 ← rd alphaD 0
    let a1 ← rd alphaD 1
    let a2 ← rd alphaD 2
    let a3 ← rd alphaD 3
    let a4 ← rd alphaD 4
    let a5 ← rd alphaD 5
    let s0 ← rd j.S 0
    let s1 ← rd j.S 1
    let s2 ← rd j.S 2
    let s3 ← rd j.S 3
    let s4 ← rd j.S 4
    let s5 ← rd j.S 5
    return a0 • s0 + a1 • s1 + a2 • s2 + a3 • s3 + a4 • s4 + a5 • s5
  | .Fixed => return 0

/-- static `ZeroParam(type)`, Joint.h:484-503. -/
def ZeroParam : JointType → List K
  | .Rev => [0]
  | .Prism => [0]
  | .Spherical => [1, 0, 0, 0]
  | .Planar => [0, 0, 0]
  | .Cylindrical => [0, 0]
  | .Free => [1, 0, 0, 0, 0, 0, 0]
  | .Fixed => []

/-- static `ZeroDof(type)`, Joint.h:505-524. -/
def ZeroDof : JointType → List K
  | .Rev => [0]
  | .Prism => [0]
  | .Spherical => [0, 0, 0]
  | .Planar => [0, 0, 0]
  | .Cylindrical => [0, 0]
  | .Free => [0, 0, 0, 0, 0, 0]
  | .Fixed => []

/-- `zeroParam()`, Joint.h:433-444. -/
def zeroParam (j : Joint K) : List K :=
  if j.isMimic then (ZeroParam j.type).map (· + j.mimicOffset) else ZeroParam j.type

/-- `zeroDof()`, Joint.h:446-449. -/
def zeroDof (j : Joint K) : List K := ZeroDof j.type

/-- `sPose`, Joint.h:451-460. -/
def sPose (j : Joint K) (q : List K) : Res (PTransform K) :=
  if q.length ≠ j.params then .error .domainError else j.pose q

/-- `sMotion`, Joint.h:462-471. -/
def sMotion (j : Joint K) (alpha : List K) : Res (MotionVec K) :=
  if alpha.length ≠ j.dof then .error .domainError else j.motion alpha

/-- `sTanAccel`, Joint.h:473-482. -/
def sTanAccel (j : Joint K) (alphaD : List K) : Res (MotionVec K) :=
  if alphaD.length ≠ j.dof then .error .domainError else j.tanAccel alphaD

/-- `operator==`, Joint.h:239-242: joints are compared by name. -/
def eqName (a b : Joint K) : Bool := a.name == b.name

end

end Joint

end RBDyn
