import Verif.Base.Container
import Verif.Model.Joint

/-!
Model of `src/RBDyn/RBDyn/Body.h`, `src/RBDyn/RBDyn/MultiBody.h` and `src/RBDyn/MultiBody.cpp`.
-/

namespace RBDyn
variable {K : Type}

/-- Class `Body`, Body.h:20-67. -/
structure Body (K : Type) where
  inertia : RBInertia K
  name : String
  deriving DecidableEq, Repr

/-- `Body(mass, com, inertia, name)`, Body.h:37-40. -/
def Body.ofCom [Field K] (mass : K) (com : Vec3 K) (inertia : Mat3 K) (name : String) : Body K :=
  ⟨RBInertia.ofMat mass (mass • com) inertia, name⟩

/-- Class `MultiBody`, MultiBody.h:346-364. -/
structure MultiBody (K : Type) where
  bodies : List (Body K)
  joints : List (Joint K)
  pred : List Int
  succ : List Int
  parent : List Int
  Xt : List (PTransform K)
  bodyNameToInd : SMap Int
  jointNameToInd : SMap Int
  jointPosInParam : List Nat
  jointPosInDof : List Nat
  nrParams : Nat
  nrDof : Nat
  deriving DecidableEq, Repr

namespace MultiBody

/-- Body of the constructor loop, MultiBody.cpp:30-39. -/
def ctorStep (mb : MultiBody K) (i : Nat) : Res (MultiBody K) := do
  let b ← rd mb.bodies i
  let bodyNameToInd := mb.bodyNameToInd.set b.name i
  let j ← rd mb.joints i
  let jointNameToInd := mb.jointNameToInd.set j.name i
  let jointPosInParam ← wr mb.jointPosInParam i mb.nrParams
  let jointPosInDof ← wr mb.jointPosInDof i mb.nrDof
  return { mb with bodyNameToInd := bodyNameToInd, jointNameToInd := jointNameToInd,
                   jointPosInParam := jointPosInParam, jointPosInDof := jointPosInDof,
                   nrParams := mb.nrParams + j.params, nrDof := mb.nrDof + j.dof }

/-- `MultiBody(bodies, joints, pred, succ, parent, Xto)`, MultiBody.cpp:18-41. -/
def mk' (bodies : List (Body K)) (joints : List (Joint K)) (pred succ parent : List Int)
    (Xt : List (PTransform K)) : Res (MultiBody K) :=
  (List.range bodies.length).foldlM ctorStep
    { bodies, joints, pred, succ, parent, Xt, bodyNameToInd := [], jointNameToInd := [],
      jointPosInParam := List.replicate joints.length 0, jointPosInDof := List.replicate joints.length 0,
      nrParams := 0, nrDof := 0 }

/-- `nrBodies()`, MultiBody.h:50-53. -/
def nrBodies (mb : MultiBody K) : Nat := mb.bodies.length
/-- `nrJoints()`, MultiBody.h:56-59. -/
def nrJoints (mb : MultiBody K) : Nat := mb.joints.length
/-- `body(int)`, MultiBody.h:74-77. -/
def body (mb : MultiBody K) (i : Int) : Res (Body K) := rdI mb.bodies i
/-- `joint(int)`, MultiBody.h:92-95. -/
def joint (mb : MultiBody K) (i : Int) : Res (Joint K) := rdI mb.joints i
/-- `predecessor(int)`, MultiBody.h:104-107. -/
def predecessor (mb : MultiBody K) (i : Int) : Res Int := rdI mb.pred i
/-- `successor(int)`, MultiBody.h:116-119. -/
def successor (mb : MultiBody K) (i : Int) : Res Int := rdI mb.succ i
/-- `parent(int)`, MultiBody.h:128-131. -/
def parentAt (mb : MultiBody K) (i : Int) : Res Int := rdI mb.parent i
/-- `transform(int)`, MultiBody.h:146-149. -/
def transform (mb : MultiBody K) (i : Int) : Res (PTransform K) := rdI mb.Xt i
/-- `jointPosInParam(int)`, MultiBody.h:182-185. -/
def posInParam (mb : MultiBody K) (i : Int) : Res Nat := rdI mb.jointPosInParam i
/-- `jointPosInDof(int)`, MultiBody.h:188-191. -/
def posInDof (mb : MultiBody K) (i : Int) : Res Nat := rdI mb.jointPosInDof i
/-- `bodyIndexByName(name)`, MultiBody.h:158-161. -/
def bodyIndexByName (mb : MultiBody K) (name : String) : Res Int := mb.bodyNameToInd.get name
/-- `jointIndexByName(name)`, MultiBody.h:164-167. -/
def jointIndexByName (mb : MultiBody K) (name : String) : Res Int := mb.jointNameToInd.get name

/-- `body(int, Body)`, MultiBody.h:80-83. -/
def setBody (mb : MultiBody K) (i : Int) (b : Body K) : Res (MultiBody K) := do
  return { mb with bodies := ← wrI mb.bodies i b }
/-- `transform(int, PTransform)`, MultiBody.h:152-155. -/
def setTransform (mb : MultiBody K) (i : Int) (X : PTransform K) : Res (MultiBody K) := do
  return { mb with Xt := ← wrI mb.Xt i X }

/-- `sBodies(vector)`, MultiBody.h:222-231. -/
def sSetBodies (mb : MultiBody K) (b : List (Body K)) : Res (MultiBody K) :=
  if b.length ≠ mb.bodies.length then .error .runtimeError else .ok { mb with bodies := b }
/-- `sBody(int)`, MultiBody.h:236-239. -/
def sBody (mb : MultiBody K) (i : Int) : Res (Body K) := rdAtI mb.bodies i
/-- `sBody(int, Body)`, MultiBody.h:244-247. -/
def sSetBody (mb : MultiBody K) (i : Int) (b : Body K) : Res (MultiBody K) := do
  return { mb with bodies := ← wrAtI mb.bodies i b }
/-- `sJoint(int)`, MultiBody.h:252-255. -/
def sJoint (mb : MultiBody K) (i : Int) : Res (Joint K) := rdAtI mb.joints i
/-- `sPredecessor(int)`, MultiBody.h:260-263. -/
def sPredecessor (mb : MultiBody K) (i : Int) : Res Int := rdAtI mb.pred i
/-- `sSuccessor(int)`, MultiBody.h:268-271. -/
def sSuccessor (mb : MultiBody K) (i : Int) : Res Int := rdAtI mb.succ i
/-- `sParent(int)`, MultiBody.h:276-279. -/
def sParent (mb : MultiBody K) (i : Int) : Res Int := rdAtI mb.parent i
/-- `sTransforms(vector)`, MultiBody.h:284-293. -/
def sSetTransforms (mb : MultiBody K) (X : List (PTransform K)) : Res (MultiBody K) :=
  if X.length ≠ mb.Xt.length then .error .runtimeError else .ok { mb with Xt := X }
/-- `sTransform(int)`, MultiBody.h:298-301. -/
def sTransform (mb : MultiBody K) (i : Int) : Res (PTransform K) := rdAtI mb.Xt i
/-- `sTransform(int, PTransform)`, MultiBody.h:306-309. -/
def sSetTransform (mb : MultiBody K) (i : Int) (X : PTransform K) : Res (MultiBody K) := do
  return { mb with Xt := ← wrAtI mb.Xt i X }
/-- `sJointPosInParam(int)`, MultiBody.h:314-317. -/
def sJointPosInParam (mb : MultiBody K) (i : Int) : Res Nat := rdAtI mb.jointPosInParam i
/-- `sJointPosInDof(int)`, MultiBody.h:322-325. -/
def sJointPosInDof (mb : MultiBody K) (i : Int) : Res Nat := rdAtI mb.jointPosInDof i
/-- `sBodyIndexByName(name)`, MultiBody.h:331-334. -/
def sBodyIndexByName (mb : MultiBody K) (name : String) : Res Int := mb.bodyNameToInd.getAt name
/-- `sJointIndexByName(name)`, MultiBody.h:340-343. -/
def sJointIndexByName (mb : MultiBody K) (name : String) : Res Int := mb.jointNameToInd.getAt name

end MultiBody

end RBDyn
