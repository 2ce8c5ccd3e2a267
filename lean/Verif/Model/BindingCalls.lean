import Verif.Model.Binding
import Verif.Model.Graph
import Verif.Model.Config
import Verif.Model.Jacobian
import Verif.Model.Momentum
import Verif.Model.IDIM
import Verif.Model.Coriolis

/-!
Model of the calls of `binding/python/rbdyn/rbdyn.pyx`: how the arguments of a python call select and reach a C++ function, and what
becomes of its exceptions. The declarations of the C++ functions are those of `binding/python/rbdyn/c_rbdyn.pxd`.

The behaviour of Cython and of the interpreter that the model relies on (no directive `c_string_encoding` is set in the repository):
- a `bytes` object is converted to `std::string` as it is; a text object (`unicode` in python 2, `str` in python 3) is converted with the
  default encoding in python 2 and raises `TypeError` in python 3. Only ASCII text is modelled;
- `isinstance(x, unicode)` holds for text objects, `isinstance(x, basestring)` for text objects and in python 2 also for `bytes`;
- `dict.values()` is a list in python 2 and a view without index in python 3;
- a C++ function declared `except +` turns `std::domain_error` and `std::invalid_argument` into `ValueError`, `std::out_of_range` into
  `IndexError` and other exceptions into `RuntimeError`; an exception of a function declared without `except` ends the program;
- a member of a C++ class type of an extension type is default-constructed before `__cinit__`.
-/

namespace RBDyn
variable {K : Type}

inductive PyVer where
  | py2 | py3
  deriving DecidableEq, Repr

/-- A `bytes` object or a text object. -/
inductive PyStr where
  | bytes (s : String)
  | text (s : String)
  deriving DecidableEq, Repr

/-- How a call can fail. `crash`: undefined behaviour or the end of the program, not a python exception. -/
inductive CallErr where
  | typeError | valueError | indexError | runtimeError | assertionError | crash | diverges
  deriving DecidableEq, Repr

abbrev CallRes (α : Type _) := Except CallErr α

/-- A C++ function declared `except +`. -/
def exceptPlus : Err → CallErr
  | .domainError => .valueError
  | .invalidArgument => .valueError
  | .outOfRange => .indexError
  | .runtimeError => .runtimeError
  | .ub => .crash
  | .diverges => .diverges

/-- A C++ function declared without `except`. -/
def exceptNone : Err → CallErr
  | .diverges => .diverges
  | _ => .crash

def Res.py {α : Type _} (f : Err → CallErr) : Res α → CallRes α
  | .ok a => .ok a
  | .error e => .error (f e)

/-- The conversion of an argument to `std::string`. -/
def PyStr.toStd (v : PyVer) : PyStr → CallRes String
  | .bytes s => .ok s
  | .text s => match v with | .py2 => .ok s | .py3 => .error .typeError

/-- `if isinstance(name, unicode): name = name.encode("ascii")`, followed by the conversion. -/
def PyStr.encode : PyStr → String
  | .bytes s => s
  | .text s => s

/-- `isinstance(x, basestring)`. -/
def PyStr.isBase (v : PyVer) : PyStr → Bool
  | .bytes _ => match v with | .py2 => true | .py3 => false
  | .text _ => true

/-- A python method of `MultiBodyGraph`: it may change the graph also when it raises. -/
abbrev PyGM (K : Type) := EStateM CallErr (GSt K)

/-- The call of a C++ member function. -/
def GM.py {α : Type} (f : Err → CallErr) (m : GM K α) : PyGM K α := fun s =>
  match m s with
  | .ok a s => .ok a s
  | .error e s => .error (f e) s

def PyGM.lift {α : Type} (r : CallRes α) : PyGM K α := fun s =>
  match r with
  | .ok a => .ok a s
  | .error e => .error e s

section
variable [Scalar K]

/-! ### `MultiBodyGraph` -/

/-- `addBody`, rbdyn.pyx:580-581. -/
def pyAddBody (b : Body K) : PyGM K Unit := (Graph.addBody b).py exceptPlus

/-- `addJoint`, rbdyn.pyx:583-584. -/
def pyAddJoint (j : Joint K) : PyGM K Unit := (Graph.addJoint j).py exceptPlus

/-- `linkBodies`, rbdyn.pyx:586-603. -/
def pyLinkBodies (b1 : PyStr) (tB1 : PTransform K) (b2 : PyStr) (tB2 : PTransform K) (joint : PyStr) (isB1toB2 : Bool := true) : PyGM K Unit :=
  (Graph.linkBodies b1.encode tB1 b2.encode tB2 joint.encode isB1toB2).py exceptPlus

/-- `removeJoint`, rbdyn.pyx:611-612. -/
def pyRemoveJoint (v : PyVer) (root joint : PyStr) : PyGM K Unit := do
  let r ← PyGM.lift (root.toStd v)
  let j ← PyGM.lift (joint.toStd v)
  (Graph.removeJoint r j).py exceptPlus

/-- The argument `arg` of `removeJoints`: a list (`none` for an element that is not a string) or another object. -/
inductive NamesArg where
  | list (l : List (Option PyStr))
  | other
  deriving DecidableEq, Repr

/-- The conversion of a list to `std::vector<std::string>`. -/
def toStdList (v : PyVer) : List (Option PyStr) → CallRes (List String)
  | [] => .ok []
  | none :: _ => .error .typeError
  | some s :: l => do
    let x ← s.toStd v
    let l ← toStdList v l
    return x :: l

/-- `removeJoints`, rbdyn.pyx:614-617. -/
def pyRemoveJoints (v : PyVer) (root : PyStr) (arg : NamesArg) : PyGM K Unit :=
  match arg with
  | .list (some s :: l) =>
    if s.isBase v then do
      let r ← PyGM.lift (root.toStd v)
      let js ← PyGM.lift (toStdList v (some s :: l))
      (Graph.removeJoints r js).py exceptPlus
    else pure ()
  | _ => pure ()

/-- A value of the dictionary given to `mergeSubBodies`. -/
inductive PosArg (K : Type) where
  | list (q : List K)
  | tuple (q : List K)
  | other

/-- The conversion of a value to `std::vector<double>`: any iterable of numbers. -/
def PosArg.toStd : PosArg K → CallRes (List K)
  | .list q => .ok q
  | .tuple q => .ok q
  | .other => .error .typeError

/-- The argument `arg` of `mergeSubBodies`: a dictionary, in the order of its iteration, or another object. -/
inductive DictArg (K : Type) where
  | dict (l : List (PyStr × PosArg K))
  | other

/-- The conversion of a dictionary to `std::map<std::string, std::vector<double>>`. -/
def toStdMap (v : PyVer) : List (PyStr × PosArg K) → SMap (List K) → CallRes (SMap (List K))
  | [], m => .ok m
  | (k, x) :: l, m => do
    let k ← k.toStd v
    let x ← x.toStd
    toStdMap v l (if (m.find k).isSome then m else m.set k x)

/-- `arg.values()[0]`, rbdyn.pyx:620, for a dictionary that is not empty. -/
def firstValue (v : PyVer) (x : PosArg K) : CallRes (PosArg K) :=
  match v with
  | .py2 => .ok x
  | .py3 => .error .typeError

/-- `mergeSubBodies`, rbdyn.pyx:619-623. -/
def pyMergeSubBodies (v : PyVer) (root joint : PyStr) (arg : DictArg K) : PyGM K Unit :=
  match arg with
  | .dict ((k, x) :: l) => do
    match ← PyGM.lift (firstValue v x) with
    | .list _ => do
      let r ← PyGM.lift (root.toStd v)
      let j ← PyGM.lift (joint.toStd v)
      let m ← PyGM.lift (toStdMap v ((k, x) :: l) [])
      (Graph.mergeSubBodies r j m).py exceptNone
    | _ => pure ()
  | _ => pure ()

/-- An argument of `makeMultiBody`. -/
inductive MakeArg (K : Type) where
  | bool (b : Bool)
  | int (i : Int)
  | vector3 (a : Vec3 K)
  | transform (X : PTransform K)
  | other

/-- The conversion of an integer to `rbd::Joint::Type`: other numbers are accepted as well, which is undefined. -/
def jointTypeOf (i : Int) : CallRes JointType :=
  match i with
  | 0 => .ok .Rev
  | 1 => .ok .Prism
  | 2 => .ok .Spherical
  | 3 => .ok .Planar
  | 4 => .ok .Cylindrical
  | 5 => .ok .Free
  | 6 => .ok .Fixed
  | _ => .error .crash

/-- `__makeMB`, rbdyn.pyx:625-636. -/
def pyMakeMB (h : Heap K) (g : Graph) (root : String) (isFixed : Bool) (X Y : PTransform K) : CallRes (MultiBody K) :=
  (Graph.makeMultiBodyF h g root isFixed X Y).py exceptPlus

/-- `__makeMBWAxis`, rbdyn.pyx:638-650. -/
def pyMakeMBWAxis (h : Heap K) (g : Graph) (root : String) (tp : MakeArg K) (ax : Vec3 K) (X Y : PTransform K) : CallRes (MultiBody K) :=
  match tp with
  | .int i => do
    let t ← jointTypeOf i
    (Graph.makeMultiBody h g root t ax X Y).py exceptPlus
  | _ => .error .typeError

/-- `makeMultiBody`, rbdyn.pyx:652-681. -/
def pyMakeMultiBody (h : Heap K) (g : Graph) (root : PyStr) (args : List (MakeArg K)) : CallRes (MultiBody K) :=
  match args with
  | [] => .error .typeError
  | [.bool b] => pyMakeMB h g root.encode b 1 1
  | [.bool b, .transform X] => pyMakeMB h g root.encode b X 1
  | [.bool b, .transform X, .transform Y] => pyMakeMB h g root.encode b X Y
  | .bool _ :: _ => .error .typeError
  | [t, .vector3 a] => pyMakeMBWAxis h g root.encode t a 1 1
  | [t, .vector3 a, .transform X] => pyMakeMBWAxis h g root.encode t a X 1
  | [t, .vector3 a, .transform X, .transform Y] => pyMakeMBWAxis h g root.encode t a X Y
  | _ => .error .typeError

/-- `bodiesBaseTransform`, rbdyn.pyx:683-692. -/
def pyBodiesBaseTransform (v : PyVer) (h : Heap K) (g : Graph) (root : PyStr) (X : PTransform K := 1) : CallRes (SMap (PTransform K)) := do
  let r ← root.toStd v
  (Graph.bodiesBaseTransform h g r X).py exceptPlus

/-- `successorJoints`, rbdyn.pyx:694-696. -/
def pySuccessorJoints (v : PyVer) (h : Heap K) (g : Graph) (root : PyStr) : CallRes (SMap (List String)) := do
  let r ← root.toStd v
  (Graph.successorJoints h g r).py exceptPlus

/-! ### `Joint`, `MultiBody` -/

/-- The second argument of the constructor of `Joint` with four arguments: a `Vector3d`, a list of three numbers, another object (a list of
another length included). -/
inductive AxisArg (K : Type) where
  | vector3 (a : Vec3 K)
  | list3 (x y z : K)
  | other

/-- `Joint(t, axis, forward, name)`, rbdyn.pyx:239-243 and 256-259; `Joint.Rev` is 0 and `Joint.Fixed` is 6. -/
def pyJointAxis (t : Int) (axis : AxisArg K) (forward : Bool) (name : PyStr) : CallRes (Joint K) :=
  match axis with
  | .vector3 a => if 0 ≤ t ∧ t ≤ 6 then do return Joint.mk' (← jointTypeOf t) a forward name.encode else .error .assertionError
  | .list3 x y z => if 0 ≤ t ∧ t ≤ 6 then do return Joint.mk' (← jointTypeOf t) ⟨x, y, z⟩ forward name.encode else .error .assertionError
  | .other => .error .typeError

/-- `Joint(t, forward, name)`, rbdyn.pyx:245-249; the axis is that of `Joint(Type, bool, string)`, Joint.h:322-326. -/
def pyJoint (t : Int) (forward : Bool) (name : PyStr) : CallRes (Joint K) :=
  if 0 ≤ t ∧ t ≤ 6 then do return Joint.mk' (← jointTypeOf t) Vec3.unitZ forward name.encode else .error .assertionError

/-- `forward(f)`, rbdyn.pyx:271-278: the number is converted to `bool` by C++. -/
def pySetForward (j : Joint K) (f : K) : Joint K := j.setForward (decide (f ≠ 0))

/-- `MultiBody(bodies, joints, pred, succ, parent, Xt)`, rbdyn.pyx:380-391 and 400-408, for lists of the right types; the constructor is
declared without `except`. -/
def pyMultiBody (bodies : List (Body K)) (joints : List (Joint K)) (pred succ parent : List Int) (Xt : List (PTransform K)) :
    CallRes (MultiBody K) := (MultiBody.mk' bodies joints pred succ parent Xt).py exceptNone

/-! ### `ConfigConverter` -/

/-- The argument of `convertJoint`: a list of lists, a list of numbers. -/
inductive JointArg (K : Type) where
  | lists (l : List (List K))
  | numbers (l : List K)
  deriving DecidableEq, Repr

/-- A value returned by `convertJoint`. -/
inductive ConvResult (K : Type) where
  | none
  | lists (l : List (List K))
  | numbers (l : List K)
  deriving DecidableEq, Repr

/-- `convertJoint`, rbdyn.pyx:953-960: there is no `return`, and the C++ functions are declared without `except`. -/
def pyConvertJoint (c : ConfigConverter) (arg : JointArg K) : CallRes (ConvResult K) :=
  match arg with
  | .lists [] => .error .typeError
  | .numbers [] => .error .typeError
  | .lists l => do
    let _ ← (c.convertJointNew [] l).py exceptNone
    return .none
  | .numbers l => do
    let _ ← (c.convertJointNew 0 l).py exceptNone
    return .none

/-! ### Constructors of the algorithm objects -/

/-- An argument of these constructors: an object of the class, a robot, a string, a point, a list of numbers, another object. -/
inductive CtorArg (α K : Type) where
  | same (a : α)
  | robot (mb : MultiBody K)
  | string (s : PyStr)
  | point (p : Vec3 K)
  | numbers (w : List K)
  | other

/-- `__cinit__` of `InverseDynamics` (rbdyn.pyx:1208-1217), `ForwardDynamics` (rbdyn.pyx:1239-1248) and `IDIM` (rbdyn.pyx:1524-1533): `dflt` is
the default-constructed object. -/
def ctorRobot {α : Type} (dflt : α) (build : MultiBody K → CallRes α) : List (CtorArg α K) → CallRes α
  | [] => .ok dflt
  | [.same a] => .ok a
  | [.robot mb] => build mb
  | [_] => .ok dflt
  | _ => .error .typeError

/-- `__cinit__` of `CoMJacobianDummy` (rbdyn.pyx:1310-1321), `CoMJacobian` (rbdyn.pyx:1341-1352) and `CentroidalMomentumMatrix`
(rbdyn.pyx:1415-1426). -/
def ctorWeights {α : Type} (dflt : α) (build : MultiBody K → CallRes α) (buildW : MultiBody K → List K → CallRes α) :
    List (CtorArg α K) → CallRes α
  | [] => .ok dflt
  | [.same a] => .ok a
  | [.robot mb] => build mb
  | [.robot mb, .numbers w] => buildW mb w
  | .robot _ :: _ => .ok dflt
  | _ => .error .typeError

/-- `Jacobian()`, Jacobian.cpp:20: what the constructor leaves uninitialised is `junk`. -/
def Jac.default (junk : Jac K) : Jac K := { junk with path := [], sign := [], jac := [], jacDot := [] }

/-- `__mbvctor__` of `Jacobian`, rbdyn.pyx:1014-1017. -/
def pyJacobianOf (v : PyVer) (junk : Nat → MotionVec K) (mb : MultiBody K) (name : CtorArg (Jac K) K) (p : Vec3 K) : CallRes (Jac K) :=
  match name with
  | .string s => do
    let n ← s.toStd v
    (Jac.mk' junk mb n p).py exceptPlus
  | _ => .error .typeError

/-- `__cinit__` of `Jacobian`, rbdyn.pyx:1019-1030. -/
def pyJacobian (v : PyVer) (dflt : Jac K) (junk : Nat → MotionVec K) : List (CtorArg (Jac K) K) → CallRes (Jac K)
  | [] => .ok dflt
  | [.same J] => .ok J
  | [.robot mb, n, .point p] => pyJacobianOf v junk mb n p
  | [.robot mb, n] => pyJacobianOf v junk mb n 0
  | .robot _ :: _ :: _ => .ok dflt
  | _ => .error .typeError

/-! ### Methods of the algorithm objects -/

/-- `jacobian(mb, mbc)` of `Jacobian`, rbdyn.pyx:1032-1036. -/
def pyJacobianCall (J : Jac K) (mb : MultiBody K) (mbc : MBC K) : CallRes (Jac K) := (J.sJacobian mb mbc).py exceptPlus

/-- `inverseDynamics(mb, mbc)`, rbdyn.pyx:1219-1220. -/
def pyInverseDynamics (d : ID K) (mb : MultiBody K) (mbc : MBC K) : CallRes (ID K × MBC K) := (d.sInverseDynamics mb mbc).py exceptPlus

/-- `forwardDynamics(mb, mbc)`, rbdyn.pyx:1250-1251. -/
def pyForwardDynamics (solve : DMat K → List K → List K) (d : FD K) (mb : MultiBody K) (mbc : MBC K) : CallRes (FD K × MBC K) :=
  (d.sForwardDynamics solve mb mbc).py exceptPlus

/-- `coriolis(mb, mbc)`, rbdyn.pyx:1280-1281: there is no checked version. -/
def pyCoriolis (c : Cor K) (mb : MultiBody K) (mbc : MBC K) : CallRes (Cor K) := (c.coriolis mb mbc).py exceptNone

end

end RBDyn
