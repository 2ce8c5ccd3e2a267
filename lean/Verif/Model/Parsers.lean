import Verif.Model.Graph
import Verif.Model.Kinematics

/-!
Model of `src/parsers/RBDyn/parsers/common.h`, `src/parsers/common.cpp`, `src/parsers/urdf.cpp`,
`src/parsers/yaml.cpp`, `src/parsers/to_urdf.cpp` and `src/parsers/to_yaml.cpp`.

The two text formats are not modelled at the level of characters: a document is the tree of elements the code gets
from tinyxml2 or yaml-cpp, with the attributes and the keys it reads, each one present or not. Attributes the code
converts to `std::string` without a test (names of links and joints, `type`, `parent`, `child` in URDF) are supposed
present. Visual, collision and material elements do not interact with the rest and are in `Verif/Model/Visuals.lean`.

What the code gets from other libraries is a parameter (`ParserEnv`).
-/

namespace RBDyn
variable {K : Type}

/-! ### common.h and common.cpp -/

/-- `prefix_path(path)`, common.cpp:47-57. `rfind(s, 0) == 0` is true iff `s` is a prefix. -/
def prefixPath (path : String) : String :=
  if "package://".toList.isPrefixOf path.toList || "file://".toList.isPrefixOf path.toList then path
  else "file://" ++ path

/-- The two readers `from_file` can call. -/
inductive FileFormat where
  | yaml | urdf
  deriving DecidableEq, Repr

/-- The choice of the reader in `from_file(file_path, params)`, common.cpp:27-45. Without a dot `rfind` returns
`npos` and `substr(npos + 1)` is the whole path. -/
def fileFormat (path : String) : Res FileFormat :=
  let ext := (path.toList.reverse.takeWhile (· != '.')).reverse
  if ext = "yaml".toList || ext = "yml".toList then .ok .yaml
  else if ext = "urdf".toList then .ok .urdf
  else .error .runtimeError

/-- A `double` that may be infinite: the limits. -/
inductive Lim (K : Type) where
  | val (x : K) | inf | ninf
  deriving DecidableEq, Repr

/-- Multiplication by a positive finite number. -/
def Lim.scale [Mul K] (c : K) : Lim K → Lim K
  | .val x => .val (x * c)
  | .inf => .inf
  | .ninf => .ninf

/-- `struct Limits`, common.h:32-39. -/
structure Limits (K : Type) where
  lower : SMap (List (Lim K))
  upper : SMap (List (Lim K))
  torque : SMap (List (Lim K))
  velocity : SMap (List (Lim K))
  deriving DecidableEq, Repr

/-- The limits of one joint. -/
structure JLimits (K : Type) where
  lower : List (Lim K)
  upper : List (Lim K)
  torque : List (Lim K)
  velocity : List (Lim K)
  deriving DecidableEq, Repr

/-- `res.limits.lower[name] = lower; ...`, urdf.cpp:575-578 and yaml.cpp:649-652. -/
def Limits.set (l : Limits K) (name : String) (j : JLimits K) : Limits K :=
  ⟨l.lower.set name j.lower, l.upper.set name j.upper, l.torque.set name j.torque, l.velocity.set name j.velocity⟩

/-- The initial limits of a joint with `n` degrees of freedom, urdf.cpp:547-550 and yaml.cpp:598-601. -/
def JLimits.free (K : Type) (n : Nat) : JLimits K :=
  ⟨List.replicate n .ninf, List.replicate n .inf, List.replicate n .inf, List.replicate n .inf⟩

/-- `struct ParserParameters`, common.h:141-176. -/
structure ParserParams where
  fixed : Bool := true
  filtered : List String := []
  removeFiltered : Bool := true
  transformInertia : Bool := true
  baseLink : String := ""
  removeVirtual : Bool := false
  sphericalSuffix : String := "_spherical"
  deriving DecidableEq, Repr

/-- What the code gets from Eigen, from the standard streams and from `<cmath>`. -/
structure ParserEnv (K : Type) where
  /-- `Vector3d::normalized()` -/
  normalized : Vec3 K → Vec3 K
  /-- `Matrix3d::eulerAngles(0, 1, 2)` -/
  euler : Mat3 K → Vec3 K
  /-- the number read back from the text `ss << value` (six significant digits) -/
  print : K → K
  /-- `NumTraits<double>::dummy_precision()`, the tolerance of `isZero()` -/
  eps : K
  /-- `M_PI / 180.` -/
  deg : K
  /-- the cells the constructor of `MultiBodyConfig` does not initialise -/
  uninit : Uninit K

/-- `struct ParserResult`, common.h:228-237, without the visuals. The graph comes with the heap it lives in. -/
structure PResult (K : Type) where
  name : String
  mb : MultiBody K
  mbc : MBC K
  heap : Heap K
  graph : Graph
  limits : Limits K

section
variable [Scalar K]

/-- `Vector3d::isZero()`: no coefficient is above the tolerance. -/
def Vec3.isZeroE (v : Vec3 K) (eps : K) : Bool := |v.x| ≤ eps && |v.y| ≤ eps && |v.z| ≤ eps

/-- `Matrix3d::isZero()` of a symmetric matrix. -/
def Sym3.isZeroE (m : Sym3 K) (eps : K) : Bool :=
  |m.xx| ≤ eps && |m.yx| ≤ eps && |m.yy| ≤ eps && |m.zx| ≤ eps && |m.zy| ≤ eps && |m.zz| ≤ eps

/-- `sva::inertiaToOrigin(inertia, mass, com, rotation)` (SpaceVecAlg). No theorem depends on the value for a rotation
other than the identity. -/
def inertiaToOrigin (inertia : Mat3 K) (mass : K) (com : Vec3 K) (rotation : Mat3 K) : Mat3 K :=
  rotation * (inertia + Mat3.crossMat (mass • com) * (Mat3.crossMat com).tr) * rotation.tr

/-- Run a member function of the graph; if it throws, the partially built graph is lost. -/
def runG (m : GM K Unit) (s : GSt K) : Res (GSt K) :=
  match m s with
  | .ok _ s' => .ok s'
  | .error e _ => .error e

/-- A graph and the limits: the part of `ParserResult` filled while reading the document. -/
abbrev PSt (K : Type) := GSt K × Limits K

/-- The state of a new `ParserResult`. -/
def PSt.init (K : Type) : PSt K := ((⟨[], []⟩, Graph.empty), ⟨[], [], [], []⟩)

/-- `res.mbg.addJoint(j); res.mbg.linkBodies(parent, X, child, Identity, name); res.limits...`, urdf.cpp:542-544,
575-578 and yaml.cpp:685 with 713-715 (in YAML the limits come first; they do not depend on the graph). -/
def addEdge (s : PSt K) (parent child : String) (X : PTransform K) (j : Joint K) (l : JLimits K) : Res (PSt K) := do
  let g ← runG (Graph.addJoint j) s.1
  let g ← runG (Graph.linkBodies parent X child 1 j.name) g
  return (g, s.2.set j.name l)

/-- `makeMultiBody(baseLink, fixed)`, configuration, `zero`, FK and FV: end of `from_urdf`, urdf.cpp:624-629, and of the
constructor of `RBDynFromYAML`, yaml.cpp:134-140. -/
def finish (env : ParserEnv K) (name base : String) (fixed : Bool) (s : PSt K) : Res (PResult K) := do
  let mb ← Graph.makeMultiBodyF s.1.1 s.1.2 base fixed 1 1
  let mbc ← MBC.mk' env.uninit mb
  let mbc ← MBC.zero mb mbc
  let mbc ← forwardKinematics mb mbc
  let mbc ← forwardVelocity mb mbc
  return ⟨name, mb, mbc, s.1.1, s.1.2, s.2⟩

/-- `name` ends with `suffix`, urdf.cpp:517-522 and yaml.cpp:530-532. -/
def hasSuffix (name suffix : String) : Bool := suffix.toList.isSuffixOf name.toList

/-! ### URDF documents -/

/-- `<origin xyz=... rpy=...>`; a list is what `attrToList` reads from the text of the attribute. -/
structure XOrigin (K : Type) where
  xyz : Option (List K)
  rpy : Option (List K)
  deriving DecidableEq, Repr

/-- `<inertia ixx=... .../>`; `none`: absent or unreadable. -/
structure XInertia (K : Type) where
  ixx : Option K
  ixy : Option K
  ixz : Option K
  iyy : Option K
  iyz : Option K
  izz : Option K
  deriving DecidableEq, Repr

/-- `<inertial>`; `mass` is the element and its attribute. -/
structure XInertial (K : Type) where
  origin : Option (XOrigin K)
  mass : Option (Option K)
  inertia : Option (XInertia K)
  deriving DecidableEq, Repr

/-- `<link>` -/
structure XLink (K : Type) where
  name : String
  inertial : Option (XInertial K)
  deriving DecidableEq, Repr

/-- `<limit>`: the numbers of each attribute. -/
structure XLimit (K : Type) where
  lower : Option (List (Lim K))
  upper : Option (List (Lim K))
  effort : Option (List (Lim K))
  velocity : Option (List (Lim K))
  deriving DecidableEq, Repr

/-- `<mimic>` -/
structure XMimic (K : Type) where
  joint : String
  multiplier : Option K
  offset : Option K
  deriving DecidableEq, Repr

/-- `<joint>`; `axis` is the element and its attribute. -/
structure XJoint (K : Type) where
  name : String
  type : String
  parent : String
  child : String
  origin : Option (XOrigin K)
  axis : Option (Option (List K))
  limit : Option (XLimit K)
  mimic : Option (XMimic K)
  deriving DecidableEq, Repr

/-- The document: `<robot>` if any, and its `name` attribute if any. -/
structure XRobot (K : Type) where
  name : Option String
  links : List (XLink K)
  joints : List (XJoint K)
  deriving DecidableEq, Repr

/-! ### urdf.cpp -/

/-- `attrToVector(dom, attr, def)`, urdf.cpp:79-90. -/
def attrToVector (a : Option (List K)) (d : Vec3 K) : Vec3 K :=
  match a with
  | some [x, y, z] => ⟨x, y, z⟩
  | _ => d

/-- `attrToList(dom, attr)` with the default `{}`, urdf.cpp:47-77 and urdf.h:31-33. `>>` does not read `inf`: the loop
stops at the first infinite number. -/
def attrToLims (a : Option (List (Lim K))) : List (Lim K) :=
  (a.getD []).takeWhile (fun l => match l with | .val _ => true | _ => false)

/-- `RPY(r, p, y)`, urdf.cpp:92-104. -/
def urdfRPY (r p y : K) : Mat3 K :=
  let ca1 := Scalar.cos y
  let sa1 := Scalar.sin y
  let cb1 := Scalar.cos p
  let sb1 := Scalar.sin p
  let cc1 := Scalar.cos r
  let sc1 := Scalar.sin r
  (⟨ca1 * cb1, ca1 * sb1 * sc1 - sa1 * cc1, ca1 * sb1 * cc1 + sa1 * sc1,
    sa1 * cb1, sa1 * sb1 * sc1 + ca1 * cc1, sa1 * sb1 * cc1 - ca1 * sc1,
    -sb1, cb1 * sc1, cb1 * cc1⟩ : Mat3 K).tr

/-- `RPY(rpy)`, urdf.cpp:106-114. The exception is a `std::string`; it is reported as `runtimeError`. -/
def urdfRPYList (rpy : List K) : Res (Mat3 K) :=
  match rpy with
  | [r, p, y] => .ok (urdfRPY r p y)
  | _ => .error .runtimeError

/-- The static transform of a joint, urdf.cpp:499-507. -/
def urdfOrigin (o : Option (XOrigin K)) : Res (PTransform K) :=
  match o with
  | none => .ok 1
  | some o => do
    let R ← urdfRPYList (o.rpy.getD [0, 0, 0])
    return ⟨R, attrToVector o.xyz 0⟩

/-- `readInertia(dom)`, urdf.cpp:116-123. -/
def readInertia (i : XInertia K) : Mat3 K :=
  ⟨i.ixx.getD 0, i.ixy.getD 0, i.ixz.getD 0,
   i.ixy.getD 0, i.iyy.getD 0, i.iyz.getD 0,
   i.ixz.getD 0, i.iyz.getD 0, i.izz.getD 0⟩

/-- `rbdynFromUrdfJoint(type, hasSphericalSuffix)`, urdf.cpp:125-148. -/
def urdfJointType (type : String) (sph : Bool) : JointType :=
  if type = "revolute" then .Rev
  else if type = "prismatic" then .Prism
  else if type = "continuous" then .Rev
  else if type = "floating" then (if sph then .Spherical else .Free)
  else if type = "ball" then .Spherical
  else .Fixed

/-- The body of a link, urdf.cpp:411-441 and 465. A null `massDom` or `inertiaDom` is dereferenced. -/
def urdfBody (params : ParserParams) (l : XLink K) : Res (Body K) :=
  match l.inertial with
  | none => .ok (Body.ofCom 0 0 0 l.name)
  | some i => do
    let com := match i.origin with | none => 0 | some o => attrToVector o.xyz 0
    let comRPY := match i.origin with | none => [0, 0, 0] | some o => o.rpy.getD [0, 0, 0]
    let comFrame ← urdfRPYList comRPY
    let mass ← match i.mass with | none => .error .ub | some m => .ok (m.getD 0)
    let inertia ← match i.inertia with | none => .error .ub | some m => .ok (readInertia m)
    return Body.ofCom mass com (if params.transformInertia then inertiaToOrigin inertia mass com comFrame else inertia)
      l.name

/-- `links`, `fixed_links` and `removed_links`, urdf.cpp:359-363. -/
structure LinkSplit (K : Type) where
  links : List (XLink K)
  fixed : List String
  removed : List String

/-- `handle_link`, urdf.cpp:369-396. -/
def splitLink (params : ParserParams) (s : LinkSplit K) (l : XLink K) : LinkSplit K :=
  if l.inertial.isNone && params.removeVirtual then { s with removed := s.removed ++ [l.name] }
  else if l.name ∈ params.filtered then
    if params.removeFiltered then { s with removed := s.removed ++ [l.name] }
    else { s with fixed := s.fixed ++ [l.name], links := s.links ++ [l] }
  else { s with links := s.links ++ [l] }

/-- The joints kept and their types, urdf.cpp:469-492. -/
def keepJoint (sp : LinkSplit K) (acc : List (XJoint K)) (j : XJoint K) : List (XJoint K) :=
  if j.parent ∉ sp.removed && j.child ∉ sp.removed then
    acc ++ [if j.child ∈ sp.fixed then { j with type := "fixed" } else j]
  else acc

/-- The joint object, urdf.cpp:509-540. -/
def urdfJoint (env : ParserEnv K) (params : ParserParams) (j : XJoint K) : Joint K :=
  let axis := match j.axis with | none => Vec3.unitZ | some a => env.normalized (attrToVector a 0)
  let type := urdfJointType j.type (hasSuffix j.name params.sphericalSuffix)
  let jt := Joint.mk' type axis true j.name
  match j.mimic with
  | some m => if jt.type ≠ .Fixed then jt.makeMimic m.joint (m.multiplier.getD 1) (m.offset.getD 0) else jt
  | none => jt

/-- The limits, urdf.cpp:546-562. `check_limit` (urdf.cpp:563-574) only prints. -/
def urdfLimits (j : XJoint K) (jt : Joint K) : JLimits K :=
  let l := JLimits.free K jt.dof
  match j.limit with
  | none => l
  | some x =>
    if jt.type ≠ .Fixed then
      let l := if j.type ≠ "continuous" then { l with lower := attrToLims x.lower, upper := attrToLims x.upper } else l
      { l with torque := attrToLims x.effort, velocity := attrToLims x.velocity }
    else l

/-- Loop over the links, urdf.cpp:409-467. -/
def urdfAddLink (params : ParserParams) (s : PSt K) (l : XLink K) : Res (PSt K) := do
  let b ← urdfBody params l
  let g ← runG (Graph.addBody b) s.1
  return (g, s.2)

/-- Loop over the joints, urdf.cpp:494-579. -/
def urdfAddJoint (env : ParserEnv K) (params : ParserParams) (s : PSt K) (j : XJoint K) : Res (PSt K) := do
  let X ← urdfOrigin j.origin
  let jt := urdfJoint env params j
  addEdge s j.parent j.child X jt (urdfLimits j jt)

/-- `parseMultiBodyGraphFromURDF(res, content, params)`, urdf.cpp:328-582: the name, the base link and the graph.
`none` stands for a document without `<robot>`. -/
def parseURDF (env : ParserEnv K) (doc : Option (XRobot K)) (params : ParserParams) : Res (String × String × PSt K) := do
  let robot ← match doc with | none => .error .runtimeError | some r => .ok r
  let name ← match robot.name with | none => .error .runtimeError | some n => .ok n
  let sp := robot.links.foldl (splitLink params) ⟨[], [], []⟩
  let first ← match sp.links with | [] => .error .runtimeError | l :: _ => .ok l
  let base := if params.baseLink = "" then first.name else params.baseLink
  let s ← sp.links.foldlM (urdfAddLink params) (PSt.init K)
  let joints := robot.joints.foldl (keepJoint sp) []
  let s ← joints.foldlM (urdfAddJoint env params) s
  return (name, base, s)

/-- `from_urdf(content, params)`, urdf.cpp:618-632. -/
def fromURDF (env : ParserEnv K) (doc : Option (XRobot K)) (params : ParserParams) : Res (PResult K) := do
  let (name, base, s) ← parseURDF env doc params
  finish env name base params.fixed s

/-! ### to_urdf.cpp -/

/-- `set_origin_from_ptransform(node, X)`, to_urdf.cpp:36-53. -/
def writeOrigin (env : ParserEnv K) (X : PTransform K) : Option (XOrigin K) :=
  let rpy := env.euler X.E.tr
  if !X.r.isZeroE env.eps || !rpy.isZeroE env.eps then
    some ⟨if !X.r.isZeroE env.eps then some [env.print X.r.x, env.print X.r.y, env.print X.r.z] else none,
          if !rpy.isZeroE env.eps then some [env.print rpy.x, env.print rpy.y, env.print rpy.z] else none⟩
  else none

/-- The centre of mass both writers print, to_urdf.cpp:70-80 and to_yaml.cpp:67-77. -/
def writeCom (I : RBInertia K) : Vec3 K := if 0 < I.m then I.m⁻¹ • I.h else 0

/-- The inertia both writers print, to_urdf.cpp:97-100 and to_yaml.cpp:87-90. -/
def writeInertia (I : RBInertia K) : Mat3 K := inertiaToOrigin I.I.toMat (-I.m) (writeCom I) 1

/-- The link written for a body, to_urdf.cpp:56-113. -/
def writeXLink (env : ParserEnv K) (b : Body K) : XLink K :=
  let I := b.inertia
  let com := writeCom I
  let M := writeInertia I
  ⟨b.name,
   if 0 < I.m || !I.h.isZeroE env.eps || !I.I.isZeroE env.eps then
     some
      { origin := if !com.isZeroE env.eps then some ⟨some [env.print com.x, env.print com.y, env.print com.z], none⟩
          else none
        mass := if 0 < I.m then some (some (env.print I.m)) else none
        inertia := if !I.I.isZeroE env.eps then
            some ⟨some (env.print M.m00), some (env.print M.m01), some (env.print M.m02), some (env.print M.m11),
              some (env.print M.m12), some (env.print M.m22)⟩
          else none }
   else none⟩

/-- `it->second[0] != bound` if the map has the joint: `operator[](0)` of an empty vector is undefined behaviour. -/
def firstNe (o : Option (List (Lim K))) (bound : Lim K) : Res Bool :=
  match o with
  | none => .ok false
  | some [] => .error .ub
  | some (x :: _) => .ok (decide (x ≠ bound))

/-- The lambda `is_continuous`, to_urdf.cpp:221-241 and to_yaml.cpp:212-232. -/
def isContinuous (lim : Limits K) (name : String) : Res Bool :=
  match lim.upper.find name, lim.lower.find name with
  | none, none => .ok true
  | up, lo => do
    let u ← firstNe up .inf
    if u then .ok false
    else do
      let l ← firstNe lo .ninf
      .ok (!l)

/-- The lambda `has_limits`, to_urdf.cpp:258-274 and to_yaml.cpp:237-253. -/
def hasLimits (lim : Limits K) (name : String) : Bool :=
  let check (m : SMap (List (Lim K))) : Bool := match m.find name with | some l => !l.isEmpty | none => false
  check lim.lower && check lim.upper && check lim.velocity && check lim.torque

/-- The `type` both writers print, to_urdf.cpp:297-325 and to_yaml.cpp:285-315. -/
def writeType (lim : Limits K) (j : Joint K) : Res String :=
  match j.type with
  | .Rev => do
    let c ← isContinuous lim j.name
    return if c then "continuous" else "revolute"
  | .Prism => .ok "prismatic"
  | .Spherical => .error .invalidArgument
  | .Planar => .ok "planar"
  | .Cylindrical => .error .invalidArgument
  | .Free => .ok "floating"
  | .Fixed => .ok "fixed"

/-- The axis both writers print, to_urdf.cpp:361-383 and to_yaml.cpp:344-366. -/
def writeAxis (j : Joint K) : Res (Vec3 K) :=
  match j.type with
  | .Rev => do
    let c ← rd j.S 0
    return c.ang
  | .Prism => do
    let c ← rd j.S 0
    return c.lin
  | .Spherical => .error .invalidArgument
  | .Planar => .ok Vec3.unitZ
  | .Cylindrical => .error .invalidArgument
  | .Free => .ok 0
  | .Fixed => .ok 0

/-- What both writers compute for a joint before printing it: type, parent, child, the transforms of the arcs of the
parent carrying the joint, axis; to_urdf.cpp:297-389 and to_yaml.cpp:285-370. -/
structure JointInfo (K : Type) where
  type : String
  parent : String
  child : String
  Xs : List (PTransform K)
  axis : Vec3 K

/-- See `JointInfo`. -/
def jointInfo (r : PResult K) (j : Joint K) : Res (JointInfo K) := do
  let type ← writeType r.limits j
  let index ← r.mb.jointIndexByName j.name
  let pred ← r.mb.predecessor index
  let parent ← if pred ≠ -1 then r.mb.body pred else r.mb.body 0
  let succ ← r.mb.successor index
  let child ← r.mb.body succ
  let p ← r.graph.nodeByName parent.name
  let n ← rd r.heap.nodes p
  let axis ← writeAxis j
  return ⟨type, parent.name, child.name, (n.arcs.filter (fun a => a.joint.name = j.name)).map (·.X), axis⟩

/-- The joint of the document, to_urdf.cpp:294-409. If several `<origin>` are inserted the reader takes the first one. -/
def writeXJoint (env : ParserEnv K) (r : PResult K) (j : Joint K) : Res (XJoint K) := do
  let i ← jointInfo r j
  let cont ← if j.type = .Rev then isContinuous r.limits j.name else .ok false
  let pr (m : SMap (List (Lim K))) : Option (List (Lim K)) :=
    (m.find j.name).map (fun l => l.map (fun x => match x with | .val x => .val (env.print x) | x => x))
  return { name := j.name, type := i.type, parent := i.parent, child := i.child
           origin := (i.Xs.filterMap (writeOrigin env)).head?
           axis := if !i.axis.isZeroE env.eps then
              some (some [env.print i.axis.x, env.print i.axis.y, env.print i.axis.z]) else none
           limit := if hasLimits r.limits j.name && !cont then
              some ⟨pr r.limits.lower, pr r.limits.upper, pr r.limits.torque, pr r.limits.velocity⟩ else none
           mimic := if j.isMimic then
              some ⟨j.mimicName, some (env.print j.mimicMultiplier), some (env.print j.mimicOffset)⟩ else none }

/-- The loop over the joints shared by both writers: the root joint is skipped, to_urdf.cpp:287-293 and
to_yaml.cpp:274-280. -/
def writeJoints {β : Type} (r : PResult K) (w : Joint K → Res β) : Res (List β) :=
  r.mb.joints.foldlM (fun acc j => do
    let index ← r.mb.jointIndexByName j.name
    if index = 0 then return acc
    let x ← w j
    return acc ++ [x]) []

/-- `to_urdf(res)`, to_urdf.cpp:11-418. -/
def toURDF (env : ParserEnv K) (r : PResult K) : Res (XRobot K) := do
  let joints ← writeJoints r (writeXJoint env r)
  return ⟨some r.name, r.mb.bodies.map (writeXLink env), joints⟩

/-! ### YAML documents -/

/-- `frame: {xyz, rpy, anglesInDegrees}` -/
structure YFrame (K : Type) where
  xyz : Option (List K)
  rpy : Option (List K)
  degrees : Option Bool
  deriving DecidableEq, Repr

/-- `inertia: {Ixx, ...}` -/
structure YInertia (K : Type) where
  ixx : Option K
  iyy : Option K
  izz : Option K
  iyz : Option K
  ixz : Option K
  ixy : Option K
  deriving DecidableEq, Repr

/-- `inertial: {mass, frame, inertia}` -/
structure YInertial (K : Type) where
  mass : Option K
  frame : Option (YFrame K)
  inertia : Option (YInertia K)
  deriving DecidableEq, Repr

/-- An element of `links`. -/
structure YLink (K : Type) where
  name : Option String
  inertial : Option (YInertial K)
  deriving DecidableEq, Repr

/-- The value of a limit: a number, a sequence of numbers, or a sequence containing a sequence. -/
inductive YNum (K : Type) where
  | scalar (x : Lim K)
  | seq (l : List (Lim K))
  | nested
  deriving DecidableEq, Repr

/-- `limits: {lower, ...}` -/
structure YLimits (K : Type) where
  lower : Option (YNum K)
  upper : Option (YNum K)
  effort : Option (YNum K)
  velocity : Option (YNum K)
  degrees : Option Bool
  deriving DecidableEq, Repr

/-- An element of `joints`. -/
structure YJoint (K : Type) where
  name : Option String
  parent : Option String
  child : Option String
  type : Option String
  axis : Option (List K)
  frame : Option (YFrame K)
  limits : Option (YLimits K)
  deriving DecidableEq, Repr

/-- The value of the key `robot`. -/
structure YRobot (K : Type) where
  name : Option String
  degrees : Option Bool
  links : Option (List (YLink K))
  joints : Option (List (YJoint K))
  deriving DecidableEq, Repr

/-! ### yaml.cpp -/

/-- `MatrixFromRPY(r, p, y)`, yaml.cpp:150-157. The product of three `AngleAxis` is computed with quaternions and then
converted to a matrix; it is modelled by the product of the matrices. -/
def yamlRPY (r p y : K) : Mat3 K :=
  (angleAxis r ⟨1, 0, 0⟩ * angleAxis p ⟨0, 1, 0⟩ * angleAxis y ⟨0, 0, 1⟩).tr

/-- A sequence of exactly three numbers, yaml.cpp:171-176, 181-186 and 578-583. -/
def yamlVec3 (l : List K) : Res (Vec3 K) :=
  match l with
  | [x, y, z] => .ok ⟨x, y, z⟩
  | _ => .error .runtimeError

/-- `parseFrame(frame, name, xyz, rpy)`, yaml.cpp:159-193: the translation and the angles. -/
def yamlFrame (env : ParserEnv K) (degrees : Bool) (f : Option (YFrame K)) : Res (Vec3 K × Vec3 K) :=
  match f with
  | none => .ok (0, 0)
  | some f => do
    let xyz ← match f.xyz with | none => .ok 0 | some l => yamlVec3 l
    let rpy ← match f.rpy with
      | none => .ok 0
      | some l => do
        let v ← yamlVec3 l
        pure (if f.degrees.getD degrees then env.deg • v else v)
    return (xyz, rpy)

/-- `parseInertia(inertia, inertia_mat)`, yaml.cpp:195-204, with `makeInertia`, yaml.cpp:143-148. -/
def yamlInertia (i : Option (YInertia K)) : Mat3 K :=
  match i with
  | none => 1
  | some i =>
    ⟨i.ixx.getD 1, i.ixy.getD 0, i.ixz.getD 0,
     i.ixy.getD 0, i.iyy.getD 1, i.iyz.getD 0,
     i.ixz.getD 0, i.iyz.getD 0, i.izz.getD 1⟩

/-- `parseInertial` and the body made of it, yaml.cpp:206-229 and 481. -/
def yamlBody (env : ParserEnv K) (params : ParserParams) (degrees : Bool) (name : String) (i : Option (YInertial K)) :
    Res (Body K) :=
  match i with
  | none => .ok (Body.ofCom 0 0 0 name)
  | some i => do
    let mass := i.mass.getD 0
    let (xyz, rpy) ← yamlFrame env degrees i.frame
    let inertia := yamlInertia i.inertia
    return Body.ofCom mass xyz
      (if params.transformInertia then inertiaToOrigin inertia mass xyz (yamlRPY rpy.x rpy.y rpy.z) else inertia) name

/-- The data members of `RBDynFromYAML` modified while reading, yaml.h. -/
structure YSt (K : Type) where
  linkIdx : Nat
  jointIdx : Nat
  removed : List String
  fixed : List String
  base : String
  st : PSt K

/-- `parseLink(link)`, yaml.cpp:442-510. -/
def yamlLink (env : ParserEnv K) (params : ParserParams) (degrees : Bool) (s : YSt K) (l : YLink K) : Res (YSt K) := do
  let name := l.name.getD ("link" ++ toString s.linkIdx)
  if params.removeVirtual && l.inertial.isNone then return { s with removed := s.removed ++ [name] }
  if name ∈ params.filtered && params.removeFiltered then return { s with removed := s.removed ++ [name] }
  let fixed := if name ∈ params.filtered then s.fixed ++ [name] else s.fixed
  let base := if s.base = "" then name else s.base
  let b ← yamlBody env params degrees name l.inertial
  let g ← runG (Graph.addBody b) s.st.1
  return { s with fixed := fixed, base := base, st := (g, s.st.2), linkIdx := s.linkIdx + 1 }

/-- `joint_types_.at(type_name)`, yaml.cpp:58-61 and 543-562. -/
def yamlTypeTable (type : String) : Res JointType :=
  if type = "revolute" then .ok .Rev
  else if type = "continuous" then .ok .Rev
  else if type = "prismatic" then .ok .Prism
  else if type = "spherical" then .ok .Spherical
  else if type = "ball" then .ok .Spherical
  else if type = "free" then .ok .Free
  else if type = "fixed" then .ok .Fixed
  else .error .runtimeError

/-- `parseJointType(type, name, joint_type, type_name, force_fixed)`, yaml.cpp:512-572: the type and whether the joint
is continuous. -/
def yamlType (params : ParserParams) (type : Option String) (name : String) (forceFixed : Bool) :
    Res (JointType × Bool) :=
  if forceFixed then .ok (.Fixed, false)
  else match type with
    | none => .ok (.Rev, false)
    | some t => do
      let t := if t = "floating" then (if hasSuffix name params.sphericalSuffix then "spherical" else "free") else t
      let jt ← yamlTypeTable t
      return (jt, decide (t = "continuous"))

/-- `parseJointAxis`, yaml.cpp:574-589. -/
def yamlAxis (a : Option (List K)) : Res (Vec3 K) :=
  match a with
  | none => .ok Vec3.unitZ
  | some l => yamlVec3 l

/-- `node.as<std::vector<double>>(def)`: the default if the node is missing or not a sequence, an exception if an element
is not a number. -/
def YNum.asList (n : Option (YNum K)) (d : List (Lim K)) : Res (List (Lim K)) :=
  match n with
  | some (.seq l) => .ok l
  | some .nested => .error .runtimeError
  | _ => .ok d

/-- `node.as<double>(def)` -/
def YNum.asNum (n : Option (YNum K)) (d : Lim K) : Lim K :=
  match n with
  | some (.scalar x) => x
  | _ => d

/-- The `for` loop over the degrees of freedom, yaml.cpp:640-645: undefined behaviour if a list is too short. -/
def scaleLims (c : K) (n : Nat) (l : List (Lim K)) : Res (List (Lim K)) :=
  (List.range n).foldlM (fun l i => do
    let x ← rd l i
    wr l i (x.scale c)) l

/-- `parseJointLimits(limits, name, joint, is_continuous)`, yaml.cpp:591-653. -/
def yamlLimits (env : ParserEnv K) (degrees : Bool) (lim : Option (YLimits K)) (j : Joint K) (cont : Bool) :
    Res (JLimits K) :=
  let d := JLimits.free K j.dof
  match lim with
  | none => .ok d
  | some y => do
    let l ←
      if 1 < j.dof then do
        let lower ← if !cont then YNum.asList y.lower d.lower else .ok d.lower
        let upper ← if !cont then YNum.asList y.upper d.upper else .ok d.upper
        let torque ← YNum.asList y.effort d.torque
        let velocity ← YNum.asList y.velocity d.velocity
        pure (⟨lower, upper, torque, velocity⟩ : JLimits K)
      else if j.dof = 1 then
        pure ⟨[if !cont then YNum.asNum y.lower .ninf else .ninf], [if !cont then YNum.asNum y.upper .inf else .inf],
          [YNum.asNum y.effort .inf], [YNum.asNum y.velocity .inf]⟩
      else pure d
    if y.degrees.getD degrees then do
      let lower ← scaleLims env.deg j.dof l.lower
      let upper ← scaleLims env.deg j.dof l.upper
      let velocity ← scaleLims env.deg j.dof l.velocity
      return { l with lower := lower, upper := upper, velocity := velocity }
    else return l

/-- `parseJoint(joint)`, yaml.cpp:655-718. -/
def yamlJoint (env : ParserEnv K) (params : ParserParams) (degrees : Bool) (s : YSt K) (j : YJoint K) :
    Res (YSt K) := do
  let name := j.name.getD ("joint" ++ toString s.jointIdx)
  let parent := j.parent.getD ("link" ++ toString s.jointIdx)
  let child := j.child.getD ("link" ++ toString (s.jointIdx + 1))
  if child ∈ s.removed || parent ∈ s.removed then return s
  let (type, cont) ← yamlType params j.type name (child ∈ s.fixed)
  let axis ← yamlAxis j.axis
  let (xyz, rpy) ← yamlFrame env degrees j.frame
  let jt := Joint.mk' type axis true name
  let lim ← yamlLimits env degrees j.limits jt cont
  let st ← addEdge s.st parent child ⟨yamlRPY rpy.x rpy.y rpy.z, xyz⟩ jt lim
  return { s with st := st, jointIdx := s.jointIdx + 1 }

/-- Everything the constructor of `RBDynFromYAML` does before `makeMultiBody`, yaml.cpp:73-128: the name, the base link
and the graph. `none` stands for a document without `robot`. -/
def parseYAML (env : ParserEnv K) (doc : Option (YRobot K)) (params : ParserParams) : Res (String × String × PSt K) := do
  let robot ← match doc with | none => .error .runtimeError | some r => .ok r
  let name ← match robot.name with | none => .error .runtimeError | some n => .ok n
  let links ← match robot.links with | none => .error .runtimeError | some l => .ok l
  let degrees ← match robot.degrees with | none => .error .runtimeError | some d => .ok d
  let s ← links.foldlM (yamlLink env params degrees) ⟨1, 1, [], [], "", PSt.init K⟩
  let joints ← match robot.joints with | none => .error .runtimeError | some l => .ok l
  let s ← joints.foldlM (yamlJoint env params degrees) s
  return (name, if params.baseLink ≠ "" then params.baseLink else s.base, s.st)

/-- `from_yaml(content, params)`, yaml.cpp:733-739, with the constructor, yaml.cpp:45-141. -/
def fromYAML (env : ParserEnv K) (doc : Option (YRobot K)) (params : ParserParams) : Res (PResult K) := do
  let (name, base, s) ← parseYAML env doc params
  finish env name base params.fixed s

/-! ### to_yaml.cpp -/

/-- `set_origin_from_ptransform(X)`, to_yaml.cpp:28-45. The emitter writes the numbers with enough digits to read them
back exactly. -/
def writeFrame (env : ParserEnv K) (X : PTransform K) : Option (YFrame K) :=
  let rpy := env.euler X.E.tr
  if !X.r.isZeroE env.eps || !rpy.isZeroE env.eps then
    some ⟨if !X.r.isZeroE env.eps then some [X.r.x, X.r.y, X.r.z] else none,
          if !rpy.isZeroE env.eps then some [rpy.x, rpy.y, rpy.z] else none, none⟩
  else none

/-- The link written for a body, to_yaml.cpp:49-103. -/
def writeYLink (env : ParserEnv K) (b : Body K) : YLink K :=
  let I := b.inertia
  let com := writeCom I
  let M := writeInertia I
  ⟨some b.name,
   if 0 < I.m || !I.h.isZeroE env.eps || !I.I.isZeroE env.eps then
     some
      { mass := if 0 < I.m then some I.m else none
        frame := if !com.isZeroE env.eps then some ⟨some [com.x, com.y, com.z], none, none⟩ else none
        inertia := if !I.I.isZeroE env.eps then
            some ⟨some M.m00, some M.m11, some M.m22, some M.m12, some M.m02, some M.m01⟩
          else none }
   else none⟩

/-- `set_limit`, to_yaml.cpp:255-270, with `set_vector`, to_yaml.cpp:234-235: a vector is written inside a sequence. -/
def writeYNum (l : List (Lim K)) : YNum K :=
  match l with
  | [x] => .scalar x
  | _ => .nested

/-- The joint of the document, to_yaml.cpp:282-382. If several `frame` keys are written the reader takes the first one.
The mimic information is not written. -/
def writeYJoint (env : ParserEnv K) (r : PResult K) (j : Joint K) : Res (YJoint K) := do
  let i ← jointInfo r j
  let cont ← if j.type = .Rev then isContinuous r.limits j.name else .ok false
  let pr (m : SMap (List (Lim K))) : Option (YNum K) := (m.find j.name).map writeYNum
  return { name := some j.name, type := some i.type, parent := some i.parent, child := some i.child
           frame := (i.Xs.filterMap (writeFrame env)).head?
           axis := if !i.axis.isZeroE env.eps then some [i.axis.x, i.axis.y, i.axis.z] else none
           limits := if hasLimits r.limits j.name && !cont then
              some ⟨pr r.limits.lower, pr r.limits.upper, pr r.limits.torque, pr r.limits.velocity, none⟩ else none }

/-- `to_yaml(res)`, to_yaml.cpp:10-390. -/
def toYAML (env : ParserEnv K) (r : PResult K) : Res (YRobot K) := do
  let joints ← writeJoints r (writeYJoint env r)
  return ⟨some r.name, some false, some (r.mb.bodies.map (writeYLink env)), some joints⟩

end

end RBDyn
