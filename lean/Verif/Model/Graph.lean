import Verif.Model.MultiBody

/-!
Model of `src/RBDyn/RBDyn/MultiBodyGraph.h` and `src/RBDyn/MultiBodyGraph.cpp`.

The C++ graph is a web of `std::shared_ptr`. It is modelled with an explicit heap: a pointer to a `Node`
(a `Joint`) is an index in `Heap.nodes` (`Heap.joints`), `std::make_shared` appends a cell, and several
`MultiBodyGraph` objects can live in the same heap, so that aliasing between a graph and its copy is visible.
Cells are never freed: a cell without owner is simply unreachable. A null pointer is not represented; the only
place where the code can create one (`copy` of a dangling arc) is modelled as undefined behaviour.

A member function that modifies the graph is a computation in `GM`: it returns the state reached also when it
throws.
-/

namespace RBDyn
variable {K : Type}

/-- `MultiBodyGraph::Arc`, MultiBodyGraph.h:41-53; `next` is the address of the next node. -/
structure Arc (K : Type) where
  X : PTransform K
  joint : Joint K
  next : Nat
  deriving DecidableEq, Repr

/-- `MultiBodyGraph::Node`, MultiBodyGraph.h:59-65. -/
structure GNode (K : Type) where
  body : Body K
  arcs : List (Arc K)
  deriving DecidableEq, Repr

/-- The memory cells of the nodes and of the joints of all graphs. -/
structure Heap (K : Type) where
  nodes : List (GNode K)
  joints : List (Joint K)
  deriving DecidableEq, Repr

/-- Class `MultiBodyGraph`, MultiBodyGraph.h:287-293. The vectors and maps hold addresses. -/
structure Graph where
  rootName : String
  nodes : List Nat
  joints : List Nat
  bodyMap : SMap Nat
  jointMap : SMap Nat
  deriving DecidableEq, Repr

/-- State of a member function: the heap and the object. -/
abbrev GSt (K : Type) := Heap K × Graph

/-- Computation of a member function modifying the graph. -/
abbrev GM (K : Type) := EStateM Err (GSt K)

/-- A computation which does not modify the state. -/
def GM.lift {α : Type} (r : Res α) : GM K α := fun s =>
  match r with
  | .ok a => .ok a s
  | .error e => .error e s

/-- `v.erase(std::find(v.begin(), v.end(), p))`: undefined behaviour if `p` is absent. -/
def eraseFind (l : List Nat) (p : Nat) : Res (List Nat) :=
  if p ∈ l then .ok (l.erase p) else .error .ub

/-- Write the arcs of a node. -/
def Heap.setArcs (h : Heap K) (p : Nat) (n : GNode K) (arcs : List (Arc K)) : Heap K :=
  { h with nodes := h.nodes.set p { n with arcs := arcs } }

/-- Total number of arcs. -/
def Heap.nrArcs (h : Heap K) : Nat := (h.nodes.map (fun n => n.arcs.length)).sum

/-- Recursion depth at which a traversal of the graph is declared non-terminating. The control flow of the
recursive functions only depends on the pair (current node, node or joint it was reached from), so a recursion
deeper than the number of such pairs meets the same pair twice and never returns. -/
def Heap.fuel (h : Heap K) : Nat := (h.nodes.length + 1) * (h.nodes.length + h.nrArcs + 2)

namespace Graph

/-- `MultiBodyGraph(rootName)`, MultiBodyGraph.cpp:21-24. -/
def empty (rootName : String := "Root") : Graph := ⟨rootName, [], [], [], []⟩

/-- `clear()`, MultiBodyGraph.cpp:47-59. -/
def clear : GM K Unit := fun (h, g) =>
  match g.nodes.foldlM (fun (h : Heap K) p => do
      let n ← rd h.nodes p
      pure (h.setArcs p n [])) h with
  | .ok h' => .ok () (h', { g with nodes := [], joints := [], bodyMap := [], jointMap := [] })
  | .error e => .error e (h, g)

/-- `addBody(B)`, MultiBodyGraph.cpp:61-73. -/
def addBody (b : Body K) : GM K Unit := fun (h, g) =>
  if (g.bodyMap.find b.name).isSome then .error .domainError (h, g)
  else
    let p := h.nodes.length
    .ok () ({ h with nodes := h.nodes ++ [⟨b, []⟩] },
      { g with nodes := g.nodes ++ [p], bodyMap := g.bodyMap.set b.name p })

/-- `addJoint(J)`, MultiBodyGraph.cpp:75-87. -/
def addJoint (j : Joint K) : GM K Unit := fun (h, g) =>
  if (g.jointMap.find j.name).isSome then .error .domainError (h, g)
  else
    let p := h.joints.length
    .ok () ({ h with joints := h.joints ++ [j] },
      { g with joints := g.joints ++ [p], jointMap := g.jointMap.set j.name p })

section
variable [Scalar K]

/-- `Arc(X0, j, forward, n)`, MultiBodyGraph.h:45-48. -/
def mkArc (X : PTransform K) (j : Joint K) (fwd : Bool) (n : Nat) : Arc K := ⟨X, j.setForward fwd, n⟩

/-- The heap written by `linkBodies`; `b1` and `b2` may be the same node. -/
def linkHeap (h : Heap K) (g : Graph) (b1 : String) (tB1 : PTransform K) (b2 : String) (tB2 : PTransform K)
    (joint : String) (isB1toB2 : Bool) : Res (Heap K) := do
  let p1 ← g.bodyMap.getAt b1
  let p2 ← g.bodyMap.getAt b2
  let pj ← g.jointMap.getAt joint
  let j ← rd h.joints pj
  let fj1 := if isB1toB2 then j.isForward else !j.isForward
  let fj2 := !fj1
  let n1 ← rd h.nodes p1
  let h := h.setArcs p1 n1 (n1.arcs ++ [mkArc tB1 j fj1 p2])
  let n2 ← rd h.nodes p2
  let h := h.setArcs p2 n2 (n2.arcs ++ [mkArc tB2 j fj2 p1])
  return h

/-- `linkBodies(b1Name, tB1, b2Name, tB2, jointName, isB1toB2)`, MultiBodyGraph.cpp:89-105. The three `at` come
before the first write. -/
def linkBodies (b1 : String) (tB1 : PTransform K) (b2 : String) (tB2 : PTransform K)
    (joint : String) (isB1toB2 : Bool := true) : GM K Unit := fun (h, g) =>
  match linkHeap h g b1 tB1 b2 tB2 joint isB1toB2 with
  | .ok h' => .ok () (h', g)
  | .error e => .error e (h, g)

end

/-- `nodeByName(name)`, MultiBodyGraph.cpp:107-110. -/
def nodeByName (g : Graph) (name : String) : Res Nat := g.bodyMap.getAt name
/-- `jointByName(name)`, MultiBodyGraph.cpp:112-115. -/
def jointByName (g : Graph) (name : String) : Res Nat := g.jointMap.getAt name
/-- `nrNodes()`, MultiBodyGraph.cpp:117-120. -/
def nrNodes (g : Graph) : Nat := g.nodes.length
/-- `nrJoints()`, MultiBodyGraph.cpp:122-125. -/
def nrJoints (g : Graph) : Nat := g.joints.length

/-- The vectors filled by `makeTree`, MultiBodyGraph.cpp:151-157. -/
structure TreeSt (K : Type) where
  bodies : List (Body K)
  joints : List (Joint K)
  pred : List Int
  succ : List Int
  parent : List Int
  Xt : List (PTransform K)

/-- "looking for transformation that go to fromNode", MultiBodyGraph.cpp:170-178 and 251-259. `src` is `none` for
`nullptr`. -/
def xFrom (n : GNode K) (src : Option Nat) (Xbase : PTransform K) : PTransform K :=
  match n.arcs.find? (fun a => some a.next == src) with
  | some a => a.X
  | none => Xbase

section
variable [Scalar K]

/-- The recursive lambda `makeTree`, MultiBodyGraph.cpp:166-197. -/
def makeTree (h : Heap K) : Nat → (cur : Nat) → (src : Option Nat) → (joint : Joint K) → (p s par : Int) →
    (Xti Xbase : PTransform K) → TreeSt K → Res (TreeSt K)
  | 0, _, _, _, _, _, _, _, _, _ => .error .diverges
  | fuel + 1, cur, src, joint, p, s, par, Xti, Xbase, st => do
    let n ← rd h.nodes cur
    let XFrom := xFrom n src Xbase
    let st : TreeSt K :=
      { bodies := st.bodies ++ [⟨XFrom.dualMulI n.body.inertia, n.body.name⟩]
        joints := st.joints ++ [joint]
        pred := st.pred ++ [p]
        succ := st.succ ++ [s]
        parent := st.parent ++ [par]
        Xt := st.Xt ++ [Xti] }
    let curInd : Int := (st.bodies.length : Int) - 1
    n.arcs.foldlM (fun (st : TreeSt K) a =>
      if some a.next ≠ src then
        makeTree h fuel a.next (some cur) a.joint curInd (st.bodies.length : Int) curInd (a.X * XFrom.inv) 1 st
      else pure st) st

/-- `makeMultiBody(rootBodyName, rootJointType, axis, X_0_j0, X_b0_j0)`, MultiBodyGraph.cpp:143-203. -/
def makeMultiBody (h : Heap K) (g : Graph) (root : String) (t : JointType) (axis : Vec3 K)
    (X_0_j0 X_b0_j0 : PTransform K) : Res (MultiBody K) := do
  let rootNode ← g.bodyMap.getAt root
  let rootJoint := Joint.mk' t axis true g.rootName
  let st ← makeTree h h.fuel rootNode none rootJoint (-1) 0 (-1) X_0_j0 X_b0_j0 ⟨[], [], [], [], [], []⟩
  MultiBody.mk' st.bodies st.joints st.pred st.succ st.parent st.Xt

/-- `makeMultiBody(rootBodyName, rootJointType, X_0_j0, X_b0_j0)`, MultiBodyGraph.cpp:135-141. -/
def makeMultiBodyT (h : Heap K) (g : Graph) (root : String) (t : JointType) (X_0_j0 X_b0_j0 : PTransform K) :
    Res (MultiBody K) := makeMultiBody h g root t Vec3.unitZ X_0_j0 X_b0_j0

/-- `makeMultiBody(rootBodyName, isFixed, X_0_j0, X_b0_j0)`, MultiBodyGraph.cpp:127-133. -/
def makeMultiBodyF (h : Heap K) (g : Graph) (root : String) (isFixed : Bool) (X_0_j0 X_b0_j0 : PTransform K) :
    Res (MultiBody K) := makeMultiBodyT h g root (if isFixed then .Fixed else .Free) X_0_j0 X_b0_j0

/-- The recursive lambda `computeTransform`, MultiBodyGraph.cpp:247-269. -/
def computeTransform (h : Heap K) : Nat → (cur : Nat) → (src : Option Nat) → (Xbase : PTransform K) →
    SMap (PTransform K) → Res (SMap (PTransform K))
  | 0, _, _, _, _ => .error .diverges
  | fuel + 1, cur, src, Xbase, m => do
    let n ← rd h.nodes cur
    let XFrom := xFrom n src Xbase
    let m := m.set n.body.name XFrom.inv
    n.arcs.foldlM (fun m a =>
      if some a.next ≠ src then computeTransform h fuel a.next (some cur) 1 m else pure m) m

/-- `bodiesBaseTransform(rootBodyName, X_b0_j0)`, MultiBodyGraph.cpp:238-274. -/
def bodiesBaseTransform (h : Heap K) (g : Graph) (root : String) (X_b0_j0 : PTransform K) :
    Res (SMap (PTransform K)) := do
  let rootNode ← g.bodyMap.getAt root
  computeTransform h h.fuel rootNode none X_b0_j0 []

end

/-- The recursive lambda `computeSuccesors`, MultiBodyGraph.cpp:282-293. `successorJoints[name]` default-constructs
an empty vector if the key is absent. -/
def computeSuccessors (h : Heap K) : Nat → (cur : Nat) → (src : Option Nat) →
    SMap (List String) → Res (SMap (List String))
  | 0, _, _, _ => .error .diverges
  | fuel + 1, cur, src, m => do
    let n ← rd h.nodes cur
    let m := m.set n.body.name []
    n.arcs.foldlM (fun (m : SMap (List String)) a =>
      if some a.next ≠ src then
        computeSuccessors h fuel a.next (some cur)
          (m.set n.body.name ((m.find n.body.name).getD [] ++ [a.joint.name]))
      else pure m) m

/-- `successorJoints(rootBodyName)`, MultiBodyGraph.cpp:276-298. -/
def successorJoints (h : Heap K) (g : Graph) (root : String) : Res (SMap (List String)) := do
  let rootNode ← g.bodyMap.getAt root
  computeSuccessors h h.fuel rootNode none []

/-- The recursive lambda `computePredecessor`, MultiBodyGraph.cpp:308-320. -/
def computePredecessor (h : Heap K) : Nat → (cur : Nat) → (src : Option Nat) → (predName : String) →
    SMap String → Res (SMap String)
  | 0, _, _, _, _ => .error .diverges
  | fuel + 1, cur, src, predName, m => do
    let n ← rd h.nodes cur
    let m := m.set n.body.name predName
    n.arcs.foldlM (fun (m : SMap String) a =>
      if some a.next ≠ src then computePredecessor h fuel a.next (some cur) a.joint.name m else pure m) m

/-- `predecessorJoint(rootBodyName)`, MultiBodyGraph.cpp:300-325. -/
def predecessorJoint (h : Heap K) (g : Graph) (root : String) : Res (SMap String) := do
  let rootNode ← g.bodyMap.getAt root
  computePredecessor h h.fuel rootNode none g.rootName []

/-- `rmArcFromMbg(arc)`, MultiBodyGraph.cpp:399-408, with `rmNodeFromMbg(jointNameFrom, node)`,
MultiBodyGraph.cpp:410-425, inlined. The recursion ends: each call erases a key of `jointNameToJoint_` or throws.
The loop iterates over the vector `node->arcs`; if a nested call changes this vector (possible when the graph has a
cycle) its iterators are invalid, which is modelled as undefined behaviour. -/
def rmArcFromMbg : Nat → Arc K → GM K Unit
  | 0, _ => throw .diverges
  | fuel + 1, arc => do
    let (h, g) ← get
    let joint ← GM.lift (g.jointMap.getAt arc.joint.name)
    let joints ← GM.lift (eraseFind g.joints joint)
    set (h, { g with joints := joints, jointMap := g.jointMap.erase arc.joint.name })
    -- rmNodeFromMbg(arc.joint.name(), arc.next)
    let node ← GM.lift (rd h.nodes arc.next)
    node.arcs.forM (fun a =>
      if a.joint.name ≠ arc.joint.name then do
        rmArcFromMbg fuel a
        let (h, _) ← get
        let n ← GM.lift (rd h.nodes arc.next)
        if n.arcs.length ≠ node.arcs.length then throw .ub
      else pure ())
    let (h, g) ← get
    let nodes ← GM.lift (eraseFind g.nodes arc.next)
    set (h.setArcs arc.next node [], { g with nodes := nodes, bodyMap := g.bodyMap.erase node.body.name })

/-- The end of `rmArc` and `findMergeSubNodes` once the arc number `i` of `node` is found:
`rmArcFromMbg(*it); node.arcs.erase(it);`, MultiBodyGraph.cpp:383-384 and 446-447. -/
def rmFound (node : Nat) (i : Nat) (a : Arc K) : GM K Unit := do
  let (h, g) ← get
  let n ← GM.lift (rd h.nodes node)
  rmArcFromMbg (g.jointMap.length + 1) a
  let (h', g') ← get
  let n' ← GM.lift (rd h'.nodes node)
  if n'.arcs.length ≠ n.arcs.length then throw .ub
  set (h'.setArcs node n' (n'.arcs.eraseIdx i), g')

/-- The depth first search shared by `rmArc`, MultiBodyGraph.cpp:373-397, and `findMergeSubNodes`,
MultiBodyGraph.cpp:427-460: the two functions only differ by what they do with the arc found (`act`). -/
def searchArc (act : (node i : Nat) → Arc K → GM K Unit) : Nat → (node : Nat) → (parentJoint joint : String) → GM K Bool
  | 0, _, _, _ => throw .diverges
  | fuel + 1, node, parentJoint, joint => do
    let (h, _) ← get
    let n ← GM.lift (rd h.nodes node)
    n.arcs.zipIdx.foldlM (fun found (ai : Arc K × Nat) =>
      if found then pure true
      else if ai.1.joint.name ≠ parentJoint then
        if ai.1.joint.name = joint then do
          act node ai.2 ai.1
          pure true
        else searchArc act fuel ai.1.next ai.1.joint.name joint
      else pure false) false

/-- `rmArc(node, parentJointName, jointName)`, MultiBodyGraph.cpp:373-397. -/
def rmArc (fuel : Nat) (node : Nat) (parentJoint joint : String) : GM K Bool :=
  searchArc rmFound fuel node parentJoint joint

/-- `removeJoint(rootBodyName, jointName)`, MultiBodyGraph.cpp:205-214. -/
def removeJoint (root joint : String) : GM K Unit := do
  let (h, g) ← get
  let rootNode ← GM.lift (g.bodyMap.getAt root)
  if (g.jointMap.find joint).isSome then do
    let _ ← rmArc h.fuel rootNode g.rootName joint
    pure ()
  else pure ()

/-- `removeJoints(rootBodyName, joints)`, MultiBodyGraph.cpp:216-228. -/
def removeJoints (root : String) (joints : List String) : GM K Unit := do
  let (_, g) ← get
  let _ ← GM.lift (g.bodyMap.getAt root)
  joints.forM (fun name => do
    let (_, g) ← get
    if (g.jointMap.find name).isSome then removeJoint root name else pure ())

section
variable [Scalar K]

/-- `mergeInertia(parentInertia, childInertia, joint, X_p_j, jointPosByName)`, MultiBodyGraph.cpp:491-517. -/
def mergeInertia (parentI childI : RBInertia K) (joint : Joint K) (X_p_j : PTransform K) (jointPos : SMap (List K)) :
    Res (RBInertia K) :=
  match jointPos.find joint.name with
  | none => .error .outOfRange
  | some q =>
    if q.length ≠ joint.params then .error .domainError
    else do
      let jointConfig ← joint.pose q
      let X_cb_jnb := jointConfig * X_p_j
      pure (parentI + X_cb_jnb.transMulI childI)

/-- "looking for transformation that go to parent joint", MultiBodyGraph.cpp:478-486. -/
def xParent (n : GNode K) (parentJoint : String) : PTransform K :=
  match n.arcs.find? (fun a => a.joint.name == parentJoint) with
  | some a => a.X
  | none => 1

/-- `mergeSubNodes(node, parentJointName, jointPosByName)`, MultiBodyGraph.cpp:462-489. -/
def mergeSubNodes (h : Heap K) (jointPos : SMap (List K)) : Nat → (node : Nat) → (parentJoint : String) →
    Res (RBInertia K)
  | 0, _, _ => .error .diverges
  | fuel + 1, node, parentJoint => do
    let n ← rd h.nodes node
    let newInertia ← n.arcs.foldlM (fun I a =>
      if a.joint.name ≠ parentJoint then do
        let sub ← mergeSubNodes h jointPos fuel a.next a.joint.name
        mergeInertia I sub a.joint a.X jointPos
      else pure I) n.body.inertia
    pure ((xParent n parentJoint).dualMulI newInertia)

/-- What `findMergeSubNodes` does with the arc found, MultiBodyGraph.cpp:438-447. -/
def mergeFound (jointPos : SMap (List K)) (node i : Nat) (a : Arc K) : GM K Unit := do
  let (h, g) ← get
  let n ← GM.lift (rd h.nodes node)
  let sub ← GM.lift (mergeSubNodes h jointPos h.fuel a.next a.joint.name)
  let newInertia ← GM.lift (mergeInertia n.body.inertia sub a.joint a.X jointPos)
  set ({ h with nodes := h.nodes.set node { n with body := ⟨newInertia, n.body.name⟩ } }, g)
  rmFound node i a

/-- `mergeSubBodies(rootBodyName, jointName, jointPosByName)`, MultiBodyGraph.cpp:230-236. -/
def mergeSubBodies (root joint : String) (jointPos : SMap (List K)) : GM K Unit := do
  let (h, g) ← get
  let rootNode ← GM.lift (g.bodyMap.getAt root)
  let _ ← searchArc (mergeFound jointPos) h.fuel rootNode g.rootName joint
  pure ()

end

/-- First loop of `copy`, MultiBodyGraph.cpp:524-529. -/
def copyNode (s : GSt K) (p : Nat) : Res (GSt K) := do
  let n ← rd s.1.nodes p
  pure ({ s.1 with nodes := s.1.nodes ++ [⟨n.body, []⟩] },
    { s.2 with nodes := s.2.nodes ++ [s.1.nodes.length], bodyMap := s.2.bodyMap.set n.body.name s.1.nodes.length })

/-- Second loop of `copy`, MultiBodyGraph.cpp:532-536. -/
def copyJoint (s : GSt K) (p : Nat) : Res (GSt K) := do
  let j ← rd s.1.joints p
  pure ({ s.1 with joints := s.1.joints ++ [j] },
    { s.2 with joints := s.2.joints ++ [s.1.joints.length], jointMap := s.2.jointMap.set j.name s.1.joints.length })

/-- Body of the third loop of `copy`, MultiBodyGraph.cpp:539-551. If the name of the node pointed by the arc is not
in the new map, the code inserts a null pointer there and gives it to the arc: modelled as undefined behaviour. -/
def copyArcs (src dst : Graph) (h : Heap K) (i : Nat) : Res (Heap K) := do
  let p ← rd src.nodes i
  let q ← rd dst.nodes i
  let nodeToCopy ← rd h.nodes p
  nodeToCopy.arcs.foldlM (fun (h : Heap K) arc => do
    let m ← rd h.nodes arc.next
    let next ← dst.bodyMap.get m.body.name
    let n ← rd h.nodes q
    pure (h.setArcs q n (n.arcs ++ [⟨arc.X, arc.joint, next⟩]))) h

/-- `copy(mbg)` in an empty object, MultiBodyGraph.cpp:519-552, also the copy constructor,
MultiBodyGraph.cpp:26-29. -/
def copy (h : Heap K) (src : Graph) : Res (GSt K) := do
  let s ← src.nodes.foldlM copyNode (h, empty src.rootName)
  let s ← src.joints.foldlM copyJoint s
  let h ← (List.range s.2.nodes.length).foldlM (copyArcs src s.2) s.1
  pure (h, s.2)

/-- `operator=` when `&mbg != this`, MultiBodyGraph.cpp:36-45; the result is the new value of `*this`. -/
def assign (h : Heap K) (self src : Graph) : Res (GSt K) :=
  match clear (h, self) with
  | .ok _ (h, _) => copy h src
  | .error e _ => .error e

section
variable [Scalar K]

/-- `Joint(Joint::Type::Fixed, Eigen::Vector3d::Zero(), j.forward(), j.name())`, MultiBodyGraph.cpp:338, 347, 364. -/
def fixedJoint (j : Joint K) : Joint K := Joint.mk' .Fixed 0 j.isForward j.name

/-- Body of the loop MultiBodyGraph.cpp:334-340 over `mbg.joints_`. -/
def fixAll (s : GSt K) (i : Nat) : Res (GSt K) := do
  let p ← rd s.2.joints i
  let j ← rd s.1.joints p
  let joints ← wr s.2.joints i s.1.joints.length
  pure ({ s.1 with joints := s.1.joints ++ [fixedJoint j] }, { s.2 with joints := joints })

/-- Body of the loop MultiBodyGraph.cpp:344-348: the new joint is only assigned to the local `jointPtr`, the copy of
the pointer held by the map. -/
def fixNamed (s : GSt K) (name : String) : Res (GSt K) := do
  let p ← s.2.jointMap.getAt name
  let j ← rd s.1.joints p
  pure ({ s.1 with joints := s.1.joints ++ [fixedJoint j] }, s.2)

/-- Body of the loop MultiBodyGraph.cpp:357-368. -/
def fixArc (jointsToFix : List String) (all : Bool) (a : Arc K) : Arc K :=
  if jointsToFix.any (fun n => n == a.joint.name || all) then { a with joint := fixedJoint a.joint } else a

/-- Body of the loop MultiBodyGraph.cpp:351-369. -/
def fixNode (jointsToFix : List String) (all : Bool) (h : Heap K) (p : Nat) : Res (Heap K) := do
  let n ← rd h.nodes p
  pure (h.setArcs p n (n.arcs.map (fixArc jointsToFix all)))

/-- `fixJoints(other, jointsToFix, fixAllJoints)`, MultiBodyGraph.cpp:327-371. -/
def fixJoints (h : Heap K) (other : Graph) (jointsToFix : List String) (all : Bool := false) : Res (GSt K) := do
  let s ← copy h other
  let s ← if all then (List.range s.2.joints.length).foldlM fixAll s else jointsToFix.foldlM fixNamed s
  let h ← s.2.nodes.foldlM (fixNode jointsToFix all) s.1
  pure (h, s.2)

end

end Graph
end RBDyn
