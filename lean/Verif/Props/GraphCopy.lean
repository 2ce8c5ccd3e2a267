import Verif.Lemmas.GraphFix
import Verif.Props.GraphMerge

/-! Property C21: a copied graph has the content of the original and is independent of it. -/

namespace RBDyn
variable {K : Type} [Scalar K]

open Graph

/-- A call of one of the functions modifying a graph. -/
inductive GraphOp (K : Type) where
  | addBody (b : Body K)
  | addJoint (j : Joint K)
  | link (b1 : String) (t1 : PTransform K) (b2 : String) (t2 : PTransform K) (joint : String) (dir : Bool)
  | removeJoint (root joint : String)
  | removeJoints (root : String) (joints : List String)
  | merge (root joint : String) (jointPos : SMap (List K))
  | clear

/-- The call. -/
def GraphOp.run : GraphOp K → GM K Unit
  | .addBody b => Graph.addBody b
  | .addJoint j => Graph.addJoint j
  | .link b1 t1 b2 t2 j d => linkBodies b1 t1 b2 t2 j d
  | .removeJoint root j => Graph.removeJoint root j
  | .removeJoints root l => Graph.removeJoints root l
  | .merge root j q => mergeSubBodies root j q
  | .clear => Graph.clear

/-- State after a sequence of calls on one graph; exceptions are caught by the caller. -/
def runOps (ops : List (GraphOp K)) (s : GSt K) : GSt K := ops.foldl (fun s op => GM.after op.run s) s

theorem foot_op {P : Nat → Prop} {h0 : Heap K} (op : GraphOp K) {s : GSt K} (hP : P s.1.nodes.length) (F : Foot P h0 s) :
    Foot P h0 (GM.after op.run s) := by
  cases op with
  | addBody b => exact foot_addBody b hP F
  | addJoint j => exact foot_addJoint j F
  | link b1 t1 b2 t2 j d => exact foot_linkBodies b1 t1 b2 t2 j d F
  | removeJoint root j => exact foot_removeJoint root j F
  | removeJoints root l => exact foot_removeJoints root l F
  | merge root j q => exact foot_mergeSubBodies root j q F
  | clear => exact foot_clear F

theorem foot_ops {P : Nat → Prop} {h0 : Heap K} (hfresh : ∀ x, h0.nodes.length ≤ x → P x) (ops : List (GraphOp K)) :
    ∀ {s : GSt K}, Foot P h0 s → Foot P h0 (runOps ops s) := by
  induction ops with
  | nil => intro s F; exact F
  | cons op ops ih =>
    intro s F
    exact ih (foot_op op (hfresh _ F.len) F)

theorem Graph.Inv.foot {h : Heap K} {g : Graph} (I : Inv h g) :
    Foot (fun x => x ∈ g.nodes ∨ h.nodes.length ≤ x) h (h, g) := by
  refine ⟨fun _ _ => rfl, le_rfl, fun _ _ => rfl, le_rfl, fun x hx => .inl hx,
    fun t x hx => .inl ((I.body t x).1 hx).1, ?_⟩
  rintro x n (hx | hx) hn a ha
  · exact .inl (I.arcs x hx n hn a ha)
  · exact absurd (List.getElem?_eq_some_iff.1 hn).1 (by show ¬ x < h.nodes.length; omega)

/-- C21: the copy constructor succeeds on every graph, and gives a graph with the same bodies, joints and links: node
(joint) number `i` of the copy has the content of node (joint) number `i` of the source, with arcs to the corresponding
nodes, and both maps of the copy describe it. The copy only uses new cells; all cells that existed are
unchanged. -/
theorem C21_copy {h : Heap K} {g : Graph} (I : Inv h g) : ∃ h' g', copy h g = .ok (h', g') ∧
    g'.rootName = g.rootName ∧
    (∃ φ : Nat → Nat, g'.nodes = g.nodes.map φ ∧ (∀ x ∈ g.nodes, ∀ y ∈ g.nodes, φ x = φ y → x = y) ∧
      ∀ x ∈ g.nodes, ∀ n, h.nodes[x]? = some n →
        h'.nodes[φ x]? = some ⟨n.body, n.arcs.map (fun a => ⟨a.X, a.joint, φ a.next⟩)⟩) ∧
    g'.joints.length = g.joints.length ∧
    (∀ (i p p' : Nat), g.joints[i]? = some p → g'.joints[i]? = some p' → h'.joints[p']? = h.joints[p]?) ∧
    Inv h' g' ∧
    (∀ x ∈ g'.nodes, h.nodes.length ≤ x) ∧ (∀ x ∈ g'.joints, h.joints.length ≤ x) ∧
    (∀ x < h.nodes.length, h'.nodes[x]? = h.nodes[x]?) ∧ (∀ x < h.joints.length, h'.joints[x]? = h.joints[x]?) := by
  obtain ⟨h', g', e, C⟩ := copy_spec I
  exact ⟨h', g', e, C.iso.rootName, ⟨_, C.iso.nodes, C.iso.inj, C.iso.cells⟩, C.iso.joints, C.iso.jcells, C.iso.inv,
    C.fresh, C.jfresh, C.low, C.jlow⟩

theorem Graph.Sim.makeMultiBody_eq {h h' : Heap K} {g g' : Graph} {φ : Nat → Nat} (S : Sim h g.nodes φ id h') (T : Tree h g)
    (hname : g'.rootName = g.rootName) (hbody : ∀ t, g'.bodyMap.find t = (g.bodyMap.find t).map φ)
    (hf : g.nodes.length ≤ h'.fuel) (root : String) (t : JointType) (axis : Vec3 K) (X0 Xb : PTransform K) :
    Graph.makeMultiBody h' g' root t axis X0 Xb = Graph.makeMultiBody h g root t axis X0 Xb := by
  cases hr : g.bodyMap.find root with
  | none => simp only [Graph.makeMultiBody, SMap.getAt, hbody, hr, Option.map_none]; rfl
  | some r =>
    obtain ⟨b, rest, p, s, pa, Xt, -, e1, e2⟩ := S.makeMultiBody T hname hbody hf hr t axis X0 Xb
    rw [e1, e2, List.map_id]

theorem Graph.Sim.traversals_eq {h h' : Heap K} {g g' : Graph} {φ : Nat → Nat} {J : Joint K → Joint K}
    (S : Sim h g.nodes φ J h') (hJ : ∀ j, (J j).name = j.name) (T : Tree h g)
    (hname : g'.rootName = g.rootName) (hbody : ∀ t, g'.bodyMap.find t = (g.bodyMap.find t).map φ)
    (hf : g.nodes.length ≤ h'.fuel) (root : String) (Xb : PTransform K) :
    bodiesBaseTransform h' g' root Xb = bodiesBaseTransform h g root Xb ∧
    successorJoints h' g' root = successorJoints h g root ∧ predecessorJoint h' g' root = predecessorJoint h g root := by
  cases hr : g.bodyMap.find root with
  | none =>
    simp only [bodiesBaseTransform, successorJoints, predecessorJoint, SMap.getAt, hbody, hr, Option.map_none]
    exact ⟨rfl, rfl, rfl⟩
  | some r =>
    have hrm : r ∈ g.nodes := ((T.body root r).1 hr).1
    obtain ⟨d, par, R⟩ := T.rooted hrm
    have hsrc : srcOf r par r = none := if_pos rfl
    obtain ⟨m1, e1, -⟩ := computeTransform_spec R T.toForest Xb g.nodes.length r [] [] Xb hrm (by rw [R.d0]; omega)
      (by simp) (MapRel.nil _) (fun _ => rfl)
    obtain ⟨m2, e2, -⟩ := computeSuccessors_spec R T.toForest g.nodes.length r [] hrm (by rw [R.d0]; omega)
    obtain ⟨m3, e3, -⟩ := computePredecessor_spec R T.toForest g.nodes.length r [] [] g.rootName hrm (by rw [R.d0]; omega)
      (by simp) (MapRel.nil _) ⟨fun _ => rfl, fun e => absurd rfl e⟩
    rw [hsrc] at e1 e2 e3
    have hf' := T.nodes_length_le_fuel
    have hw : ∀ w ∈ (none : Option Nat), w ∈ g.nodes := by rintro w ⟨⟩
    have a1 := S.computeTransform _ h'.fuel r none Xb [] m1 hf hrm hw e1
    have b1 := T.sim_id.computeTransform _ h.fuel r none Xb [] m1 hf' hrm hw e1
    have a2 := S.computeSuccessors hJ _ h'.fuel r none [] m2 hf hrm hw e2
    have b2 := T.sim_id.computeSuccessors (fun _ => rfl) _ h.fuel r none [] m2 hf' hrm hw e2
    have a3 := S.computePredecessor hJ _ h'.fuel r none g.rootName [] m3 hf hrm hw e3
    have b3 := T.sim_id.computePredecessor (fun _ => rfl) _ h.fuel r none g.rootName [] m3 hf' hrm hw e3
    simp only [Option.map_none, id_eq] at a1 a2 a3 b1 b2 b3
    simp only [bodiesBaseTransform, successorJoints, predecessorJoint, SMap.getAt, hbody, hr, hname, Option.map_some, Res.bind_ok]
    exact ⟨a1.trans b1.symm, a2.trans b2.symm, a3.trans b3.symm⟩

/-- C21: the copy of a tree is a tree, and every query gives on the copy what it gives on the source, for every
root. -/
theorem C21_same_results {h h' : Heap K} {g g' : Graph} (T : Tree h g) (hc : copy h g = .ok (h', g')) :
    Tree h' g' ∧ ∀ (root : String) (Xb : PTransform K),
      (∀ (t : JointType) (axis : Vec3 K) (X0 : PTransform K),
        makeMultiBody h' g' root t axis X0 Xb = makeMultiBody h g root t axis X0 Xb) ∧
      bodiesBaseTransform h' g' root Xb = bodiesBaseTransform h g root Xb ∧
      successorJoints h' g' root = successorJoints h g root ∧ predecessorJoint h' g' root = predecessorJoint h g root := by
  obtain ⟨h1, g1, e, C⟩ := copy_spec T.toInv
  obtain ⟨rfl, rfl⟩ := Prod.mk.inj (Except.ok.inj (hc.symm.trans e))
  have M := C.image T.toInv
  refine ⟨M.tree (C.disjoint T.toInv) (fun _ => rfl) (fun j => ⟨j, fun _ => rfl⟩) T, fun root Xb => ⟨?_, ?_⟩⟩
  · intro t axis X0
    exact M.sim.makeMultiBody_eq T M.rootName (M.body_find T.toInv) M.fuel root t axis X0 Xb
  · exact M.sim.traversals_eq (fun _ => rfl) T M.rootName (M.body_find T.toInv) M.fuel root Xb

omit [Scalar K] in
theorem Graph.Inv.congr {h h' : Heap K} {g : Graph} (I : Inv h g) (hn : ∀ x ∈ g.nodes, h'.nodes[x]? = h.nodes[x]?)
    (hj : ∀ x ∈ g.joints, h'.joints[x]? = h.joints[x]?) : Inv h' g where
  nodes_nodup := I.nodes_nodup
  joints_nodup := I.joints_nodup
  body := by
    intro t p
    rw [I.body]
    exact and_congr_right (fun hp => by rw [hn p hp])
  joint := by
    intro t p
    rw [I.joint]
    exact and_congr_right (fun hp => by rw [hj p hp])
  nodes_get := fun p hp => by rw [hn p hp]; exact I.nodes_get p hp
  joints_get := fun p hp => by rw [hj p hp]; exact I.joints_get p hp
  arcs := fun p hp n => by rw [hn p hp]; exact I.arcs p hp n

/-- C21: no sequence of operations on the copy changes any cell that existed before the copy was made. -/
theorem C21_copy_ops {h h' : Heap K} {g g' : Graph} (I : Inv h g) (hc : copy h g = .ok (h', g'))
    (ops : List (GraphOp K)) :
    (∀ x < h.nodes.length, (runOps ops (h', g')).1.nodes[x]? = h.nodes[x]?) ∧
    (∀ x < h.joints.length, (runOps ops (h', g')).1.joints[x]? = h.joints[x]?) := by
  obtain ⟨h1, g1, e, C⟩ := copy_spec I
  obtain ⟨rfl, rfl⟩ := Prod.mk.inj (Except.ok.inj (hc.symm.trans e))
  have F := foot_ops (fun x hx => .inr hx) ops C.iso.inv.foot
  have hl := C.len
  have hjl := C.jlen
  refine ⟨fun x hx => ?_, fun x hx => ?_⟩
  · rw [F.off x, C.low x hx]
    rintro (hm | hm)
    · have := C.fresh x hm; omega
    · omega
  · rw [F.joff x (by omega), C.jlow x hx]

omit [Scalar K] in
theorem Graph.CopyRel.inv_src {h h' : Heap K} {g g' : Graph} (I : Inv h g) (C : CopyRel h g h' g') : Inv h' g :=
  I.congr (fun x hx => C.low x (I.node_lt hx)) (fun x hx => C.jlow x (I.joint_lt hx))

/-- C21: no sequence of operations on the original changes a cell of the copy. -/
theorem C21_original_ops {h h' : Heap K} {g g' : Graph} (I : Inv h g) (hc : copy h g = .ok (h', g'))
    (ops : List (GraphOp K)) :
    (∀ x ∈ g'.nodes, (runOps ops (h', g)).1.nodes[x]? = h'.nodes[x]?) ∧
    (∀ x ∈ g'.joints, (runOps ops (h', g)).1.joints[x]? = h'.joints[x]?) := by
  obtain ⟨h1, g1, e, C⟩ := copy_spec I
  obtain ⟨rfl, rfl⟩ := Prod.mk.inj (Except.ok.inj (hc.symm.trans e))
  have F := foot_ops (fun x hx => .inr hx) ops (C.inv_src I).foot
  refine ⟨fun x hx => F.off x ?_, fun x hx => F.joff x (C.iso.inv.joint_lt hx)⟩
  rintro (hm | hm)
  · have h1 := C.fresh x hx
    have h2 := I.node_lt hm
    omega
  · have h1 := C.iso.inv.node_lt hx
    omega

/-- C21: after any operations on the copy, every query on the original gives what it gave before the copy; after any
operations on the original, every query on the copy gives what the original gave when it was copied. -/
theorem C21_queries {h h' : Heap K} {g g' : Graph} (T : Tree h g) (hc : copy h g = .ok (h', g'))
    (ops : List (GraphOp K)) (root : String) (t : JointType) (axis : Vec3 K) (X0 Xb : PTransform K) :
    (makeMultiBody (runOps ops (h', g')).1 g root t axis X0 Xb = makeMultiBody h g root t axis X0 Xb ∧
      bodiesBaseTransform (runOps ops (h', g')).1 g root Xb = bodiesBaseTransform h g root Xb ∧
      successorJoints (runOps ops (h', g')).1 g root = successorJoints h g root ∧
      predecessorJoint (runOps ops (h', g')).1 g root = predecessorJoint h g root) ∧
    (makeMultiBody (runOps ops (h', g)).1 g' root t axis X0 Xb = makeMultiBody h g root t axis X0 Xb ∧
      bodiesBaseTransform (runOps ops (h', g)).1 g' root Xb = bodiesBaseTransform h g root Xb ∧
      successorJoints (runOps ops (h', g)).1 g' root = successorJoints h g root ∧
      predecessorJoint (runOps ops (h', g)).1 g' root = predecessorJoint h g root) := by
  obtain ⟨T', hres⟩ := C21_same_results T hc
  have key : ∀ (h : Heap K) (g : Graph) (h2 : Heap K), Tree h g → (∀ x ∈ g.nodes, h2.nodes[x]? = h.nodes[x]?) →
      (∀ x ∈ g.joints, h2.joints[x]? = h.joints[x]?) →
      (makeMultiBody h2 g root t axis X0 Xb = makeMultiBody h g root t axis X0 Xb ∧
      bodiesBaseTransform h2 g root Xb = bodiesBaseTransform h g root Xb ∧
      successorJoints h2 g root = successorJoints h g root ∧
      predecessorJoint h2 g root = predecessorJoint h g root) := by
    intro h g h2 T hn hj
    have S : Sim h g.nodes id id h2 :=
      ⟨fun x hx n hx' => by rw [id, hn x hx, hx']; simp, fun x hx n hn => T.arcs x hx n hn, fun _ _ _ _ e => e⟩
    have hf := (T.toInv.congr hn hj).nodes_length_le_fuel
    exact ⟨S.makeMultiBody_eq T rfl (fun t => by simp) hf root t axis X0 Xb,
      S.traversals_eq (fun _ => rfl) T rfl (fun t => by simp) hf root Xb⟩
  constructor
  · obtain ⟨h1, h2⟩ := C21_copy_ops T.toInv hc ops
    exact key h g _ T (fun x hx => h1 x (T.node_lt hx)) (fun x hx => h2 x (T.joint_lt hx))
  · obtain ⟨h1, h2⟩ := C21_original_ops T.toInv hc ops
    obtain ⟨k1, k2, k3, k4⟩ := key h' g' _ T' h1 h2
    obtain ⟨r1, r2, r3, r4⟩ := hres root Xb
    exact ⟨k1.trans (r1 t axis X0), k2.trans r2, k3.trans r3, k4.trans r4⟩

/-- `x` is the address of a node that operations on the graph can reach. -/
inductive Reach (h : Heap K) (g : Graph) : Nat → Prop
  | node {x : Nat} (hx : x ∈ g.nodes) : Reach h g x
  | map {t : String} {x : Nat} (hx : g.bodyMap.find t = some x) : Reach h g x
  | arc {x : Nat} {n : GNode K} {a : Arc K} (hx : Reach h g x) (hn : h.nodes[x]? = some n) (ha : a ∈ n.arcs) :
      Reach h g a.next

/-- Two graphs of the same heap share no node, and have no dangling pointer. -/
structure Apart (h : Heap K) (a b : Graph) : Prop where
  left : ∀ x, Reach h a x → x < h.nodes.length
  right : ∀ x, Reach h b x → x < h.nodes.length
  disj : ∀ x, Reach h a x → ¬Reach h b x

omit [Scalar K] in
theorem Apart.symm {h : Heap K} {a b : Graph} (A : Apart h a b) : Apart h b a :=
  ⟨A.right, A.left, fun x hb ha => A.disj x ha hb⟩

omit [Scalar K] in
theorem Graph.Foot.reach {P : Nat → Prop} {h0 : Heap K} {s : GSt K} (F : Foot P h0 s) {x : Nat} (hx : Reach s.1 s.2 x) :
    P x := by
  induction hx with
  | node hx => exact F.nodes _ hx
  | map hx => exact F.map _ _ hx
  | arc _ hn ha ih => exact F.closed _ _ ih hn _ ha

omit [Scalar K] in
theorem Graph.Inv.reach {h : Heap K} {g : Graph} (I : Inv h g) {x : Nat} (hx : Reach h g x) : x ∈ g.nodes := by
  induction hx with
  | node hx => exact hx
  | map hx => exact ((I.body _ _).1 hx).1
  | arc _ hn ha ih => exact I.arcs _ ih _ hn _ ha

omit [Scalar K] in
theorem Apart.foot {h : Heap K} {a b : Graph} (A : Apart h a b) :
    Foot (fun x => Reach h a x ∨ h.nodes.length ≤ x) h (h, a) := by
  refine ⟨fun _ _ => rfl, le_rfl, fun _ _ => rfl, le_rfl, fun x hx => .inl (.node hx), fun t x hx => .inl (.map hx), ?_⟩
  rintro x n (hx | hx) hn b hb
  · exact .inl (.arc hx hn hb)
  · exact absurd (List.getElem?_eq_some_iff.1 hn).1 (by show ¬ x < h.nodes.length; omega)

theorem Apart.cells {h : Heap K} {a b : Graph} (A : Apart h a b) (op : GraphOp K) {x : Nat} (hx : Reach h b x) :
    (GM.after op.run (h, a)).1.nodes[x]? = h.nodes[x]? := by
  refine (foot_op op (P := fun x => Reach h a x ∨ h.nodes.length ≤ x) (.inr le_rfl) A.foot).off x ?_
  rintro (hm | hm)
  · exact A.disj x hm hx
  · have := A.right x hx; omega

theorem Apart.reach_right {h : Heap K} {a b : Graph} (A : Apart h a b) (op : GraphOp K) (x : Nat) :
    Reach (GM.after op.run (h, a)).1 b x → Reach h b x := by
  intro hx
  induction hx with
  | node hx => exact .node hx
  | map hx => exact .map hx
  | arc _ hn ha ih => exact .arc ih (by rw [← A.cells op ih]; exact hn) ha

/-- Every operation keeps the pointers of the graph valid. -/
theorem valid_after {h : Heap K} {a : Graph} (hv : ∀ x, Reach h a x → x < h.nodes.length) (op : GraphOp K) (x : Nat)
    (hx : Reach (GM.after op.run (h, a)).1 (GM.after op.run (h, a)).2 x) :
    x < (GM.after op.run (h, a)).1.nodes.length := by
  have F0 : Foot (Reach h a) h (h, a) :=
    ⟨fun _ _ => rfl, le_rfl, fun _ _ => rfl, le_rfl, fun x hx => .node hx, fun t x hx => .map hx,
      fun x n hx hn b hb => .arc hx hn hb⟩
  have key : Foot (Reach h a) h (GM.after op.run (h, a)) → x < (GM.after op.run (h, a)).1.nodes.length :=
    fun F => lt_of_lt_of_le (hv x (F.reach hx)) F.len
  cases op with
  | addBody b =>
    cases hb : a.bodyMap.find b.name with
    | some p =>
      refine key ?_
      have e : GM.after (GraphOp.addBody b).run (h, a) = (h, a) :=
        after_error (addBody_some (s := (h, a)) (by rw [hb]; rfl))
      rw [e]
      exact F0
    | none =>
      have e : GM.after (GraphOp.addBody b).run (h, a) = addBodySt b (h, a) := after_ok (addBody_none (s := (h, a)) hb)
      rw [e] at hx ⊢
      have F1 : Foot (fun x => Reach h a x ∨ x = h.nodes.length) h (h, a) := by
        refine ⟨fun _ _ => rfl, le_rfl, fun _ _ => rfl, le_rfl, fun x hx => .inl (.node hx), fun t x hx => .inl (.map hx), ?_⟩
        rintro x n (hx | hx) hn b hb
        · exact .inl (.arc hx hn hb)
        · exact absurd (List.getElem?_eq_some_iff.1 hn).1 (by show ¬ x < h.nodes.length; omega)
      have F2 := foot_op (GraphOp.addBody b) (P := fun x => Reach h a x ∨ x = h.nodes.length) (.inr rfl) F1
      rw [e] at F2
      have hl : (addBodySt b (h, a)).1.nodes.length = h.nodes.length + 1 := by simp [addBodySt]
      rw [hl]
      rcases F2.reach hx with hx | hx
      · have := hv x hx; omega
      · omega
  | addJoint j => exact key (foot_addJoint j F0)
  | link b1 t1 b2 t2 j d => exact key (foot_linkBodies b1 t1 b2 t2 j d F0)
  | removeJoint root j => exact key (foot_removeJoint root j F0)
  | removeJoints root l => exact key (foot_removeJoints root l F0)
  | merge root j q => exact key (foot_mergeSubBodies root j q F0)
  | clear => exact key (foot_clear F0)

theorem Apart.step {h : Heap K} {a b : Graph} (A : Apart h a b) (op : GraphOp K) :
    Apart (GM.after op.run (h, a)).1 (GM.after op.run (h, a)).2 b := by
  have F := foot_op op (P := fun x => Reach h a x ∨ h.nodes.length ≤ x) (.inr le_rfl) A.foot
  refine ⟨valid_after A.left op, fun x hx => lt_of_lt_of_le (A.right x (A.reach_right op x hx)) F.len, ?_⟩
  intro x ha hb
  have hb := A.reach_right op x hb
  rcases F.reach ha with hx | hx
  · exact A.disj x hx hb
  · have := A.right x hb; omega

/-- The state of two graphs after a call on the first (`true`) or the second (`false`) of them. -/
def stepTwo (w : Heap K × Graph × Graph) (m : Bool × GraphOp K) : Heap K × Graph × Graph :=
  if m.1 then
    let s := GM.after m.2.run (w.1, w.2.1)
    (s.1, s.2, w.2.2)
  else
    let s := GM.after m.2.run (w.1, w.2.2)
    (s.1, w.2.1, s.2)

/-- C21: for every interleaving of operations on the original and on the copy, the two graphs never share a node, and the next
operation on one of them, whether it returns or throws, changes no node reachable from the other and no joint. -/
theorem C21_interleaved {h h' : Heap K} {g g' : Graph} (I : Inv h g) (hc : copy h g = .ok (h', g'))
    (ms : List (Bool × GraphOp K)) (op : GraphOp K) :
    let w := ms.foldl stepTwo (h', g, g')
    (∀ x, Reach w.1 w.2.1 x → ¬Reach w.1 w.2.2 x) ∧
    (∀ x, Reach w.1 w.2.2 x → (GM.after op.run (w.1, w.2.1)).1.nodes[x]? = w.1.nodes[x]?) ∧
    (∀ x, Reach w.1 w.2.1 x → (GM.after op.run (w.1, w.2.2)).1.nodes[x]? = w.1.nodes[x]?) ∧
    (∀ x < w.1.joints.length, (GM.after op.run (w.1, w.2.1)).1.joints[x]? = w.1.joints[x]? ∧
      (GM.after op.run (w.1, w.2.2)).1.joints[x]? = w.1.joints[x]?) := by
  obtain ⟨h1, g1, e, C⟩ := copy_spec I
  obtain ⟨rfl, rfl⟩ := Prod.mk.inj (Except.ok.inj (hc.symm.trans e))
  have A0 : Apart h' g g' := by
    have I' := C.inv_src I
    refine ⟨fun x hx => I'.node_lt (I'.reach hx), fun x hx => C.iso.inv.node_lt (C.iso.inv.reach hx), ?_⟩
    intro x ha hb
    have h1 := I.node_lt (I'.reach ha)
    have h2 := C.fresh x (C.iso.inv.reach hb)
    omega
  have A : ∀ (ms : List (Bool × GraphOp K)) (w : Heap K × Graph × Graph), Apart w.1 w.2.1 w.2.2 →
      Apart (ms.foldl stepTwo w).1 (ms.foldl stepTwo w).2.1 (ms.foldl stepTwo w).2.2 := by
    intro ms
    induction ms with
    | nil => intro w A; exact A
    | cons m ms ih =>
      intro w A
      refine ih _ ?_
      unfold stepTwo
      cases m.1
      · exact (A.symm.step m.2).symm
      · exact A.step m.2
  have A := A ms (h', g, g') A0
  intro w
  exact ⟨A.disj, fun x hx => A.cells op hx, fun x hx => A.symm.cells op hx, fun x hx =>
    ⟨(foot_op op (P := fun x => Reach w.1 w.2.1 x ∨ w.1.nodes.length ≤ x) (.inr le_rfl) A.foot).joff x hx,
     (foot_op op (P := fun x => Reach w.1 w.2.2 x ∨ w.1.nodes.length ≤ x) (.inr le_rfl) A.symm.foot).joff x hx⟩⟩

omit [Scalar K] in
/-- C21: `operator=` between two graphs sharing no node gives to the left-hand side the content of the right-hand side, in new
cells, and changes no other cell than those of the former left-hand side. -/
theorem C21_assign {h : Heap K} {self src : Graph} (I1 : Inv h self) (I2 : Inv h src)
    (hd : ∀ x ∈ self.nodes, x ∉ src.nodes) :
    ∃ h' g', assign h self src = .ok (h', g') ∧
      (∃ φ : Nat → Nat, g'.nodes = src.nodes.map φ ∧ (∀ x ∈ src.nodes, ∀ y ∈ src.nodes, φ x = φ y → x = y) ∧
        ∀ x ∈ src.nodes, ∀ n, h.nodes[x]? = some n →
          h'.nodes[φ x]? = some ⟨n.body, n.arcs.map (fun a => ⟨a.X, a.joint, φ a.next⟩)⟩) ∧
      g'.rootName = src.rootName ∧ g'.joints.length = src.joints.length ∧
      (∀ (i p p' : Nat), src.joints[i]? = some p → g'.joints[i]? = some p' → h'.joints[p']? = h.joints[p]?) ∧
      Inv h' g' ∧ (∀ x ∈ g'.nodes, h.nodes.length ≤ x) ∧
      (∀ x < h.nodes.length, x ∉ self.nodes → h'.nodes[x]? = h.nodes[x]?) ∧
      (∀ x < h.joints.length, h'.joints[x]? = h.joints[x]?) := by
  -- clear
  obtain ⟨h1, e1, -⟩ := foldlM_list_inv (fun (h : Heap K) p => do
      let n ← rd h.nodes p
      pure (h.setArcs p n [])) self.nodes (fun _ h1 => h1.nodes.length = h.nodes.length) h rfl (by
    intro i s hi hl
    have hlt := I1.node_lt (List.getElem_mem hi)
    rw [← hl] at hlt
    exact ⟨_, by rw [rd_ok hlt, Res.bind_ok]; rfl, by simpa [Heap.setArcs] using hl⟩)
  have ec : clear (h, self) = .ok () (h1, { self with nodes := [], joints := [], bodyMap := [], jointMap := [] }) := by
    simp only [clear, e1]
  have F0 : Foot (fun x => x ∈ self.nodes) h (h, self) :=
    ⟨fun _ _ => rfl, le_rfl, fun _ _ => rfl, le_rfl, fun x hx => hx, fun t x hx => ((I1.body t x).1 hx).1,
      fun x n hx hn a ha => I1.arcs x hx n hn a ha⟩
  have F := foot_clear F0
  rw [after_ok ec] at F
  have hoff : ∀ x, x ∉ self.nodes → h1.nodes[x]? = h.nodes[x]? := F.off
  have hj : ∀ x < h.joints.length, h1.joints[x]? = h.joints[x]? := F.joff
  have hnn : ∀ x ∈ src.nodes, h1.nodes[x]? = h.nodes[x]? := fun x hx => hoff x (fun hm => hd x hm hx)
  have I3 : Inv h1 src := I2.congr hnn (fun x hx => hj x (I2.joint_lt hx))
  obtain ⟨h', g', e, C⟩ := copy_spec I3
  have hle : h.nodes.length ≤ h1.nodes.length := F.len
  have hjle : h.joints.length ≤ h1.joints.length := F.jlen
  refine ⟨h', g', by simp only [assign, ec]; exact e, ⟨_, C.iso.nodes, C.iso.inj, ?_⟩, C.iso.rootName, C.iso.joints, ?_,
    C.iso.inv, fun x hx => hle.trans (C.fresh x hx), ?_, ?_⟩
  · intro x hx n hn
    exact C.iso.cells x hx n ((hnn x hx).trans hn)
  · intro i p p' hp hp'
    rw [C.iso.jcells i p p' hp hp', hj p (I2.joint_lt (List.mem_of_getElem? hp))]
  · intro x hx hm
    rw [C.low x (lt_of_lt_of_le hx hle), hoff x hm]
  · intro x hx
    rw [C.jlow x (lt_of_lt_of_le hx hjle), hj x hx]

/-- The hypotheses hold on the sample graph; removing a joint of the copy removes bodies from the copy. -/
example : ∃ h' g', copy Sample.gs.1 Sample.gs.2 = .ok (h', g') ∧
    (runOps [.removeJoint "base" "shoulder"] (h', g')).2.nodes.length = 2 ∧
    makeMultiBody (runOps [.removeJoint "base" "shoulder"] (h', g')).1 Sample.gs.2 "hand" .Free Vec3.unitZ 1 1 =
      makeMultiBody Sample.gs.1 Sample.gs.2 "hand" .Free Vec3.unitZ 1 1 := by
  obtain ⟨h', g', e, -⟩ := C21_copy Sample.gs_tree.toInv
  refine ⟨h', g', e, ?_, (C21_queries Sample.gs_tree e _ _ _ _ _ _).1.1⟩
  have : (match copy Sample.gs.1 Sample.gs.2 with
    | .ok s => decide ((runOps [.removeJoint "base" "shoulder"] s).2.nodes.length = 2)
    | .error _ => false) = true := by decide +kernel
  rw [e] at this
  simpa using this

end RBDyn
