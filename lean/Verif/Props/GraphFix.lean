import Verif.Props.GraphCopy
import Verif.Props.Kinematics

/-! Property C20: `fixJoints`. -/

namespace RBDyn
variable {K : Type} [Scalar K]

open Graph

/-- The relation between a `MultiBody` and the one with some joints fixed: same bodies, topology and static
transforms, same root joint, every other joint for which `sel` holds is `Fixed` (no parameter, no degree of freedom)
with the same name and direction, the other joints are unchanged. -/
structure FixedOf (sel : String → Prop) (mb mb' : MultiBody K) : Prop where
  bodies : mb'.bodies = mb.bodies
  pred : mb'.pred = mb.pred
  succ : mb'.succ = mb.succ
  parent : mb'.parent = mb.parent
  Xt : mb'.Xt = mb.Xt
  njoints : mb'.joints.length = mb.joints.length
  root : mb'.joints[0]? = mb.joints[0]?
  fixed : ∀ (i : Nat) (j : Joint K), 0 < i → mb.joints[i]? = some j → sel j.name →
    ∃ j' : Joint K, mb'.joints[i]? = some j' ∧ j'.type = .Fixed ∧ j'.dof = 0 ∧ j'.params = 0 ∧ j'.name = j.name ∧
      j'.isForward = j.isForward
  other : ∀ (i : Nat) (j : Joint K), 0 < i → mb.joints[i]? = some j → ¬sel j.name → mb'.joints[i]? = some j

theorem fixedOf_make {h h' : Heap K} {g g' : Graph} {φ : Nat → Nat} {l : List String} {all : Bool}
    (S : Sim h g.nodes φ (fixJ l all) h') (T : Tree h g) (hB : BuiltArcs h g) (hname : g'.rootName = g.rootName)
    (hbody : ∀ t, g'.bodyMap.find t = (g.bodyMap.find t).map φ) (hf : g.nodes.length ≤ h'.fuel)
    {root : String} {r : Nat} (hr : g.nodeByName root = .ok r) (t : JointType) (axis : Vec3 K) (X0 Xb : PTransform K) :
    ∃ mb mb', makeMultiBody h g root t axis X0 Xb = .ok mb ∧ makeMultiBody h' g' root t axis X0 Xb = .ok mb' ∧
      mb.WF ∧ mb'.WF ∧ FixedOf (fun s => l.any (fun n => n == s || all) = true) mb mb' := by
  have hr' : g.bodyMap.find root = some r := getAt_find hr
  obtain ⟨d, par, R⟩ := T.rooted ((T.body _ _).1 hr').1
  obtain ⟨mb, e, wf, c, tr⟩ := R.makeMultiBody T.toForest hB hr' t axis X0 Xb
  obtain ⟨b, rest, p, s, pa, Xt, hlen, e1, e2⟩ := S.makeMultiBody T hname hbody hf hr' t axis X0 Xb
  obtain ⟨m, em, cm⟩ := ctor_inv b (Joint.mk' t axis true g.rootName :: rest) p s pa Xt (by simpa using hlen)
  obtain rfl : mb = m := Except.ok.inj (e.symm.trans (e1.trans em))
  have hjl : (Joint.mk' t axis true g.rootName :: rest.map (fixJ l all)).length = b.length := by simpa using hlen
  have hb := wf.built
  rw [cm.joints] at hb
  obtain ⟨mb', em', wf', b1, b2, b3, b4, b5, b6⟩ := MultiBody.mk'_wf b
    (Joint.mk' t axis true g.rootName :: rest.map (fixJ l all)) p s pa Xt hjl
    (by rw [← cm.pred, ← cm.bodies]; exact wf.npred) (by rw [← cm.Xt, ← cm.bodies]; exact wf.nXt)
    (by rw [← cm.succ, ← cm.bodies]; exact wf.succ) (by rw [← cm.pred]; exact wf.pred)
    (by rw [← cm.parent, ← cm.pred]; exact wf.parent) (by
      intro x hx
      rcases List.mem_cons.1 hx with rfl | hx
      · exact .mk _ _ _ _
      · obtain ⟨y, hy, rfl⟩ := List.mem_map.1 hx
        exact fixJ_built l all (hb y (List.mem_cons_of_mem _ hy)))
  refine ⟨mb, mb', e, e2.trans em', wf, wf', ?_⟩
  refine ⟨b1.trans cm.bodies.symm, b3.trans cm.pred.symm, b4.trans cm.succ.symm, b5.trans cm.parent.symm,
    b6.trans cm.Xt.symm, ?_, ?_, ?_, ?_⟩
  · rw [b2, cm.joints]; simp
  · rw [b2, cm.joints]; rfl
  · intro i j hi hj hs
    obtain ⟨i, rfl⟩ : ∃ k, i = k + 1 := ⟨i - 1, by omega⟩
    rw [cm.joints, List.getElem?_cons_succ] at hj
    refine ⟨fixJ l all j, by rw [b2, List.getElem?_cons_succ, List.getElem?_map, hj]; rfl, ?_⟩
    unfold fixJ
    rw [if_pos hs]
    exact ⟨rfl, rfl, rfl, rfl, Joint.isForward_mk' ..⟩
  · intro i j hi hj hs
    obtain ⟨i, rfl⟩ : ∃ k, i = k + 1 := ⟨i - 1, by omega⟩
    rw [cm.joints, List.getElem?_cons_succ] at hj
    rw [b2, List.getElem?_cons_succ, List.getElem?_map, hj]
    show some (fixJ l all j) = _
    unfold fixJ
    rw [if_neg hs]

theorem FixedOf.congr {s1 s2 : String → Prop} (hs : ∀ t, s1 t ↔ s2 t) {mb mb' : MultiBody K} (F : FixedOf s1 mb mb') :
    FixedOf s2 mb mb' := by
  have : s1 = s2 := funext (fun t => propext (hs t))
  exact this ▸ F

/-- C20: `fixJoints` with names of joints of the graph returns a tree in new cells, without changing any existing cell;
for every root, the `MultiBody` made from it has the bodies, the topology and the static transforms of the one made from the
original graph, the named joints have no parameter and no degree of freedom, and the other joints are
unchanged. -/
theorem C20_fixJoints {h : Heap K} {g : Graph} (T : Tree h g) (hB : BuiltArcs h g) (names : List String)
    (hn : ∀ s ∈ names, ∃ p, g.jointByName s = .ok p) :
    ∃ h' g', fixJoints h g names = .ok (h', g') ∧ Tree h' g' ∧ BuiltArcs h' g' ∧
      (∀ x < h.nodes.length, h'.nodes[x]? = h.nodes[x]?) ∧ (∀ x < h.joints.length, h'.joints[x]? = h.joints[x]?) ∧
      (∀ x ∈ g'.nodes, h.nodes.length ≤ x) ∧
      ∀ (root : String) (r : Nat), g.nodeByName root = .ok r →
        ∀ (t : JointType) (axis : Vec3 K) (X0 Xb : PTransform K),
        ∃ mb mb', makeMultiBody h g root t axis X0 Xb = .ok mb ∧ makeMultiBody h' g' root t axis X0 Xb = .ok mb' ∧
          mb.WF ∧ mb'.WF ∧ FixedOf (· ∈ names) mb mb' := by
  obtain ⟨h', g', e, M, lo, jlo, fr, -⟩ := fixJoints_named T.toInv (fun s hs => by
    obtain ⟨p, hp⟩ := hn s hs
    exact ⟨p, getAt_find hp⟩)
  have hd : ∀ x ∈ g.nodes, ∀ y ∈ g.nodes, copyAddr h g y ≠ x := by
    intro x hx y _ e
    have h1 := T.node_lt hx
    unfold copyAddr at e
    omega
  refine ⟨h', g', e, M.tree hd (fixJ_name _ _) (fixJ_setForward _ _) T, ?_, lo, jlo, fr, ?_⟩
  · intro u a hl
    obtain ⟨v, b, hb, -, rfl⟩ := M.link_inv T.toInv hl
    exact fixJ_built _ _ (hB v b hb)
  · intro root r hr t axis X0 Xb
    obtain ⟨mb, mb', e1, e2, w1, w2, F⟩ := fixedOf_make M.sim T hB M.rootName (M.body_find T.toInv) M.fuel hr t axis X0 Xb
    exact ⟨mb, mb', e1, e2, w1, w2, F.congr (fun t => by simp)⟩

/-- C20: `fixJoints` with `fixAllJoints` and at least one name fixes all joints, except the root joint. -/
theorem C20_fixAll {h : Heap K} {g : Graph} (T : Tree h g) (hB : BuiltArcs h g) (names : List String)
    (hn : names ≠ []) :
    ∃ h' g', fixJoints h g names true = .ok (h', g') ∧
      (∀ x < h.nodes.length, h'.nodes[x]? = h.nodes[x]?) ∧ (∀ x < h.joints.length, h'.joints[x]? = h.joints[x]?) ∧
      (∀ x ∈ g'.nodes, h.nodes.length ≤ x) ∧
      ∀ (root : String) (r : Nat), g.nodeByName root = .ok r →
        ∀ (t : JointType) (axis : Vec3 K) (X0 Xb : PTransform K),
        ∃ mb mb', makeMultiBody h g root t axis X0 Xb = .ok mb ∧ makeMultiBody h' g' root t axis X0 Xb = .ok mb' ∧
          mb.WF ∧ mb'.WF ∧ FixedOf (fun _ => True) mb mb' := by
  obtain ⟨h', g', e, S, -, hname, hbody, hf, lo, jlo, fr⟩ := fixJoints_all T.toInv names
  refine ⟨h', g', e, lo, jlo, fr, ?_⟩
  intro root r hr t axis X0 Xb
  obtain ⟨mb, mb', e1, e2, w1, w2, F⟩ := fixedOf_make S T hB hname hbody hf hr t axis X0 Xb
  refine ⟨mb, mb', e1, e2, w1, w2, F.congr (fun t => ?_)⟩
  obtain ⟨n, l, rfl⟩ := List.exists_cons_of_ne_nil hn
  simp

/-- A non-mimic joint is at its neutral position. -/
def AtNeutral (j : Joint K) (x : List K) : Prop := j.isMimic = false ∧ x = j.zeroParam

theorem AtNeutral.pose {j : Joint K} (hb : j.Built) {x : List K} (h : AtNeutral j x) : j.pose x = .ok 1 := by
  obtain ⟨hm, rfl⟩ := h
  obtain ⟨t, a, f, n, rfl | ⟨mn, m, o, rfl⟩⟩ := hb.exists_mk
  · exact (C01_neutral_pose t a f n).1
  · cases hm

/-- C20: the poses computed by `forwardKinematics` for the fixed `MultiBody` are those computed for the original one with
the fixed joints at their neutral position and the others at the same position. -/
theorem C20_pose {sel : String → Prop} {mb mb' : MultiBody K} (wf : mb.WF) (wf' : mb'.WF) (F : FixedOf sel mb mb')
    {mbc mbc' : MBC K} (sz : mbc.Sized mb) (sz' : mbc'.Sized mb')
    (hq : ∀ (i : Nat) (j : Joint K) (x : List K), mb.joints[i]? = some j → mbc.q[i]? = some x →
      (0 < i ∧ sel j.name ∧ AtNeutral j x) ∨ (¬(0 < i ∧ sel j.name) ∧ mbc'.q[i]? = some x)) :
    ∃ m m', forwardKinematics mb mbc = .ok m ∧ forwardKinematics mb' mbc' = .ok m' ∧ m'.bodyPosW = m.bodyPosW ∧
      m'.parentToSon = m.parentToSon := by
  obtain ⟨m, e, hm, -, hsz⟩ := C23_forward_kinematics wf sz
  obtain ⟨m', e', hm', -, hsz'⟩ := C23_forward_kinematics wf' sz'
  have hn : mb'.nrBodies = mb.nrBodies := by unfold MultiBody.nrBodies; rw [F.bodies]
  have hpar : mb'.par = mb.par := by
    funext i
    unfold MultiBody.par
    rw [F.pred]
  have hpts : ∀ i, i < mb.nrBodies → m'.parentToSon[i]? = m.parentToSon[i]? := by
    intro i hi
    obtain ⟨j, x, X, Xt, hj, hx, hX, hXt, -, hp, -⟩ := hm i hi
    obtain ⟨j', x', X', Xt', hj', hx', hX', hXt', -, hp', -⟩ := hm' i (by omega)
    rw [hp, hp']
    rw [F.Xt, hXt] at hXt'
    obtain rfl := Option.some_inj.1 hXt'
    have : X' = X := by
      rcases hq i j x hj hx with ⟨hi0, hs, hN⟩ | ⟨hs, hx2⟩
      · obtain ⟨k, hk, ht, -, -, -, -⟩ := F.fixed i j hi0 hj hs
        obtain rfl := Option.some_inj.1 (hj'.symm.trans hk)
        have h1 := hN.pose (wf.built j (List.mem_of_getElem? hj))
        rw [hX] at h1
        have h2 : j'.pose x' = .ok 1 := by
          obtain ⟨t, a, f, n, rfl | ⟨mn, mm, o, rfl⟩⟩ := (wf'.built j' (List.mem_of_getElem? hj')).exists_mk
          · obtain rfl : t = .Fixed := ht
            exact Joint.pose_fixed ..
          · obtain rfl : t = .Fixed := ht
            rw [Joint.pose_makeMimic]
            exact Joint.pose_fixed ..
        rw [hX'] at h2
        rw [Except.ok.inj h1, Except.ok.inj h2]
      · have hjj : mb'.joints[i]? = some j := by
          by_cases h0 : i = 0
          · subst h0
            rw [F.root]; exact hj
          · exact F.other i j (by omega) hj (fun hsn => hs ⟨by omega, hsn⟩)
        obtain rfl := Option.some_inj.1 (hj'.symm.trans hjj)
        obtain rfl := Option.some_inj.1 (hx'.symm.trans hx2)
        exact Except.ok.inj (hX'.symm.trans hX)
    rw [this]
  have hl1 : m.parentToSon.length = mb.nrBodies := hsz.parentToSon
  have hl2 : m'.parentToSon.length = mb.nrBodies := hsz'.parentToSon.trans hn
  have hPS : m'.parentToSon = m.parentToSon := by
    refine List.ext_getElem? (fun i => ?_)
    by_cases hi : i < mb.nrBodies
    · exact hpts i hi
    · rw [List.getElem?_eq_none (by omega), List.getElem?_eq_none (by omega)]
  refine ⟨m, m', e, e', ?_, hPS⟩
  have hb1 : m.bodyPosW.length = mb.nrBodies := hsz.bodyPosW
  have hb2 : m'.bodyPosW.length = mb.nrBodies := hsz'.bodyPosW.trans hn
  refine List.ext_getElem? (fun i => ?_)
  by_cases hi : i < mb.nrBodies
  · obtain ⟨_, _, _, _, -, -, -, -, -, -, -, hW⟩ := hm i hi
    obtain ⟨_, _, _, _, -, -, -, -, -, -, -, hW'⟩ := hm' i (by omega)
    rw [hW, hW', hpar, hPS]
  · rw [List.getElem?_eq_none (by omega), List.getElem?_eq_none (by omega)]

/-- C20: a name that is not a joint of the graph makes `fixJoints` throw `std::out_of_range`. -/
theorem C20_unknown {h : Heap K} {g : Graph} (I : Inv h g) (pre : List String) (s : String) (post : List String)
    (hpre : ∀ t ∈ pre, ∃ p, g.jointByName t = .ok p) (hs : ∀ p ∈ g.joints, ∀ j, h.joints[p]? = some j → j.name ≠ s) :
    fixJoints h g (pre ++ s :: post) = .error .outOfRange := by
  obtain ⟨h1, g1, e1, C⟩ := copy_spec I
  have M := C.image I
  obtain ⟨s2, e2, a1, -⟩ := fixNamed_loop pre (h1, g1) C.iso.inv.joints_get
    (fun t p hp => ((C.iso.inv.joint t p).1 hp).1) (fun t ht => by
      obtain ⟨p, hp⟩ := hpre t ht
      exact M.joints t p (getAt_find hp))
  dsimp only at a1
  have hno : g1.jointMap.find s = none := by
    cases hf : g1.jointMap.find s with
    | none => rfl
    | some p' =>
      obtain ⟨hp, j, hj, e⟩ := (C.iso.inv.joint s p').1 hf
      obtain ⟨i, hi, rfl⟩ := List.mem_iff_getElem.1 hp
      have hi' : i < g.joints.length := by rw [← C.iso.joints]; exact hi
      rw [C.iso.jcells i _ _ (List.getElem?_eq_getElem hi') (List.getElem?_eq_getElem hi)] at hj
      exact absurd e (hs _ (List.getElem_mem hi') j hj)
  have e3 : fixNamed s2 s = .error .outOfRange := by
    rw [fixNamed, a1, SMap.getAt, hno]; rfl
  rw [fixJoints, e1, Res.bind_ok, if_neg (by simp), List.foldlM_append, e2, Res.bind_ok, List.foldlM_cons, e3]
  rfl

/-- The joints of the links are fixed, but not those the graph hands out: `jointByName` still returns the joint that was to be
fixed with its degrees of freedom (the code resets a copy of the pointer). -/
theorem C20_registry_not_fixed {h : Heap K} {g : Graph} (T : Tree h g) (names : List String)
    (hn : ∀ s ∈ names, ∃ p, g.jointByName s = .ok p) :
    ∃ h' g', fixJoints h g names = .ok (h', g') ∧
      ∀ (s : String) (p : Nat), g.jointByName s = .ok p → ∃ p', g'.jointByName s = .ok p' ∧ h'.joints[p']? = h.joints[p]? := by
  obtain ⟨h', g', e, -, -, -, -, hreg⟩ := fixJoints_named T.toInv (fun s hs => by
    obtain ⟨p, hp⟩ := hn s hs
    exact ⟨p, getAt_find hp⟩)
  refine ⟨h', g', e, fun s p hp => ?_⟩
  obtain ⟨p', h1, h2⟩ := hreg s p (getAt_find hp)
  exact ⟨p', getAt_some h1, h2⟩

/-- `fixAllJoints` with an empty list of names fixes no joint of the graph: the revolute joint keeps its degree of
freedom. -/
theorem C20_fixAll_empty_counterexample :
    ∃ s mb j, fixJoints Sample.gs.1 Sample.gs.2 [] true = .ok s ∧
      makeMultiBody s.1 s.2 "base" .Fixed Vec3.unitZ 1 1 = .ok mb ∧ mb.joints[1]? = some j ∧ j.type = .Rev ∧ j.dof = 1 := by
  obtain ⟨h', g', e, S, hn, hname, hbody, hf, -⟩ := fixJoints_all Sample.gs_tree.toInv []
  have hj : fixJ ([] : List String) true = (id : Joint ℚ → Joint ℚ) := by
    funext j; simp [fixJ]
  rw [hj] at S
  have hmm := S.makeMultiBody_eq Sample.gs_tree hname hbody hf "base" .Fixed Vec3.unitZ 1 1
  obtain ⟨mb, j, h1, h2, h3, h4⟩ : ∃ (mb : MultiBody ℚ) (j : Joint ℚ),
      makeMultiBody Sample.gs.1 Sample.gs.2 "base" .Fixed Vec3.unitZ 1 1 = .ok mb ∧
      mb.joints[1]? = some j ∧ j.type = .Rev ∧ j.dof = 1 := by
    have : (match makeMultiBody Sample.gs.1 Sample.gs.2 "base" .Fixed Vec3.unitZ 1 1 with
      | .ok mb => (match mb.joints[1]? with
        | some j => decide (j.type = .Rev ∧ j.dof = 1)
        | none => false)
      | .error _ => false) = true := by decide +kernel
    cases hm : makeMultiBody Sample.gs.1 Sample.gs.2 "base" .Fixed Vec3.unitZ 1 1 with
    | error _ => rw [hm] at this; cases this
    | ok mb =>
      rw [hm] at this
      dsimp only at this
      cases hj : mb.joints[1]? with
      | none => rw [hj] at this; cases this
      | some j =>
        rw [hj] at this
        exact ⟨mb, j, rfl, hj, of_decide_eq_true this⟩
  exact ⟨(h', g'), mb, j, e, hmm.trans h1, h2, h3, h4⟩

/-- After `fixAllJoints`, the vector of joints and the map of joints of the graph do not agree any more: removing a joint
erases the end iterator of the vector, undefined behaviour. -/
theorem C20_fixAll_then_remove_counterexample :
    ∃ s s', fixJoints Sample.gs.1 Sample.gs.2 ["wrist"] true = .ok s ∧ removeJoint "base" "wrist" s = .error .ub s' := by
  have : (match fixJoints Sample.gs.1 Sample.gs.2 ["wrist"] true with
    | .ok s => (match removeJoint "base" "wrist" s with
      | .ok _ _ => false
      | .error e _ => decide (e = .ub))
    | .error _ => false) = true := by decide +kernel
  cases hf : fixJoints Sample.gs.1 Sample.gs.2 ["wrist"] true with
  | error _ => rw [hf] at this; cases this
  | ok s =>
    rw [hf] at this
    dsimp only at this
    cases hr : removeJoint "base" "wrist" s with
    | ok _ _ => rw [hr] at this; cases this
    | error e s' =>
      rw [hr] at this
      have he : e = .ub := of_decide_eq_true this
      exact ⟨s, s', rfl, by rw [hr, he]⟩

/-- The hypotheses of C20 hold on the sample graph with the spherical joint fixed. -/
example : ∃ h' g' mb mb', fixJoints Sample.gs.1 Sample.gs.2 ["wrist"] = .ok (h', g') ∧
    makeMultiBody Sample.gs.1 Sample.gs.2 "base" .Free Vec3.unitZ 1 1 = .ok mb ∧
    makeMultiBody h' g' "base" .Free Vec3.unitZ 1 1 = .ok mb' ∧ FixedOf (· ∈ ["wrist"]) mb mb' := by
  obtain ⟨h', g', e, -, -, -, -, -, H⟩ := C20_fixJoints Sample.gs_tree Sample.gs_built ["wrist"]
    (by intro s hs; obtain rfl := List.mem_singleton.1 hs; exact ⟨1, by decide +kernel⟩)
  obtain ⟨mb, mb', h1, h2, -, -, F⟩ := H "base" 0 Sample.gs_base .Free Vec3.unitZ 1 1
  exact ⟨h', g', mb, mb', e, h1, h2, F⟩

namespace Sample

/-- The `MultiBody` rooted at "base" of the sample graph with the spherical joint fixed. -/
def mbF : MultiBody ℚ :=
  ((do
    let s ← fixJoints gs.1 gs.2 ["wrist"]
    makeMultiBody s.1 s.2 "base" .Fixed ⟨0, 0, 1⟩ 1 gX : Res (MultiBody ℚ)).toOption).getD
      ⟨[], [], [], [], [], [], [], [], [], [], 0, 0⟩

def mbcN : MBC ℚ := fresh mbB [[], [1], [1, 0, 0, 0], [-2]]
def mbcF : MBC ℚ := fresh mbF [[], [1], [], [-2]]

theorem mbcN_sized : mbcN.Sized mbB := by
  constructor
  · show mbcN.q.map List.length = mbB.joints.map (·.params); decide +kernel
  · show mbcN.alpha.map List.length = mbB.joints.map (·.dof); decide +kernel
  · show mbcN.alphaD.map List.length = mbB.joints.map (·.dof); decide +kernel
  · show mbcN.jointTorque.map List.length = mbB.joints.map (·.dof); decide +kernel
  all_goals decide +kernel

theorem mbcF_sized : mbcF.Sized mbF := by
  constructor
  · show mbcF.q.map List.length = mbF.joints.map (·.params); decide +kernel
  · show mbcF.alpha.map List.length = mbF.joints.map (·.dof); decide +kernel
  · show mbcF.alphaD.map List.length = mbF.joints.map (·.dof); decide +kernel
  · show mbcF.jointTorque.map List.length = mbF.joints.map (·.dof); decide +kernel
  all_goals decide +kernel

/-- The hypotheses of `C20_pose` hold on the sample graph with the spherical joint fixed. -/
example : mbF.nrDof = 2 ∧ mbB.nrDof = 5 ∧
    ∃ m m', forwardKinematics mbB mbcN = .ok m ∧ forwardKinematics mbF mbcF = .ok m' ∧ m'.bodyPosW = m.bodyPosW := by
  refine ⟨by decide +kernel, by decide +kernel, ?_⟩
  obtain ⟨h', g', e, -, -, -, -, -, H⟩ := C20_fixJoints gs_tree gs_built ["wrist"]
    (by intro s hs; obtain rfl := List.mem_singleton.1 hs; exact ⟨1, by decide +kernel⟩)
  obtain ⟨mb, mb', h1, h2, w1, w2, F⟩ := H "base" 0 gs_base .Fixed ⟨0, 0, 1⟩ 1 gX
  rw [mbB_eq] at h1
  cases h1
  have : mbF = mb' := by
    unfold mbF
    rw [e, Res.bind_ok]
    dsimp only
    rw [h2]
    rfl
  subst this
  obtain ⟨m, m', e1, e2, e3, -⟩ := C20_pose w1 w2 F mbcN_sized mbcF_sized (by
    intro i j x hj hx
    have hl : i < 4 := by
      have h1 : mbB.joints.length = 4 := by decide +kernel
      have := (List.getElem?_eq_some_iff.1 hj).1
      omega
    have key : ∀ i ∈ [0, 1, 2, 3], ∀ j ∈ mbB.joints[i]?, ∀ x ∈ mbcN.q[i]?,
        (0 < i ∧ j.name ∈ ["wrist"] ∧ j.isMimic = false ∧ x = j.zeroParam) ∨
          (¬(0 < i ∧ j.name ∈ ["wrist"]) ∧ mbcF.q[i]? = some x) := by decide +kernel
    exact key i (by simp; omega) j (by simpa using hj) x (by simpa using hx))
  exact ⟨m, m', e1, e2, e3⟩

end Sample

end RBDyn
