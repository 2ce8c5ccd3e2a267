import Verif.Lemmas.GraphMB
import Verif.Lemmas.SampleGraph

/-! Properties C15, C16 and C22: `makeMultiBody` and the other traversals of a tree-shaped graph. -/

namespace RBDyn
variable {K : Type} [Scalar K]

open Graph

/-! ### C15 -/

/-- C15: the graphs built by calls of `addBody`, `addJoint` and `linkBodies`, each link joining two bodies which were
not connected by a joint which was not used, and in the end all bodies connected, are trees in the sense of the
theorems below. -/
theorem C15_api_trees {h0 : Heap K} {rootName : String} {s : GSt K}
    (b : TreeBuild Joint.Built (fun _ => True) h0 rootName s) : Tree s.1 s.2 ∧ BuiltArcs s.1 s.2 := by
  refine ⟨b.tree, ?_⟩
  intro u a ha
  obtain ⟨-, j, d, hj, e⟩ := b.forest.forest.2.2 u a ha
  rw [e]
  exact .setForward j d hj

/-- C15: on a tree, `makeMultiBody` returns. There is an order `N` of the nodes of the graph, each exactly once, the
root first, such that body `i` of the `MultiBody` has the name of the body of node `N[i]` (and is found under this
name), joint `i` moves body `i`, and if `i` is not the root then the predecessor and parent of body `i` is an earlier
body `k`, where nodes `N[k]` and `N[i]` are linked in the graph, and joint `i` is the joint of this link as seen from
`N[k]`. There are as many joints as bodies, and the result is well formed. -/
theorem C15_makeMultiBody {h : Heap K} {g : Graph} (T : Tree h g) (hB : BuiltArcs h g) {root : String} {r : Nat}
    (hr : g.nodeByName root = .ok r) (t : JointType) (axis : Vec3 K) (X0 Xb : PTransform K) :
    ∃ (mb : MultiBody K) (N : List Nat), makeMultiBody h g root t axis X0 Xb = .ok mb ∧ mb.WF ∧ N.Perm g.nodes ∧ N[0]? = some r ∧
      mb.nrBodies = g.nrNodes ∧ mb.nrJoints = g.nrNodes ∧
      ∀ (i x : Nat), N[i]? = some x → ∃ n b j, h.nodes[x]? = some n ∧ mb.bodies[i]? = some b ∧ mb.joints[i]? = some j ∧
        b.name = n.body.name ∧ mb.sBodyIndexByName n.body.name = .ok i ∧ mb.succ[i]? = some (i : Int) ∧
        (i = 0 → j = Joint.mk' t axis true g.rootName ∧ mb.pred[i]? = some (-1) ∧ mb.parent[i]? = some (-1) ∧
          mb.Xt[i]? = some X0) ∧
        (i ≠ 0 → ∃ (k y : Nat) (a c : Arc K), k < i ∧ N[k]? = some y ∧ Link h g y a ∧ a.next = x ∧ Link h g x c ∧
          c.next = y ∧ j = a.joint ∧ mb.pred[i]? = some (k : Int) ∧ mb.parent[i]? = some (k : Int)) := by
  have hr' : g.bodyMap.find root = some r := by
    unfold nodeByName SMap.getAt at hr
    split at hr <;> simp_all
  obtain ⟨d, par, R⟩ := T.rooted ((T.body _ _).1 hr').1
  obtain ⟨mb, e, wf, c, tr⟩ := R.makeMultiBody T.toForest hB hr' t axis X0 Xb
  have hperm := R.dfs_perm T.toForest T.nodes_length_le_fuel
  have hnd : (dfs h h.fuel r none).Nodup := hperm.nodup_iff.2 T.nodes_nodup
  have h0 : (dfs h h.fuel r none)[0]? = some r := by
    obtain ⟨n, hn⟩ := T.nodes_get r R.mem
    obtain ⟨f, hf⟩ : ∃ f, h.fuel = f + 1 := ⟨h.fuel - 1, by
      have := List.length_pos_of_mem R.mem
      have := T.nodes_length_le_fuel
      omega⟩
    rw [hf, dfs_succ hn]; rfl
  have hb : ∀ (i i' : Nat) (b b' : Body K), mb.bodies[i]? = some b → mb.bodies[i']? = some b' → b.name = b'.name →
      i = i' := fun i i' b b' h1 h2 h3 => tr.body_inj T.toInv hnd h1 h2 h3
  refine ⟨mb, dfs h h.fuel r none, e, wf, hperm, h0, ?_, ?_, ?_⟩
  · exact tr.nbodies.trans hperm.length_eq
  · exact tr.njoints.trans hperm.length_eq
  · intro i x hx
    have E := tr.entry i x hx
    obtain ⟨n, hn, hbi⟩ := E.body
    have hi : i < (dfs h h.fuel r none).length := (List.getElem?_eq_some_iff.1 hx).1
    have hji : i < mb.joints.length := by have := tr.njoints; simp only [stOf] at this; omega
    refine ⟨n, _, mb.joints[i], hn, hbi, List.getElem?_eq_getElem hji, rfl,
      CtorInv.body_find (b := ⟨(xf h r par Xb x).dualMulI n.body.inertia, n.body.name⟩) c hb hbi, E.succ, ?_, ?_⟩
    · rintro rfl
      rw [h0] at hx
      obtain ⟨-, h1, h2, h3, h4⟩ := E.root (Option.some_inj.1 hx).symm
      refine ⟨?_, h2, h3, h4⟩
      rw [← Option.some_inj, ← List.getElem?_eq_getElem hji]
      exact h1
    · intro hi0
      have hxr : x ≠ r := by
        rintro rfl
        exact hi0 (E.root rfl).1
      obtain ⟨k, a, hk, hki, ha, ea, h1, h2, h3, -⟩ := E.child hxr
      obtain ⟨c', hc, ec, -⟩ := R.up x E.mem hxr
      refine ⟨k, par x, a, c', hki, hk, ha, ea, hc, ec, ?_, h2, h3⟩
      rw [← Option.some_inj, ← List.getElem?_eq_getElem hji]
      exact h1

/-- C15: if no link uses a joint with the name of the root joint, joint names are also looked up correctly. -/
theorem C15_joint_names {h : Heap K} {g : Graph} (T : Tree h g) (hB : BuiltArcs h g) {root : String} {r : Nat}
    (hr : g.nodeByName root = .ok r) (hn : ∀ u a, Link h g u a → a.joint.name ≠ g.rootName) (t : JointType)
    (axis : Vec3 K) (X0 Xb : PTransform K) :
    ∃ mb, makeMultiBody h g root t axis X0 Xb = .ok mb ∧
      ∀ (i : Nat) j, mb.joints[i]? = some j → mb.sJointIndexByName j.name = .ok i := by
  have hr' : g.bodyMap.find root = some r := by
    unfold nodeByName SMap.getAt at hr
    split at hr <;> simp_all
  obtain ⟨d, par, R⟩ := T.rooted ((T.body _ _).1 hr').1
  obtain ⟨mb, e, wf, c, tr⟩ := R.makeMultiBody T.toForest hB hr' t axis X0 Xb
  have hnd := (R.dfs_perm T.toForest T.nodes_length_le_fuel).nodup_iff.2 T.nodes_nodup
  refine ⟨mb, e, fun i j hj => CtorInv.joint_find c (tr.njoints.trans tr.nbodies.symm) ?_ hj⟩
  intro i i' b b' h1 h2 h3
  exact tr.joint_inj R T.toForest hnd hn h1 h2 h3

/-- C15: an unknown root body throws `out_of_range`. -/
theorem C15_unknown_root {h : Heap K} {g : Graph} (I : Inv h g) {root : String}
    (hr : ∀ p ∈ g.nodes, ∀ n, h.nodes[p]? = some n → n.body.name ≠ root) (t : JointType)
    (axis : Vec3 K) (X0 Xb : PTransform K) : makeMultiBody h g root t axis X0 Xb = .error .outOfRange := by
  have : g.bodyMap.find root = none := by
    cases hf : g.bodyMap.find root with
    | none => rfl
    | some p =>
      obtain ⟨hp, n, hn, e⟩ := (I.body _ _).1 hf
      exact absurd e (hr p hp n hn)
  simp only [makeMultiBody, SMap.getAt, this, Res.bind_error]

/-- The sample graph is built by the API, and can be rooted at any of its bodies. -/
example : ∃ (mb : MultiBody ℚ) (N : List Nat), makeMultiBody Sample.gs.1 Sample.gs.2 "hand" .Free Vec3.unitZ 1 Sample.gX = .ok mb ∧ mb.WF ∧
    N.Perm Sample.gs.2.nodes ∧ N[0]? = some 2 ∧ mb.nrBodies = 4 := by
  obtain ⟨mb, N, h1, h2, h3, h4, h5, -⟩ :=
    C15_makeMultiBody Sample.gs_tree Sample.gs_built Sample.gs_hand .Free Vec3.unitZ 1 Sample.gX
  exact ⟨mb, N, h1, h2, h3, h4, h5⟩

example : ∃ mb, makeMultiBody Sample.gs.1 Sample.gs.2 "hand" .Fixed Vec3.unitZ 1 1 = .ok mb ∧
    ∀ (i : Nat) j, mb.joints[i]? = some j → mb.sJointIndexByName j.name = .ok i :=
  C15_joint_names Sample.gs_tree Sample.gs_built Sample.gs_hand Sample.gs_noRoot .Fixed Vec3.unitZ 1 1

/-! ### C16 -/

/-- Mass of the body in a cell. -/
def massAt (h : Heap K) (p : Nat) : K := ((h.nodes[p]?).map (fun n => n.body.inertia.m)).getD 0

/-- C16: the masses of the bodies of the `MultiBody` add up to the masses of the bodies of the graph. -/
theorem C16_mass {h : Heap K} {g : Graph} (T : Tree h g) (hB : BuiltArcs h g) {root : String} {r : Nat}
    (hr : g.nodeByName root = .ok r) (t : JointType) (axis : Vec3 K) (X0 Xb : PTransform K) :
    ∃ mb, makeMultiBody h g root t axis X0 Xb = .ok mb ∧
      (mb.bodies.map (fun b => b.inertia.m)).sum = (g.nodes.map (massAt h)).sum := by
  have hr' : g.bodyMap.find root = some r := by
    unfold nodeByName SMap.getAt at hr
    split at hr <;> simp_all
  obtain ⟨d, par, R⟩ := T.rooted ((T.body _ _).1 hr').1
  obtain ⟨mb, e, wf, c, tr⟩ := R.makeMultiBody T.toForest hB hr' t axis X0 Xb
  refine ⟨mb, e, ?_⟩
  have hperm := R.dfs_perm T.toForest T.nodes_length_le_fuel
  rw [← (hperm.map (massAt h)).sum_eq]
  congr 1
  apply List.ext_getElem?
  intro i
  rw [List.getElem?_map, List.getElem?_map]
  by_cases hi : i < (dfs h h.fuel r none).length
  · obtain ⟨n, hn, hbi⟩ := (tr.entry i _ (List.getElem?_eq_getElem hi)).body
    have hbi' : mb.bodies[i]? = _ := hbi
    rw [hbi', List.getElem?_eq_getElem hi]
    simp [massAt, hn, PTransform.dualMulI, RBInertia.ofMat]
  · have : mb.bodies.length = _ := tr.nbodies
    rw [List.getElem?_eq_none (by omega), List.getElem?_eq_none (by omega)]
    rfl

/-- The masses 4, 2, 1, 3 of the sample graph. -/
example : ∃ mb, makeMultiBody Sample.gs.1 Sample.gs.2 "hand" .Free Vec3.unitZ 1 Sample.gX = .ok mb ∧
    (mb.bodies.map (fun b => b.inertia.m)).sum = 10 := by
  obtain ⟨mb, h1, h2⟩ := C16_mass Sample.gs_tree Sample.gs_built Sample.gs_hand .Free Vec3.unitZ 1 Sample.gX
  refine ⟨mb, h1, h2.trans ?_⟩
  rw [Sample.gs_nodes]
  decide +kernel

/-! ### C22 -/

/-- C22: `predecessorJoint` returns for the name of each body the name of the joint that moves it in the `MultiBody` made
with the same root, and nothing for other names. -/
theorem C22_predecessor {h : Heap K} {g : Graph} (T : Tree h g) (hB : BuiltArcs h g) {root : String} {r : Nat}
    (hr : g.nodeByName root = .ok r) (t : JointType) (axis : Vec3 K) (X0 Xb : PTransform K) :
    ∃ mb m, makeMultiBody h g root t axis X0 Xb = .ok mb ∧ predecessorJoint h g root = .ok m ∧
      (∀ (i : Nat) b j, mb.bodies[i]? = some b → mb.joints[i]? = some j → m.find b.name = some j.name) ∧
      (∀ s, (∀ b ∈ mb.bodies, b.name ≠ s) → m.find s = none) := by
  have hr' : g.bodyMap.find root = some r := by
    unfold nodeByName SMap.getAt at hr
    split at hr <;> simp_all
  obtain ⟨d, par, R⟩ := T.rooted ((T.body _ _).1 hr').1
  obtain ⟨mb, e, wf, c, tr⟩ := R.makeMultiBody T.toForest hB hr' t axis X0 Xb
  have hsrc : srcOf r par r = none := if_pos rfl
  obtain ⟨m, em, hm⟩ := computePredecessor_spec R T.toForest h.fuel r [] [] g.rootName R.mem
    (by rw [R.d0]; exact T.nodes_length_le_fuel) (by simp) (MapRel.nil _) ⟨fun _ => rfl, fun e => absurd rfl e⟩
  rw [hsrc] at em hm
  rw [List.nil_append] at hm
  refine ⟨mb, m, e, by simp only [predecessorJoint, SMap.getAt, hr', Res.bind_ok, em], ?_, ?_⟩
  · intro i b j hb hj
    have hi : i < (dfs h h.fuel r none).length := by
      rw [← tr.nbodies]; exact (List.getElem?_eq_some_iff.1 hb).1
    have hx := List.getElem?_eq_getElem hi
    have E := tr.entry i _ hx
    obtain ⟨n, hn, hbi⟩ := E.body
    rw [show (stOf mb).bodies[i]? = some b from hb] at hbi
    obtain rfl := Option.some_inj.1 hbi
    obtain ⟨s, hs, h1, h2⟩ := hm.found _ (List.getElem_mem hi) n hn
    dsimp only
    rw [hs]
    congr 1
    by_cases hxr : (dfs h h.fuel r none)[i] = r
    · rw [h1 hxr]
      have := (E.root hxr).2.1
      rw [show (stOf mb).joints[i]? = some j from hj] at this
      obtain rfl := Option.some_inj.1 this
      rfl
    · obtain ⟨a, ha, ea, rfl⟩ := h2 hxr
      obtain ⟨k, a', -, -, ha', ea', hj', -⟩ := E.child hxr
      rw [show (stOf mb).joints[i]? = some j from hj] at hj'
      obtain rfl := Option.some_inj.1 hj'
      rw [T.arc_unique ha ha' (ea.trans ea'.symm)]
  · intro s hs
    apply hm.absent
    intro x hx n hn e
    obtain ⟨i, hi, rfl⟩ := List.mem_iff_getElem.1 hx
    obtain ⟨n', hn', hbi⟩ := (tr.entry i _ (List.getElem?_eq_getElem hi)).body
    obtain rfl := Option.some_inj.1 (hn.symm.trans hn')
    exact hs _ (List.mem_of_getElem? hbi) e

/-- C22: `successorJoints` returns for the name of each body the names of the joints of its children in the `MultiBody`
made with the same root, each once, and nothing for other names. -/
theorem C22_successors {h : Heap K} {g : Graph} (T : Tree h g) (hB : BuiltArcs h g) {root : String} {r : Nat}
    (hr : g.nodeByName root = .ok r) (t : JointType) (axis : Vec3 K) (X0 Xb : PTransform K) :
    ∃ mb m, makeMultiBody h g root t axis X0 Xb = .ok mb ∧ successorJoints h g root = .ok m ∧
      (∀ (i : Nat) b, mb.bodies[i]? = some b → ∃ l, m.find b.name = some l ∧ l.Nodup ∧
        ∀ s, s ∈ l ↔ ∃ (k : Nat) (j : Joint K), mb.parent[k]? = some (i : Int) ∧ mb.joints[k]? = some j ∧ j.name = s) ∧
      (∀ s, (∀ b ∈ mb.bodies, b.name ≠ s) → m.find s = none) := by
  have hr' : g.bodyMap.find root = some r := by
    unfold nodeByName SMap.getAt at hr
    split at hr <;> simp_all
  obtain ⟨d, par, R⟩ := T.rooted ((T.body _ _).1 hr').1
  obtain ⟨mb, e, wf, c, tr⟩ := R.makeMultiBody T.toForest hB hr' t axis X0 Xb
  have hsrc : srcOf r par r = none := if_pos rfl
  have hperm := R.dfs_perm T.toForest T.nodes_length_le_fuel
  have hnd := hperm.nodup_iff.2 T.nodes_nodup
  obtain ⟨m, em, hfound, habs⟩ := computeSuccessors_spec R T.toForest h.fuel r [] R.mem
    (by rw [R.d0]; exact T.nodes_length_le_fuel)
  rw [hsrc] at em hfound habs
  refine ⟨mb, m, e, by simp only [successorJoints, SMap.getAt, hr', Res.bind_ok, em], ?_, ?_⟩
  · intro i b hb
    have hi : i < (dfs h h.fuel r none).length := by
      rw [← tr.nbodies]; exact (List.getElem?_eq_some_iff.1 hb).1
    have hx := List.getElem?_eq_getElem hi
    have E := tr.entry i _ hx
    obtain ⟨n, hn, hbi⟩ := E.body
    rw [show (stOf mb).bodies[i]? = some b from hb] at hbi
    obtain rfl := Option.some_inj.1 hbi
    refine ⟨_, hfound _ (List.getElem_mem hi) n hn, ?_, ?_⟩
    · -- names of the arcs of one node are distinct
      unfold succNames
      apply List.Nodup.map_on
      · intro a ha a' ha' hname
        have ha := (List.mem_filter.1 ha).1
        have ha' := (List.mem_filter.1 ha').1
        rcases T.jointOnce _ _ a a' ⟨E.mem, n, hn, ha⟩ ⟨E.mem, n, hn, ha'⟩ hname with ⟨-, e⟩ | ⟨e, -⟩
        · exact e
        · exact absurd e.symm (T.noLoop _ a' ⟨E.mem, n, hn, ha'⟩)
      · exact (List.Nodup.of_map _ (T.single _ E.mem n hn)).filter _
    · intro s
      simp only [succNames, List.mem_map, List.mem_filter, decide_eq_true_eq]
      constructor
      · rintro ⟨a, ⟨ha, hs⟩, rfl⟩
        have hl : Link h g _ a := ⟨E.mem, n, hn, ha⟩
        obtain ⟨-, e2, e3⟩ := (R.child_iff hl).1 hs
        have hxm : a.next ∈ dfs h h.fuel r none := hperm.mem_iff.2 (T.link_next hl)
        obtain ⟨k, hk, ek⟩ := List.mem_iff_getElem.1 hxm
        have Ek := tr.entry k _ (by rw [List.getElem?_eq_getElem hk, ek])
        obtain ⟨k', a', hk', hlt, ha', ea', h1, h2, h3, -⟩ := Ek.child e3
        have : k' = i := by
          rw [e2] at hk'
          obtain ⟨hk'l, hk'e⟩ := List.getElem?_eq_some_iff.1 hk'
          exact (List.Nodup.getElem_inj_iff hnd).1 hk'e
        subst this
        refine ⟨k, a'.joint, h3, h1, ?_⟩
        rw [e2] at ha'
        rw [T.arc_unique ha' hl ea']
      · rintro ⟨k, j, hk, hj, rfl⟩
        have hkl : k < (dfs h h.fuel r none).length := by
          rw [← tr.njoints]; exact (List.getElem?_eq_some_iff.1 hj).1
        have Ek := tr.entry k _ (List.getElem?_eq_getElem hkl)
        by_cases hxr : (dfs h h.fuel r none)[k] = r
        · have := (Ek.root hxr).2.2.2.1
          rw [show (stOf mb).parent[k]? = _ from hk] at this
          have := Option.some_inj.1 this
          omega
        · obtain ⟨k', a', hk', hlt, ha', ea', h1, h2, h3, -⟩ := Ek.child hxr
          rw [show (stOf mb).parent[k]? = _ from hk] at h3
          obtain rfl : i = k' := by have := Option.some_inj.1 h3; omega
          rw [show (stOf mb).joints[k]? = _ from hj] at h1
          obtain rfl := Option.some_inj.1 h1
          rw [hx] at hk'
          have hpar := Option.some_inj.1 hk'
          rw [← hpar] at ha'
          obtain ⟨-, n', hn', ham⟩ := id ha'
          obtain rfl := Option.some_inj.1 (hn.symm.trans hn')
          refine ⟨a', ⟨ham, ?_⟩, rfl⟩
          refine (R.child_iff ha').2 ⟨?_, ?_, ?_⟩
          · rw [ea', hpar]; exact R.up_d Ek.mem hxr
          · rw [ea', hpar]
          · rw [ea']; exact hxr
  · intro s hs
    rw [habs s]
    · rfl
    intro x hx n hn e
    obtain ⟨i, hi, rfl⟩ := List.mem_iff_getElem.1 hx
    obtain ⟨n', hn', hbi⟩ := (tr.entry i _ (List.getElem?_eq_getElem hi)).body
    obtain rfl := Option.some_inj.1 (hn.symm.trans hn')
    exact hs _ (List.mem_of_getElem? hbi) e

/-- C22: `bodiesBaseTransform` returns, for the name of each body of the `MultiBody` made with the same root, the transform
`X` from the body frame of the `MultiBody` to the body frame of the graph: the inertia of body `i` is the inertia of
the body of the graph moved by `X⁻¹`, and the static transform of joint `i` is the one given for the link, composed with the
base transform of the parent body. -/
theorem C22_base_transform {h : Heap K} {g : Graph} (T : Tree h g) (hB : BuiltArcs h g)
    (hX : ∀ u a, Link h g u a → IsRigid a.X) {root : String} {r : Nat}
    (hr : g.nodeByName root = .ok r) (t : JointType) (axis : Vec3 K) (X0 Xb : PTransform K) (hXb : IsRigid Xb) :
    ∃ mb m, makeMultiBody h g root t axis X0 Xb = .ok mb ∧ bodiesBaseTransform h g root Xb = .ok m ∧
      (∀ (i : Nat) b, mb.bodies[i]? = some b → ∃ X p n, m.find b.name = some X ∧ IsRigid X ∧
        g.nodeByName b.name = .ok p ∧ h.nodes[p]? = some n ∧
        b.inertia = X.inv.dualMulI n.body.inertia ∧ X.dualMulI b.inertia = n.body.inertia ∧
        (i = 0 → X = Xb.inv) ∧
        (i ≠ 0 → ∃ (k : Nat) (bk : Body K) (Xk : PTransform K) (pk : Nat) (a c : Arc K), mb.parent[i]? = some (k : Int) ∧
          mb.bodies[k]? = some bk ∧ m.find bk.name = some Xk ∧ g.nodeByName bk.name = .ok pk ∧
          Link h g pk a ∧ a.next = p ∧ Link h g p c ∧ c.next = pk ∧
          mb.Xt[i]? = some (a.X * Xk) ∧ X = c.X.inv)) ∧
      (∀ s, (∀ b ∈ mb.bodies, b.name ≠ s) → m.find s = none) := by
  have hr' : g.bodyMap.find root = some r := by
    unfold nodeByName SMap.getAt at hr
    split at hr <;> simp_all
  obtain ⟨d, par, R⟩ := T.rooted ((T.body _ _).1 hr').1
  obtain ⟨mb, e, wf, c, tr⟩ := R.makeMultiBody T.toForest hB hr' t axis X0 Xb
  have hsrc : srcOf r par r = none := if_pos rfl
  obtain ⟨m, em, hm⟩ := computeTransform_spec R T.toForest Xb h.fuel r [] [] Xb R.mem
    (by rw [R.d0]; exact T.nodes_length_le_fuel) (by simp) (MapRel.nil _) (fun _ => rfl)
  rw [hsrc] at em hm
  rw [List.nil_append] at hm
  have hxf : ∀ x ∈ g.nodes, IsRigid (xf h r par Xb x) := by
    intro x hx
    by_cases hxr : x = r
    · rw [hxr, xf_root]; exact hXb
    · obtain ⟨b, hb, eb, -⟩ := R.up x hx hxr
      rw [T.xf_arc hb eb hxr]
      exact hX x b hb
  have hname : ∀ p ∈ g.nodes, ∀ n, h.nodes[p]? = some n → g.nodeByName n.body.name = .ok p := by
    intro p hp n hn
    simp only [nodeByName, SMap.getAt, (T.body n.body.name p).2 ⟨hp, n, hn, rfl⟩]
  have h0 : (dfs h h.fuel r none)[0]? = some r := by
    obtain ⟨n, hn⟩ := T.nodes_get r R.mem
    obtain ⟨f, hf⟩ : ∃ f, h.fuel = f + 1 := ⟨h.fuel - 1, by
      have := List.length_pos_of_mem R.mem
      have := T.nodes_length_le_fuel
      omega⟩
    rw [hf, dfs_succ hn]; rfl
  refine ⟨mb, m, e, by simp only [bodiesBaseTransform, SMap.getAt, hr', Res.bind_ok, em], ?_, ?_⟩
  · intro i b hb
    have hi : i < (dfs h h.fuel r none).length := by
      rw [← tr.nbodies]; exact (List.getElem?_eq_some_iff.1 hb).1
    have hx := List.getElem?_eq_getElem hi
    have E := tr.entry i _ hx
    obtain ⟨n, hn, hbi⟩ := E.body
    rw [show (stOf mb).bodies[i]? = some b from hb] at hbi
    obtain rfl := Option.some_inj.1 hbi
    obtain ⟨X, hXf, rfl⟩ := hm.found _ (List.getElem_mem hi) n hn
    have hrig := hxf _ E.mem
    refine ⟨_, _, n, hXf, IsRigid.inv hrig, hname _ E.mem n hn, hn, ?_, ?_, ?_, ?_⟩
    · rw [PTransform.inv_inv _ hrig]
    · dsimp only
      rw [PTransform.dualMulI_eq (IsRigid.inv hrig), PTransform.inv_inv _ hrig, PTransform.dualMulI_eq hrig,
        ← PTransform.mul_transMulI _ _ (IsRigid.inv hrig) hrig, PTransform.inv_mul hrig, PTransform.one_transMulI]
    · rintro rfl
      rw [hx] at h0
      rw [Option.some_inj.1 h0, xf_root]
    · intro hi0
      have hxr : (dfs h h.fuel r none)[i] ≠ r := fun e => hi0 (E.root e).1
      obtain ⟨k, a, hk, hki, ha, ea, h1, h2, h3, h4⟩ := E.child hxr
      have hkl : k < (dfs h h.fuel r none).length := by omega
      have Ek := tr.entry k _ hk
      obtain ⟨nk, hnk, hbk⟩ := Ek.body
      obtain ⟨Xk, hXk, rfl⟩ := hm.found _ (List.mem_of_getElem? hk) nk hnk
      obtain ⟨c', hc, ec, -⟩ := R.up _ E.mem hxr
      exact ⟨k, _, _, _, a, c', h3, hbk, hXk, hname _ Ek.mem nk hnk, ha, ea, hc, ec, h4, by rw [T.xf_arc hc ec hxr]⟩
  · intro s hs
    apply hm.absent
    intro x hx n hn e
    obtain ⟨i, hi, rfl⟩ := List.mem_iff_getElem.1 hx
    obtain ⟨n', hn', hbi⟩ := (tr.entry i _ (List.getElem?_eq_getElem hi)).body
    obtain rfl := Option.some_inj.1 (hn.symm.trans hn')
    exact hs _ (List.mem_of_getElem? hbi) e

example : ∃ mb m, makeMultiBody Sample.gs.1 Sample.gs.2 "hand" .Free Vec3.unitZ 1 Sample.gX = .ok mb ∧
    bodiesBaseTransform Sample.gs.1 Sample.gs.2 "hand" Sample.gX = .ok m ∧
    ∀ b ∈ mb.bodies, ∃ X, m.find b.name = some X ∧ IsRigid X := by
  obtain ⟨mb, m, h1, h2, h3, -⟩ := C22_base_transform Sample.gs_tree Sample.gs_built Sample.gs_rigid Sample.gs_hand
    .Free Vec3.unitZ 1 Sample.gX Sample.gX_rigid
  refine ⟨mb, m, h1, h2, ?_⟩
  intro b hb
  obtain ⟨i, hi, rfl⟩ := List.mem_iff_getElem.1 hb
  obtain ⟨X, p, n, h4, h5, -⟩ := h3 i _ (List.getElem?_eq_getElem hi)
  exact ⟨X, h4, h5⟩

example : predecessorJoint Sample.gs.1 Sample.gs.2 "hand" =
    .ok [("slider", "slide"), ("base", "shoulder"), ("arm", "wrist"), ("hand", "Root")] := by decide +kernel

end RBDyn
