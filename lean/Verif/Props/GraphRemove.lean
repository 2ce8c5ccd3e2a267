import Verif.Lemmas.GraphPrune
import Verif.Lemmas.SampleGraph

/-! Property C18: `removeJoint` and `removeJoints` on a tree-shaped graph. -/

namespace RBDyn
variable {K : Type} [Scalar K]

open Graph

/-- C18: on a tree, `removeJoint(root, t)` returns and what is left is exactly what the root body still reaches once
the links whose joint is named `t` are cut: the bodies left are those connected to the root by other links, a joint is
removed iff it links a body which is not left, a body left keeps its inertia, its name and all its arcs but the one of
`t`, and no other memory is written (see `Pruned`); the result is again a tree. If no link uses a joint named `t`
nothing changes. No joint at the root body may have the name of the root joint. -/
theorem C18_removeJoint {h : Heap K} {g : Graph} (T : Tree h g) {root : String} {r : Nat}
    (hr : g.nodeByName root = .ok r) (h0 : ∀ b, Link h g r b → b.joint.name ≠ g.rootName) (t : String) :
    ∃ h' g', removeJoint root t (h, g) = .ok ⟨⟩ (h', g') ∧ Pruned h g r [t] h' g' ∧
      ((∀ u b, Link h g u b → b.joint.name ≠ t) → h' = h ∧ g' = g) :=
  removeJoint_spec T hr h0

/-- C18: the body `x` is removed iff every path of links from the root to `x` uses the joint. -/
theorem C18_removed_iff {h : Heap K} {g : Graph} (T : Tree h g) {root : String} {r : Nat}
    (hr : g.nodeByName root = .ok r) (h0 : ∀ b, Link h g r b → b.joint.name ≠ g.rootName) (t : String) :
    ∃ h' g', removeJoint root t (h, g) = .ok ⟨⟩ (h', g') ∧
      ∀ x ∈ g.nodes, (x ∉ g'.nodes ↔ ∀ w : (simple h g).Walk r x, ∃ (u : Nat) (a : Arc K),
        Link h g u a ∧ a.joint.name = t ∧ s(u, a.next) ∈ w.edges) := by
  obtain ⟨h', g', e, P, -⟩ := removeJoint_spec (t := t) T hr h0
  have F := T.toForest
  refine ⟨h', g', e, fun x hx => ?_⟩
  rw [P.nodes]
  constructor
  · intro hk w
    by_contra hno
    refine hk ⟨hx, ?_⟩
    refine SimpleGraph.Reachable.mono (G := cut h g [t]) le_rfl ⟨w.transfer (cut h g [t]) ?_⟩
    intro ed hed
    induction ed using Sym2.ind with
    | _ u v =>
      have hadj : (simple h g).Adj u v := w.adj_of_mem_edges hed
      obtain ⟨a, ha, rfl⟩ := F.adj_iff.1 hadj
      rw [SimpleGraph.mem_edgeSet, F.cut_adj]
      refine ⟨a, ha, rfl, ?_⟩
      rw [List.mem_singleton]
      intro et
      exact hno ⟨u, a, ha, et, hed⟩
  · rintro hall ⟨-, hk⟩
    obtain ⟨w⟩ := hk
    have hle : cut h g [t] ≤ simple h g := by
      intro u v hadj
      obtain ⟨a, ha, e, _⟩ := F.cut_adj.1 hadj
      exact F.adj_iff.2 ⟨a, ha, e⟩
    obtain ⟨u, a, ha, et, hed⟩ := hall (w.mapLe hle)
    rw [SimpleGraph.Walk.edges_mapLe_eq_edges] at hed
    obtain ⟨b, hb, eb, hn⟩ := F.cut_adj.1 (w.adj_of_mem_edges hed)
    rw [F.arc_unique hb ha eb, List.mem_singleton] at hn
    exact hn et

/-- C18: after `removeJoint`, a body is found under its name iff it is left, and a joint iff it is left. -/
theorem C18_lookup {h : Heap K} {g : Graph} (T : Tree h g) {root : String} {r : Nat}
    (hr : g.nodeByName root = .ok r) (h0 : ∀ b, Link h g r b → b.joint.name ≠ g.rootName) (t : String) :
    ∃ h' g', removeJoint root t (h, g) = .ok ⟨⟩ (h', g') ∧
      (∀ (name : String) (x : Nat), g.nodeByName name = .ok x →
        g'.nodeByName name = if x ∈ g'.nodes then .ok x else .error .outOfRange) ∧
      (∀ (name : String) (p : Nat), g.jointByName name = .ok p →
        g'.jointByName name = if p ∈ g'.joints then .ok p else .error .outOfRange) := by
  obtain ⟨h', g', e, P, -⟩ := removeJoint_spec (t := t) T hr h0
  have hget : ∀ {α : Type} (m : SMap α) (k : String) (v : α), m.getAt k = .ok v → m.find k = some v := by
    intro α m k v hm
    unfold SMap.getAt at hm; split at hm <;> simp_all
  refine ⟨h', g', e, ?_, ?_⟩
  · intro name x hx
    obtain ⟨hxm, n, hn, en⟩ := (T.body name x).1 (hget _ _ _ hx)
    by_cases hx' : x ∈ g'.nodes
    · rw [if_pos hx']
      exact getAt_some ((P.tree.body name x).2 ⟨hx', _, P.cells x hx' n hn, en⟩)
    · rw [if_neg hx', nodeByName, SMap.getAt]
      cases hf : g'.bodyMap.find name with
      | none => rfl
      | some y =>
        obtain ⟨hy, n', hn', en'⟩ := (P.tree.body name y).1 hf
        have hyg : y ∈ g.nodes := P.nodes_order.subset hy
        obtain ⟨m, hm⟩ := T.nodes_get y hyg
        rw [P.cells y hy m hm] at hn'
        obtain rfl := Option.some_inj.1 hn'
        exact absurd (T.name_inj hyg hxm hm hn (en'.trans en.symm) ▸ hy) hx'
  · intro name p hp
    obtain ⟨hpm, j, hj, ej⟩ := (T.joint name p).1 (hget _ _ _ hp)
    by_cases hp' : p ∈ g'.joints
    · rw [if_pos hp']
      exact getAt_some ((P.tree.joint name p).2 ⟨hp', j, by rw [P.hjoints]; exact hj, ej⟩)
    · rw [if_neg hp', jointByName, SMap.getAt]
      cases hf : g'.jointMap.find name with
      | none => rfl
      | some y =>
        obtain ⟨hy, j', hj', ej'⟩ := (P.tree.joint name y).1 hf
        rw [P.hjoints] at hj'
        have hyg : y ∈ g.joints := P.joints_order.subset hy
        exact absurd (T.joint_inj hyg hpm hj' hj (ej'.trans ej.symm) ▸ hy) hp'

/-- C18: `removeJoints` cuts all the joints of the list, unknown names and joints already gone included. -/
theorem C18_removeJoints {h : Heap K} {g : Graph} (T : Tree h g) {root : String} {r : Nat}
    (hr : g.nodeByName root = .ok r) (h0 : ∀ b, Link h g r b → b.joint.name ≠ g.rootName) (L : List String) :
    ∃ h' g', removeJoints root L (h, g) = .ok ⟨⟩ (h', g') ∧ Pruned h g r L h' g' :=
  removeJoints_spec T hr h0 L

omit [Scalar K] in
/-- C18: an unknown root throws `out_of_range` and an unknown joint is ignored, on every graph. -/
theorem C18_unknown {h : Heap K} {g : Graph} (I : Inv h g) (root t : String) :
    ((∀ p ∈ g.nodes, ∀ n, h.nodes[p]? = some n → n.body.name ≠ root) →
      removeJoint root t (h, g) = .error .outOfRange (h, g) ∧
      ∀ L, removeJoints root L (h, g) = .error .outOfRange (h, g)) ∧
    ((∃ p ∈ g.nodes, ∃ n, h.nodes[p]? = some n ∧ n.body.name = root) →
      (∀ p ∈ g.joints, ∀ j, h.joints[p]? = some j → j.name ≠ t) → removeJoint root t (h, g) = .ok ⟨⟩ (h, g)) := by
  constructor
  · intro hno
    have hf : g.bodyMap.getAt root = .error .outOfRange := by
      rw [SMap.getAt]
      cases hf : g.bodyMap.find root with
      | none => rfl
      | some p =>
        obtain ⟨hp, n, hn, e⟩ := (I.body _ _).1 hf
        exact absurd e (hno p hp n hn)
    refine ⟨?_, fun L => ?_⟩
    · rw [removeJoint, gm_get]
      dsimp only
      rw [gm_lift_error hf]
    · rw [removeJoints, gm_get]
      dsimp only
      rw [gm_lift_error hf]
  · rintro ⟨p, hp, n, hn, e⟩ hno
    have hj : g.jointMap.find t = none := by
      cases hf : g.jointMap.find t with
      | none => rfl
      | some p =>
        obtain ⟨hp, n, hn, e⟩ := (I.joint _ _).1 hf
        exact absurd e (hno p hp n hn)
    rw [removeJoint, gm_get]
    dsimp only
    rw [gm_lift_ok (getAt_some ((I.body root p).2 ⟨hp, n, hn, e⟩)), hj]
    rfl

/-- Check a property of the state in which a computation returns. -/
theorem Graph.gm_check {K : Type} {x : EStateM.Result Err (GSt K) Unit} (p : GSt K → Bool)
    (hx : (match x with | .ok _ s => p s | .error _ _ => false) = true) : ∃ s, x = .ok ⟨⟩ s ∧ p s = true := by
  cases x with
  | ok _ s => exact ⟨s, rfl, hx⟩
  | error _ _ => cases hx

/-! The sample graph: seen from the hand, removing the shoulder removes the base and the slider. -/

example : ∃ h' g', removeJoint "hand" "shoulder" Sample.gs = .ok ⟨⟩ (h', g') ∧
    Pruned Sample.gs.1 Sample.gs.2 2 ["shoulder"] h' g' ∧ g'.nodes = [1, 2] ∧ g'.joints = [1] := by
  obtain ⟨h', g', e, P, -⟩ := C18_removeJoint Sample.gs_tree Sample.gs_hand (fun b hb => Sample.gs_noRoot 2 b hb) "shoulder"
  obtain ⟨s, e', hs⟩ := gm_check (x := removeJoint "hand" "shoulder" Sample.gs)
    (fun s => decide (s.2.nodes = [1, 2] ∧ s.2.joints = [1])) (by decide +kernel)
  obtain ⟨h1, h2⟩ := of_decide_eq_true hs
  have := e.symm.trans e'
  injection this with _ e''
  refine ⟨h', g', e, P, ?_, ?_⟩
  · rw [← h1, ← e'']
  · rw [← h2, ← e'']

example : ∃ h' g', removeJoint "hand" "shoulder" Sample.gs = .ok ⟨⟩ (h', g') ∧
    (∀ (name : String) (x : Nat), Sample.gs.2.nodeByName name = .ok x →
        g'.nodeByName name = if x ∈ g'.nodes then .ok x else .error .outOfRange) := by
  obtain ⟨h', g', e, h1, -⟩ := C18_lookup Sample.gs_tree Sample.gs_hand (fun b hb => Sample.gs_noRoot 2 b hb) "shoulder"
  exact ⟨h', g', e, h1⟩

example : ∃ h' g', removeJoints "hand" ["slide", "nothing", "shoulder"] Sample.gs = .ok ⟨⟩ (h', g') ∧
    Pruned Sample.gs.1 Sample.gs.2 2 ["slide", "nothing", "shoulder"] h' g' :=
  C18_removeJoints Sample.gs_tree Sample.gs_hand (fun b hb => Sample.gs_noRoot 2 b hb) _

example : removeJoint "nobody" "slide" Sample.gs = .error .outOfRange Sample.gs :=
  ((C18_unknown Sample.gs_tree.toInv "nobody" "slide").1 (by
    rw [Sample.gs_nodes]
    intro p hp n hn
    have key : ∀ p ∈ [0, 1, 2, 3], ∀ n ∈ (Sample.gs.1.nodes[p]?).toList, n.body.name ≠ "nobody" := by decide +kernel
    exact key p hp n (by rw [hn]; simp))).1

/-! ### The name of the root joint -/

namespace Sample

/-- A body linked to the base by a joint with the name of the root joint. -/
def clash : Leaf ℚ :=
  ⟨⟨⟨2, ⟨0, 1, 0⟩, ⟨3, 0, 3, 0, 0, 3⟩⟩, "arm"⟩, Joint.mk' .Rev ⟨1, 0, 0⟩ true "Root", "base", gX, 1, true⟩

def gsClash : GSt ℚ := after clash gs0

theorem gsClash_tree : Tree gsClash.1 gsClash.2 :=
  ((TreeBuild.root Joint.BuiltUnit IsRigid (⟨[], []⟩ : Heap ℚ) "Root" base).attach clash (p1 := 0) (by decide +kernel)
    (by decide +kernel) (by decide +kernel) (.mk _ _ _ _ (by simp [ValidAxis, IsUnit3])) gX_rigid IsRigid.one
    (show clash.attach gs0 = .ok () gsClash from rfl)).tree

end Sample

/-- C18, why the hypothesis on names is needed: on this tree, a joint at the root body has the name of the root joint;
it exists and links the two bodies, but `removeJoint` silently leaves the graph unchanged. -/
theorem C18_root_name_clash : Tree Sample.gsClash.1 Sample.gsClash.2 ∧ Sample.gsClash.2.nodeByName "base" = .ok 0 ∧
    (∃ a, Link Sample.gsClash.1 Sample.gsClash.2 0 a ∧ a.joint.name = "Root" ∧ a.next = 1) ∧
    removeJoint "base" "Root" Sample.gsClash = .ok ⟨⟩ Sample.gsClash ∧
    ¬ ∃ h' g', removeJoint "base" "Root" Sample.gsClash = .ok ⟨⟩ (h', g') ∧
      Pruned Sample.gsClash.1 Sample.gsClash.2 0 ["Root"] h' g' := by
  have e : removeJoint "base" "Root" Sample.gsClash = .ok ⟨⟩ Sample.gsClash := by
    obtain ⟨s, e, hs⟩ := gm_check (x := removeJoint "base" "Root" Sample.gsClash)
      (fun s => decide (s = Sample.gsClash)) (by decide +kernel)
    rw [e, of_decide_eq_true hs]
  have hl : Link Sample.gsClash.1 Sample.gsClash.2 0 ⟨Sample.gX, Joint.mk' .Rev ⟨1, 0, 0⟩ true "Root", 1⟩ := by
    refine ⟨by decide +kernel, (Sample.gsClash.1.nodes[0]?).getD ⟨Sample.base, []⟩, by decide +kernel, by decide +kernel⟩
  refine ⟨Sample.gsClash_tree, by decide +kernel, ⟨_, hl, rfl, rfl⟩, e, ?_⟩
  rintro ⟨h', g', e', P⟩
  have := e.symm.trans e'
  injection this with _ e''
  rw [show g' = Sample.gsClash.2 by rw [e'']] at P
  have h1 : (1 : Nat) ∈ Sample.gsClash.2.nodes := by decide +kernel
  exact Sample.gsClash_tree.toForest.not_kept (Kept.root (by decide +kernel)) hl (by simp [Joint.mk']) ((P.nodes 1).1 h1)

end RBDyn
