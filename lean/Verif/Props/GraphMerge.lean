import Verif.Lemmas.GraphMerge
import Verif.Props.GraphFK
import Verif.Props.GraphRemove

/-! Property C19: `mergeSubBodies` on a tree-shaped graph. -/

namespace RBDyn
variable {K : Type} [Scalar K]

open Graph

/-- Spatial inertia of the bodies of the graph together, in the world frame, when they are placed at `W`. -/
def sysInertia (h : Heap K) (g : Graph) (W : Nat → PTransform K) : RBInertia K :=
  (g.nodes.map (fun x => (W x).transMulI (inertiaAt h x))).sum

/-- The arc found by the search from the root. -/
theorem Graph.Rooted.merge_arc {h : Heap K} {g : Graph} {r : Nat} {d par : Nat → Nat} (R : Rooted h g r d par)
    (F : Forest h g) {t : String} {u : Nat} {a : Arc K} (ha : Link h g u a) (hat : a.joint.name = t)
    (hu : Kept h g [t] r u) : par a.next = u ∧ a.next ≠ r ∧ some a.next ≠ srcOf r par u := by
  rcases R.step u a ha with e | ⟨_, e2, e3⟩
  · exact ⟨e.2.1, e.2.2, (R.child_iff ha).2 e⟩
  · obtain ⟨c, hc, ec, _⟩ := F.paired u a ha
    have hj : JointOf h g par u t := ⟨c, by rw [e2]; exact hc, ec, (F.pair_name ha hc ec).trans hat⟩
    exact absurd (.refl ha.mem) ((R.kept_iff F ha.mem e3 hj u).1 hu).2

/-- C19: let the joint `t` link the body `u` on the side of the root to another body, and let the joints be at the
configuration `Q`, given to `mergeSubBodies` for `t` and the joints beyond `t`. Then `mergeSubBodies` returns; the
result is the graph where `u` has a new inertia, cut at `t` (as by `removeJoint`); and for every placement `W` of the
bodies in space at this configuration the new inertia of `u` is the sum of the inertias of `u` and of all removed
bodies, all expressed in the world frame. -/
theorem C19_merge {h : Heap K} {g : Graph} (T : Tree h g) (H : RigidGraph h g) {root : String} {r : Nat}
    (hr : g.nodeByName root = .ok r) (h0 : ∀ b, Link h g r b → b.joint.name ≠ g.rootName) {t : String} {u : Nat}
    {a : Arc K} (ha : Link h g u a) (hat : a.joint.name = t) (hu : Kept h g [t] r u) {Q : String → List K}
    (hQ : ValidConf h g Q) {jp : SMap (List K)}
    (hjp : ∀ x b, Link h g x b → ¬ Kept h g [t] r x → jp.find b.joint.name = some (Q b.joint.name))
    {W : Nat → PTransform K} (hW : Placement h g Q W) (rW : ∀ x ∈ g.nodes, IsRigid (W x)) :
    ∃ h' g' n I, mergeSubBodies root t jp (h, g) = .ok ⟨⟩ (h', g') ∧ h.nodes[u]? = some n ∧
      Pruned (setInertia h u n I) g r [t] h' g' ∧
      (W u).transMulI I = (W u).transMulI n.body.inertia +
        ((g.nodes.filter (fun x => decide (x ∉ g'.nodes))).map (fun x => (W x).transMulI (inertiaAt h x))).sum := by
  have hf : g.bodyMap.find root = some r := by
    unfold nodeByName SMap.getAt at hr; split at hr <;> simp_all
  have hrm : r ∈ g.nodes := ((T.body root r).1 hf).1
  obtain ⟨d, par, R⟩ := T.rooted hrm
  have F := T.toForest
  have hfuel := T.nodes_length_le_fuel
  obtain ⟨hpar, hvr, hch⟩ := R.merge_arc F ha hat hu
  have hv := F.link_next ha
  obtain ⟨c, hc, ec, _⟩ := F.paired u a ha
  obtain ⟨_, n, hn, han⟩ := id ha
  obtain ⟨i, hi⟩ := List.mem_iff_getElem?.1 han
  have hJ : JointOf h g par a.next t := ⟨a, by rw [hpar]; exact ha, rfl, hat⟩
  have hk := R.kept_iff F hv hvr hJ
  have hjp' : ∀ x t', Below g r par a.next x → JointOf h g par x t' → jp.find t' = some (Q t') := by
    rintro x t' hx ⟨b, hb, rfl, rfl⟩
    obtain ⟨b', hb', eb', _⟩ := F.paired _ b hb
    have := hjp b.next b' hb' (by rw [hk]; exact fun h1 => h1.2 hx)
    rwa [F.pair_name hb hb' eb'] at this
  obtain ⟨N, e1, e2⟩ := mergeSubNodes_spec R F H hQ hW rW (jp := jp) h.fuel u a c ha hch hc ec (by omega)
    (fun x t' hx _ hxt => hjp' x t' hx hxt)
  obtain ⟨I, e3, e4⟩ := mergeInertia_eq F H hQ hW rW ha hc ec
    (by rw [hat]; exact hjp' a.next t (.refl hv) hJ) n.body.inertia N
  have T1 := T.setInertia hn I
  have R1 := R.setInertia hn I
  have hn1 : (setInertia h u n I).nodes[par a.next]? = some ⟨⟨I, n.body.name⟩, n.arcs⟩ := by
    rw [setInertia_get hn, hpar, if_pos rfl]
  have hum : par a.next ∈ g.nodes := by rw [hpar]; exact ha.mem
  obtain ⟨s, e5, -, M⟩ := rmFound_spec R1 T1.toForest hn1 hi hum rfl hvr
  have P := M.pruned R1 T1.toForest hn1 hi hum rfl hvr hat
  refine ⟨_, _, n, I, ?_, hn, P, ?_⟩
  · rw [mergeSubBodies, gm_get]
    dsimp only
    rw [gm_lift_ok (getAt_some hf), gm_bind, searchArc_found R F (mergeFound jp) (x := a.next) (by rw [hpar]; exact hn)
      hi hum rfl hvr hat h.fuel r g.rootName hrm (by omega) (skips_root h0) (R.below_root T.toInv hv) hvr]
    have : mergeFound jp (par a.next) i a (h, g) = .ok ⟨⟩
        (s.1.setArcs (par a.next) ⟨⟨I, n.body.name⟩, n.arcs⟩ (n.arcs.eraseIdx i), s.2) := by
      rw [mergeFound, gm_get]
      dsimp only
      rw [gm_lift_ok (rd_of_getElem? (show h.nodes[par a.next]? = some n by rw [hpar]; exact hn)), gm_lift_ok e1,
        gm_lift_ok e3, gm_set, ← e5, setInertia, hpar]
    rw [this]
    rfl
  · rw [e4, e2]
    congr 1
    have hsrc := R.src_child ha hch
    rw [← hsrc]
    apply List.Perm.sum_eq
    apply List.Perm.map
    refine (List.perm_ext_iff_of_nodup (R.dfs_nodup F _ hv) (T.nodes_nodup.filter _)).2 fun x => ?_
    rw [R.mem_dfs F hv (by omega), List.mem_filter, decide_eq_true_eq, P.nodes, setInertia_kept hn, hk]
    constructor
    · exact fun h1 => ⟨h1.mem, fun h2 => h2.2 h1⟩
    · rintro ⟨h1, h2⟩
      by_contra h3
      exact h2 ⟨h1, h3⟩

/-- C19: the spatial inertia of the whole system (mass, first moment and rotational inertia in the world frame) is the
same before and after `mergeSubBodies`, and the placement of the bodies left is still one of the new graph. -/
theorem C19_total {h : Heap K} {g : Graph} (T : Tree h g) (H : RigidGraph h g) {root : String} {r : Nat}
    (hr : g.nodeByName root = .ok r) (h0 : ∀ b, Link h g r b → b.joint.name ≠ g.rootName) {t : String} {u : Nat}
    {a : Arc K} (ha : Link h g u a) (hat : a.joint.name = t) (hu : Kept h g [t] r u) {Q : String → List K}
    (hQ : ValidConf h g Q) {jp : SMap (List K)}
    (hjp : ∀ x b, Link h g x b → ¬ Kept h g [t] r x → jp.find b.joint.name = some (Q b.joint.name))
    {W : Nat → PTransform K} (hW : Placement h g Q W) (rW : ∀ x ∈ g.nodes, IsRigid (W x)) :
    ∃ h' g', mergeSubBodies root t jp (h, g) = .ok ⟨⟩ (h', g') ∧ Tree h' g' ∧ RigidGraph h' g' ∧ Placement h' g' Q W ∧
      sysInertia h' g' W = sysInertia h g W := by
  obtain ⟨h', g', n, I, e, hn, P, hI⟩ := C19_merge T H hr h0 ha hat hu hQ hjp hW rW
  have T1 := T.setInertia hn I
  have hl : ∀ {x b}, Link h' g' x b → Link h g x b := fun {x b} hb =>
    (setInertia_link hn I).1 ((P.link T1.toInv).1 hb).2.1
  refine ⟨h', g', e, P.tree, ⟨fun x b hb => H.joint x b (hl hb), fun x b hb => H.X x b (hl hb)⟩,
    fun x b c X hb hc => hW x b c X (hl hb) (hl hc), ?_⟩
  let w : Nat → RBInertia K := fun x => (W x).transMulI (inertiaAt h x)
  have hug' : u ∈ g'.nodes := (P.nodes u).2 ((setInertia_kept hn I [t] u).2 hu)
  have hw : ∀ x ∈ g'.nodes, (W x).transMulI (inertiaAt h' x) = if x = u then (W u).transMulI I else w x := by
    intro x hx
    obtain ⟨m, hm⟩ := T1.nodes_get x (P.nodes_order.subset hx)
    rw [inertiaAt_eq (P.cells x hx m hm)]
    rw [setInertia_get hn] at hm
    by_cases e : x = u
    · rw [if_pos e] at hm ⊢
      rw [e, ← Option.some_inj.1 hm]
    · rw [if_neg e] at hm ⊢
      show (W x).transMulI m.body.inertia = (W x).transMulI (inertiaAt h x)
      rw [inertiaAt_eq hm]
  have hg' : g'.nodes.Perm (g.nodes.filter (fun x => decide (x ∈ g'.nodes))) := by
    refine (List.perm_ext_iff_of_nodup P.tree.nodes_nodup (T.nodes_nodup.filter _)).2 fun x => ?_
    rw [List.mem_filter, decide_eq_true_eq]
    exact ⟨fun hx => ⟨P.nodes_order.subset hx, hx⟩, fun hx => hx.2⟩
  have hsplit : (g.nodes.map w).sum = (g'.nodes.map w).sum +
      ((g.nodes.filter (fun x => decide (x ∉ g'.nodes))).map w).sum := by
    rw [(hg'.map w).sum_eq, ← List.sum_append, ← List.map_append]
    apply List.Perm.sum_eq
    apply List.Perm.map
    have := List.filter_append_perm (fun x => decide (x ∈ g'.nodes)) g.nodes
    refine List.Perm.trans this.symm ?_
    simp
  have hu1 : ∀ f : Nat → RBInertia K, (g'.nodes.map f).sum = f u + ((g'.nodes.erase u).map f).sum := by
    intro f
    rw [((List.perm_cons_erase hug').map f).sum_eq, List.map_cons, List.sum_cons]
  rw [sysInertia, sysInertia, show (g.nodes.map fun x => (W x).transMulI (inertiaAt h x)) = g.nodes.map w from rfl, hsplit,
    hu1, hu1 w, hw u hug', if_pos rfl, hI]
  have : (g'.nodes.erase u).map (fun x => (W x).transMulI (inertiaAt h' x)) = (g'.nodes.erase u).map w := by
    refine List.map_congr_left fun x hx => ?_
    rw [P.tree.nodes_nodup.mem_erase_iff] at hx
    rw [hw x hx.2, if_neg hx.1]
  rw [this, show w u = (W u).transMulI n.body.inertia by rw [← inertiaAt_eq hn]]
  abel

/-- C19: if the configuration of `t` or of a joint beyond `t` is missing or has the wrong size, `mergeSubBodies` throws
`out_of_range` or `domain_error` and the graph is unchanged; otherwise it returns. -/
theorem C19_errors {h : Heap K} {g : Graph} (T : Tree h g) (hB : BuiltArcs h g) {root : String} {r : Nat}
    (hr : g.nodeByName root = .ok r) (h0 : ∀ b, Link h g r b → b.joint.name ≠ g.rootName) {t : String} {u : Nat}
    {a : Arc K} (ha : Link h g u a) (hat : a.joint.name = t) (hu : Kept h g [t] r u) (jp : SMap (List K)) :
    ((∃ x b, Link h g x b ∧ ¬ Kept h g [t] r x ∧ ¬ ConfOK jp b.joint) →
      ∃ e, (e = .outOfRange ∨ e = .domainError) ∧ mergeSubBodies root t jp (h, g) = .error e (h, g)) ∧
    ((∀ x b, Link h g x b → ¬ Kept h g [t] r x → ConfOK jp b.joint) →
      ∃ s, mergeSubBodies root t jp (h, g) = .ok ⟨⟩ s) := by
  have hf : g.bodyMap.find root = some r := by
    unfold nodeByName SMap.getAt at hr; split at hr <;> simp_all
  have hrm : r ∈ g.nodes := ((T.body root r).1 hf).1
  obtain ⟨d, par, R⟩ := T.rooted hrm
  have F := T.toForest
  have hfuel := T.nodes_length_le_fuel
  obtain ⟨hpar, hvr, hch⟩ := R.merge_arc F ha hat hu
  have hv := F.link_next ha
  obtain ⟨_, n, hn, han⟩ := id ha
  obtain ⟨i, hi⟩ := List.mem_iff_getElem?.1 han
  have hJ : JointOf h g par a.next t := ⟨a, by rw [hpar]; exact ha, rfl, hat⟩
  have hk := R.kept_iff F hv hvr hJ
  have hum : par a.next ∈ g.nodes := by rw [hpar]; exact ha.mem
  have hok : ∀ {x : Nat} {b c : Arc K}, Link h g x b → Link h g b.next c → c.next = x →
      (ConfOK jp b.joint ↔ ConfOK jp c.joint) := by
    intro x b c hb hc ec
    obtain ⟨c', hc', ec', j, dd, e1, e2⟩ := F.paired x b hb
    obtain rfl := F.arc_unique hc hc' (ec.trans ec'.symm)
    rw [e1, e2]
    exact Iff.rfl
  -- bad joints, seen from either side
  have hbad : (∃ x b, Link h g x b ∧ ¬ Kept h g [t] r x ∧ ¬ ConfOK jp b.joint) ↔
      ∃ x, Below g r par a.next x ∧ BadAt h g par jp x := by
    constructor
    · rintro ⟨x, b, hb, hx, hno⟩
      rw [hk, not_and_not_right] at hx
      have hx := hx hb.mem
      rcases R.step x b hb with ⟨_, q2, q3⟩ | ⟨_, q2, q3⟩
      · exact ⟨b.next, .step (F.link_next hb) q3 (by rw [q2]; exact hx), b, by rw [q2]; exact hb, rfl, hno⟩
      · obtain ⟨c, hc, ec, _⟩ := F.paired x b hb
        exact ⟨x, hx, c, by rw [q2]; exact hc, ec, fun h1 => hno ((hok hb hc ec).2 h1)⟩
    · rintro ⟨x, hx, b, hb, rfl, hno⟩
      obtain ⟨c, hc, ec, _⟩ := F.paired _ b hb
      exact ⟨b.next, c, hc, by rw [hk]; exact fun h1 => h1.2 hx, fun h1 => hno ((hok hb hc ec).2 h1)⟩
  have hself : BadAt h g par jp a.next ↔ ¬ ConfOK jp a.joint := by
    constructor
    · rintro ⟨b', hb', e, hno⟩
      rw [hpar] at hb'
      rwa [F.arc_unique hb' ha e] at hno
    · exact fun hno => ⟨a, by rw [hpar]; exact ha, rfl, hno⟩
  have hrun : mergeSubBodies root t jp (h, g) = match mergeFound jp (par a.next) i a (h, g) with
      | .ok _ s' => .ok ⟨⟩ s'
      | .error e s' => .error e s' := by
    rw [mergeSubBodies, gm_get]
    dsimp only
    rw [gm_lift_ok (getAt_some hf), gm_bind, searchArc_found R F (mergeFound jp) (x := a.next) (by rw [hpar]; exact hn)
      hi hum rfl hvr hat h.fuel r g.rootName hrm (by omega) (skips_root h0) (R.below_root T.toInv hv) hvr]
    cases mergeFound jp (par a.next) i a (h, g) <;> rfl
  have hfound : mergeFound jp (par a.next) i a (h, g) =
      (GM.lift (mergeSubNodes h jp h.fuel a.next a.joint.name) >>= fun sub =>
        GM.lift (mergeInertia n.body.inertia sub a.joint a.X jp) >>= fun I =>
          set (setInertia h (par a.next) n I, g) >>= fun _ => rmFound (par a.next) i a) (h, g) := by
    rw [mergeFound, gm_get]
    dsimp only
    rw [gm_lift_ok (rd_of_getElem? (show h.nodes[par a.next]? = some n by rw [hpar]; exact hn))]
    rfl
  obtain ⟨k1, k2⟩ := mergeSubNodes_cases R F hB (jp := jp) h.fuel u a ha hch (by omega)
  constructor
  · intro hb
    obtain ⟨x, hx, hbx⟩ := hbad.1 hb
    rw [hrun, hfound]
    by_cases hsub : ∃ x, Below g r par a.next x ∧ x ≠ a.next ∧ BadAt h g par jp x
    · obtain ⟨e, he, e1⟩ := k2 hsub
      exact ⟨e, he, by rw [gm_lift_error e1]⟩
    · obtain ⟨s, e1⟩ := k1 fun x hx hne hbx => hsub ⟨x, hx, hne, hbx⟩
      have hxe : x = a.next := by
        by_contra hne
        exact hsub ⟨x, hx, hne, hbx⟩
      obtain ⟨e, he, e2⟩ := (mergeInertia_cases (hB u a ha) n.body.inertia s a.X).2 (hself.1 (hxe ▸ hbx))
      exact ⟨e, he, by rw [gm_lift_ok e1, gm_lift_error e2]⟩
  · intro hall
    have hno : ∀ x, Below g r par a.next x → ¬ BadAt h g par jp x := by
      intro x hx hbx
      obtain ⟨y, b, hb, hy, hn⟩ := hbad.2 ⟨x, hx, hbx⟩
      exact hn (hall y b hb hy)
    obtain ⟨s, e1⟩ := k1 fun x hx _ => hno x hx
    obtain ⟨I, e2⟩ := (mergeInertia_cases (hB u a ha) n.body.inertia s a.X).1
      (not_not.1 (hself.not.1 (hno _ (.refl hv))))
    have hn' : h.nodes[par a.next]? = some n := by rw [hpar]; exact hn
    have T1 := T.setInertia hn' I
    have R1 := R.setInertia hn' I
    have hn1 : (setInertia h (par a.next) n I).nodes[par a.next]? = some ⟨⟨I, n.body.name⟩, n.arcs⟩ := by
      rw [setInertia_get hn', if_pos rfl]
    obtain ⟨s', e5, -, -⟩ := rmFound_spec R1 T1.toForest hn1 hi hum rfl hvr
    rw [hrun, hfound, gm_lift_ok e1, gm_lift_ok e2, gm_set, e5]
    exact ⟨_, rfl⟩

/-- C19: if no link uses a joint named `t` nothing changes; an unknown root throws `out_of_range`. -/
theorem C19_noop {h : Heap K} {g : Graph} (T : Tree h g) {root : String} {r : Nat}
    (hr : g.nodeByName root = .ok r) (h0 : ∀ b, Link h g r b → b.joint.name ≠ g.rootName) {t : String}
    (ht : ∀ u b, Link h g u b → b.joint.name ≠ t) (jp : SMap (List K)) :
    mergeSubBodies root t jp (h, g) = .ok ⟨⟩ (h, g) ∧
      ∀ root', (∀ p ∈ g.nodes, ∀ n, h.nodes[p]? = some n → n.body.name ≠ root') →
        mergeSubBodies root' t jp (h, g) = .error .outOfRange (h, g) := by
  have hf : g.bodyMap.find root = some r := by
    unfold nodeByName SMap.getAt at hr; split at hr <;> simp_all
  have hrm : r ∈ g.nodes := ((T.body root r).1 hf).1
  obtain ⟨d, par, R⟩ := T.rooted hrm
  have hfuel := T.nodes_length_le_fuel
  constructor
  · rw [mergeSubBodies, gm_get]
    dsimp only
    rw [gm_lift_ok (getAt_some hf), gm_bind, searchArc_none R T.toForest (mergeFound jp) h.fuel r g.rootName hrm
      (by omega) (skips_root h0) (fun y _ _ ⟨a, ha, _, e⟩ => ht _ a ha e)]
    rfl
  · intro root' hno
    have hf : g.bodyMap.getAt root' = .error .outOfRange := by
      rw [SMap.getAt]
      cases hf : g.bodyMap.find root' with
      | none => rfl
      | some p =>
        obtain ⟨hp, n, hn, e⟩ := (T.body _ _).1 hf
        exact absurd e (hno p hp n hn)
    rw [mergeSubBodies, gm_get]
    dsimp only
    rw [gm_lift_error hf]

/-! The sample graph: seen from the hand, the base and the slider are merged in the arm. -/

namespace Sample

def mergeConf : SMap (List ℚ) := [("shoulder", [1]), ("slide", [-2])]

/-- The arcs of a body of the sample graph. -/
theorem gs_link {u : Nat} {a : Arc ℚ} (ha : Link gs.1 gs.2 u a) : u ∈ [0, 1, 2, 3] ∧
    a ∈ ((gs.1.nodes[u]?).map GNode.arcs).getD [] := by
  obtain ⟨hu, n, hn, ha⟩ := ha
  rw [gs_nodes] at hu
  exact ⟨hu, by rw [hn]; exact ha⟩

theorem gs_link_of {u : Nat} {a : Arc ℚ} (hu : u ∈ [0, 1, 2, 3]) (ha : a ∈ ((gs.1.nodes[u]?).map GNode.arcs).getD []) :
    Link gs.1 gs.2 u a := by
  refine ⟨by rw [gs_nodes]; exact hu, ?_⟩
  cases hn : gs.1.nodes[u]? with
  | none => rw [hn] at ha; simp at ha
  | some n => rw [hn] at ha; exact ⟨n, rfl, ha⟩

/-- The arc of the arm towards the base. -/
def armBase : Arc ℚ := ⟨1, (Joint.mk' .Rev ⟨1, 0, 0⟩ true "shoulder").setForward false, 0⟩
/-- The arc of the hand towards the arm. -/
def handArm : Arc ℚ := ⟨gX, (Joint.mk' .Spherical ⟨0, 0, 1⟩ true "wrist").setForward true, 1⟩

theorem armBase_link : Link gs.1 gs.2 1 armBase := gs_link_of (by decide) (by decide +kernel)
theorem handArm_link : Link gs.1 gs.2 2 handArm := gs_link_of (by decide) (by decide +kernel)

theorem hand_kept : Kept gs.1 gs.2 ["shoulder"] 2 2 := Kept.root (by decide +kernel)
theorem arm_kept : Kept gs.1 gs.2 ["shoulder"] 2 1 :=
  hand_kept.next gs_tree.toForest handArm_link (by decide +kernel)

theorem mergeConf_ok : ∀ x b, Link gs.1 gs.2 x b → ¬ Kept gs.1 gs.2 ["shoulder"] 2 x →
    mergeConf.find b.joint.name = some (gQ b.joint.name) := by
  intro x b hb hx
  obtain ⟨hxm, hbm⟩ := gs_link hb
  have key : ∀ x ∈ [0, 1, 2, 3], ∀ b ∈ ((gs.1.nodes[x]?).map GNode.arcs).getD [],
      x = 1 ∨ x = 2 ∨ mergeConf.find b.joint.name = some (gQ b.joint.name) := by decide +kernel
  rcases key x hxm b hbm with rfl | rfl | e
  · exact absurd arm_kept hx
  · exact absurd hand_kept hx
  · exact e

end Sample

open Sample in
example : ∃ (W : Nat → PTransform ℚ) (h' : Heap ℚ) (g' : Graph), Placement gs.1 gs.2 gQ W ∧
    mergeSubBodies "hand" "shoulder" mergeConf gs = .ok ⟨⟩ (h', g') ∧ sysInertia h' g' W = sysInertia gs.1 gs.2 W := by
  obtain ⟨mb, m, e, -, -, -, P⟩ := fk_place gs_tree gs_rigidGraph gs_hand (t := .Rev) (axis := ⟨0, 0, 1⟩)
    (X0 := gX) (Xb := gY) ⟨by simp [ValidAxis, IsUnit3], gX_rigid, gY_rigid⟩
  obtain rfl : mbH = mb := by rw [mbH_eq] at e; exact Except.ok.inj e
  obtain ⟨-, mbc', W, -, hW, rW, -⟩ := P gQ mbcH gs_validConf confH
  obtain ⟨h', g', e', -, -, -, hs⟩ := C19_total gs_tree gs_rigidGraph gs_hand (fun b hb => gs_noRoot 2 b hb) armBase_link
    rfl arm_kept gs_validConf mergeConf_ok hW rW
  exact ⟨W, h', g', hW, e', hs⟩

/-- Without the configuration of the slider. -/
example : ∃ e, (e = .outOfRange ∨ e = .domainError) ∧
    mergeSubBodies "hand" "shoulder" [("shoulder", [(1 : ℚ)])] Sample.gs = .error e Sample.gs := by
  have hslide : Link Sample.gs.1 Sample.gs.2 0 ⟨1, (Joint.mk' .Prism ⟨0, 2, 0⟩ true "slide").setForward true, 3⟩ :=
    Sample.gs_link_of (by decide) (by decide +kernel)
  refine (C19_errors Sample.gs_tree Sample.gs_built Sample.gs_hand (fun b hb => Sample.gs_noRoot 2 b hb)
    Sample.armBase_link rfl Sample.arm_kept _).1 ⟨0, _, hslide, ?_, ?_⟩
  · exact Sample.gs_tree.toForest.not_kept Sample.arm_kept Sample.armBase_link (by decide +kernel)
  · rintro ⟨q, hq, -⟩
    revert hq
    show SMap.find [("shoulder", [(1 : ℚ)])] "slide" = some q → False
    intro hq
    have : SMap.find [("shoulder", [(1 : ℚ)])] "slide" = none := by decide +kernel
    rw [this] at hq
    cases hq

example : mergeSubBodies "hand" "nothing" [] Sample.gs = .ok ⟨⟩ Sample.gs :=
  (C19_noop Sample.gs_tree Sample.gs_hand (fun b hb => Sample.gs_noRoot 2 b hb) (by
    intro u b hb
    obtain ⟨hu, hb⟩ := Sample.gs_link hb
    have key : ∀ x ∈ [0, 1, 2, 3], ∀ b ∈ ((Sample.gs.1.nodes[x]?).map GNode.arcs).getD [], b.joint.name ≠ "nothing" := by
      decide +kernel
    exact key u hu b hb) []).1

end RBDyn
