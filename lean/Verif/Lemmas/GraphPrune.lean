import Verif.Lemmas.GraphRemove

/-! The graph left by `removeJoint` and `removeJoints`: what the root still reaches without the removed joints. -/

namespace RBDyn
variable {K : Type}

namespace Graph

/-- The undirected graph of the links whose joint is not named in `L`. -/
def cut (h : Heap K) (g : Graph) (L : List String) : SimpleGraph Nat where
  Adj u v := u ≠ v ∧ ((∃ a, Link h g u a ∧ a.next = v ∧ a.joint.name ∉ L) ∨
    (∃ a, Link h g v a ∧ a.next = u ∧ a.joint.name ∉ L))
  symm := ⟨fun _ _ h => ⟨h.1.symm, h.2.symm⟩⟩
  loopless := ⟨fun _ h => h.1 rfl⟩

/-- The body `x` stays attached to `r` when the joints named in `L` are cut. -/
def Kept (h : Heap K) (g : Graph) (L : List String) (r x : Nat) : Prop := x ∈ g.nodes ∧ (cut h g L).Reachable r x

/-- `(h', g')` is what remains of `(h, g)`, seen from `r`, when the joints named in `L` are cut. -/
structure Pruned [Scalar K] (h : Heap K) (g : Graph) (r : Nat) (L : List String) (h' : Heap K) (g' : Graph) : Prop where
  /-- the bodies left are those still attached to the root, in the same order -/
  nodes : ∀ x, x ∈ g'.nodes ↔ Kept h g L r x
  nodes_order : g'.nodes.Sublist g.nodes
  /-- a joint is removed iff it links a body which is no longer attached -/
  joints : ∀ p, p ∈ g'.joints ↔ p ∈ g.joints ∧
    ¬ ∃ (u : Nat) (a : Arc K) (j : Joint K), Link h g u a ∧ ¬ Kept h g L r u ∧ h.joints[p]? = some j ∧ a.joint.name = j.name
  joints_order : g'.joints.Sublist g.joints
  /-- the bodies left are unchanged and lose the arcs of the cut joints only -/
  cells : ∀ x ∈ g'.nodes, ∀ n, h.nodes[x]? = some n →
    h'.nodes[x]? = some ⟨n.body, n.arcs.filter (fun a => decide (a.joint.name ∉ L))⟩
  /-- nothing else is modified -/
  frame : ∀ x, x ∉ g.nodes → h'.nodes[x]? = h.nodes[x]?
  len : h'.nodes.length = h.nodes.length
  hjoints : h'.joints = h.joints
  rootName : g'.rootName = g.rootName
  tree : Tree h' g'

section
variable [Scalar K] {h h' h'' : Heap K} {g g' g'' : Graph} {r : Nat} {d par : Nat → Nat} {L L' : List String}

theorem Forest.cut_adj (F : Forest h g) {u v : Nat} :
    (cut h g L).Adj u v ↔ ∃ a, Link h g u a ∧ a.next = v ∧ a.joint.name ∉ L := by
  constructor
  · rintro ⟨-, h1 | ⟨a, ha, rfl, hn⟩⟩
    · exact h1
    · obtain ⟨b, hb, e, _⟩ := F.paired v a ha
      exact ⟨b, hb, e, by rw [F.pair_name ha hb e]; exact hn⟩
  · rintro ⟨a, ha, rfl, hn⟩
    exact ⟨(F.noLoop u a ha).symm, .inl ⟨a, ha, rfl, hn⟩⟩

theorem Kept.root (hr : r ∈ g.nodes) : Kept h g L r r := ⟨hr, SimpleGraph.Reachable.refl r⟩

theorem Kept.next (F : Forest h g) {u : Nat} {a : Arc K} (hu : Kept h g L r u) (ha : Link h g u a)
    (hn : a.joint.name ∉ L) : Kept h g L r a.next :=
  ⟨F.link_next ha, hu.2.trans (SimpleGraph.Adj.reachable (F.cut_adj.2 ⟨a, ha, rfl, hn⟩))⟩

/-- Induction over the bodies still attached. -/
theorem Kept.induct (F : Forest h g) {P : Nat → Prop} (h0 : P r)
    (hstep : ∀ u a, Kept h g L r u → P u → Link h g u a → a.joint.name ∉ L → P a.next) (hr : r ∈ g.nodes) {x : Nat}
    (hx : Kept h g L r x) : P x := by
  have hx' := (SimpleGraph.reachable_iff_reflTransGen r x).1 hx.2
  have : Kept h g L r x ∧ P x := by
    clear hx
    induction hx' with
    | refl => exact ⟨Kept.root hr, h0⟩
    | tail _ hadj ih =>
      obtain ⟨a, ha, rfl, hn⟩ := F.cut_adj.1 hadj
      exact ⟨ih.1.next F ha hn, hstep _ a ih.1 ih.2 ha hn⟩
  exact this.2

/-- A cut joint separates its two bodies. -/
theorem Forest.not_kept (F : Forest h g) {u : Nat} {a : Arc K} (hu : Kept h g L r u) (ha : Link h g u a)
    (hn : a.joint.name ∈ L) : ¬ Kept h g L r a.next := by
  intro hv
  have hadj : (simple h g).Adj u a.next := F.adj_iff.2 ⟨a, ha, rfl⟩
  have hb := SimpleGraph.isAcyclic_iff_forall_adj_isBridge.1 F.acyclic hadj
  rw [SimpleGraph.isBridge_iff] at hb
  refine hb ((hu.2.symm.trans hv.2).mono ?_)
  intro x y e
  obtain ⟨b, hb1, rfl, hb3⟩ := F.cut_adj.1 e
  rw [SimpleGraph.deleteEdges_adj]
  refine ⟨F.adj_iff.2 ⟨b, hb1, rfl⟩, ?_⟩
  intro h1
  rw [Set.mem_singleton_iff, Sym2.eq_iff] at h1
  rcases h1 with ⟨rfl, e2⟩ | ⟨rfl, e2⟩
  · rw [F.arc_unique hb1 ha e2] at hb3
    exact hb3 hn
  · rw [F.pair_name ha hb1 e2] at hb3
    exact hb3 hn

omit [Scalar K] in
/-- The links left. -/
theorem link_of_cells (I : Inv h g)
    (hsub : ∀ x ∈ g'.nodes, x ∈ g.nodes)
    (hcells : ∀ x ∈ g'.nodes, ∀ n, h.nodes[x]? = some n →
      h'.nodes[x]? = some ⟨n.body, n.arcs.filter (fun a => decide (a.joint.name ∉ L))⟩) {u : Nat} {a : Arc K} :
    Link h' g' u a ↔ u ∈ g'.nodes ∧ Link h g u a ∧ a.joint.name ∉ L := by
  constructor
  · rintro ⟨hu, n', hn', ha⟩
    obtain ⟨n, hn⟩ := I.nodes_get u (hsub u hu)
    rw [hcells u hu n hn] at hn'
    obtain rfl := Option.some_inj.1 hn'
    rw [List.mem_filter] at ha
    exact ⟨hu, ⟨hsub u hu, n, hn, ha.1⟩, by simpa using ha.2⟩
  · rintro ⟨hu, ⟨hu', n, hn, ha⟩, hnm⟩
    exact ⟨hu, _, hcells u hu n hn, List.mem_filter.2 ⟨ha, by simpa using hnm⟩⟩

theorem Pruned.link (P : Pruned h g r L h' g') (I : Inv h g) {u : Nat} {a : Arc K} :
    Link h' g' u a ↔ u ∈ g'.nodes ∧ Link h g u a ∧ a.joint.name ∉ L :=
  link_of_cells I (fun x hx => ((P.nodes x).1 hx).1) P.cells

/-- A graph with the links of `Pruned` and coherent maps is a tree. -/
theorem prune_tree (F : Forest h g) (hr : r ∈ g.nodes) (I' : Inv h' g')
    (hnodes : ∀ x, x ∈ g'.nodes ↔ Kept h g L r x)
    (hcells : ∀ x ∈ g'.nodes, ∀ n, h.nodes[x]? = some n →
      h'.nodes[x]? = some ⟨n.body, n.arcs.filter (fun a => decide (a.joint.name ∉ L))⟩)
    (hreg : ∀ u a, Link h' g' u a → ∃ p, g'.jointMap.find a.joint.name = some p) : Tree h' g' := by
  have hsub : ∀ x ∈ g'.nodes, x ∈ g.nodes := fun x hx => ((hnodes x).1 hx).1
  have hlink : ∀ u a, Link h' g' u a ↔ u ∈ g'.nodes ∧ Link h g u a ∧ a.joint.name ∉ L :=
    fun u a => link_of_cells F.toInv hsub hcells
  have F' : Forest h' g' := by
    refine { I' with acyclic := ?_, noLoop := ?_, single := ?_, paired := ?_, registered := hreg, jointOnce := ?_ }
    · refine F.acyclic.anti fun u v e => ?_
      obtain ⟨hne, ⟨a, ha, e⟩ | ⟨a, ha, e⟩⟩ := e
      · exact ⟨hne, .inl ⟨a, ((hlink _ _).1 ha).2.1, e⟩⟩
      · exact ⟨hne, .inr ⟨a, ((hlink _ _).1 ha).2.1, e⟩⟩
    · exact fun u a ha => F.noLoop u a ((hlink _ _).1 ha).2.1
    · intro u hu n' hn'
      obtain ⟨n, hn⟩ := F.nodes_get u (hsub u hu)
      rw [hcells u hu n hn] at hn'
      obtain rfl := Option.some_inj.1 hn'
      exact (F.single u (hsub u hu) n hn).sublist (List.filter_sublist.map _)
    · intro u a ha
      obtain ⟨hu, ha', hnm⟩ := (hlink _ _).1 ha
      obtain ⟨b, hb, e, hj⟩ := F.paired u a ha'
      refine ⟨b, (hlink _ _).2 ⟨?_, hb, ?_⟩, e, hj⟩
      · exact (hnodes _).2 (((hnodes u).1 hu).next F ha' hnm)
      · rw [F.pair_name ha' hb e]; exact hnm
    · exact fun u v a b ha hb e => F.jointOnce u v a b ((hlink _ _).1 ha).2.1 ((hlink _ _).1 hb).2.1 e
  refine { F' with connected := ?_ }
  have hto : ∀ v ∈ g'.nodes, (simple h' g').Reachable r v := by
    intro v hv
    refine Kept.induct (L := L) (P := fun v => (simple h' g').Reachable r v) F (SimpleGraph.Reachable.refl r) ?_ hr
      ((hnodes v).1 hv)
    intro u a hu ih ha hnm
    exact ih.trans (SimpleGraph.Adj.reachable (F'.adj_iff.2 ⟨a, (hlink _ _).2 ⟨(hnodes u).2 hu, ha, hnm⟩, rfl⟩))
  exact fun u hu v hv => (hto u hu).symm.trans (hto v hv)

/-- Nothing to cut. -/
theorem Pruned.refl (T : Tree h g) (hr : r ∈ g.nodes) (hL : ∀ u a, Link h g u a → a.joint.name ∉ L) :
    Pruned h g r L h g := by
  have hk : ∀ x ∈ g.nodes, Kept h g L r x := by
    intro x hx
    refine ⟨hx, (T.connected r hr x hx).mono ?_⟩
    intro u v e
    obtain ⟨a, ha, e'⟩ := T.adj_iff.1 e
    exact T.cut_adj.2 ⟨a, ha, e', hL u a ha⟩
  refine ⟨fun x => ⟨hk x, fun h => h.1⟩, List.Sublist.refl _, ?_, List.Sublist.refl _, ?_, fun _ _ => rfl, rfl, rfl, rfl, T⟩
  · intro p
    constructor
    · rintro hp
      exact ⟨hp, fun ⟨u, a, j, ha, hn, _⟩ => hn (hk u ha.mem)⟩
    · exact fun h => h.1
  · intro x hx n hn
    rw [hn]
    congr 1
    have : n.arcs.filter (fun a => decide (a.joint.name ∉ L)) = n.arcs := by
      rw [List.filter_eq_self]
      intro a ha
      simpa using hL x a ⟨hx, n, hn, ha⟩
    rw [this]

/-- Cutting `L`, then `L'`. -/
theorem Pruned.trans (F : Forest h g) (hr : r ∈ g.nodes) (P : Pruned h g r L h' g') (P' : Pruned h' g' r L' h'' g'') :
    Pruned h g r (L ++ L') h'' g'' := by
  have hlink : ∀ {u a}, Link h' g' u a ↔ u ∈ g'.nodes ∧ Link h g u a ∧ a.joint.name ∉ L := P.link F.toInv
  have hk : ∀ x, Kept h g (L ++ L') r x ↔ Kept h' g' L' r x := by
    have hr' : r ∈ g'.nodes := (P.nodes r).2 (Kept.root hr)
    intro x
    constructor
    · intro hx
      refine Kept.induct (L := L ++ L') (P := fun x => Kept h' g' L' r x) F (Kept.root hr') ?_ hr hx
      intro u a _ ih ha hnm
      rw [List.mem_append, not_or] at hnm
      exact ih.next P.tree.toForest (hlink.2 ⟨ih.1, ha, hnm.1⟩) hnm.2
    · intro hx
      refine Kept.induct (L := L') (P := fun x => Kept h g (L ++ L') r x) P.tree.toForest (Kept.root hr) ?_ hr' hx
      intro u a _ ih ha hnm
      obtain ⟨_, ha', hn1⟩ := hlink.1 ha
      exact ih.next F ha' (by rw [List.mem_append, not_or]; exact ⟨hn1, hnm⟩)
  refine ⟨fun x => (P'.nodes x).trans (hk x).symm, P'.nodes_order.trans P.nodes_order, ?_,
    P'.joints_order.trans P.joints_order, ?_, ?_, P'.len.trans P.len, P'.hjoints.trans P.hjoints,
    P'.rootName.trans P.rootName, P'.tree⟩
  · intro p
    rw [P'.joints, P.joints, P.hjoints]
    constructor
    · rintro ⟨⟨h1, h2⟩, h3⟩
      refine ⟨h1, ?_⟩
      rintro ⟨u, a, j, ha, hu, hj, e⟩
      rw [hk] at hu
      by_cases hu1 : Kept h g L r u
      · by_cases hnm : a.joint.name ∈ L
        · obtain ⟨c, hc, ec, _⟩ := F.paired u a ha
          exact h2 ⟨a.next, c, j, hc, F.not_kept hu1 ha hnm, hj, (F.pair_name ha hc ec).trans e⟩
        · exact h3 ⟨u, a, j, hlink.2 ⟨(P.nodes u).2 hu1, ha, hnm⟩, hu, hj, e⟩
      · exact h2 ⟨u, a, j, ha, hu1, hj, e⟩
    · rintro ⟨h1, h2⟩
      refine ⟨⟨h1, ?_⟩, ?_⟩
      · rintro ⟨u, a, j, ha, hu, hj, e⟩
        refine h2 ⟨u, a, j, ha, ?_, hj, e⟩
        rw [hk]
        exact fun hh => hu ((P.nodes u).1 hh.1)
      · rintro ⟨u, a, j, ha, hu, hj, e⟩
        exact h2 ⟨u, a, j, (hlink.1 ha).2.1, (hk u).not.2 hu, hj, e⟩
  · intro x hx n hn
    have hx' := ((P'.nodes x).1 hx).1
    rw [P'.cells x hx _ (P.cells x hx' n hn)]
    simp only [List.filter_filter, List.mem_append, not_or]
    congr 3
    funext a
    rw [Bool.and_comm]
    simp
  · intro x hx
    rw [P'.frame x (fun h1 => hx ((P.nodes x).1 h1).1), P.frame x hx]

/-! ### removeJoint -/

/-- The bodies below the joint are those no longer attached. -/
theorem Rooted.kept_iff (R : Rooted h g r d par) (F : Forest h g) {x : Nat} {t : String} (hxm : x ∈ g.nodes)
    (hxr : x ≠ r) (hxt : JointOf h g par x t) (y : Nat) :
    Kept h g [t] r y ↔ y ∈ g.nodes ∧ ¬ Below g r par x y := by
  constructor
  · intro hy
    refine ⟨hy.1, ?_⟩
    refine Kept.induct (L := [t]) (P := fun y => ¬ Below g r par x y) F ?_ ?_ R.mem hy
    · intro hb
      have h1 := hb.d_le R
      have h2 := R.up_d hxm hxr
      rw [R.d0] at h1; omega
    · intro u a hu ih ha hn hb
      rcases R.step u a ha with ⟨_, e2, e3⟩ | ⟨_, e2, e3⟩
      · cases hb with
        | refl _ =>
          obtain ⟨b, hb1, hb2, hb3⟩ := hxt
          rw [e2] at hb1
          rw [F.arc_unique hb1 ha hb2] at hb3
          exact hn (by simp [hb3])
        | step _ _ hb' => exact ih (e2 ▸ hb')
      · exact ih (.step hu.1 e3 (e2 ▸ hb))
  · rintro ⟨hy, hnb⟩
    obtain ⟨k, hk⟩ : ∃ k, d y = k := ⟨_, rfl⟩
    induction k using Nat.strong_induction_on generalizing y with
    | _ k ih =>
      by_cases e : y = r
      · rw [e]; exact Kept.root R.mem
      · have hd := R.up_d hy e
        have hpm := R.par_mem F.toInv hy e
        have hnp : ¬ Below g r par x (par y) := fun hb => hnb (.step hy e hb)
        have hp := ih (d (par y)) (by omega) (par y) hpm hnp rfl
        obtain ⟨a, ha, rfl⟩ := R.exists_arc F hy e
        refine hp.next F ha ?_
        rw [List.mem_singleton]
        intro et
        have := R.jointOf_inj F hxm hxr hy e hxt ⟨a, ha, rfl, et⟩
        exact hnb (this ▸ .refl hxm)

omit [Scalar K] in
theorem eraseIdx_eq_filter {l : List (Arc K)} {i : Nat} {a : Arc K} {t : String} (hl : l.Nodup) (hi : l[i]? = some a)
    (ht : a.joint.name = t) (hu : ∀ b ∈ l, b.joint.name = t → b = a) :
    l.eraseIdx i = l.filter (fun b => decide (b.joint.name ∉ [t])) := by
  classical
  obtain ⟨hlt, e⟩ := List.getElem?_eq_some_iff.1 hi
  rw [← hl.erase_getElem i hlt, e, hl.erase_eq_filter]
  refine List.filter_congr fun b hb => ?_
  by_cases hba : b = a
  · subst hba; simp [ht]
  · have : b.joint.name ≠ t := fun e => hba (hu b hb e)
    simp [hba, this]

/-- The state after `rmFound`. -/
theorem Rem.pruned (R : Rooted h g r d par) (F : Forest h g) {s : GSt K} {x i : Nat} {a : Arc K} {nx : GNode K}
    {t : String} (hnx : h.nodes[par x]? = some nx) (hi : nx.arcs[i]? = some a) (hpm : par x ∈ g.nodes)
    (hax : a.next = x) (hxr : x ≠ r) (ht : a.joint.name = t)
    (M : Rem h g (Below g r par x) (fun t => ∃ y, Below g r par x y ∧ JointOf h g par y t) s) :
    Pruned h g r [t] (s.1.setArcs (par x) nx (nx.arcs.eraseIdx i)) s.2 := by
  have ha : Link h g (par x) a := ⟨hpm, nx, hnx, List.mem_of_getElem? hi⟩
  have hxm : x ∈ g.nodes := hax ▸ F.link_next ha
  have hd := R.up_d hxm hxr
  have hxt : JointOf h g par x t := ⟨a, ha, hax, ht⟩
  have hk := R.kept_iff F hxm hxr hxt
  have hnb : ¬ Below g r par x (par x) := fun hb => by have := hb.d_le R; omega
  have hrb : ∀ y, Below g r par x y → y ≠ r := by
    rintro y hb rfl
    have := hb.d_le R
    rw [R.d0] at this; omega
  have hget : ∀ y, (s.1.setArcs (par x) nx (nx.arcs.eraseIdx i)).nodes[y]? =
      if par x = y then some ⟨nx.body, nx.arcs.eraseIdx i⟩ else s.1.nodes[y]? := by
    intro y
    dsimp only [Heap.setArcs]
    rw [List.getElem?_set]
    by_cases e : par x = y
    · rw [if_pos e, if_pos e, if_pos (by rw [M.len]; exact F.node_lt hpm)]
    · rw [if_neg e, if_neg e]
  have hnodes : ∀ y, y ∈ s.2.nodes ↔ Kept h g [t] r y := by
    intro y
    rw [M.nodes, List.mem_filter, hk]
    simp
  have hcells : ∀ y ∈ s.2.nodes, ∀ n, h.nodes[y]? = some n →
      (s.1.setArcs (par x) nx (nx.arcs.eraseIdx i)).nodes[y]? =
        some ⟨n.body, n.arcs.filter (fun a => decide (a.joint.name ∉ [t]))⟩ := by
    intro y hy n hn
    obtain ⟨hym, hyb⟩ := (hk y).1 ((hnodes y).1 hy)
    rw [hget]
    by_cases e : par x = y
    · rw [if_pos e]
      subst e
      obtain rfl := Option.some_inj.1 (hnx.symm.trans hn)
      rw [eraseIdx_eq_filter (F.single _ hpm nx hnx).of_map hi ht]
      intro b hb e
      rcases F.jointOnce _ _ b a ⟨hpm, nx, hnx, hb⟩ ha (e.trans ht.symm) with ⟨-, h1⟩ | ⟨h1, -⟩
      · exact h1
      · rw [hax] at h1
        rw [h1] at hd; omega
    · rw [if_neg e, M.off y hyb, hn]
      congr 1
      have : n.arcs.filter (fun a => decide (a.joint.name ∉ [t])) = n.arcs := by
        rw [List.filter_eq_self]
        intro b hb
        simp only [List.mem_singleton, decide_eq_true_eq]
        intro e'
        rcases F.jointOnce _ _ b a ⟨hym, n, hn, hb⟩ ha (e'.trans ht.symm) with ⟨h1, -⟩ | ⟨h1, -⟩
        · exact e h1.symm
        · rw [hax] at h1
          rw [h1] at hyb
          exact hyb (.refl hxm)
      rw [this]
  have hB : ∀ t', (∃ y, Below g r par x y ∧ JointOf h g par y t') ↔
      ∃ (u : Nat) (b : Arc K), Link h g u b ∧ ¬ Kept h g [t] r u ∧ b.joint.name = t' := by
    intro t'
    constructor
    · rintro ⟨y, hy, b, hb, rfl, e⟩
      obtain ⟨c, hc, ec, _⟩ := F.paired _ b hb
      refine ⟨b.next, c, hc, ?_, (F.pair_name hb hc ec).trans e⟩
      rw [hk]; exact fun h1 => h1.2 hy
    · rintro ⟨u, b, hb, hu, e⟩
      rw [hk, not_and_not_right] at hu
      have hu := hu hb.mem
      rcases R.step u b hb with ⟨_, e2, e3⟩ | ⟨_, e2, e3⟩
      · exact ⟨b.next, .step (F.link_next hb) e3 (by rw [e2]; exact hu), b, by rw [e2]; exact hb, rfl, e⟩
      · obtain ⟨c, hc, ec, _⟩ := F.paired u b hb
        exact ⟨u, hu, c, by rw [e2]; exact hc, ec, (F.pair_name hb hc ec).trans e⟩
  have hjoints : ∀ p, p ∈ s.2.joints ↔ p ∈ g.joints ∧
      ¬ ∃ j, h.joints[p]? = some j ∧ ∃ y, Below g r par x y ∧ JointOf h g par y j.name := by
    intro p
    rw [M.joints, List.mem_filter]
    simp
  have hsub : ∀ y ∈ s.2.nodes, y ∈ g.nodes := fun y hy => ((hnodes y).1 hy).1
  have I' : Inv (s.1.setArcs (par x) nx (nx.arcs.eraseIdx i)) s.2 := by
    refine ⟨?_, ?_, ?_, ?_, ?_, ?_, ?_⟩
    · rw [M.nodes]; exact F.nodes_nodup.filter _
    · rw [M.joints]; exact F.joints_nodup.filter _
    · intro u p
      rw [M.body, F.body]
      constructor
      · rintro ⟨⟨h1, n, hn, e⟩, h2⟩
        have hp : p ∈ s.2.nodes := (hnodes p).2 ((hk p).2 ⟨h1, h2⟩)
        exact ⟨hp, _, hcells p hp n hn, e⟩
      · rintro ⟨hp, n', hn', e⟩
        obtain ⟨h1, h2⟩ := (hk p).1 ((hnodes p).1 hp)
        obtain ⟨n, hn⟩ := F.nodes_get p h1
        rw [hcells p hp n hn] at hn'
        obtain rfl := Option.some_inj.1 hn'
        exact ⟨⟨h1, n, hn, e⟩, h2⟩
    · intro u p
      rw [M.joint, F.joint, hjoints]
      have : (s.1.setArcs (par x) nx (nx.arcs.eraseIdx i)).joints = h.joints := M.hjoints
      rw [this]
      constructor
      · rintro ⟨⟨h1, j, hj, e⟩, h2⟩
        refine ⟨⟨h1, ?_⟩, j, hj, e⟩
        rintro ⟨j', hj', h3⟩
        obtain rfl := Option.some_inj.1 (hj.symm.trans hj')
        exact h2 (e ▸ h3)
      · rintro ⟨⟨h1, h2⟩, j, hj, e⟩
        exact ⟨⟨h1, j, hj, e⟩, fun h3 => h2 ⟨j, hj, by rw [e]; exact h3⟩⟩
    · intro p hp
      obtain ⟨n, hn⟩ := F.nodes_get p (hsub p hp)
      exact ⟨_, hcells p hp n hn⟩
    · intro p hp
      obtain ⟨j, hj⟩ := F.joints_get p ((hjoints p).1 hp).1
      exact ⟨j, by rw [show (s.1.setArcs (par x) nx (nx.arcs.eraseIdx i)).joints = h.joints from M.hjoints]; exact hj⟩
    · intro p hp n' hn' b hb
      obtain ⟨_, hb', hn⟩ := (link_of_cells F.toInv hsub hcells).1 ⟨hp, n', hn', hb⟩
      exact (hnodes _).2 (((hnodes p).1 hp).next F hb' hn)
  refine ⟨hnodes, ?_, ?_, ?_, hcells, ?_, ?_, M.hjoints, M.root, ?_⟩
  · rw [M.nodes]; exact List.filter_sublist
  · intro p
    rw [hjoints]
    refine and_congr_right fun _ => not_congr ?_
    constructor
    · rintro ⟨j, hj, h1⟩
      obtain ⟨u, b, hb, hu, e⟩ := (hB _).1 h1
      exact ⟨u, b, j, hb, hu, hj, e⟩
    · rintro ⟨u, b, j, hb, hu, hj, e⟩
      exact ⟨j, hj, (hB _).2 ⟨u, b, hb, hu, e⟩⟩
  · rw [M.joints]; exact List.filter_sublist
  · intro y hy
    rw [hget, if_neg (by rintro rfl; exact hy hpm), M.off y (fun hb => hy hb.mem)]
  · dsimp only [Heap.setArcs]; rw [List.length_set, M.len]
  · refine prune_tree F R.mem I' hnodes hcells ?_
    intro u b hb
    obtain ⟨hu, hb', hn⟩ := (link_of_cells F.toInv hsub hcells).1 hb
    obtain ⟨p, hp⟩ := F.registered u b hb'
    refine ⟨p, (M.joint _ p).2 ⟨hp, ?_⟩⟩
    rw [hB]
    rintro ⟨v, c, hc, hv, e⟩
    rcases F.jointOnce _ _ b c hb' hc e.symm with ⟨rfl, -⟩ | ⟨-, e2⟩
    · exact hv ((hnodes _).1 hu)
    · exact hv (e2 ▸ ((hnodes _).1 hu).next F hb' hn)

theorem getAt_some {α : Type} {m : SMap α} {k : String} {v : α} (hm : m.find k = some v) : m.getAt k = .ok v := by
  rw [SMap.getAt, hm]

/-- `removeJoint` cuts the joint. -/
theorem removeJoint_spec (T : Tree h g) {root t : String} (hr : g.nodeByName root = .ok r)
    (h0 : ∀ b, Link h g r b → b.joint.name ≠ g.rootName) :
    ∃ h' g', removeJoint root t (h, g) = .ok ⟨⟩ (h', g') ∧ Pruned h g r [t] h' g' ∧
      ((∀ u b, Link h g u b → b.joint.name ≠ t) → h' = h ∧ g' = g) := by
  have hf : g.bodyMap.find root = some r := by
    unfold nodeByName SMap.getAt at hr; split at hr <;> simp_all
  have hrm : r ∈ g.nodes := ((T.body root r).1 hf).1
  obtain ⟨d, par, R⟩ := T.rooted hrm
  have F := T.toForest
  have hfuel : g.nodes.length ≤ h.fuel + d r := by have := T.nodes_length_le_fuel; omega
  by_cases hex : ∃ u b, Link h g u b ∧ b.joint.name = t
  · obtain ⟨x, hxm, hxr, hxt⟩ : ∃ x, x ∈ g.nodes ∧ x ≠ r ∧ JointOf h g par x t := by
      obtain ⟨u, b, hb, e⟩ := hex
      rcases R.step u b hb with ⟨_, e2, e3⟩ | ⟨_, e2, e3⟩
      · exact ⟨b.next, F.link_next hb, e3, b, by rw [e2]; exact hb, rfl, e⟩
      · obtain ⟨c, hc, ec, _⟩ := F.paired u b hb
        exact ⟨u, hb.mem, e3, c, by rw [e2]; exact hc, ec, (F.pair_name hb hc ec).trans e⟩
    obtain ⟨a, ⟨hpm, nx, hnx, ham⟩, hax, hat⟩ := hxt
    obtain ⟨i, hi⟩ := List.mem_iff_getElem?.1 ham
    obtain ⟨p, hp⟩ := F.registered _ a ⟨hpm, nx, hnx, ham⟩
    rw [hat] at hp
    obtain ⟨s, e, _, M⟩ := rmFound_spec R F hnx hi hpm hax hxr
    refine ⟨_, _, ?_, M.pruned R F hnx hi hpm hax hxr hat, ?_⟩
    · rw [removeJoint, gm_get]
      dsimp only
      rw [gm_lift_ok (getAt_some hf), if_pos (by rw [hp]; rfl), rmArc,
        gm_bind, searchArc_found R F rmFound hnx hi hpm hax hxr hat h.fuel r g.rootName hrm hfuel (skips_root h0)
          (R.below_root T.toInv hxm) hxr, e]
      rfl
    · intro hno
      exact absurd hat (hno _ a ⟨hpm, nx, hnx, ham⟩)
  · have hno : ∀ u b, Link h g u b → b.joint.name ≠ t := fun u b hb e => hex ⟨u, b, hb, e⟩
    refine ⟨h, g, ?_, Pruned.refl T hrm (fun u a ha => by rw [List.mem_singleton]; exact hno u a ha), fun _ => ⟨rfl, rfl⟩⟩
    rw [removeJoint, gm_get]
    dsimp only
    rw [gm_lift_ok (getAt_some hf)]
    by_cases hs : (g.jointMap.find t).isSome
    · rw [if_pos hs, rmArc, gm_bind, searchArc_none R F rmFound h.fuel r g.rootName hrm hfuel (skips_root h0)
        (fun y _ _ ⟨a, ha, _, e⟩ => hno _ a ha e)]
      rfl
    · rw [if_neg hs]; rfl

theorem Pruned.root_find (T : Tree h g) {root : String} (P : Pruned h g r L h' g') (hr : g.nodeByName root = .ok r) :
    g'.nodeByName root = .ok r := by
  have hf : g.bodyMap.find root = some r := by
    unfold nodeByName SMap.getAt at hr; split at hr <;> simp_all
  obtain ⟨hrm, n, hn, e⟩ := (T.body root r).1 hf
  have hr' : r ∈ g'.nodes := (P.nodes r).2 (Kept.root hrm)
  exact getAt_some ((P.tree.body root r).2 ⟨hr', _, P.cells r hr' n hn, e⟩)

/-- `removeJoints` cuts the joints. -/
theorem removeJoints_spec (T : Tree h g) {root : String} (hr : g.nodeByName root = .ok r)
    (h0 : ∀ b, Link h g r b → b.joint.name ≠ g.rootName) (L : List String) :
    ∃ h' g', removeJoints root L (h, g) = .ok ⟨⟩ (h', g') ∧ Pruned h g r L h' g' := by
  have hf : g.bodyMap.find root = some r := by
    unfold nodeByName SMap.getAt at hr; split at hr <;> simp_all
  have hrm : r ∈ g.nodes := ((T.body root r).1 hf).1
  obtain ⟨s', e, P⟩ := gm_forM (fun name : String => do
    let (_, g) ← (get : GM K (GSt K))
    if (g.jointMap.find name).isSome then removeJoint root name else pure ()) L
    (fun pre s => Pruned h g r pre s.1 s.2) (h, g) (Pruned.refl T hrm (by simp)) (by
      intro pre t rest s _ P
      obtain ⟨h1, g1⟩ := s
      have hlink : ∀ {u a}, Link h1 g1 u a ↔ u ∈ g1.nodes ∧ Link h g u a ∧ a.joint.name ∉ pre := P.link T.toInv
      obtain ⟨h2, g2, e2, P2, P3⟩ := removeJoint_spec (t := t) P.tree (P.root_find T hr) (fun b hb => by
        rw [show g1.rootName = g.rootName from P.rootName]
        exact h0 b (hlink.1 hb).2.1)
      refine ⟨(h2, g2), ?_, P.trans T.toForest hrm P2⟩
      rw [gm_get]
      dsimp only
      by_cases hs : (g1.jointMap.find t).isSome
      · rw [if_pos hs]; exact e2
      · rw [if_neg hs]
        obtain ⟨rfl, rfl⟩ := P3 (fun u b hb e => by
          obtain ⟨p, hp⟩ := P.tree.registered u b hb
          rw [e] at hp
          rw [show g1.jointMap.find t = some p from hp] at hs
          exact hs rfl)
        rfl)
  refine ⟨s'.1, s'.2, ?_, P⟩
  rw [removeJoints, gm_get]
  dsimp only
  rw [gm_lift_ok (getAt_some hf)]
  exact e

end
end Graph
end RBDyn
