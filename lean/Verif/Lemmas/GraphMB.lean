import Verif.Lemmas.GraphMake
import Verif.Lemmas.GraphBuild

/-! The `MultiBody` made from a tree. -/

namespace RBDyn
variable {K : Type}

theorem PTransform.one_transMulI [Scalar K] (a : RBInertia K) : (1 : PTransform K).transMulI a = a := by
  apply RBInertia.ext_mulMotion
  intro v
  rw [transMulI_mulMotion IsRigid.one]
  simp

namespace Graph

variable [Scalar K] {h : Heap K} {g : Graph} {r : Nat} {d par : Nat → Nat}

/-- The vectors of a `MultiBody`, as filled by `makeTree`. -/
def stOf (mb : MultiBody K) : TreeSt K := ⟨mb.bodies, mb.joints, mb.pred, mb.succ, mb.parent, mb.Xt⟩

/-- The joints of the links come from constructors and direction changes. -/
def BuiltArcs (h : Heap K) (g : Graph) : Prop := ∀ (u : Nat) (a : Arc K), Link h g u a → a.joint.Built

theorem TreeRel.pred_lt {J : Joint K} {X0 Xb : PTransform K} {N : List Nat} {st : TreeSt K}
    (t : TreeRel h g r par J X0 Xb N st) {i : Nat} {p : Int} (hp : st.pred[i]? = some p) : -1 ≤ p ∧ p < i := by
  have hi : i < N.length := by
    have := (List.getElem?_eq_some_iff.1 hp).1
    rw [t.npred] at this; exact this
  obtain ⟨x, hx⟩ : ∃ x, N[i]? = some x := ⟨N[i], List.getElem?_eq_getElem hi⟩
  have E := t.entry i x hx
  by_cases hr : x = r
  · obtain ⟨-, -, h1, -⟩ := E.root hr
    rw [hp] at h1
    obtain rfl := Option.some_inj.1 h1
    omega
  · obtain ⟨k, a, -, hk, -, -, -, h1, -⟩ := E.child hr
    rw [hp] at h1
    obtain rfl := Option.some_inj.1 h1
    omega

theorem TreeRel.parent_eq {J : Joint K} {X0 Xb : PTransform K} {N : List Nat} {st : TreeSt K}
    (t : TreeRel h g r par J X0 Xb N st) : st.parent = st.pred := by
  apply List.ext_getElem?
  intro i
  by_cases hi : i < N.length
  · obtain ⟨x, hx⟩ : ∃ x, N[i]? = some x := ⟨N[i], List.getElem?_eq_getElem hi⟩
    have E := t.entry i x hx
    by_cases hr : x = r
    · obtain ⟨-, -, h1, h2, -⟩ := E.root hr
      rw [h1, h2]
    · obtain ⟨k, a, -, hk, -, -, -, h1, h2, -⟩ := E.child hr
      rw [h1, h2]
  · rw [List.getElem?_eq_none (by rw [t.nparent]; omega), List.getElem?_eq_none (by rw [t.npred]; omega)]

theorem TreeRel.joint_mem {J : Joint K} {X0 Xb : PTransform K} {N : List Nat} {st : TreeSt K}
    (t : TreeRel h g r par J X0 Xb N st) {j : Joint K} (hj : j ∈ st.joints) :
    j = J ∨ ∃ u a, Link h g u a ∧ j = a.joint := by
  obtain ⟨i, hi, rfl⟩ := List.mem_iff_getElem.1 hj
  have hi' : i < N.length := by rw [← t.njoints]; exact hi
  obtain ⟨x, hx⟩ : ∃ x, N[i]? = some x := ⟨N[i], List.getElem?_eq_getElem hi'⟩
  have E := t.entry i x hx
  rw [← Option.some_inj, ← List.getElem?_eq_getElem hi]
  by_cases hr : x = r
  · left
    exact (E.root hr).2.1
  · obtain ⟨k, a, -, hk, ha, -, h1, -⟩ := E.child hr
    right
    refine ⟨_, a, ha, ?_⟩
    rw [← Option.some_inj, ← List.getElem?_eq_getElem hi, h1]

/-- `makeMultiBody` on a tree gives a well-formed `MultiBody` whose entries are those of the visited nodes. -/
theorem Rooted.makeMultiBody (R : Rooted h g r d par) (F : Forest h g) (hB : BuiltArcs h g) {root : String}
    (hr : g.bodyMap.find root = some r) (t : JointType) (axis : Vec3 K) (X0 Xb : PTransform K) :
    ∃ mb, Graph.makeMultiBody h g root t axis X0 Xb = .ok mb ∧ mb.WF ∧
      CtorInv mb.bodies mb.joints mb.pred mb.succ mb.parent mb.Xt mb.bodies.length mb ∧
      TreeRel h g r par (Joint.mk' t axis true g.rootName) X0 Xb (dfs h h.fuel r none) (stOf mb) := by
  obtain ⟨st, ht, e⟩ := makeMultiBody_spec R F hr t axis X0 Xb
  have hj : ∀ x ∈ st.joints, x.Built := by
    intro x hx
    rcases ht.joint_mem hx with rfl | ⟨u, a, ha, rfl⟩
    · exact .mk _ _ _ _
    · exact hB u a ha
  obtain ⟨mb, h1, wf, e1, e2, e3, e4, e5, e6⟩ := MultiBody.mk'_wf st.bodies st.joints st.pred st.succ st.parent st.Xt
    (ht.njoints.trans ht.nbodies.symm) (ht.npred.trans ht.nbodies.symm) (ht.nXt.trans ht.nbodies.symm)
    (fun i hi => by
      have hi' : i < (dfs h h.fuel r none).length := by rw [← ht.nbodies]; exact hi
      exact (ht.entry i _ (List.getElem?_eq_getElem hi')).succ)
    (fun i p hp => ht.pred_lt hp) ht.parent_eq hj
  have hm : mb.Made := ⟨_, _, _, _, _, _, ht.njoints.trans ht.nbodies.symm, hj, h1⟩
  refine ⟨mb, by rw [e, h1], wf, hm.inv, ?_⟩
  have : stOf mb = st := by unfold stOf; rw [e1, e2, e3, e4, e5, e6]
  rw [this]; exact ht

/-! ### Name lookups in the `MultiBody` -/

section
omit [Scalar K]

theorem CtorInv.body_find {mb : MultiBody K} (c : CtorInv mb.bodies mb.joints mb.pred mb.succ mb.parent mb.Xt
    mb.bodies.length mb) (hn : ∀ (i i' : Nat) (b b' : Body K), mb.bodies[i]? = some b → mb.bodies[i']? = some b' → b.name = b'.name → i = i')
    {i : Nat} {b : Body K} (hb : mb.bodies[i]? = some b) : mb.sBodyIndexByName b.name = .ok i := by
  unfold MultiBody.sBodyIndexByName SMap.getAt
  cases hf : mb.bodyNameToInd.find b.name with
  | none =>
    exact absurd (by rw [hb]; rfl) (c.bName' _ hf i (List.getElem?_eq_some_iff.1 hb).1)
  | some k =>
    obtain ⟨m, rfl, hm, e⟩ := c.bName _ _ hf
    rw [List.getElem?_eq_getElem hm] at e
    simp only [Option.map_some, Option.some_inj] at e
    rw [hn m i _ b (List.getElem?_eq_getElem hm) hb e]

theorem CtorInv.joint_find {mb : MultiBody K} (c : CtorInv mb.bodies mb.joints mb.pred mb.succ mb.parent mb.Xt
    mb.bodies.length mb) (hl : mb.joints.length = mb.bodies.length)
    (hn : ∀ (i i' : Nat) (b b' : Joint K), mb.joints[i]? = some b → mb.joints[i']? = some b' → b.name = b'.name → i = i')
    {i : Nat} {b : Joint K} (hb : mb.joints[i]? = some b) : mb.sJointIndexByName b.name = .ok i := by
  unfold MultiBody.sJointIndexByName SMap.getAt
  cases hf : mb.jointNameToInd.find b.name with
  | none =>
    exact absurd (by rw [hb]; rfl) (c.jName' _ hf i (by rw [← hl]; exact (List.getElem?_eq_some_iff.1 hb).1))
  | some k =>
    obtain ⟨m, rfl, hm, e⟩ := c.jName _ _ hf
    rw [← hl] at hm
    rw [List.getElem?_eq_getElem hm] at e
    simp only [Option.map_some, Option.some_inj] at e
    rw [hn m i _ b (List.getElem?_eq_getElem hm) hb e]

end

theorem TreeRel.body_inj {J : Joint K} {X0 Xb : PTransform K} {N : List Nat} {st : TreeSt K}
    (t : TreeRel h g r par J X0 Xb N st) (I : Inv h g) (hN : N.Nodup) {i i' : Nat} {b b' : Body K}
    (hb : st.bodies[i]? = some b) (hb' : st.bodies[i']? = some b') (e : b.name = b'.name) : i = i' := by
  have hi : i < N.length := by rw [← t.nbodies]; exact (List.getElem?_eq_some_iff.1 hb).1
  have hi' : i' < N.length := by rw [← t.nbodies]; exact (List.getElem?_eq_some_iff.1 hb').1
  have E := t.entry i _ (List.getElem?_eq_getElem hi)
  have E' := t.entry i' _ (List.getElem?_eq_getElem hi')
  obtain ⟨n, hn, e1⟩ := E.body
  obtain ⟨n', hn', e1'⟩ := E'.body
  rw [hb] at e1
  rw [hb'] at e1'
  obtain rfl := Option.some_inj.1 e1
  obtain rfl := Option.some_inj.1 e1'
  exact (List.Nodup.getElem_inj_iff hN).1 (I.name_inj E.mem E'.mem hn hn' e)

theorem TreeRel.joint_inj {J : Joint K} {X0 Xb : PTransform K} {N : List Nat} {st : TreeSt K}
    (t : TreeRel h g r par J X0 Xb N st) (R : Rooted h g r d par) (F : Forest h g) (hN : N.Nodup)
    (hroot : ∀ u a, Link h g u a → a.joint.name ≠ J.name) {i i' : Nat} {b b' : Joint K}
    (hb : st.joints[i]? = some b) (hb' : st.joints[i']? = some b') (e : b.name = b'.name) : i = i' := by
  have hi : i < N.length := by rw [← t.njoints]; exact (List.getElem?_eq_some_iff.1 hb).1
  have hi' : i' < N.length := by rw [← t.njoints]; exact (List.getElem?_eq_some_iff.1 hb').1
  have E := t.entry i _ (List.getElem?_eq_getElem hi)
  have E' := t.entry i' _ (List.getElem?_eq_getElem hi')
  rw [← List.Nodup.getElem_inj_iff hN (hi := hi) (hj := hi')]
  by_cases hr : N[i] = r
  · obtain ⟨-, e1, -⟩ := E.root hr
    rw [hb] at e1
    obtain rfl := Option.some_inj.1 e1
    by_cases hr' : N[i'] = r
    · rw [hr, hr']
    · obtain ⟨k, a, -, -, ha, -, e1, -⟩ := E'.child hr'
      rw [hb'] at e1
      obtain rfl := Option.some_inj.1 e1
      exact absurd e.symm (hroot _ a ha)
  · obtain ⟨k, a, -, -, ha, ea, e1, -⟩ := E.child hr
    rw [hb] at e1
    obtain rfl := Option.some_inj.1 e1
    by_cases hr' : N[i'] = r
    · obtain ⟨-, e1, -⟩ := E'.root hr'
      rw [hb'] at e1
      obtain rfl := Option.some_inj.1 e1
      exact absurd e (hroot _ a ha)
    · obtain ⟨k', a', -, -, ha', ea', e1', -⟩ := E'.child hr'
      rw [hb'] at e1'
      obtain rfl := Option.some_inj.1 e1'
      rcases F.jointOnce _ _ a a' ha ha' e with ⟨-, rfl⟩ | ⟨h1, h2⟩
      · rw [← ea, ← ea']
      · have d1 := R.up_d E.mem hr
        have d2 := R.up_d E'.mem hr'
        rw [ea'] at h1
        rw [ea] at h2
        rw [h1] at d1
        rw [h2] at d2
        omega

/-! ### Graphs built by the API -/

/-- States reached by successful calls of `addBody`, `addJoint` and `linkBodies` where each link joins two bodies not
yet connected by a joint which is not yet used. `PJ` and `PX` restrict the joints and transforms given. -/
inductive ForestBuild (PJ : Joint K → Prop) (PX : PTransform K → Prop) (h0 : Heap K) (rootName : String) : GSt K → Prop
  | start : ForestBuild PJ PX h0 rootName (h0, Graph.empty rootName)
  | body {s s' : GSt K} (b : Body K) : ForestBuild PJ PX h0 rootName s → addBody b s = .ok () s' →
      ForestBuild PJ PX h0 rootName s'
  | joint {s s' : GSt K} (j : Joint K) : ForestBuild PJ PX h0 rootName s → PJ j → addJoint j s = .ok () s' →
      ForestBuild PJ PX h0 rootName s'
  | link {s s' : GSt K} (b1 : String) (t1 : PTransform K) (b2 : String) (t2 : PTransform K) (j : String) (dir : Bool) :
      ForestBuild PJ PX h0 rootName s → PX t1 → PX t2 →
      (∀ p1 p2, s.2.nodeByName b1 = .ok p1 → s.2.nodeByName b2 = .ok p2 → ¬ (simple s.1 s.2).Reachable p1 p2) →
      (∀ u a, Link s.1 s.2 u a → a.joint.name ≠ j) →
      linkBodies b1 t1 b2 t2 j dir s = .ok () s' → ForestBuild PJ PX h0 rootName s'

theorem ForestBuild.forest {PJ : Joint K → Prop} {PX : PTransform K → Prop} {h0 : Heap K} {rootName : String} {s : GSt K}
    (b : ForestBuild PJ PX h0 rootName s) : Forest s.1 s.2 ∧ (∀ p ∈ s.2.joints, ∀ j, s.1.joints[p]? = some j → PJ j) ∧
      (∀ u a, Link s.1 s.2 u a → PX a.X ∧ ∃ j d, PJ j ∧ a.joint = j.setForward d) := by
  induction b with
  | start => exact ⟨Forest.empty h0 rootName, by simp [Graph.empty], by rintro u a ⟨hu, -⟩; simp [Graph.empty] at hu⟩
  | @body s s' b _ e ih =>
    obtain ⟨F, hj, hl⟩ := ih
    cases hb : s.2.bodyMap.find b.name with
    | some p =>
      have : addBody b s = .error .domainError s := addBody_some (by rw [hb]; rfl)
      rw [this] at e; cases e
    | none =>
      rw [addBody_none hb] at e
      injection e with _ e
      subst e
      exact ⟨F.addBody hb, hj, fun u a ha => hl u a ((link_addBody F.toInv u a).1 ha)⟩
  | @joint s s' j _ hP e ih =>
    obtain ⟨F, hj, hl⟩ := ih
    cases hb : s.2.jointMap.find j.name with
    | some p =>
      have : addJoint j s = .error .domainError s := addJoint_some (by rw [hb]; rfl)
      rw [this] at e; cases e
    | none =>
      rw [addJoint_none hb] at e
      injection e with _ e
      subst e
      refine ⟨F.addJoint hb, ?_, hl⟩
      intro p hp j' hj'
      dsimp only [addJointSt] at hp hj'
      rw [getElem?_append_one] at hj'
      by_cases e : p = s.1.joints.length
      · rw [if_pos e] at hj'; obtain rfl := Option.some_inj.1 hj'; exact hP
      · rw [if_neg e] at hj'
        rw [List.mem_append, List.mem_singleton] at hp
        exact hj p (hp.resolve_right e) j' hj'
  | @link s s' b1 t1 b2 t2 name dir _ hX1 hX2 hnr hfree e ih =>
    obtain ⟨F, hj, hl⟩ := ih
    cases h1 : s.2.bodyMap.find b1 with
    | none => rw [linkBodies_error (linkHeap_unknown (Or.inl h1) t1 t2 dir)] at e; cases e
    | some p1 =>
      cases h2 : s.2.bodyMap.find b2 with
      | none => rw [linkBodies_error (linkHeap_unknown (Or.inr (Or.inl h2)) t1 t2 dir)] at e; cases e
      | some p2 =>
        cases h3 : s.2.jointMap.find name with
        | none => rw [linkBodies_error (linkHeap_unknown (Or.inr (Or.inr h3)) t1 t2 dir)] at e; cases e
        | some pj =>
          obtain ⟨hp1, n1, hn1, -⟩ := (F.body _ _).1 h1
          obtain ⟨hp2, n2, hn2, -⟩ := (F.body _ _).1 h2
          obtain ⟨hpj, j, hjj, rfl⟩ := (F.joint _ _).1 h3
          obtain ⟨h', hok, hI, hjs, -, hoth, hne', -⟩ := linkHeap_known F.toInv h1 h2 h3 hn1 hn2 hjj t1 t2 dir
          rw [linkBodies_ok hok] at e
          injection e with _ e
          subst e
          have hnr' : ¬ (simple s.1 s.2).Reachable p1 p2 :=
            hnr p1 p2 (by simp only [nodeByName, SMap.getAt, h1]) (by simp only [nodeByName, SMap.getAt, h2])
          have hne : p1 ≠ p2 := by rintro rfl; exact hnr' (SimpleGraph.Reachable.refl _)
          obtain ⟨hn1', hn2'⟩ := hne' hne
          obtain ⟨F', -⟩ := F.link hp1 hp2 hn1 hn2 (d := if dir then j.isForward else !j.isForward) (j := j)
            rfl rfl rfl rfl h3 hI hoth hn1' hn2' hnr' hfree
          refine ⟨F', ?_, ?_⟩
          · intro p hp j' hj'
            exact hj p hp j' (by rw [← hj', hjs])
          · rintro u a ⟨hu, n, hn, ha⟩
            by_cases e1 : u = p1
            · subst e1
              rw [hn1'] at hn
              obtain rfl := Option.some_inj.1 hn
              rw [List.mem_append, List.mem_singleton] at ha
              rcases ha with ha | rfl
              · exact hl u a ⟨hu, n1, hn1, ha⟩
              · exact ⟨hX1, j, _, hj pj hpj j hjj, rfl⟩
            · by_cases e2 : u = p2
              · subst e2
                rw [hn2'] at hn
                obtain rfl := Option.some_inj.1 hn
                rw [List.mem_append, List.mem_singleton] at ha
                rcases ha with ha | rfl
                · exact hl u a ⟨hu, n2, hn2, ha⟩
                · exact ⟨hX2, j, _, hj pj hpj j hjj, rfl⟩
              · exact hl u a ⟨hu, n, by rw [← hoth u e1 e2]; exact hn, ha⟩

/-- A tree built by the API. -/
structure TreeBuild (PJ : Joint K → Prop) (PX : PTransform K → Prop) (h0 : Heap K) (rootName : String) (s : GSt K) : Prop where
  forest : ForestBuild PJ PX h0 rootName s
  connected : ∀ u ∈ s.2.nodes, ∀ v ∈ s.2.nodes, (simple s.1 s.2).Reachable u v

theorem TreeBuild.tree {PJ : Joint K → Prop} {PX : PTransform K → Prop} {h0 : Heap K} {rootName : String} {s : GSt K}
    (b : TreeBuild PJ PX h0 rootName s) : Tree s.1 s.2 := { b.forest.forest.1 with connected := b.connected }

theorem TreeBuild.root (PJ : Joint K → Prop) (PX : PTransform K → Prop) (h0 : Heap K) (rootName : String) (b : Body K) :
    TreeBuild PJ PX h0 rootName (addBodySt b (h0, Graph.empty rootName)) :=
  ⟨.body b .start (addBody_none rfl), (Tree.addRoot b h0 rootName).connected⟩

/-- Attaching a leaf to a tree: every tree can be built in this way, one leaf after the other. -/
theorem TreeBuild.attach {PJ : Joint K → Prop} {PX : PTransform K → Prop} {h0 : Heap K} {rootName : String} {s s' : GSt K}
    (T : TreeBuild PJ PX h0 rootName s) (l : Leaf K)
    (hb : s.2.bodyMap.find l.body.name = none) (hj : s.2.jointMap.find l.joint.name = none)
    {p1 : Nat} (hd : s.2.bodyMap.find l.dst = some p1) (hPJ : PJ l.joint) (h1 : PX l.t1) (h2 : PX l.t2)
    (e : l.attach s = .ok () s') : TreeBuild PJ PX h0 rootName s' := by
  obtain ⟨h', e', T'⟩ := T.tree.attach l hb hj hd
  rw [e] at e'
  injection e' with _ e'
  subst e'
  refine ⟨?_, T'.connected⟩
  have b1 := ForestBuild.body l.body T.forest (addBody_none hb)
  have b2 := ForestBuild.joint l.joint b1 hPJ (addJoint_none (by exact hj))
  refine .link l.dst l.t1 l.body.name l.t2 l.joint.name l.dir b2 h1 h2 ?_ ?_ ?_
  · intro q1 q2 hq1 hq2
    have F2 := b2.forest.1
    have hne : l.dst ≠ l.body.name := by
      intro e; rw [e, hb] at hd; exact absurd hd (by simp)
    have hq1' : q1 = p1 := by
      simp only [nodeByName, SMap.getAt, addJointSt, addBodySt, SMap.find_set, if_neg hne, hd] at hq1
      exact (Except.ok.inj hq1).symm
    have hq2' : q2 = s.1.nodes.length := by
      simp only [nodeByName, SMap.getAt, addJointSt, addBodySt, SMap.find_set, if_pos] at hq2
      exact (Except.ok.inj hq2).symm
    have hlt := T.tree.node_lt ((T.tree.body _ _).1 hd).1
    subst hq1' hq2'
    intro hr
    obtain ⟨v, hv, -⟩ := exists_parent hr (by omega)
    obtain ⟨a, ⟨-, n, hn, ha⟩, -⟩ := F2.adj_iff.1 hv.symm
    dsimp only [addJointSt, addBodySt] at hn
    rw [getElem?_append_one, if_pos rfl] at hn
    obtain rfl := Option.some_inj.1 hn
    simp at ha
  · intro u a ha e
    have ha' : Link s.1 s.2 u a := (link_addBody T.tree.toInv u a).1 ha
    obtain ⟨p, hp⟩ := T.tree.registered u a ha'
    rw [e, hj] at hp
    exact absurd hp (by simp)
  · unfold Leaf.attach at e
    rw [gm_bind, addBody_none hb] at e
    dsimp only at e
    rw [gm_bind, addJoint_none (by exact hj)] at e
    exact e

end Graph
end RBDyn
