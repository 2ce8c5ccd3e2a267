import Verif.Lemmas.GraphTree

/-! The calls that build a forest or a tree. -/

namespace RBDyn
variable {K : Type}

namespace Graph

theorem simple_congr {h h' : Heap K} {g g' : Graph} (hl : ∀ u a, Link h' g' u a ↔ Link h g u a) :
    simple h' g' = simple h g := by
  ext u v
  simp only [simple, hl]

theorem link_addBody {b : Body K} {s : GSt K} (I : Inv s.1 s.2) (u : Nat) (a : Arc K) :
    Link (addBodySt b s).1 (addBodySt b s).2 u a ↔ Link s.1 s.2 u a := by
  obtain ⟨h, g⟩ := s
  dsimp only at I ⊢
  unfold Link addBodySt
  dsimp only
  constructor
  · rintro ⟨hu, n, hn, ha⟩
    rw [getElem?_append_one] at hn
    by_cases e : u = h.nodes.length
    · rw [if_pos e] at hn
      obtain rfl := Option.some_inj.1 hn
      simp at ha
    · rw [if_neg e] at hn
      rw [List.mem_append, List.mem_singleton] at hu
      exact ⟨hu.resolve_right e, n, hn, ha⟩
  · rintro ⟨hu, n, hn, ha⟩
    have := I.node_lt hu
    refine ⟨List.mem_append_left _ hu, n, ?_, ha⟩
    rw [getElem?_append_one, if_neg (by omega), hn]

section
variable [Scalar K]

theorem Forest.empty (h : Heap K) (name : String) : Forest h (Graph.empty name) := by
  have hl : ∀ (u : Nat) (a : Arc K), ¬ Link h (Graph.empty name) u a := by
    rintro u a ⟨hu, -⟩; simp [Graph.empty] at hu
  refine { Inv.empty h name with
    acyclic := ?_
    noLoop := fun u a ha => absurd ha (hl u a)
    single := by simp [Graph.empty]
    paired := fun u a ha => absurd ha (hl u a)
    registered := fun u a ha => absurd ha (hl u a)
    jointOnce := fun u v a b ha => absurd ha (hl u a) }
  have : simple h (Graph.empty name) = ⊥ := by
    ext u v; simp [simple, hl]
  rw [this]
  exact SimpleGraph.isAcyclic_bot

theorem Forest.addBody {b : Body K} {s : GSt K} (F : Forest s.1 s.2) (hb : s.2.bodyMap.find b.name = none) :
    Forest (addBodySt b s).1 (addBodySt b s).2 := by
  have hl := link_addBody (b := b) F.toInv
  refine { F.toInv.addBody hb with
    acyclic := by rw [simple_congr hl]; exact F.acyclic
    noLoop := fun u a ha => F.noLoop u a ((hl u a).1 ha)
    single := ?_
    paired := ?_
    registered := fun u a ha => F.registered u a ((hl u a).1 ha)
    jointOnce := fun u v a b ha hb => F.jointOnce u v a b ((hl u a).1 ha) ((hl v b).1 hb) }
  · intro u hu n hn
    obtain ⟨h, g⟩ := s
    dsimp only [addBodySt] at hu hn
    rw [getElem?_append_one] at hn
    by_cases e : u = h.nodes.length
    · rw [if_pos e] at hn
      obtain rfl := Option.some_inj.1 hn
      simp
    · rw [if_neg e] at hn
      rw [List.mem_append, List.mem_singleton] at hu
      exact F.single u (hu.resolve_right e) n hn
  · intro u a ha
    obtain ⟨c, hc, e⟩ := F.paired u a ((hl u a).1 ha)
    exact ⟨c, (hl _ _).2 hc, e⟩

theorem Forest.addJoint {j : Joint K} {s : GSt K} (F : Forest s.1 s.2) (hb : s.2.jointMap.find j.name = none) :
    Forest (addJointSt j s).1 (addJointSt j s).2 :=
  { F.toInv.addJoint hb with
    acyclic := F.acyclic
    noLoop := F.noLoop
    single := F.single
    paired := F.paired
    registered := fun u a ha => by
      obtain ⟨p, hp⟩ := F.registered u a ha
      dsimp only [addJointSt]
      rw [SMap.find_set]
      by_cases e : a.joint.name = j.name
      · exact ⟨_, if_pos e⟩
      · exact ⟨p, by rw [if_neg e, hp]⟩
    jointOnce := F.jointOnce }

/-- Linking two bodies of different components by an unused joint keeps the forest. -/
theorem Forest.link {h h' : Heap K} {g : Graph} (F : Forest h g) {p1 p2 : Nat} {n1 n2 : GNode K} {A1 A2 : Arc K}
    {pj : Nat} {j : Joint K} {d : Bool}
    (hp1 : p1 ∈ g.nodes) (hp2 : p2 ∈ g.nodes)
    (hn1 : h.nodes[p1]? = some n1) (hn2 : h.nodes[p2]? = some n2)
    (hA1 : A1.joint = j.setForward d) (hA2 : A2.joint = j.setForward (!d)) (e1 : A1.next = p2) (e2 : A2.next = p1)
    (hj : g.jointMap.find j.name = some pj)
    (hI : Inv h' g)
    (hother : ∀ p, p ≠ p1 → p ≠ p2 → h'.nodes[p]? = h.nodes[p]?)
    (hn1' : h'.nodes[p1]? = some { n1 with arcs := n1.arcs ++ [A1] })
    (hn2' : h'.nodes[p2]? = some { n2 with arcs := n2.arcs ++ [A2] })
    (hnr : ¬ (simple h g).Reachable p1 p2) (hfree : ∀ u a, Link h g u a → a.joint.name ≠ j.name) :
    Forest h' g ∧ simple h' g = simple h g ⊔ SimpleGraph.edge p1 p2 := by
  have hne : p1 ≠ p2 := by rintro rfl; exact hnr (SimpleGraph.Reachable.refl _)
  have hnm1 : A1.joint.name = j.name := by rw [hA1]; rfl
  have hnm2 : A2.joint.name = j.name := by rw [hA2]; rfl
  have hl : ∀ u a, Link h' g u a ↔ Link h g u a ∨ (u = p1 ∧ a = A1) ∨ (u = p2 ∧ a = A2) := by
    intro u a
    by_cases hu1 : u = p1
    · subst hu1
      constructor
      · rintro ⟨hu, n, hn, ha⟩
        rw [hn1'] at hn
        obtain rfl := Option.some_inj.1 hn
        rw [List.mem_append, List.mem_singleton] at ha
        rcases ha with ha | rfl
        · exact Or.inl ⟨hu, n1, hn1, ha⟩
        · exact Or.inr (Or.inl ⟨rfl, rfl⟩)
      · rintro (⟨hu, n, hn, ha⟩ | ⟨-, rfl⟩ | ⟨e, -⟩)
        · obtain rfl := Option.some_inj.1 (hn1.symm.trans hn)
          exact ⟨hu, _, hn1', List.mem_append_left _ ha⟩
        · exact ⟨hp1, _, hn1', by simp⟩
        · exact absurd e hne
    · by_cases hu2 : u = p2
      · subst hu2
        constructor
        · rintro ⟨hu, n, hn, ha⟩
          rw [hn2'] at hn
          obtain rfl := Option.some_inj.1 hn
          rw [List.mem_append, List.mem_singleton] at ha
          rcases ha with ha | rfl
          · exact Or.inl ⟨hu, n2, hn2, ha⟩
          · exact Or.inr (Or.inr ⟨rfl, rfl⟩)
        · rintro (⟨hu, n, hn, ha⟩ | ⟨e, -⟩ | ⟨-, rfl⟩)
          · obtain rfl := Option.some_inj.1 (hn2.symm.trans hn)
            exact ⟨hu, _, hn2', List.mem_append_left _ ha⟩
          · exact absurd e hu1
          · exact ⟨hp2, _, hn2', by simp⟩
      · unfold Link
        rw [hother u hu1 hu2]
        simp [hu1, hu2]
  have hsimple : simple h' g = simple h g ⊔ SimpleGraph.edge p1 p2 := by
    ext u v
    simp only [simple, hl, SimpleGraph.sup_adj, SimpleGraph.edge_adj]
    constructor
    · rintro ⟨huv, ⟨a, ha | ⟨rfl, rfl⟩ | ⟨rfl, rfl⟩, ha'⟩ | ⟨a, ha | ⟨rfl, rfl⟩ | ⟨rfl, rfl⟩, ha'⟩⟩
      · exact Or.inl ⟨huv, Or.inl ⟨a, ha, ha'⟩⟩
      · exact Or.inr ⟨Or.inl ⟨rfl, ha'.symm.trans e1⟩, huv⟩
      · exact Or.inr ⟨Or.inr ⟨rfl, ha'.symm.trans e2⟩, huv⟩
      · exact Or.inl ⟨huv, Or.inr ⟨a, ha, ha'⟩⟩
      · exact Or.inr ⟨Or.inr ⟨ha'.symm.trans e1, rfl⟩, huv⟩
      · exact Or.inr ⟨Or.inl ⟨ha'.symm.trans e2, rfl⟩, huv⟩
    · rintro (⟨huv, ⟨a, ha, ha'⟩ | ⟨a, ha, ha'⟩⟩ | ⟨⟨rfl, rfl⟩ | ⟨rfl, rfl⟩, huv⟩)
      · exact ⟨huv, Or.inl ⟨a, Or.inl ha, ha'⟩⟩
      · exact ⟨huv, Or.inr ⟨a, Or.inl ha, ha'⟩⟩
      · exact ⟨huv, Or.inl ⟨A1, Or.inr (Or.inl ⟨rfl, rfl⟩), e1⟩⟩
      · exact ⟨huv, Or.inl ⟨A2, Or.inr (Or.inr ⟨rfl, rfl⟩), e2⟩⟩
  refine ⟨?_, hsimple⟩
  have hnadj : ∀ a, Link h g p1 a → a.next ≠ p2 := fun a ha e =>
    hnr (SimpleGraph.Adj.reachable (F.adj_iff.2 ⟨a, ha, e⟩))
  have hnadj' : ∀ a, Link h g p2 a → a.next ≠ p1 := fun a ha e =>
    hnr (SimpleGraph.Adj.reachable (F.adj_iff.2 ⟨a, ha, e⟩)).symm
  refine { hI with
    acyclic := by rw [hsimple]; exact F.acyclic.sup_edge_of_not_reachable hnr
    noLoop := ?_, single := ?_, paired := ?_, registered := ?_, jointOnce := ?_ }
  · intro u a ha
    rcases (hl u a).1 ha with ha | ⟨rfl, rfl⟩ | ⟨rfl, rfl⟩
    · exact F.noLoop u a ha
    · rw [e1]; exact hne.symm
    · rw [e2]; exact hne
  · intro u hu n hn
    by_cases hu1 : u = p1
    · subst hu1
      rw [hn1'] at hn
      obtain rfl := Option.some_inj.1 hn
      rw [List.map_append, List.nodup_append]
      refine ⟨F.single u hu n1 hn1, List.nodup_singleton _, ?_⟩
      intro x hx y hy
      rw [List.mem_map] at hx
      obtain ⟨a, ha, rfl⟩ := hx
      simp only [List.map_cons, List.map_nil, List.mem_singleton] at hy
      rw [hy, e1]
      exact hnadj a ⟨hu, n1, hn1, ha⟩
    · by_cases hu2 : u = p2
      · subst hu2
        rw [hn2'] at hn
        obtain rfl := Option.some_inj.1 hn
        rw [List.map_append, List.nodup_append]
        refine ⟨F.single u hu n2 hn2, List.nodup_singleton _, ?_⟩
        intro x hx y hy
        rw [List.mem_map] at hx
        obtain ⟨a, ha, rfl⟩ := hx
        simp only [List.map_cons, List.map_nil, List.mem_singleton] at hy
        rw [hy, e2]
        exact hnadj' a ⟨hu, n2, hn2, ha⟩
      · rw [hother u hu1 hu2] at hn
        exact F.single u hu n hn
  · intro u a ha
    rcases (hl u a).1 ha with ha | ⟨rfl, rfl⟩ | ⟨rfl, rfl⟩
    · obtain ⟨b, hb, e⟩ := F.paired u a ha
      exact ⟨b, (hl _ _).2 (Or.inl hb), e⟩
    · exact ⟨A2, (hl _ _).2 (Or.inr (Or.inr ⟨e1, rfl⟩)), e2, j, d, hA1, hA2⟩
    · exact ⟨A1, (hl _ _).2 (Or.inr (Or.inl ⟨e2, rfl⟩)), e1, j, !d, hA2, by rw [hA1, Bool.not_not]⟩
  · intro u a ha
    rcases (hl u a).1 ha with ha | ⟨rfl, rfl⟩ | ⟨rfl, rfl⟩
    · exact F.registered u a ha
    · exact ⟨pj, by rw [hnm1]; exact hj⟩
    · exact ⟨pj, by rw [hnm2]; exact hj⟩
  · intro u v a b ha hb e
    rcases (hl u a).1 ha with ha | ⟨rfl, rfl⟩ | ⟨rfl, rfl⟩
    · rcases (hl v b).1 hb with hb | ⟨rfl, rfl⟩ | ⟨rfl, rfl⟩
      · exact F.jointOnce u v a b ha hb e
      · exact absurd (e.trans hnm1) (hfree u a ha)
      · exact absurd (e.trans hnm2) (hfree u a ha)
    · rcases (hl v b).1 hb with hb | ⟨rfl, rfl⟩ | ⟨rfl, rfl⟩
      · exact absurd (e.symm.trans hnm1) (hfree v b hb)
      · exact Or.inl ⟨rfl, rfl⟩
      · exact Or.inr ⟨e2.symm, e1.symm⟩
    · rcases (hl v b).1 hb with hb | ⟨rfl, rfl⟩ | ⟨rfl, rfl⟩
      · exact absurd (e.symm.trans hnm2) (hfree v b hb)
      · exact Or.inr ⟨e1.symm, e2.symm⟩
      · exact Or.inl ⟨rfl, rfl⟩

/-! ### Attaching a leaf -/

/-- `addBody(b); addJoint(j); linkBodies(dst, t1, b.name(), t2, j.name(), dir)`. -/
structure Leaf (K : Type) where
  body : Body K
  joint : Joint K
  dst : String
  t1 : PTransform K
  t2 : PTransform K
  dir : Bool

/-- The calls attaching a leaf. -/
def Leaf.attach (l : Leaf K) : GM K Unit := do
  addBody l.body
  addJoint l.joint
  linkBodies l.dst l.t1 l.body.name l.t2 l.joint.name l.dir

omit [Scalar K] in
theorem gm_bind {α β : Type} (x : GM K α) (f : α → GM K β) (s : GSt K) :
    (x >>= f) s = match x s with | .ok a s' => f a s' | .error e s' => .error e s' := by
  change EStateM.bind x f s = _
  unfold EStateM.bind
  cases x s <;> rfl

theorem Tree.addRoot (b : Body K) (h : Heap K) (name : String) :
    Tree (addBodySt b (h, Graph.empty name)).1 (addBodySt b (h, Graph.empty name)).2 := by
  have F := (Forest.empty h name).addBody (b := b) (s := (h, Graph.empty name)) rfl
  refine { F with connected := ?_ }
  intro u hu v hv
  dsimp only [addBodySt, Graph.empty] at hu hv
  simp only [List.nil_append, List.mem_singleton] at hu hv
  rw [hu, hv]

/-- A known body, a new body and a new joint: the leaf is attached, the graph is still a tree. -/
theorem Tree.attach {s : GSt K} (T : Tree s.1 s.2) (l : Leaf K)
    (hb : s.2.bodyMap.find l.body.name = none) (hj : s.2.jointMap.find l.joint.name = none)
    {p1 : Nat} (hd : s.2.bodyMap.find l.dst = some p1) :
    ∃ h', l.attach s = .ok () (h', (addJointSt l.joint (addBodySt l.body s)).2) ∧
      Tree h' (addJointSt l.joint (addBodySt l.body s)).2 := by
  have F1 := T.toForest.addBody hb
  have F2 := F1.addJoint (s := addBodySt l.body s) (j := l.joint) hj
  set s2 := addJointSt l.joint (addBodySt l.body s) with hs2
  have hp2f : s2.2.bodyMap.find l.body.name = some s.1.nodes.length := by
    rw [hs2]; dsimp only [addJointSt, addBodySt]; rw [SMap.find_set, if_pos rfl]
  have hne : l.dst ≠ l.body.name := by
    intro e; rw [e, hb] at hd; exact absurd hd (by simp)
  have hp1f : s2.2.bodyMap.find l.dst = some p1 := by
    rw [hs2]; dsimp only [addJointSt, addBodySt]; rw [SMap.find_set, if_neg hne]; exact hd
  have hpjf : s2.2.jointMap.find l.joint.name = some s.1.joints.length := by
    rw [hs2]; dsimp only [addJointSt, addBodySt]; rw [SMap.find_set, if_pos rfl]
  have hn2 : s2.1.nodes[s.1.nodes.length]? = some ⟨l.body, []⟩ := by
    rw [hs2]; dsimp only [addJointSt, addBodySt]; simp
  have hjj : s2.1.joints[s.1.joints.length]? = some l.joint := by
    rw [hs2]; dsimp only [addJointSt, addBodySt]; simp
  obtain ⟨hp1m0, n1, hn10, -⟩ := (T.body _ _).1 hd
  obtain ⟨hp1m, n1, hn1, -⟩ := (F2.body _ _).1 hp1f
  obtain ⟨hp2m, -⟩ := (F2.body _ _).1 hp2f
  have hlt := T.node_lt hp1m0
  obtain ⟨h', hok, hI, -, -, hother, hne', -⟩ := linkHeap_known F2.toInv hp1f hp2f hpjf hn1 hn2 hjj l.t1 l.t2 l.dir
  obtain ⟨hn1', hn2'⟩ := hne' (by omega)
  have hisol : ∀ v, ¬ (simple s2.1 s2.2).Adj v s.1.nodes.length := by
    intro v hv
    obtain ⟨a, ⟨-, n, hn, ha⟩, -⟩ := F2.adj_iff.1 hv.symm
    rw [hn2] at hn
    obtain rfl := Option.some_inj.1 hn
    simp at ha
  have hnr : ¬ (simple s2.1 s2.2).Reachable p1 s.1.nodes.length := by
    intro hr
    obtain ⟨v, hv, -⟩ := exists_parent hr (by omega)
    exact hisol v hv
  have hfree : ∀ u a, Link s2.1 s2.2 u a → a.joint.name ≠ l.joint.name := by
    intro u a ha e
    have ha' : Link s.1 s.2 u a := (link_addBody T.toInv u a).1 ha
    obtain ⟨p, hp⟩ := T.registered u a ha'
    rw [e, hj] at hp
    exact absurd hp (by simp)
  obtain ⟨F3, hsim⟩ := F2.link hp1m hp2m hn1 hn2
    (d := if l.dir then l.joint.isForward else !l.joint.isForward) (j := l.joint) rfl rfl rfl rfl hpjf hI hother
    hn1' hn2' hnr hfree
  refine ⟨h', ?_, { F3 with connected := ?_ }⟩
  · unfold Leaf.attach
    rw [gm_bind, addBody_none hb]
    dsimp only
    rw [gm_bind, addJoint_none (by exact hj)]
    dsimp only
    exact linkBodies_ok hok
  · have hsim0 : simple s2.1 s2.2 = simple s.1 s.2 := simple_congr (link_addBody T.toInv)
    have hto : ∀ v ∈ s2.2.nodes, (simple h' s2.2).Reachable p1 v := by
      intro v hv
      rw [hsim]
      have hv' : v ∈ s.2.nodes ++ [s.1.nodes.length] := hv
      rw [List.mem_append, List.mem_singleton] at hv'
      rcases hv' with hv' | rfl
      · rw [hsim0]
        exact (T.connected p1 hp1m0 v hv').mono le_sup_left
      · apply SimpleGraph.Adj.reachable
        rw [SimpleGraph.sup_adj, SimpleGraph.edge_adj]
        exact Or.inr ⟨Or.inl ⟨rfl, rfl⟩, by omega⟩
    intro u hu v hv
    exact (hto u hu).symm.trans (hto v hv)

end

end Graph
end RBDyn
