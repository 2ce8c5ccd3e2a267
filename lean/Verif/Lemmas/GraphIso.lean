import Verif.Lemmas.GraphCopy
import Verif.Lemmas.GraphSim
import Verif.Lemmas.GraphFoot
import Verif.Lemmas.GraphMB

/-! Isomorphic graphs: being a tree is preserved, the traversals return the same values. -/

namespace RBDyn
variable {K : Type}

namespace Graph

/-- `(h', g')` is an image of `(h, g)` in other cells, with the joints of the arcs modified by `J`. -/
structure Image (h : Heap K) (g : Graph) (φ : Nat → Nat) (J : Joint K → Joint K) (h' : Heap K) (g' : Graph) : Prop where
  sim : Sim h g.nodes φ J h'
  nodes : g'.nodes = g.nodes.map φ
  inv : Inv h' g'
  joints : ∀ t p, g.jointMap.find t = some p → ∃ p', g'.jointMap.find t = some p'
  rootName : g'.rootName = g.rootName

variable {h h' : Heap K} {g g' : Graph} {φ : Nat → Nat} {J : Joint K → Joint K}

theorem Image.mem (M : Image h g φ J h' g') {x : Nat} (hx : x ∈ g.nodes) : φ x ∈ g'.nodes := by
  rw [M.nodes]; exact List.mem_map.2 ⟨x, hx, rfl⟩

theorem Image.link (M : Image h g φ J h' g') {u : Nat} {a : Arc K} (hl : Link h g u a) :
    Link h' g' (φ u) ⟨a.X, J a.joint, φ a.next⟩ := by
  obtain ⟨hu, n, hn, ha⟩ := hl
  exact ⟨M.mem hu, _, M.sim.cells u hu n hn, List.mem_map.2 ⟨a, ha, rfl⟩⟩

theorem Image.link_inv (M : Image h g φ J h' g') (I : Inv h g) {v : Nat} {b : Arc K} (hl : Link h' g' v b) :
    ∃ u a, Link h g u a ∧ v = φ u ∧ b = ⟨a.X, J a.joint, φ a.next⟩ := by
  obtain ⟨hv, m, hm, hb⟩ := hl
  rw [M.nodes] at hv
  obtain ⟨u, hu, rfl⟩ := List.mem_map.1 hv
  obtain ⟨n, hn⟩ := I.nodes_get u hu
  obtain rfl := Option.some_inj.1 ((M.sim.cells u hu n hn).symm.trans hm)
  obtain ⟨a, ha, rfl⟩ := List.mem_map.1 hb
  exact ⟨u, a, ⟨hu, n, hn, ha⟩, rfl, rfl⟩

theorem Image.body_find (M : Image h g φ J h' g') (I : Inv h g) (t : String) :
    g'.bodyMap.find t = (g.bodyMap.find t).map φ := by
  cases hg : g.bodyMap.find t with
  | some p =>
    obtain ⟨hp, n, hn, e⟩ := (I.body t p).1 hg
    exact (M.inv.body t _).2 ⟨M.mem hp, _, M.sim.cells p hp n hn, e⟩
  | none =>
    cases hg' : g'.bodyMap.find t with
    | none => rfl
    | some q =>
      obtain ⟨hq, m, hm, e⟩ := (M.inv.body t q).1 hg'
      rw [M.nodes] at hq
      obtain ⟨u, hu, rfl⟩ := List.mem_map.1 hq
      obtain ⟨n, hn⟩ := I.nodes_get u hu
      obtain rfl := Option.some_inj.1 ((M.sim.cells u hu n hn).symm.trans hm)
      rw [(I.body t u).2 ⟨hu, n, hn, e⟩] at hg
      cases hg

theorem Image.adj (M : Image h g φ J h' g') (I : Inv h g) {x y : Nat} (e : (simple h' g').Adj x y) :
    ∃ u v, x = φ u ∧ y = φ v ∧ u ∈ g.nodes ∧ v ∈ g.nodes ∧ (simple h g).Adj u v := by
  obtain ⟨hne, ⟨b, hl, e⟩ | ⟨b, hl, e⟩⟩ := e
  · obtain ⟨u, a, ha, rfl, rfl⟩ := M.link_inv I hl
    subst e
    exact ⟨u, a.next, rfl, rfl, ha.mem, I.link_next ha, fun e => hne (by rw [e]), .inl ⟨a, ha, rfl⟩⟩
  · obtain ⟨u, a, ha, rfl, rfl⟩ := M.link_inv I hl
    subst e
    exact ⟨a.next, u, rfl, rfl, I.link_next ha, ha.mem, fun e => hne (by rw [e]), .inr ⟨a, ha, rfl⟩⟩

theorem Image.adj_map (M : Image h g φ J h' g') (I : Inv h g) {u v : Nat} (e : (simple h g).Adj u v) :
    (simple h' g').Adj (φ u) (φ v) := by
  have hm := I.adj_mem e
  refine ⟨fun e' => e.1 (M.sim.inj u hm.1 v hm.2 e'), ?_⟩
  rcases e.2 with ⟨a, ha, rfl⟩ | ⟨a, ha, rfl⟩
  · exact .inl ⟨_, M.link ha, rfl⟩
  · exact .inr ⟨_, M.link ha, rfl⟩

/-- A permutation of the addresses undoing `φ`. -/
noncomputable def back (g : Graph) (φ : Nat → Nat) (y : Nat) : Nat := by
  classical
  exact if hy : ∃ x ∈ g.nodes, φ x = y then hy.choose else if y ∈ g.nodes then φ y else y

theorem back_image (M : Image h g φ J h' g') {x : Nat} (hx : x ∈ g.nodes) : back g φ (φ x) = x := by
  have hy : ∃ z ∈ g.nodes, φ z = φ x := ⟨x, hx, rfl⟩
  unfold back
  rw [dif_pos hy]
  exact M.sim.inj _ hy.choose_spec.1 _ hx hy.choose_spec.2

theorem back_node (hd : ∀ x ∈ g.nodes, ∀ y ∈ g.nodes, φ y ≠ x) {x : Nat} (hx : x ∈ g.nodes) : back g φ x = φ x := by
  unfold back
  rw [dif_neg (by rintro ⟨z, hz, e⟩; exact hd x hx z hz e), if_pos hx]

theorem back_back (M : Image h g φ J h' g') (hd : ∀ x ∈ g.nodes, ∀ y ∈ g.nodes, φ y ≠ x) (y : Nat) :
    back g φ (back g φ y) = y := by
  by_cases h1 : ∃ x ∈ g.nodes, φ x = y
  · obtain ⟨x, hx, rfl⟩ := h1
    rw [back_image M hx, back_node hd hx]
  · by_cases h2 : y ∈ g.nodes
    · rw [back_node hd h2, back_image M h2]
    · have : back g φ y = y := by unfold back; rw [dif_neg h1, if_neg h2]
      rw [this, this]

theorem Image.acyclic (M : Image h g φ J h' g') (I : Inv h g) (hd : ∀ x ∈ g.nodes, ∀ y ∈ g.nodes, φ y ≠ x)
    (ac : (simple h g).IsAcyclic) : (simple h' g').IsAcyclic := by
  refine ac.comap (⟨back g φ, ?_⟩ : simple h' g' →g simple h g) ?_
  · intro x y e
    obtain ⟨u, v, rfl, rfl, hu, hv, e⟩ := M.adj I e
    rw [back_image M hu, back_image M hv]
    exact e
  · intro x y e
    have e : back g φ x = back g φ y := e
    rw [← back_back M hd x, e, back_back M hd y]

section
variable [Scalar K]

theorem Image.forest (M : Image h g φ J h' g') (hd : ∀ x ∈ g.nodes, ∀ y ∈ g.nodes, φ y ≠ x)
    (hn : ∀ j, (J j).name = j.name)
    (hs : ∀ (j : Joint K), ∃ j' : Joint K, ∀ d, J (j.setForward d) = j'.setForward d) (F : Forest h g) : Forest h' g' where
  toInv := M.inv
  acyclic := M.acyclic F.toInv hd F.acyclic
  noLoop := by
    intro v b hl e
    obtain ⟨u, a, ha, rfl, rfl⟩ := M.link_inv F.toInv hl
    exact F.noLoop u a ha (M.sim.inj _ (F.link_next ha) _ ha.mem e)
  single := by
    intro v hv m hm
    rw [M.nodes] at hv
    obtain ⟨u, hu, rfl⟩ := List.mem_map.1 hv
    obtain ⟨n, hn⟩ := F.nodes_get u hu
    obtain rfl := Option.some_inj.1 ((M.sim.cells u hu n hn).symm.trans hm)
    have := F.single u hu n hn
    rw [List.map_map]
    have e : (Arc.next ∘ fun a : Arc K => (⟨a.X, J a.joint, φ a.next⟩ : Arc K)) = φ ∘ Arc.next := rfl
    rw [e, ← List.map_map]
    refine List.Nodup.map_on ?_ this
    intro x hx y hy e
    obtain ⟨a, ha, rfl⟩ := List.mem_map.1 hx
    obtain ⟨b, hb, rfl⟩ := List.mem_map.1 hy
    exact M.sim.inj _ (F.arcs u hu n hn a ha) _ (F.arcs u hu n hn b hb) e
  paired := by
    intro v b hl
    obtain ⟨u, a, ha, rfl, rfl⟩ := M.link_inv F.toInv hl
    obtain ⟨c, hc, e, j, d, ea, ec⟩ := F.paired u a ha
    obtain ⟨j', hj'⟩ := hs j
    refine ⟨_, M.link hc, by rw [← e], j', d, ?_, ?_⟩
    · show J a.joint = _
      rw [ea, hj']
    · show J c.joint = _
      rw [ec, hj']
  registered := by
    intro v b hl
    obtain ⟨u, a, ha, rfl, rfl⟩ := M.link_inv F.toInv hl
    obtain ⟨p, hp⟩ := F.registered u a ha
    show ∃ p, g'.jointMap.find (J a.joint).name = some p
    rw [hn]
    exact M.joints _ p hp
  jointOnce := by
    intro v w b c hb hc e
    obtain ⟨u, a, ha, rfl, rfl⟩ := M.link_inv F.toInv hb
    obtain ⟨u', a', ha', rfl, rfl⟩ := M.link_inv F.toInv hc
    have e : (J a.joint).name = (J a'.joint).name := e
    rw [hn, hn] at e
    rcases F.jointOnce u u' a a' ha ha' e with ⟨rfl, rfl⟩ | ⟨rfl, rfl⟩
    · exact .inl ⟨rfl, rfl⟩
    · exact .inr ⟨rfl, rfl⟩

theorem Image.tree (M : Image h g φ J h' g') (hd : ∀ x ∈ g.nodes, ∀ y ∈ g.nodes, φ y ≠ x)
    (hn : ∀ j, (J j).name = j.name)
    (hs : ∀ (j : Joint K), ∃ j' : Joint K, ∀ d, J (j.setForward d) = j'.setForward d) (T : Tree h g) : Tree h' g' where
  toForest := M.forest hd hn hs T.toForest
  connected := by
    intro x hx y hy
    rw [M.nodes] at hx hy
    obtain ⟨u, hu, rfl⟩ := List.mem_map.1 hx
    obtain ⟨v, hv, rfl⟩ := List.mem_map.1 hy
    obtain ⟨w⟩ := T.connected u hu v hv
    exact ⟨w.map (⟨φ, fun e => M.adj_map T.toInv e⟩ : simple h g →g simple h' g')⟩

/-- `makeTree` returns on trees as soon as the fuel is the number of nodes. -/
theorem Tree.makeTree_ok (T : Tree h g) {r : Nat} (hr : r ∈ g.nodes) (j : Joint K) (X0 Xb : PTransform K) :
    ∃ st, makeTree h g.nodes.length r none j (-1) 0 (-1) X0 Xb ⟨[], [], [], [], [], []⟩ = .ok st ∧
      st.joints.length = st.bodies.length := by
  obtain ⟨d, par, R⟩ := T.rooted hr
  obtain ⟨st, e, tr⟩ := makeTree_spec (J := j) (X0 := X0) (Xb := Xb) R T.toForest g.nodes.length r []
    ⟨[], [], [], [], [], []⟩ j (-1) X0 Xb R.mem (by rw [R.d0]; omega) TreeRel.nil (fun _ => ⟨rfl, rfl, rfl, rfl, rfl⟩)
    (fun e => absurd rfl e)
  have hsrc : srcOf r par r = none := if_pos rfl
  rw [hsrc] at e
  exact ⟨st, e, tr.njoints.trans tr.nbodies.symm⟩

theorem Tree.sim_id (T : Tree h g) : Sim h g.nodes id id h :=
  ⟨fun x _ n hn => by simpa using hn, fun x hx n hn => T.arcs x hx n hn, fun _ _ _ _ e => e⟩

/-- The MultiBodies made from a tree and from its image. -/
theorem Sim.makeMultiBody (S : Sim h g.nodes φ J h') (T : Tree h g) (hname : g'.rootName = g.rootName)
    (hbody : ∀ t, g'.bodyMap.find t = (g.bodyMap.find t).map φ) (hf : g.nodes.length ≤ h'.fuel)
    {root : String} {r : Nat} (hr : g.bodyMap.find root = some r)
    (t : JointType) (axis : Vec3 K) (X0 Xb : PTransform K) :
    ∃ (bodies : List (Body K)) (rest : List (Joint K)) (pred succ par : List Int) (Xt : List (PTransform K)),
      rest.length + 1 = bodies.length ∧
      Graph.makeMultiBody h g root t axis X0 Xb =
        MultiBody.mk' bodies (Joint.mk' t axis true g.rootName :: rest) pred succ par Xt ∧
      Graph.makeMultiBody h' g' root t axis X0 Xb =
        MultiBody.mk' bodies (Joint.mk' t axis true g.rootName :: rest.map J) pred succ par Xt := by
  have hrm : r ∈ g.nodes := ((T.body root r).1 hr).1
  obtain ⟨st, e, hlen⟩ := T.makeTree_ok hrm (Joint.mk' t axis true g.rootName) X0 Xb
  obtain ⟨rest, e1, e2⟩ := S.makeTree _ h'.fuel r none _ (Joint.mk' t axis true g.rootName) (-1) 0 (-1) X0 Xb _ st [] hf hrm
    (by rintro w ⟨⟩) e
  obtain ⟨rest', e1', e2'⟩ := T.sim_id.makeTree _ h.fuel r none _ (Joint.mk' t axis true g.rootName) (-1) 0 (-1) X0 Xb _ st []
    T.nodes_length_le_fuel hrm (by rintro w ⟨⟩) e
  have er : rest' = rest := by
    rw [e1'] at e1
    simpa using e1
  subst er
  refine ⟨st.bodies, rest', st.pred, st.succ, st.parent, st.Xt, ?_, ?_, ?_⟩
  · rw [← hlen, e1']; simp
  · rw [Graph.makeMultiBody, SMap.getAt, hr]
    simp only [Res.bind_ok]
    have e2' : Graph.makeTree h h.fuel r none (Joint.mk' t axis true g.rootName) (-1) 0 (-1) X0 Xb
        ⟨[], [], [], [], [], []⟩ = _ := e2'
    rw [e2', Res.bind_ok]
    simp
  · rw [Graph.makeMultiBody, SMap.getAt, hbody, hr, hname]
    simp only [Res.bind_ok, Option.map_some]
    have e2 : Graph.makeTree h' h'.fuel (φ r) none (Joint.mk' t axis true g.rootName) (-1) 0 (-1) X0 Xb
        ⟨[], [], [], [], [], []⟩ = _ := e2
    rw [e2, Res.bind_ok]
    simp

theorem Image.fuel (M : Image h g φ J h' g') : g.nodes.length ≤ h'.fuel := by
  have := M.inv.nodes_length_le_fuel
  rw [M.nodes, List.length_map] at this
  exact this

end
end Graph
end RBDyn
