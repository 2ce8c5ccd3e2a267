import Verif.Model.Graph
import Mathlib.Data.List.Basic
import Mathlib.Data.List.Nodup

/-! Invariant of the graphs built by calls of `addBody`, `addJoint`, `linkBodies`. -/

namespace RBDyn
variable {K : Type}

namespace Graph

/-- The maps and vectors of a graph describe the same cells, and arcs stay inside the graph. -/
structure Inv (h : Heap K) (g : Graph) : Prop where
  nodes_nodup : g.nodes.Nodup
  joints_nodup : g.joints.Nodup
  body : ∀ (s : String) (p : Nat), g.bodyMap.find s = some p ↔
    p ∈ g.nodes ∧ ∃ n, h.nodes[p]? = some n ∧ n.body.name = s
  joint : ∀ (s : String) (p : Nat), g.jointMap.find s = some p ↔
    p ∈ g.joints ∧ ∃ j, h.joints[p]? = some j ∧ j.name = s
  nodes_get : ∀ p ∈ g.nodes, ∃ n, h.nodes[p]? = some n
  joints_get : ∀ p ∈ g.joints, ∃ j, h.joints[p]? = some j
  arcs : ∀ p ∈ g.nodes, ∀ n, h.nodes[p]? = some n → ∀ a ∈ n.arcs, a.next ∈ g.nodes

/-- `a` is an arc leaving the node `u` of the graph. -/
def Link (h : Heap K) (g : Graph) (u : Nat) (a : Arc K) : Prop :=
  u ∈ g.nodes ∧ ∃ n, h.nodes[u]? = some n ∧ a ∈ n.arcs

theorem Inv.empty (h : Heap K) (name : String) : Inv h (Graph.empty name) where
  nodes_nodup := List.nodup_nil
  joints_nodup := List.nodup_nil
  body := by simp [Graph.empty]
  joint := by simp [Graph.empty]
  nodes_get := by simp [Graph.empty]
  joints_get := by simp [Graph.empty]
  arcs := by simp [Graph.empty]

variable {h : Heap K} {g : Graph}

theorem Inv.link_next (I : Inv h g) {u : Nat} {a : Arc K} (hl : Link h g u a) : a.next ∈ g.nodes := by
  obtain ⟨hu, n, hn, ha⟩ := hl
  exact I.arcs u hu n hn a ha

theorem Inv.node_lt (I : Inv h g) {p : Nat} (hp : p ∈ g.nodes) : p < h.nodes.length := by
  obtain ⟨n, hn⟩ := I.nodes_get p hp
  exact (List.getElem?_eq_some_iff.1 hn).1

theorem Inv.joint_lt (I : Inv h g) {p : Nat} (hp : p ∈ g.joints) : p < h.joints.length := by
  obtain ⟨n, hn⟩ := I.joints_get p hp
  exact (List.getElem?_eq_some_iff.1 hn).1

/-- Two nodes of the graph with the same body name are the same node. -/
theorem Inv.name_inj (I : Inv h g) {p p' : Nat} {n n' : GNode K} (hp : p ∈ g.nodes) (hp' : p' ∈ g.nodes)
    (hn : h.nodes[p]? = some n) (hn' : h.nodes[p']? = some n') (e : n.body.name = n'.body.name) : p = p' := by
  have h1 := (I.body n.body.name p).2 ⟨hp, n, hn, rfl⟩
  have h2 := (I.body n.body.name p').2 ⟨hp', n', hn', e.symm⟩
  exact Option.some_inj.1 (h1.symm.trans h2)

theorem Inv.joint_inj (I : Inv h g) {p p' : Nat} {n n' : Joint K} (hp : p ∈ g.joints) (hp' : p' ∈ g.joints)
    (hn : h.joints[p]? = some n) (hn' : h.joints[p']? = some n') (e : n.name = n'.name) : p = p' := by
  have h1 := (I.joint n.name p).2 ⟨hp, n, hn, rfl⟩
  have h2 := (I.joint n.name p').2 ⟨hp', n', hn', e.symm⟩
  exact Option.some_inj.1 (h1.symm.trans h2)

/-! ### addBody, addJoint -/

/-- State after a successful `addBody`. -/
def addBodySt (b : Body K) (s : GSt K) : GSt K :=
  ({ s.1 with nodes := s.1.nodes ++ [⟨b, []⟩] },
    { s.2 with nodes := s.2.nodes ++ [s.1.nodes.length], bodyMap := s.2.bodyMap.set b.name s.1.nodes.length })

/-- State after a successful `addJoint`. -/
def addJointSt (j : Joint K) (s : GSt K) : GSt K :=
  ({ s.1 with joints := s.1.joints ++ [j] },
    { s.2 with joints := s.2.joints ++ [s.1.joints.length], jointMap := s.2.jointMap.set j.name s.1.joints.length })

theorem addBody_some {b : Body K} {s : GSt K} (hs : (s.2.bodyMap.find b.name).isSome) :
    addBody b s = .error .domainError s := by
  obtain ⟨h, g⟩ := s
  simp only [addBody]; rw [if_pos hs]

theorem addBody_none {b : Body K} {s : GSt K} (hs : s.2.bodyMap.find b.name = none) :
    addBody b s = .ok () (addBodySt b s) := by
  obtain ⟨h, g⟩ := s
  simp only [addBody]; rw [if_neg (by simpa using hs)]; rfl

theorem addJoint_some {j : Joint K} {s : GSt K} (hs : (s.2.jointMap.find j.name).isSome) :
    addJoint j s = .error .domainError s := by
  obtain ⟨h, g⟩ := s
  simp only [addJoint]; rw [if_pos hs]

theorem addJoint_none {j : Joint K} {s : GSt K} (hs : s.2.jointMap.find j.name = none) :
    addJoint j s = .ok () (addJointSt j s) := by
  obtain ⟨h, g⟩ := s
  simp only [addJoint]; rw [if_neg (by simpa using hs)]; rfl

theorem getElem?_append_one {α : Type _} (l : List α) (x : α) (p : Nat) :
    (l ++ [x])[p]? = if p = l.length then some x else l[p]? := by
  by_cases hp : p = l.length
  · subst hp; simp
  · rw [if_neg hp]
    rcases Nat.lt_or_gt_of_ne hp with hlt | hgt
    · rw [List.getElem?_append_left hlt]
    · rw [List.getElem?_eq_none (by simp; omega), List.getElem?_eq_none (by omega)]

theorem Inv.addBody {b : Body K} {s : GSt K} (I : Inv s.1 s.2) (hb : s.2.bodyMap.find b.name = none) :
    Inv (addBodySt b s).1 (addBodySt b s).2 := by
  obtain ⟨h, g⟩ := s
  dsimp only at I hb
  have hfresh : h.nodes.length ∉ g.nodes := fun hm => absurd (I.node_lt hm) (Nat.lt_irrefl _)
  have hget : ∀ p ∈ g.nodes, (h.nodes ++ [⟨b, []⟩])[p]? = h.nodes[p]? := fun p hp => by
    rw [getElem?_append_one, if_neg (by rintro rfl; exact hfresh hp)]
  refine ⟨?_, I.joints_nodup, ?_, I.joint, ?_, I.joints_get, ?_⟩ <;> dsimp only [addBodySt]
  · rw [List.nodup_append]
    exact ⟨I.nodes_nodup, List.nodup_singleton _, fun a ha c hc => by
      rintro rfl; rw [List.mem_singleton] at hc; exact hfresh (hc ▸ ha)⟩
  · intro s p
    rw [SMap.find_set]
    by_cases hs : s = b.name
    · rw [if_pos hs]
      constructor
      · intro e
        obtain rfl := Option.some_inj.1 e
        exact ⟨by simp, ⟨b, []⟩, by simp, hs.symm⟩
      · rintro ⟨hp, n, hn, he⟩
        rw [List.mem_append, List.mem_singleton] at hp
        rcases hp with hp | rfl
        · rw [hget p hp] at hn
          have := (I.body b.name p).2 ⟨hp, n, hn, by rw [he, hs]⟩
          rw [hb] at this; exact absurd this (by simp)
        · rfl
    · rw [if_neg hs, I.body]
      constructor
      · rintro ⟨hp, n, hn, he⟩
        exact ⟨List.mem_append_left _ hp, n, by rw [hget p hp, hn], he⟩
      · rintro ⟨hp, n, hn, he⟩
        rw [List.mem_append, List.mem_singleton] at hp
        rcases hp with hp | rfl
        · exact ⟨hp, n, by rw [← hget p hp, hn], he⟩
        · rw [getElem?_append_one, if_pos rfl] at hn
          obtain rfl := Option.some_inj.1 hn
          exact absurd he.symm hs
  · intro p hp
    rw [List.mem_append, List.mem_singleton] at hp
    rcases hp with hp | rfl
    · obtain ⟨n, hn⟩ := I.nodes_get p hp
      exact ⟨n, by rw [hget p hp, hn]⟩
    · exact ⟨⟨b, []⟩, by simp⟩
  · intro p hp n hn a ha
    rw [List.mem_append, List.mem_singleton] at hp
    rcases hp with hp | rfl
    · rw [hget p hp] at hn
      exact List.mem_append_left _ (I.arcs p hp n hn a ha)
    · rw [getElem?_append_one, if_pos rfl] at hn
      obtain rfl := Option.some_inj.1 hn
      simp at ha

theorem Inv.addJoint {j : Joint K} {s : GSt K} (I : Inv s.1 s.2) (hb : s.2.jointMap.find j.name = none) :
    Inv (addJointSt j s).1 (addJointSt j s).2 := by
  obtain ⟨h, g⟩ := s
  dsimp only at I hb
  have hfresh : h.joints.length ∉ g.joints := fun hm => absurd (I.joint_lt hm) (Nat.lt_irrefl _)
  have hget : ∀ p ∈ g.joints, (h.joints ++ [j])[p]? = h.joints[p]? := fun p hp => by
    rw [getElem?_append_one, if_neg (by rintro rfl; exact hfresh hp)]
  refine ⟨I.nodes_nodup, ?_, I.body, ?_, I.nodes_get, ?_, I.arcs⟩ <;> dsimp only [addJointSt]
  · rw [List.nodup_append]
    exact ⟨I.joints_nodup, List.nodup_singleton _, fun a ha c hc => by
      rintro rfl; rw [List.mem_singleton] at hc; exact hfresh (hc ▸ ha)⟩
  · intro s p
    rw [SMap.find_set]
    by_cases hs : s = j.name
    · rw [if_pos hs]
      constructor
      · intro e
        obtain rfl := Option.some_inj.1 e
        exact ⟨by simp, j, by simp, hs.symm⟩
      · rintro ⟨hp, n, hn, he⟩
        rw [List.mem_append, List.mem_singleton] at hp
        rcases hp with hp | rfl
        · rw [hget p hp] at hn
          have := (I.joint j.name p).2 ⟨hp, n, hn, by rw [he, hs]⟩
          rw [hb] at this; exact absurd this (by simp)
        · rfl
    · rw [if_neg hs, I.joint]
      constructor
      · rintro ⟨hp, n, hn, he⟩
        exact ⟨List.mem_append_left _ hp, n, by rw [hget p hp, hn], he⟩
      · rintro ⟨hp, n, hn, he⟩
        rw [List.mem_append, List.mem_singleton] at hp
        rcases hp with hp | rfl
        · exact ⟨hp, n, by rw [← hget p hp, hn], he⟩
        · rw [getElem?_append_one, if_pos rfl] at hn
          obtain rfl := Option.some_inj.1 hn
          exact absurd he.symm hs
  · intro p hp
    rw [List.mem_append, List.mem_singleton] at hp
    rcases hp with hp | rfl
    · obtain ⟨n, hn⟩ := I.joints_get p hp
      exact ⟨n, by rw [hget p hp, hn]⟩
    · exact ⟨j, by simp⟩

/-! ### linkBodies -/

/-- Writing the arcs of one node, so that they stay in the graph, keeps the invariant. -/
theorem Inv.setArcs (I : Inv h g) {p : Nat} {n : GNode K} {arcs : List (Arc K)} (hn : h.nodes[p]? = some n)
    (ha : ∀ a ∈ arcs, a.next ∈ g.nodes) : Inv (h.setArcs p n arcs) g := by
  have hlt := (List.getElem?_eq_some_iff.1 hn).1
  have hget : ∀ q, (h.setArcs p n arcs).nodes[q]? = if q = p then some { n with arcs := arcs } else h.nodes[q]? := by
    intro q
    unfold Heap.setArcs
    by_cases hq : q = p
    · subst hq; simp [hlt]
    · rw [if_neg hq, List.getElem?_set_ne (Ne.symm hq)]
  refine ⟨I.nodes_nodup, I.joints_nodup, ?_, I.joint, ?_, I.joints_get, ?_⟩
  · intro s q
    rw [I.body, hget]
    by_cases hq : q = p
    · subst hq; simp [hn]
    · simp [hq]
  · intro q hq
    rw [hget]
    by_cases hqp : q = p
    · exact ⟨_, if_pos hqp⟩
    · rw [if_neg hqp]; exact I.nodes_get q hq
  · intro q hq m hm a ham
    rw [hget] at hm
    by_cases hqp : q = p
    · rw [if_pos hqp] at hm
      obtain rfl := Option.some_inj.1 hm
      exact ha a ham
    · rw [if_neg hqp] at hm
      exact I.arcs q hq m hm a ham

theorem getElem?_setArcs {p : Nat} {n : GNode K} {arcs : List (Arc K)} (hn : h.nodes[p]? = some n) (q : Nat) :
    (h.setArcs p n arcs).nodes[q]? = if q = p then some { n with arcs := arcs } else h.nodes[q]? := by
  have hlt := (List.getElem?_eq_some_iff.1 hn).1
  unfold Heap.setArcs
  by_cases hq : q = p
  · subst hq; simp [hlt]
  · rw [if_neg hq, List.getElem?_set_ne (Ne.symm hq)]

section
variable [Scalar K]

/-- The two arcs appended by `linkBodies`. -/
def linkArcs (j : Joint K) (p1 p2 : Nat) (tB1 tB2 : PTransform K) (isB1toB2 : Bool) : Arc K × Arc K :=
  let fj1 := if isB1toB2 then j.isForward else !j.isForward
  (⟨tB1, j.setForward fj1, p2⟩, ⟨tB2, j.setForward (!fj1), p1⟩)

/-- `linkBodies` with known names. -/
theorem linkHeap_known (I : Inv h g) {b1 b2 name : String} {p1 p2 pj : Nat} {n1 n2 : GNode K} {j : Joint K}
    (h1 : g.bodyMap.find b1 = some p1) (h2 : g.bodyMap.find b2 = some p2) (h3 : g.jointMap.find name = some pj)
    (hn1 : h.nodes[p1]? = some n1) (hn2 : h.nodes[p2]? = some n2) (hj : h.joints[pj]? = some j)
    (tB1 tB2 : PTransform K) (dir : Bool) :
    ∃ h', linkHeap h g b1 tB1 b2 tB2 name dir = .ok h' ∧ Inv h' g ∧ h'.joints = h.joints ∧
      h'.nodes.length = h.nodes.length ∧
      (∀ p, p ≠ p1 → p ≠ p2 → h'.nodes[p]? = h.nodes[p]?) ∧
      (p1 ≠ p2 → h'.nodes[p1]? = some { n1 with arcs := n1.arcs ++ [(linkArcs j p1 p2 tB1 tB2 dir).1] } ∧
        h'.nodes[p2]? = some { n2 with arcs := n2.arcs ++ [(linkArcs j p1 p2 tB1 tB2 dir).2] }) ∧
      (p1 = p2 → h'.nodes[p1]? = some { n1 with
        arcs := n1.arcs ++ [(linkArcs j p1 p2 tB1 tB2 dir).1, (linkArcs j p1 p2 tB1 tB2 dir).2] }) := by
  obtain ⟨hp1, -⟩ := (I.body b1 p1).1 h1
  obtain ⟨hp2, -⟩ := (I.body b2 p2).1 h2
  have I1 : Inv (h.setArcs p1 n1 (n1.arcs ++ [(linkArcs j p1 p2 tB1 tB2 dir).1])) g := by
    refine I.setArcs hn1 ?_
    intro a ha
    rw [List.mem_append, List.mem_singleton] at ha
    rcases ha with ha | rfl
    · exact I.arcs p1 hp1 n1 hn1 a ha
    · exact hp2
  have hg1 := getElem?_setArcs (arcs := n1.arcs ++ [(linkArcs j p1 p2 tB1 tB2 dir).1]) hn1
  by_cases e : p1 = p2
  · subst e
    obtain rfl : n1 = n2 := Option.some_inj.1 (hn1.symm.trans hn2)
    have hn2' := hg1 p1
    rw [if_pos rfl] at hn2'
    have hg2 := getElem?_setArcs (arcs := n1.arcs ++ [(linkArcs j p1 p1 tB1 tB2 dir).1] ++
      [(linkArcs j p1 p1 tB1 tB2 dir).2]) hn2'
    refine ⟨_, ?_, I1.setArcs hn2' (arcs := n1.arcs ++ [(linkArcs j p1 p1 tB1 tB2 dir).1] ++
      [(linkArcs j p1 p1 tB1 tB2 dir).2]) ?_, rfl, ?_, ?_, ?_, ?_⟩
    · simp only [linkHeap, SMap.getAt, h1, h2, h3, rd_of_getElem? hj, rd_of_getElem? hn1, Res.bind_ok]
      have : rd (h.setArcs p1 n1 (n1.arcs ++ [mkArc tB1 j (if dir = true then j.isForward else !j.isForward) p1])).nodes p1 = .ok _ := rd_of_getElem? hn2'
      rw [this]
      rfl
    · intro a ha
      rw [List.mem_append, List.mem_singleton] at ha
      rcases ha with ha | rfl
      · exact I1.arcs p1 hp1 _ hn2' a ha
      · exact hp2
    · simp [Heap.setArcs]
    · intro p hp _
      rw [hg2, if_neg hp, hg1, if_neg hp]
    · intro hne; exact absurd rfl hne
    · intro _
      rw [hg2, if_pos rfl]
      simp
  · have hn2' := hg1 p2
    rw [if_neg (Ne.symm e), hn2] at hn2'
    have hg2 := getElem?_setArcs (arcs := n2.arcs ++ [(linkArcs j p1 p2 tB1 tB2 dir).2]) hn2'
    refine ⟨_, ?_, I1.setArcs hn2' (arcs := n2.arcs ++ [(linkArcs j p1 p2 tB1 tB2 dir).2]) ?_, rfl, ?_, ?_, ?_, ?_⟩
    · simp only [linkHeap, SMap.getAt, h1, h2, h3, rd_of_getElem? hj, rd_of_getElem? hn1, Res.bind_ok]
      have : rd (h.setArcs p1 n1 (n1.arcs ++ [mkArc tB1 j (if dir = true then j.isForward else !j.isForward) p2])).nodes p2 = .ok _ := rd_of_getElem? hn2'
      rw [this]
      rfl
    · intro a ha
      rw [List.mem_append, List.mem_singleton] at ha
      rcases ha with ha | rfl
      · exact I.arcs p2 hp2 n2 hn2 a ha
      · exact hp1
    · simp [Heap.setArcs]
    · intro p hpa hpb
      rw [hg2, if_neg hpb, hg1, if_neg hpa]
    · intro _
      refine ⟨?_, ?_⟩
      · rw [hg2, if_neg e, hg1, if_pos rfl]
      · rw [hg2, if_pos rfl]
    · intro hne; exact absurd hne e

theorem linkBodies_ok {s : GSt K} {h' : Heap K} {b1 b2 name : String} {tB1 tB2 : PTransform K} {dir : Bool}
    (e : linkHeap s.1 s.2 b1 tB1 b2 tB2 name dir = .ok h') :
    linkBodies b1 tB1 b2 tB2 name dir s = .ok () (h', s.2) := by
  obtain ⟨h, g⟩ := s
  simp only [linkBodies, e]

theorem linkBodies_error {s : GSt K} {er : Err} {b1 b2 name : String} {tB1 tB2 : PTransform K} {dir : Bool}
    (e : linkHeap s.1 s.2 b1 tB1 b2 tB2 name dir = .error er) :
    linkBodies b1 tB1 b2 tB2 name dir s = .error er s := by
  obtain ⟨h, g⟩ := s
  simp only [linkBodies, e]

/-- `linkBodies` with an unknown name. -/
theorem linkHeap_unknown {b1 b2 name : String}
    (hu : g.bodyMap.find b1 = none ∨ g.bodyMap.find b2 = none ∨ g.jointMap.find name = none)
    (tB1 tB2 : PTransform K) (dir : Bool) : linkHeap h g b1 tB1 b2 tB2 name dir = .error .outOfRange := by
  unfold linkHeap SMap.getAt
  cases h1 : g.bodyMap.find b1 with
  | none => rfl
  | some p1 =>
    cases h2 : g.bodyMap.find b2 with
    | none => rfl
    | some p2 =>
      cases h3 : g.jointMap.find name with
      | none => rfl
      | some pj => rw [h1, h2, h3] at hu; simp at hu

end

end Graph
end RBDyn
