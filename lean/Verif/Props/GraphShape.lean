import Verif.Lemmas.GraphSym

/-! Property C70: what `makeMultiBody` and the other traversals make of a graph that is not a tree. -/

namespace RBDyn
variable {K : Type} [Scalar K]

open Graph

theorem Graph.Inv.two_mul_le_fuel {h : Heap K} {g : Graph} (I : Inv h g) : 2 * g.nodes.length ≤ h.fuel := by
  have := I.length_le
  unfold Heap.fuel
  nlinarith

theorem nodeByName_find {g : Graph} {name : String} {r : Nat} (hr : g.nodeByName name = .ok r) :
    g.bodyMap.find name = some r := by
  unfold nodeByName SMap.getAt at hr
  split at hr <;> simp_all

/-- C70, the four traversals: whatever bodies, joints and links were added, they return exactly if no closed chain of links
can be reached from the root and at most one body that can be reached is linked to itself; otherwise the recursion has no
end, whatever its depth. -/
theorem C70_returns (h : Heap K) (rootName : String) (ops : List (BuildOp K)) {root : String} {r : Nat}
    (hr : (built h rootName ops).2.nodeByName root = .ok r) (t : JointType) (axis : Vec3 K) (X0 Xb : PTransform K) :
    let s := built h rootName ops
    (EndsFrom s.1 s.2 r → (∃ mb, makeMultiBody s.1 s.2 root t axis X0 Xb = .ok mb) ∧
      (∃ m, bodiesBaseTransform s.1 s.2 root Xb = .ok m) ∧ (∃ m, successorJoints s.1 s.2 root = .ok m) ∧
      (∃ m, predecessorJoint s.1 s.2 root = .ok m)) ∧
    (¬ EndsFrom s.1 s.2 r → makeMultiBody s.1 s.2 root t axis X0 Xb = .error .diverges ∧
      bodiesBaseTransform s.1 s.2 root Xb = .error .diverges ∧ successorJoints s.1 s.2 root = .error .diverges ∧
      predecessorJoint s.1 s.2 root = .error .diverges ∧
      ∀ depth j p q par Xt st, makeTree s.1 depth r none j p q par Xt Xb st = .error .diverges) := by
  intro s
  have I : Inv s.1 s.2 := built_inv h rootName ops
  have S : Sym s.1 s.2 := built_sym h rootName ops
  have hr' := nodeByName_find hr
  have hm := ((I.body _ _).1 hr').1
  have key := S.endsFrom_iff I hm I.two_mul_le_fuel
  have e1 := I.makeMultiBody_ends hr' t axis X0 Xb
  have e2 := computeTransform_ends I s.1.fuel hm none Xb []
  have e3 := computeSuccessors_ends I s.1.fuel hm none []
  have e4 := computePredecessor_ends I s.1.fuel hm none s.2.rootName []
  have b2 : bodiesBaseTransform s.1 s.2 root Xb = computeTransform s.1 s.1.fuel r none Xb [] := by
    simp only [bodiesBaseTransform, SMap.getAt]; rw [hr']; rfl
  have b3 : successorJoints s.1 s.2 root = computeSuccessors s.1 s.1.fuel r none [] := by
    simp only [successorJoints, SMap.getAt]; rw [hr']; rfl
  have b4 : predecessorJoint s.1 s.2 root = computePredecessor s.1 s.1.fuel r none s.2.rootName [] := by
    simp only [predecessorJoint, SMap.getAt]; rw [hr']; rfl
  rw [b2, b3, b4]
  constructor
  · intro E
    have hc := key.2 E
    obtain ⟨mb, e, -⟩ := e1.2 hc
    exact ⟨⟨mb, e⟩, e2.2 hc, e3.2 hc, e4.2 hc⟩
  · intro E
    have hc := not_not.1 (mt key.1 E)
    refine ⟨e1.1 hc, e2.1 hc, e3.1 hc, e4.1 hc, fun depth j p q par Xt st => ?_⟩
    exact (makeTree_ends I depth hm none j p q par Xt Xb st).1 (I.canStep_fuel hm depth hc)

/-- C70, the bodies of the result: those that can be reached from the root. Bodies that are not connected to it are
silently left out. -/
theorem C70_bodies (h : Heap K) (rootName : String) (ops : List (BuildOp K)) {root : String} {r : Nat}
    (hr : (built h rootName ops).2.nodeByName root = .ok r) {t : JointType} {axis : Vec3 K} {X0 Xb : PTransform K}
    {mb : MultiBody K} (hmb : makeMultiBody (built h rootName ops).1 (built h rootName ops).2 root t axis X0 Xb = .ok mb)
    (name : String) :
    let s := built h rootName ops
    (∃ b ∈ mb.bodies, b.name = name) ↔ ∃ p n, IsNode s p n ∧ n.body.name = name ∧ (simple s.1 s.2).Reachable r p := by
  intro s
  have I : Inv s.1 s.2 := built_inv h rootName ops
  have S : Sym s.1 s.2 := built_sym h rootName ops
  have hr' := nodeByName_find hr
  have hm := ((I.body _ _).1 hr').1
  have e1 := I.makeMultiBody_ends hr' t axis X0 Xb
  have hc : ¬ CanStep s.1 s.1.fuel r none := fun hc => by
    have := e1.1 hc
    rw [hmb] at this
    cases this
  obtain ⟨mb', e, hb⟩ := e1.2 hc
  rw [hmb] at e
  obtain rfl := Except.ok.inj e
  rw [← List.mem_map, hb, List.mem_map]
  constructor
  · rintro ⟨p, hp, e⟩
    obtain ⟨h1, h2⟩ := I.dfs_reachable _ hm hp
    obtain ⟨n, hn⟩ := I.nodes_get p h1
    rw [nameOf, hn] at e
    exact ⟨p, n, ⟨h1, hn⟩, e, h2⟩
  · rintro ⟨p, n, ⟨h1, hn⟩, e, h2⟩
    refine ⟨p, (S.mem_dfs_iff I hm hc).2 h2, ?_⟩
    rw [nameOf, hn]
    exact e

/-- C70, trees: `makeMultiBody` returns a `MultiBody` in which no two bodies have the same name exactly if what can be
reached from the root is a tree: no closed chain, no body linked to itself, no two bodies linked twice. In every other case
it does not return, or returns a `MultiBody` with a body in it several times; it never throws. -/
theorem C70_tree (h : Heap K) (rootName : String) (ops : List (BuildOp K)) {root : String} {r : Nat}
    (hr : (built h rootName ops).2.nodeByName root = .ok r) (t : JointType) (axis : Vec3 K) (X0 Xb : PTransform K) :
    let s := built h rootName ops
    ((∃ mb, makeMultiBody s.1 s.2 root t axis X0 Xb = .ok mb ∧ (mb.bodies.map fun b => b.name).Nodup) ↔
      TreeFrom s.1 s.2 r) ∧
    (¬ TreeFrom s.1 s.2 r → makeMultiBody s.1 s.2 root t axis X0 Xb = .error .diverges ∨
      ∃ mb, makeMultiBody s.1 s.2 root t axis X0 Xb = .ok mb ∧ ∃ i k : Nat, i < k ∧ ∃ b b', mb.bodies[i]? = some b ∧
        mb.bodies[k]? = some b' ∧ b.name = b'.name) := by
  intro s
  have I : Inv s.1 s.2 := built_inv h rootName ops
  have S : Sym s.1 s.2 := built_sym h rootName ops
  have hr' := nodeByName_find hr
  have hm := ((I.body _ _).1 hr').1
  have key := S.treeFrom_iff I hm (show s.2.nodes.length ≤ s.1.fuel by have := I.two_mul_le_fuel; omega)
  have e1 := I.makeMultiBody_ends hr' t axis X0 Xb
  have nd : (((dfs s.1 s.1.fuel r none).map (nameOf s.1)).Nodup ↔ (dfs s.1 s.1.fuel r none).Nodup) := by
    refine ⟨List.Nodup.of_map _, List.Nodup.map_on fun x hx y hy e => ?_⟩
    have mx := (I.dfs_reachable _ hm hx).1
    have my := (I.dfs_reachable _ hm hy).1
    obtain ⟨nx, hnx⟩ := I.nodes_get x mx
    obtain ⟨ny, hny⟩ := I.nodes_get y my
    rw [nameOf, nameOf, hnx, hny] at e
    exact I.name_inj mx my hnx hny e
  by_cases hc : CanStep s.1 s.1.fuel r none
  · have hT : ¬ TreeFrom s.1 s.2 r := fun T => (key.2 T).1 hc
    refine ⟨⟨?_, fun T => absurd T hT⟩, fun _ => .inl (e1.1 hc)⟩
    rintro ⟨mb, e, -⟩
    rw [e1.1 hc] at e
    cases e
  · obtain ⟨mb, e, hb⟩ := e1.2 hc
    have hiff : (mb.bodies.map fun b => b.name).Nodup ↔ TreeFrom s.1 s.2 r := by
      rw [hb, nd, ← key]
      exact ⟨fun h => ⟨hc, h⟩, fun h => h.2⟩
    refine ⟨⟨?_, fun T => ⟨mb, e, hiff.2 T⟩⟩, fun hT => .inr ⟨mb, e, ?_⟩⟩
    · rintro ⟨mb', e', hn⟩
      rw [e] at e'
      obtain rfl := Except.ok.inj e'
      exact hiff.1 hn
    · have hn := mt hiff.1 hT
      rw [List.nodup_iff_getElem?_ne_getElem?] at hn
      push Not at hn
      obtain ⟨i, k, hik, hk, e⟩ := hn
      rw [List.length_map] at hk
      rw [List.getElem?_map, List.getElem?_map, List.getElem?_eq_getElem hk, List.getElem?_eq_getElem (by omega)] at e
      exact ⟨i, k, hik, _, _, List.getElem?_eq_getElem (by omega), List.getElem?_eq_getElem hk, Option.some_inj.1 e⟩

/-! ### Examples -/

namespace Sample

/-- Three bodies and four joints. -/
def parts : List (BuildOp ℚ) :=
  [.body ⟨⟨4, ⟨1, 0, 2⟩, ⟨5, 0, 6, 0, 0, 7⟩⟩, "base"⟩, .body ⟨⟨2, ⟨0, 1, 0⟩, ⟨3, 0, 3, 0, 0, 3⟩⟩, "arm"⟩,
   .body ⟨⟨1, ⟨0, 0, 1⟩, ⟨2, 0, 2, 0, 0, 2⟩⟩, "hand"⟩, .joint (Joint.mk' .Rev ⟨1, 0, 0⟩ true "shoulder"),
   .joint (Joint.mk' .Rev ⟨0, 1, 0⟩ true "elbow"), .joint (Joint.mk' .Prism ⟨0, 0, 1⟩ true "rod"),
   .joint (Joint.mk' .Fixed ⟨0, 0, 1⟩ true "weld")]

/-- A parallel mechanism: the three bodies form a closed chain. -/
def ring : GSt ℚ := built ⟨[], []⟩ "Root" (parts ++ [.link "base" 1 "arm" 1 "shoulder" true, .link "arm" 1 "hand" 1 "elbow" true,
  .link "hand" 1 "base" 1 "rod" true])

/-- Two bodies linked twice, and a body by itself. -/
def twice : GSt ℚ := built ⟨[], []⟩ "Root" (parts ++ [.link "base" 1 "arm" 1 "shoulder" true, .link "base" 1 "arm" 1 "rod" true])

/-- A body linked to itself. -/
def own : GSt ℚ := built ⟨[], []⟩ "Root" (parts ++ [.link "base" 1 "arm" 1 "shoulder" true, .link "arm" 1 "arm" 1 "weld" true])

/-- Two bodies linked to themselves. -/
def own2 : GSt ℚ := built ⟨[], []⟩ "Root" (parts ++ [.link "base" 1 "arm" 1 "shoulder" true, .link "arm" 1 "arm" 1 "weld" true,
  .link "base" 1 "base" 1 "rod" true])

def bodyNames (r : Res (MultiBody ℚ)) : Res (List String) := r.map fun mb => mb.bodies.map fun b => b.name

end Sample

theorem simple_adj_of {h : Heap K} {g : Graph} {u v : Nat} (hne : u ≠ v) (hu : u ∈ g.nodes)
    (ha : ∃ n ∈ h.nodes[u]?, ∃ a ∈ n.arcs, a.next = v) : (simple h g).Adj u v := by
  obtain ⟨n, hn, a, ha, e⟩ := ha
  exact ⟨hne, .inl ⟨a, ⟨hu, n, hn, ha⟩, e⟩⟩

/-- The closed chain of three bodies meets the hypotheses of `C70_returns`, and no traversal of it ends. -/
theorem C70_ring_diverges (Xb : PTransform ℚ) : makeMultiBody Sample.ring.1 Sample.ring.2 "base" .Free Vec3.unitZ 1 Xb = .error .diverges ∧
    bodiesBaseTransform Sample.ring.1 Sample.ring.2 "base" Xb = .error .diverges ∧
    successorJoints Sample.ring.1 Sample.ring.2 "base" = .error .diverges ∧
    predecessorJoint Sample.ring.1 Sample.ring.2 "base" = .error .diverges := by
  have hE : ¬ EndsFrom Sample.ring.1 Sample.ring.2 0 := by
    intro E
    have a01 : (simple Sample.ring.1 Sample.ring.2).Adj 0 1 := simple_adj_of (by decide) (by decide +kernel) (by decide +kernel)
    have a12 : (simple Sample.ring.1 Sample.ring.2).Adj 1 2 := simple_adj_of (by decide) (by decide +kernel) (by decide +kernel)
    have a20 : (simple Sample.ring.1 Sample.ring.2).Adj 2 0 := simple_adj_of (by decide) (by decide +kernel) (by decide +kernel)
    refine E.1 0 (.refl _) ⟨.cons a01 (.cons a12 (.cons a20 .nil)), ?_⟩
    simp [SimpleGraph.Walk.cons_isCycle_iff, SimpleGraph.Walk.cons_isPath_iff]
  have := (C70_returns ⟨[], []⟩ "Root" _ (root := "base") (r := 0) (by decide +kernel) .Free Vec3.unitZ 1 Xb).2 hE
  exact ⟨this.1, this.2.1, this.2.2.1, this.2.2.2.1⟩

/-- Two links between the same two bodies: no exception, and the second body is twice in the result. The third body, which is
not linked, is not in it. A body linked to itself is in it twice as well. -/
theorem C70_duplicates : Sample.bodyNames (makeMultiBody Sample.twice.1 Sample.twice.2 "base" .Free Vec3.unitZ 1 1) =
      .ok ["base", "arm", "arm"] ∧
    Sample.bodyNames (makeMultiBody Sample.own.1 Sample.own.2 "base" .Free Vec3.unitZ 1 1) = .ok ["base", "arm", "arm", "base", "arm", "base"] := by
  decide +kernel

/-- Two bodies linked to themselves: the recursion goes to and fro between them. -/
example : ¬ EndsFrom Sample.own2.1 Sample.own2.2 0 ∧
    makeMultiBody Sample.own2.1 Sample.own2.2 "base" .Free Vec3.unitZ 1 1 = .error .diverges := by
  have hr : Sample.own2.2.nodeByName "base" = .ok 0 := by decide +kernel
  have hm : makeMultiBody Sample.own2.1 Sample.own2.2 "base" .Free Vec3.unitZ 1 1 = .error .diverges := by decide +kernel
  refine ⟨fun E => ?_, hm⟩
  obtain ⟨mb, e⟩ := ((C70_returns ⟨[], []⟩ "Root" _ hr .Free Vec3.unitZ 1 1).1 E).1
  have := hm.symm.trans e
  cases this

/-- Two bodies linked once form a tree although a third one is not linked; the result has the two bodies. -/
example : ∃ s : GSt ℚ, s = built ⟨[], []⟩ "Root" (Sample.parts ++ [.link "base" 1 "arm" 1 "shoulder" true]) ∧
    s.2.nrNodes = 3 ∧ TreeFrom s.1 s.2 0 ∧
    Sample.bodyNames (makeMultiBody s.1 s.2 "base" .Free Vec3.unitZ 1 1) = .ok ["base", "arm"] := by
  refine ⟨_, rfl, by decide +kernel, ?_, by decide +kernel⟩
  have hr : (built ⟨[], []⟩ "Root" (Sample.parts ++ [.link "base" 1 "arm" 1 "shoulder" true])).2.nodeByName "base" = .ok 0 := by
    decide +kernel
  refine (C70_tree ⟨[], []⟩ "Root" _ hr .Free Vec3.unitZ 1 1).1.1 ?_
  have : ∀ r : Res (MultiBody ℚ), Sample.bodyNames r = .ok ["base", "arm"] →
      ∃ mb, r = .ok mb ∧ (mb.bodies.map fun b => b.name).Nodup := by
    intro r hr
    cases r with
    | error e => cases hr
    | ok mb =>
      have : (mb.bodies.map fun b => b.name) = ["base", "arm"] := Except.ok.inj hr
      exact ⟨mb, rfl, by rw [this]; decide⟩
  exact this _ (by decide +kernel)

/-- The hypotheses of `C70_bodies` are met by the graph with a double link. -/
example : ∃ mb, makeMultiBody Sample.twice.1 Sample.twice.2 "base" .Free Vec3.unitZ 1 1 = .ok mb := by
  have := C70_duplicates.1
  cases e : makeMultiBody Sample.twice.1 Sample.twice.2 "base" .Free Vec3.unitZ 1 1 with
  | error x => rw [e] at this; cases this
  | ok mb => exact ⟨mb, rfl⟩

end RBDyn
