import Verif.Lemmas.GraphPlace
import Verif.Lemmas.Sample

/-! Properties C13 and C14: construction of a `MultiBodyGraph`. -/

namespace RBDyn
variable {K : Type} [Scalar K]

open Graph

/-- A call of one of the construction functions. -/
inductive BuildOp (K : Type) where
  | body (b : Body K)
  | joint (j : Joint K)
  | link (b1 : String) (t1 : PTransform K) (b2 : String) (t2 : PTransform K) (joint : String) (dir : Bool)

/-- The call. -/
def BuildOp.run : BuildOp K → GM K Unit
  | .body b => addBody b
  | .joint j => addJoint j
  | .link b1 t1 b2 t2 j d => linkBodies b1 t1 b2 t2 j d

/-- The state after a call, whether it returned or threw. -/
def stateAfter {α : Type} : EStateM.Result Err (GSt K) α → GSt K
  | .ok _ s => s
  | .error _ s => s

/-- The state after a sequence of calls on a fresh graph; exceptions are caught by the caller. `h` is the memory
before the graph was created: other graphs may live there. -/
def built (h : Heap K) (rootName : String) (ops : List (BuildOp K)) : GSt K :=
  ops.foldl (fun s op => stateAfter (op.run s)) (h, Graph.empty rootName)

/-- `n` is the content of a node of the graph. -/
def IsNode (s : GSt K) (p : Nat) (n : GNode K) : Prop := p ∈ s.2.nodes ∧ s.1.nodes[p]? = some n

/-- `j` is the content of a joint of the graph. -/
def IsJoint (s : GSt K) (p : Nat) (j : Joint K) : Prop := p ∈ s.2.joints ∧ s.1.joints[p]? = some j

theorem Graph.Inv.run {s : GSt K} (I : Inv s.1 s.2) (op : BuildOp K) :
    Inv (stateAfter (op.run s)).1 (stateAfter (op.run s)).2 := by
  cases op with
  | body b =>
    cases hb : s.2.bodyMap.find b.name with
    | some p =>
      have : Graph.addBody b s = .error .domainError s := addBody_some (by rw [hb]; rfl)
      simp only [BuildOp.run, this, stateAfter]; exact I
    | none =>
      simp only [BuildOp.run, addBody_none hb, stateAfter]; exact I.addBody hb
  | joint j =>
    cases hb : s.2.jointMap.find j.name with
    | some p =>
      have : Graph.addJoint j s = .error .domainError s := addJoint_some (by rw [hb]; rfl)
      simp only [BuildOp.run, this, stateAfter]; exact I
    | none =>
      simp only [BuildOp.run, addJoint_none hb, stateAfter]; exact I.addJoint hb
  | link b1 t1 b2 t2 name d =>
    cases h1 : s.2.bodyMap.find b1 with
    | none =>
      rw [BuildOp.run, linkBodies_error (linkHeap_unknown (Or.inl h1) t1 t2 d)]; exact I
    | some p1 =>
      cases h2 : s.2.bodyMap.find b2 with
      | none =>
        rw [BuildOp.run, linkBodies_error (linkHeap_unknown (Or.inr (Or.inl h2)) t1 t2 d)]; exact I
      | some p2 =>
        cases h3 : s.2.jointMap.find name with
        | none =>
          rw [BuildOp.run, linkBodies_error (linkHeap_unknown (Or.inr (Or.inr h3)) t1 t2 d)]; exact I
        | some pj =>
          obtain ⟨-, n1, hn1, -⟩ := (I.body _ _).1 h1
          obtain ⟨-, n2, hn2, -⟩ := (I.body _ _).1 h2
          obtain ⟨-, j, hj, -⟩ := (I.joint _ _).1 h3
          obtain ⟨h', hok, hI, -⟩ := linkHeap_known I h1 h2 h3 hn1 hn2 hj t1 t2 d
          rw [BuildOp.run, linkBodies_ok hok]; exact hI

theorem built_inv (h : Heap K) (rootName : String) (ops : List (BuildOp K)) :
    Inv (built h rootName ops).1 (built h rootName ops).2 := by
  unfold built
  generalize hs : ((h, Graph.empty rootName) : GSt K) = s
  have I : Inv s.1 s.2 := by rw [← hs]; exact Inv.empty h rootName
  clear hs
  induction ops generalizing s with
  | nil => exact I
  | cons op ops ih => exact ih _ (I.run op)

/-! ### C13 -/

/-- C13: after any sequence of calls, body names are pairwise distinct and so are joint names; the nodes (joints) are
distinct cells, and `nodeByName` (`jointByName`) returns the node (joint) of that name if there is one, and throws
`out_of_range` otherwise. -/
theorem C13_unique_names (h : Heap K) (rootName : String) (ops : List (BuildOp K)) :
    let s := built h rootName ops
    s.2.nodes.Nodup ∧ s.2.joints.Nodup ∧
    (∀ p ∈ s.2.nodes, ∃ n, IsNode s p n) ∧ (∀ p ∈ s.2.joints, ∃ j, IsJoint s p j) ∧
    (∀ p q n m, IsNode s p n → IsNode s q m → n.body.name = m.body.name → p = q) ∧
    (∀ p q i j, IsJoint s p i → IsJoint s q j → i.name = j.name → p = q) ∧
    (∀ p n, IsNode s p n → s.2.nodeByName n.body.name = .ok p) ∧
    (∀ p j, IsJoint s p j → s.2.jointByName j.name = .ok p) ∧
    (∀ name, (∀ p n, IsNode s p n → n.body.name ≠ name) → s.2.nodeByName name = .error .outOfRange) ∧
    (∀ name, (∀ p j, IsJoint s p j → j.name ≠ name) → s.2.jointByName name = .error .outOfRange) := by
  intro s
  have I : Inv s.1 s.2 := built_inv h rootName ops
  refine ⟨I.nodes_nodup, I.joints_nodup, ?_, ?_, ?_, ?_, ?_, ?_, ?_, ?_⟩
  · intro p hp
    obtain ⟨n, hn⟩ := I.nodes_get p hp
    exact ⟨n, hp, hn⟩
  · intro p hp
    obtain ⟨n, hn⟩ := I.joints_get p hp
    exact ⟨n, hp, hn⟩
  · rintro p q n m ⟨hp, hn⟩ ⟨hq, hm⟩ e
    exact I.name_inj hp hq hn hm e
  · rintro p q i j ⟨hp, hn⟩ ⟨hq, hm⟩ e
    exact I.joint_inj hp hq hn hm e
  · rintro p n ⟨hp, hn⟩
    simp only [nodeByName, SMap.getAt, (I.body n.body.name p).2 ⟨hp, n, hn, rfl⟩]
  · rintro p n ⟨hp, hn⟩
    simp only [jointByName, SMap.getAt, (I.joint n.name p).2 ⟨hp, n, hn, rfl⟩]
  · intro name hno
    cases hf : s.2.bodyMap.find name with
    | none => simp only [nodeByName, SMap.getAt, hf]
    | some p =>
      obtain ⟨hp, n, hn, e⟩ := (I.body _ _).1 hf
      exact absurd e (hno p n ⟨hp, hn⟩)
  · intro name hno
    cases hf : s.2.jointMap.find name with
    | none => simp only [jointByName, SMap.getAt, hf]
    | some p =>
      obtain ⟨hp, n, hn, e⟩ := (I.joint _ _).1 hf
      exact absurd e (hno p n ⟨hp, hn⟩)

/-- C13: `addBody` throws `domain_error` and leaves everything unchanged if a body of the graph has that name;
otherwise it returns, `nodeByName` gives a new node with the body and no arc for its name and the same results as
before for all other names, and no other node, joint or arc changes. -/
theorem C13_addBody (h : Heap K) (rootName : String) (ops : List (BuildOp K)) (b : Body K) :
    let s := built h rootName ops
    ((∃ p n, IsNode s p n ∧ n.body.name = b.name) → addBody b s = .error .domainError s) ∧
    ((∀ p n, IsNode s p n → n.body.name ≠ b.name) → ∃ s' p, addBody b s = .ok () s' ∧
      s'.2.nodeByName b.name = .ok p ∧ p ∉ s.2.nodes ∧ p = s.1.nodes.length ∧ IsNode s' p ⟨b, []⟩ ∧
      (∀ name, name ≠ b.name → s'.2.nodeByName name = s.2.nodeByName name) ∧
      (∀ name, s'.2.jointByName name = s.2.jointByName name) ∧
      (∀ q n, q ≠ p → (IsNode s' q n ↔ IsNode s q n)) ∧ (∀ q j, IsJoint s' q j ↔ IsJoint s q j) ∧
      s'.2.nrNodes = s.2.nrNodes + 1 ∧ s'.2.nrJoints = s.2.nrJoints) := by
  intro s
  have I : Inv s.1 s.2 := built_inv h rootName ops
  refine ⟨?_, ?_⟩
  · rintro ⟨p, n, ⟨hp, hn⟩, e⟩
    exact addBody_some (by rw [(I.body b.name p).2 ⟨hp, n, hn, e⟩]; rfl)
  · intro hno
    have hb : s.2.bodyMap.find b.name = none := by
      cases hf : s.2.bodyMap.find b.name with
      | none => rfl
      | some p =>
        obtain ⟨hp, n, hn, e⟩ := (I.body _ _).1 hf
        exact absurd e (hno p n ⟨hp, hn⟩)
    have hnot : s.1.nodes.length ∉ s.2.nodes := fun hm => absurd (I.node_lt hm) (lt_irrefl _)
    refine ⟨addBodySt b s, s.1.nodes.length, addBody_none hb, ?_, hnot, rfl, ?_, ?_, ?_, ?_, ?_, ?_, ?_⟩
    · simp only [nodeByName, SMap.getAt, addBodySt, SMap.find_set, if_pos]
    · exact ⟨by simp [addBodySt], by simp [addBodySt]⟩
    · intro name hne
      simp only [nodeByName, SMap.getAt, addBodySt, SMap.find_set, if_neg hne]
    · intro name; rfl
    · intro q n hq
      simp only [IsNode, addBodySt, List.mem_append, List.mem_singleton, hq, or_false, getElem?_append_one, if_false]
    · intro q j; rfl
    · simp [nrNodes, addBodySt]
    · rfl

/-- C13: the same for `addJoint`. -/
theorem C13_addJoint (h : Heap K) (rootName : String) (ops : List (BuildOp K)) (j : Joint K) :
    let s := built h rootName ops
    ((∃ p i, IsJoint s p i ∧ i.name = j.name) → addJoint j s = .error .domainError s) ∧
    ((∀ p i, IsJoint s p i → i.name ≠ j.name) → ∃ s' p, addJoint j s = .ok () s' ∧
      s'.2.jointByName j.name = .ok p ∧ p ∉ s.2.joints ∧ p = s.1.joints.length ∧ IsJoint s' p j ∧
      (∀ name, name ≠ j.name → s'.2.jointByName name = s.2.jointByName name) ∧
      (∀ name, s'.2.nodeByName name = s.2.nodeByName name) ∧
      (∀ q i, q ≠ p → (IsJoint s' q i ↔ IsJoint s q i)) ∧ (∀ q n, IsNode s' q n ↔ IsNode s q n) ∧
      s'.2.nrJoints = s.2.nrJoints + 1 ∧ s'.2.nrNodes = s.2.nrNodes) := by
  intro s
  have I : Inv s.1 s.2 := built_inv h rootName ops
  refine ⟨?_, ?_⟩
  · rintro ⟨p, n, ⟨hp, hn⟩, e⟩
    exact addJoint_some (by rw [(I.joint j.name p).2 ⟨hp, n, hn, e⟩]; rfl)
  · intro hno
    have hb : s.2.jointMap.find j.name = none := by
      cases hf : s.2.jointMap.find j.name with
      | none => rfl
      | some p =>
        obtain ⟨hp, n, hn, e⟩ := (I.joint _ _).1 hf
        exact absurd e (hno p n ⟨hp, hn⟩)
    have hnot : s.1.joints.length ∉ s.2.joints := fun hm => absurd (I.joint_lt hm) (lt_irrefl _)
    refine ⟨addJointSt j s, s.1.joints.length, addJoint_none hb, ?_, hnot, rfl, ?_, ?_, ?_, ?_, ?_, ?_, ?_⟩
    · simp only [jointByName, SMap.getAt, addJointSt, SMap.find_set, if_pos]
    · exact ⟨by simp [addJointSt], by simp [addJointSt]⟩
    · intro name hne
      simp only [jointByName, SMap.getAt, addJointSt, SMap.find_set, if_neg hne]
    · intro name; rfl
    · intro q n hq
      simp only [IsJoint, addJointSt, List.mem_append, List.mem_singleton, hq, or_false, getElem?_append_one, if_false]
    · intro q j; rfl
    · simp [nrJoints, addJointSt]
    · rfl

/-- Two bodies and a joint, with a repeated name. -/
def Sample.ops : List (BuildOp ℚ) :=
  [.body ⟨⟨4, ⟨1, 0, 2⟩, ⟨5, 0, 6, 0, 0, 7⟩⟩, "base"⟩, .body ⟨⟨2, ⟨0, 1, 0⟩, ⟨3, 0, 3, 0, 0, 3⟩⟩, "arm"⟩,
   .body ⟨⟨1, ⟨0, 0, 1⟩, ⟨2, 0, 2, 0, 0, 2⟩⟩, "arm"⟩, .joint (Joint.mk' .Rev ⟨1, 0, 0⟩ true "shoulder"),
   .link "base" 1 "hand" 1 "shoulder" true]

def Sample.gb : GSt ℚ := RBDyn.built ⟨[], []⟩ "Root" Sample.ops

/-- The second "arm" was refused, a third one is refused too, a "hand" is accepted. -/
example : Sample.gb.2.nrNodes = 2 ∧
    addBody ⟨⟨1, ⟨0, 0, 1⟩, ⟨2, 0, 2, 0, 0, 2⟩⟩, "arm"⟩ Sample.gb = .error .domainError Sample.gb := by
  refine ⟨by decide +kernel,
    (C13_addBody ⟨[], []⟩ "Root" Sample.ops ⟨⟨1, ⟨0, 0, 1⟩, ⟨2, 0, 2, 0, 0, 2⟩⟩, "arm"⟩).1 ⟨1, ⟨⟨⟨2, ⟨0, 1, 0⟩, ⟨3, 0, 3, 0, 0, 3⟩⟩, "arm"⟩, []⟩, ?_, rfl⟩⟩
  unfold IsNode
  decide +kernel

/-! ### C14 -/

/-- C14: with an unknown name `linkBodies` throws `out_of_range` and changes nothing. -/
theorem C14_unknown (h : Heap K) (rootName : String) (ops : List (BuildOp K)) (b1 b2 name : String)
    (t1 t2 : PTransform K) (dir : Bool) :
    let s := built h rootName ops
    (∀ p n, IsNode s p n → n.body.name ≠ b1) ∨ (∀ p n, IsNode s p n → n.body.name ≠ b2) ∨
      (∀ p j, IsJoint s p j → j.name ≠ name) →
    linkBodies b1 t1 b2 t2 name dir s = .error .outOfRange s := by
  intro s hu
  have I : Inv s.1 s.2 := built_inv h rootName ops
  have hb : ∀ nm, (∀ p n, IsNode s p n → n.body.name ≠ nm) → s.2.bodyMap.find nm = none := by
    intro nm hno
    cases hf : s.2.bodyMap.find nm with
    | none => rfl
    | some p =>
      obtain ⟨hp, n, hn, e⟩ := (I.body _ _).1 hf
      exact absurd e (hno p n ⟨hp, hn⟩)
  have hj : ∀ nm, (∀ p n, IsJoint s p n → n.name ≠ nm) → s.2.jointMap.find nm = none := by
    intro nm hno
    cases hf : s.2.jointMap.find nm with
    | none => rfl
    | some p =>
      obtain ⟨hp, n, hn, e⟩ := (I.joint _ _).1 hf
      exact absurd e (hno p n ⟨hp, hn⟩)
  refine linkBodies_error (linkHeap_unknown ?_ t1 t2 dir)
  rcases hu with hu | hu | hu
  · exact Or.inl (hb _ hu)
  · exact Or.inr (Or.inl (hb _ hu))
  · exact Or.inr (Or.inr (hj _ hu))

/-- C14: with known names `linkBodies` returns; each of the two bodies gets one more arc, towards the other one, with the
static transform given for it. From `b1` the joint is seen in its declared direction and from `b2` reversed
(the other way round if `isB1toB2` is false). Nothing else changes. -/
theorem C14_known (h : Heap K) (rootName : String) (ops : List (BuildOp K)) {p1 p2 pj : Nat} {n1 n2 : GNode K}
    {j : Joint K} (h1 : IsNode (built h rootName ops) p1 n1) (h2 : IsNode (built h rootName ops) p2 n2)
    (hne : p1 ≠ p2) (h3 : IsJoint (built h rootName ops) pj j) (hj : j.Built) (t1 t2 : PTransform K) (dir : Bool) :
    let s := built h rootName ops
    ∃ h', linkBodies n1.body.name t1 n2.body.name t2 j.name dir s = .ok () (h', s.2) ∧
      h'.nodes[p1]? = some ⟨n1.body, n1.arcs ++ [⟨t1, if dir then j else j.flip, p2⟩]⟩ ∧
      h'.nodes[p2]? = some ⟨n2.body, n2.arcs ++ [⟨t2, if dir then j.flip else j, p1⟩]⟩ ∧
      (∀ p, p ≠ p1 → p ≠ p2 → h'.nodes[p]? = s.1.nodes[p]?) ∧ h'.joints = s.1.joints := by
  intro s
  have I : Inv s.1 s.2 := built_inv h rootName ops
  have f1 := (I.body n1.body.name p1).2 ⟨h1.1, n1, h1.2, rfl⟩
  have f2 := (I.body n2.body.name p2).2 ⟨h2.1, n2, h2.2, rfl⟩
  have f3 := (I.joint j.name pj).2 ⟨h3.1, j, h3.2, rfl⟩
  obtain ⟨h', hok, -, hjs, -, hoth, hd, -⟩ := linkHeap_known I f1 f2 f3 h1.2 h2.2 h3.2 t1 t2 dir
  obtain ⟨g1, g2⟩ := hd hne
  refine ⟨h', linkBodies_ok hok, ?_, ?_, hoth, hjs⟩
  · rw [g1]
    cases dir
    · rfl
    · simp [linkArcs, hj.setForward_isForward]
  · rw [g2]
    cases dir
    · simp [linkArcs, hj.setForward_isForward]
    · rfl

/-- C14, a body linked to itself: it gets both arcs. -/
theorem C14_self (h : Heap K) (rootName : String) (ops : List (BuildOp K)) {p pj : Nat} {n : GNode K}
    {j : Joint K} (h1 : IsNode (built h rootName ops) p n) (h3 : IsJoint (built h rootName ops) pj j) (hj : j.Built)
    (t1 t2 : PTransform K) :
    let s := built h rootName ops
    ∃ h', linkBodies n.body.name t1 n.body.name t2 j.name true s = .ok () (h', s.2) ∧
      h'.nodes[p]? = some ⟨n.body, n.arcs ++ [⟨t1, j, p⟩, ⟨t2, j.flip, p⟩]⟩ ∧
      (∀ q, q ≠ p → h'.nodes[q]? = s.1.nodes[q]?) ∧ h'.joints = s.1.joints := by
  intro s
  have I : Inv s.1 s.2 := built_inv h rootName ops
  have f1 := (I.body n.body.name p).2 ⟨h1.1, n, h1.2, rfl⟩
  have f3 := (I.joint j.name pj).2 ⟨h3.1, j, h3.2, rfl⟩
  obtain ⟨h', hok, -, hjs, -, hoth, -, hd⟩ := linkHeap_known I f1 f1 f3 h1.2 h1.2 h3.2 t1 t2 true
  refine ⟨h', linkBodies_ok hok, ?_, fun q hq => hoth q hq hq, hjs⟩
  rw [hd rfl]
  simp [linkArcs, hj.setForward_isForward, Joint.flip]

/-- C14: the two directions are inverse transforms of the same parameters. -/
theorem C14_flip_pose {j : Joint K} (hj : j.BuiltUnit) {q : List K} (hq : ValidParam j.type q) :
    ∃ X, j.pose q = .ok X ∧ j.flip.pose q = .ok X.inv := by
  obtain ⟨X, h1, h2, -⟩ := Joint.flip_pose hj hq
  exact ⟨X, h1, h2⟩

example : ∃ h', linkBodies "base" 1 "arm" ⟨1, ⟨0, 0, 2⟩⟩ "shoulder" false Sample.gb = .ok () (h', Sample.gb.2) := by
  obtain ⟨h', e, -⟩ := C14_known ⟨[], []⟩ "Root" Sample.ops (p1 := 0) (p2 := 1) (pj := 0)
    (n1 := ⟨⟨⟨4, ⟨1, 0, 2⟩, ⟨5, 0, 6, 0, 0, 7⟩⟩, "base"⟩, []⟩) (n2 := ⟨⟨⟨2, ⟨0, 1, 0⟩, ⟨3, 0, 3, 0, 0, 3⟩⟩, "arm"⟩, []⟩)
    (j := Joint.mk' .Rev ⟨1, 0, 0⟩ true "shoulder") (by unfold IsNode; decide +kernel) (by unfold IsNode; decide +kernel)
    (by decide) (by unfold IsJoint; decide +kernel) (.mk _ _ _ _) 1 ⟨1, ⟨0, 0, 2⟩⟩ false
  exact ⟨h', e⟩

example : ∃ X, (Joint.mk' .Spherical (⟨0, 0, 1⟩ : Vec3 ℚ) true "wrist").pose [3 / 5, 0, 4 / 5, 0] = .ok X ∧
    (Joint.mk' .Spherical (⟨0, 0, 1⟩ : Vec3 ℚ) true "wrist").flip.pose [3 / 5, 0, 4 / 5, 0] = .ok X.inv :=
  C14_flip_pose (.mk .Spherical _ _ _ trivial) ⟨rfl, by
    show (3 / 5 : ℚ) * (3 / 5) + 0 * 0 + 4 / 5 * (4 / 5) + 0 * 0 = 1
    norm_num⟩

end RBDyn
