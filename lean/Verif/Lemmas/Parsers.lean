import Verif.Model.Parsers
import Verif.Lemmas.GraphMB

/-! The graph built by the readers. -/

namespace RBDyn
variable {K : Type}

/-- Loop rule for a loop known to terminate normally. -/
theorem foldlM_ok_inv {σ γ : Type _} {f : σ → γ → Res σ} (P : List γ → σ → Prop) {l : List γ} {s₀ s : σ}
    (h0 : P [] s₀) (hstep : ∀ pre x s s', P pre s → f s x = .ok s' → P (pre ++ [x]) s')
    (h : l.foldlM f s₀ = .ok s) : P l s := by
  suffices H : ∀ (l pre : List γ) (s₀ : σ), P pre s₀ → l.foldlM f s₀ = .ok s → P (pre ++ l) s by
    simpa using H l [] s₀ h0 h
  intro l
  induction l with
  | nil => intro pre s₀ hp e; obtain rfl : s₀ = s := by simpa using e
           simpa using hp
  | cons x l ih =>
    intro pre s₀ hp e
    rw [List.foldlM_cons] at e
    obtain ⟨s1, e1, e2⟩ := Res.bind_eq_ok.1 e
    have := ih (pre ++ [x]) s1 (hstep pre x s₀ s1 hp e1) e2
    simpa using this

/-- A loop reading elements and then using them. -/
theorem foldlM_read {σ γ δ : Type _} {rdx : γ → Res δ} {f : σ → δ → Res σ} {l : List γ} {s₀ s : σ} :
    l.foldlM (fun s x => do let y ← rdx x; f s y) s₀ = .ok s ↔
      ∃ ys, List.Forall₂ (fun x y => rdx x = .ok y) l ys ∧ ys.foldlM f s₀ = .ok s := by
  induction l generalizing s₀ with
  | nil =>
    constructor
    · intro h; exact ⟨[], .nil, h⟩
    · rintro ⟨ys, hys, h⟩; cases hys; exact h
  | cons x l ih =>
    rw [List.foldlM_cons]
    constructor
    · intro h
      obtain ⟨s1, e1, e2⟩ := Res.bind_eq_ok.1 h
      obtain ⟨y, ey, e1⟩ := Res.bind_eq_ok.1 e1
      obtain ⟨ys, hys, e3⟩ := ih.1 e2
      exact ⟨y :: ys, .cons ey hys, by rw [List.foldlM_cons, e1]; exact e3⟩
    · rintro ⟨ys, hys, h⟩
      cases hys with
      | @cons _ y _ ys hy hys =>
        rw [List.foldlM_cons] at h
        obtain ⟨s1, e1, e2⟩ := Res.bind_eq_ok.1 h
        rw [hy, Res.bind_ok, e1, Res.bind_ok]
        exact ih.2 ⟨ys, hys, e2⟩

namespace Graph

/-- A joint with the bodies it links. -/
structure Edge (K : Type) where
  parent : String
  child : String
  X : PTransform K
  j : Joint K

/-- Position of the body called `n`. -/
def posOf (bs : List (Body K)) (n : String) : Option Nat := bs.findIdx? (fun b => b.name = n)

theorem posOf_append (bs : List (Body K)) (b : Body K) (n : String) :
    posOf (bs ++ [b]) n = (posOf bs n).or (if b.name = n then some bs.length else none) := by
  unfold posOf
  rw [List.findIdx?_append]
  by_cases e : b.name = n <;> simp [e]

theorem posOf_eq_some_iff {bs : List (Body K)} (hn : (bs.map Body.name).Nodup) {n : String} {i : Nat} :
    posOf bs n = some i ↔ ∃ b, bs[i]? = some b ∧ b.name = n := by
  unfold posOf
  rw [List.findIdx?_eq_some_iff_getElem]
  constructor
  · rintro ⟨h, e, -⟩
    exact ⟨bs[i], List.getElem?_eq_getElem h, by simpa using e⟩
  · rintro ⟨b, hb, e⟩
    obtain ⟨h, rfl⟩ := List.getElem?_eq_some_iff.1 hb
    refine ⟨h, by simpa using e, ?_⟩
    intro k hk e2
    have e2 : bs[k].name = n := by simpa using e2
    have := (List.Nodup.getElem_inj_iff hn (i := k) (j := i) (hi := by simp; omega) (hj := by simpa using h)).1
      (by simp [e2, e])
    omega

theorem posOf_none_iff {bs : List (Body K)} {n : String} : posOf bs n = none ↔ n ∉ bs.map Body.name := by
  unfold posOf
  rw [List.findIdx?_eq_none_iff]
  simp

theorem posOf_lt {bs : List (Body K)} {n : String} {i : Nat} (h : posOf bs n = some i) : i < bs.length := by
  unfold posOf at h
  exact (List.findIdx?_eq_some_iff_getElem.1 h).1

variable [Scalar K]

/-- The arcs of the node of the `i`-th body. -/
def arcsAt (bs : List (Body K)) (es : List (Edge K)) (i : Nat) : List (Arc K) :=
  es.flatMap (fun e =>
    (if posOf bs e.parent = some i then [mkArc e.X e.j e.j.isForward ((posOf bs e.child).getD 0)] else []) ++
    (if posOf bs e.child = some i then [mkArc 1 e.j (!e.j.isForward) ((posOf bs e.parent).getD 0)] else []))

/-- The graph with the bodies `bs` and the links `es`, made by `addBody`, `addJoint` and `linkBodies` in this order. -/
structure Assembled (bs : List (Body K)) (es : List (Edge K)) (s : GSt K) : Prop where
  root : s.2.rootName = "Root"
  nodes : s.2.nodes = List.range bs.length
  len : s.1.nodes.length = bs.length
  cell : ∀ (i : Nat) (b : Body K), bs[i]? = some b → s.1.nodes[i]? = some ⟨b, arcsAt bs es i⟩
  joints : s.2.joints = List.range es.length
  hjoints : s.1.joints = es.map Edge.j
  bmap : ∀ n, s.2.bodyMap.find n = posOf bs n
  jmap : ∀ n, s.2.jointMap.find n = es.findIdx? (fun e => e.j.name = n)
  bnodup : (bs.map Body.name).Nodup
  jnodup : (es.map (fun e => e.j.name)).Nodup
  known : ∀ e ∈ es, e.parent ∈ bs.map Body.name ∧ e.child ∈ bs.map Body.name
  inv : Inv s.1 s.2

theorem Assembled.init : Assembled [] [] ((⟨[], []⟩, Graph.empty) : GSt K) where
  root := rfl
  nodes := rfl
  len := rfl
  cell := by simp
  joints := rfl
  hjoints := rfl
  bmap := by simp [Graph.empty, posOf]
  jmap := by simp [Graph.empty]
  bnodup := by simp
  jnodup := by simp
  known := by simp
  inv := Inv.empty _ _

theorem Assembled.addBody {bs : List (Body K)} {s : GSt K} (A : Assembled bs [] s) (b : Body K)
    (hb : b.name ∉ bs.map Body.name) :
    Graph.addBody b s = .ok () (addBodySt b s) ∧ Assembled (bs ++ [b]) [] (addBodySt b s) := by
  have hf : s.2.bodyMap.find b.name = none := by rw [A.bmap, posOf_none_iff]; exact hb
  refine ⟨addBody_none hf, ?_⟩
  exact {
    root := A.root
    nodes := by dsimp only [addBodySt]; rw [A.nodes, A.len]; simp [List.range_succ]
    len := by dsimp only [addBodySt]; simp [A.len]
    cell := by
      intro i c hc
      dsimp only [addBodySt]
      rw [getElem?_append_one, A.len]
      rw [getElem?_append_one] at hc
      by_cases e : i = bs.length
      · rw [if_pos e] at hc ⊢
        obtain rfl := Option.some_inj.1 hc
        simp [arcsAt]
      · rw [if_neg e] at hc ⊢
        rw [A.cell i c hc]
        simp [arcsAt]
    joints := A.joints
    hjoints := A.hjoints
    bmap := by
      intro n
      dsimp only [addBodySt]
      rw [SMap.find_set, A.len, posOf_append, A.bmap]
      by_cases e : n = b.name
      · subst e
        rw [if_pos rfl, if_pos rfl, posOf_none_iff.2 hb]; rfl
      · rw [if_neg e, if_neg (fun h => e h.symm)]; simp
    jmap := A.jmap
    bnodup := by
      rw [List.map_append, List.nodup_append]
      refine ⟨A.bnodup, by simp, ?_⟩
      intro a ha c hc
      simp only [List.map_cons, List.map_nil, List.mem_singleton] at hc
      subst hc
      rintro rfl
      exact hb ha
    jnodup := A.jnodup
    known := by simp
    inv := A.inv.addBody hf }

theorem Assembled.addBody_dup {bs : List (Body K)} {es : List (Edge K)} {s : GSt K} (A : Assembled bs es s) (b : Body K)
    (hb : b.name ∈ bs.map Body.name) : Graph.addBody b s = .error .domainError s := by
  apply addBody_some
  rw [A.bmap]
  by_contra h
  rw [Option.not_isSome_iff_eq_none, posOf_none_iff] at h
  exact h hb

/-- The two calls adding a link. -/
def addLink (s : GSt K) (e : Edge K) : Res (GSt K) := do
  let g ← runG (Graph.addJoint e.j) s
  runG (Graph.linkBodies e.parent e.X e.child 1 e.j.name) g

theorem arcsAt_append (bs : List (Body K)) (es : List (Edge K)) (e : Edge K) (i : Nat) :
    arcsAt bs (es ++ [e]) i = arcsAt bs es i ++
      ((if posOf bs e.parent = some i then [mkArc e.X e.j e.j.isForward ((posOf bs e.child).getD 0)] else []) ++
       (if posOf bs e.child = some i then [mkArc 1 e.j (!e.j.isForward) ((posOf bs e.parent).getD 0)] else [])) := by
  simp [arcsAt, List.flatMap_append]

theorem Assembled.addLink {bs : List (Body K)} {es : List (Edge K)} {s : GSt K} (A : Assembled bs es s) (e : Edge K)
    (hj : e.j.name ∉ es.map (fun e => e.j.name)) (hp : e.parent ∈ bs.map Body.name)
    (hc : e.child ∈ bs.map Body.name) : ∃ s', Graph.addLink s e = .ok s' ∧ Assembled bs (es ++ [e]) s' := by
  have hf : s.2.jointMap.find e.j.name = none := by
    rw [A.jmap, List.findIdx?_eq_none_iff]
    intro x hx
    simp only [decide_eq_false_iff_not]
    intro h
    exact hj (List.mem_map.2 ⟨x, hx, h⟩)
  have I1 := A.inv.addJoint hf
  have hpos : ∀ n, n ∈ bs.map Body.name → ∃ p b, posOf bs n = some p ∧ bs[p]? = some b := by
    intro n hn
    cases h : posOf bs n with
    | none => exact absurd hn (posOf_none_iff.1 h)
    | some p =>
      obtain ⟨b, hb, -⟩ := (posOf_eq_some_iff A.bnodup).1 h
      exact ⟨p, b, rfl, hb⟩
  obtain ⟨p1, b1, hp1, hb1⟩ := hpos _ hp
  obtain ⟨p2, b2, hp2, hb2⟩ := hpos _ hc
  have h1 : (addJointSt e.j s).2.bodyMap.find e.parent = some p1 := by
    dsimp only [addJointSt]; rw [A.bmap, hp1]
  have h2 : (addJointSt e.j s).2.bodyMap.find e.child = some p2 := by
    dsimp only [addJointSt]; rw [A.bmap, hp2]
  have h3 : (addJointSt e.j s).2.jointMap.find e.j.name = some s.1.joints.length := by
    dsimp only [addJointSt]; rw [SMap.find_set, if_pos rfl]
  have hn1 : (addJointSt e.j s).1.nodes[p1]? = some ⟨b1, arcsAt bs es p1⟩ := A.cell p1 b1 hb1
  have hn2 : (addJointSt e.j s).1.nodes[p2]? = some ⟨b2, arcsAt bs es p2⟩ := A.cell p2 b2 hb2
  have hjj : (addJointSt e.j s).1.joints[s.1.joints.length]? = some e.j := by
    dsimp only [addJointSt]; simp
  obtain ⟨h', hok, hI, hjs, hl, hother, hne, heq⟩ := linkHeap_known I1 h1 h2 h3 hn1 hn2 hjj e.X 1 true
  refine ⟨(h', (addJointSt e.j s).2), ?_, ?_⟩
  · unfold Graph.addLink
    rw [runG, addJoint_none hf]
    simp only [Res.bind_ok]
    rw [runG, linkBodies_ok hok]
  · exact {
      root := A.root
      nodes := A.nodes
      len := hl.trans A.len
      cell := by
        intro i b hb
        rw [arcsAt_append, hp1, hp2]
        dsimp only
        by_cases e1 : p1 = p2
        · subst e1
          by_cases ei : i = p1
          · subst ei
            obtain rfl := Option.some_inj.1 (hb1.symm.trans hb)
            rw [heq rfl]
            simp [linkArcs, mkArc]
          · rw [hother i ei ei, if_neg (by simpa using Ne.symm ei), if_neg (by simpa using Ne.symm ei),
              List.append_nil, List.append_nil]
            exact A.cell i b hb
        · obtain ⟨g1, g2⟩ := hne e1
          by_cases ei : i = p1
          · subst ei
            obtain rfl := Option.some_inj.1 (hb1.symm.trans hb)
            rw [g1, if_pos rfl, if_neg (by simpa using Ne.symm e1)]
            simp [linkArcs, mkArc]
          · by_cases ei2 : i = p2
            · subst ei2
              obtain rfl := Option.some_inj.1 (hb2.symm.trans hb)
              rw [g2, if_pos rfl, if_neg (by simpa using e1)]
              simp [linkArcs, mkArc]
            · rw [hother i ei ei2, if_neg (by simpa using Ne.symm ei), if_neg (by simpa using Ne.symm ei2),
                List.append_nil, List.append_nil]
              exact A.cell i b hb
      joints := by
        dsimp only [addJointSt]
        rw [A.joints, A.hjoints]; simp [List.range_succ]
      hjoints := by
        rw [hjs]; dsimp only [addJointSt]; rw [A.hjoints]; simp
      bmap := A.bmap
      jmap := by
        intro n
        dsimp only [addJointSt]
        rw [SMap.find_set, A.jmap, List.findIdx?_append, A.hjoints]
        by_cases en : n = e.j.name
        · subst en
          rw [if_pos rfl]
          rw [A.jmap] at hf
          rw [hf]; simp
        · rw [if_neg en]
          simp [Ne.symm en]
      bnodup := A.bnodup
      jnodup := by
        rw [List.map_append, List.nodup_append]
        refine ⟨A.jnodup, by simp, ?_⟩
        intro a ha c hc
        simp only [List.map_cons, List.map_nil, List.mem_singleton] at hc
        subst hc
        rintro rfl
        exact hj ha
      known := by
        intro x hx
        rw [List.mem_append, List.mem_singleton] at hx
        rcases hx with hx | rfl
        · exact A.known x hx
        · exact ⟨hp, hc⟩
      inv := hI }

theorem Assembled.addLink_fail {bs : List (Body K)} {es : List (Edge K)} {s : GSt K} (A : Assembled bs es s) (e : Edge K)
    (h : ¬ (e.j.name ∉ es.map (fun e => e.j.name) ∧ e.parent ∈ bs.map Body.name ∧ e.child ∈ bs.map Body.name)) :
    ∃ er, Graph.addLink s e = .error er := by
  unfold Graph.addLink
  cases hf : s.2.jointMap.find e.j.name with
  | some p =>
    rw [runG, addJoint_some (by rw [hf]; rfl)]
    exact ⟨_, rfl⟩
  | none =>
    rw [runG, addJoint_none hf]
    simp only [Res.bind_ok]
    have hj : e.j.name ∉ es.map (fun e => e.j.name) := by
      rw [A.jmap, List.findIdx?_eq_none_iff] at hf
      intro hm
      obtain ⟨x, hx, e'⟩ := List.mem_map.1 hm
      have := hf x hx
      simp [e'] at this
    have hu : (addJointSt e.j s).2.bodyMap.find e.parent = none ∨ (addJointSt e.j s).2.bodyMap.find e.child = none ∨
        (addJointSt e.j s).2.jointMap.find e.j.name = none := by
      dsimp only [addJointSt]
      rw [A.bmap, A.bmap, posOf_none_iff, posOf_none_iff]
      by_contra hh
      push Not at hh
      exact h ⟨hj, hh.1, hh.2.1⟩
    rw [runG, linkBodies_error (linkHeap_unknown hu e.X 1 true)]
    exact ⟨_, rfl⟩

/-- A successful call adds the link. -/
theorem Assembled.of_addLink {bs : List (Body K)} {es : List (Edge K)} {s s' : GSt K} (A : Assembled bs es s) {e : Edge K}
    (h : Graph.addLink s e = .ok s') : Assembled bs (es ++ [e]) s' := by
  by_cases hc : e.j.name ∉ es.map (fun e => e.j.name) ∧ e.parent ∈ bs.map Body.name ∧ e.child ∈ bs.map Body.name
  · obtain ⟨s2, e2, A2⟩ := A.addLink e hc.1 hc.2.1 hc.2.2
    rw [h] at e2
    obtain rfl := Except.ok.inj e2
    exact A2
  · obtain ⟨er, e2⟩ := A.addLink_fail e hc
    rw [h] at e2; cases e2

theorem Assembled.of_addBody {bs : List (Body K)} {s s' : GSt K} (A : Assembled bs [] s) {b : Body K}
    (h : runG (Graph.addBody b) s = .ok s') : Assembled (bs ++ [b]) [] s' := by
  by_cases hc : b.name ∈ bs.map Body.name
  · rw [runG, A.addBody_dup b hc] at h; cases h
  · obtain ⟨e2, A2⟩ := A.addBody b hc
    rw [runG, e2] at h
    obtain rfl := Except.ok.inj h
    exact A2

end Graph

end RBDyn

namespace RBDyn
variable {K : Type}

/-! ### The vectors filled by `makeTree` -/

section
variable [Scalar K]

/-- Every body and every joint of the vectors comes from the heap, except those given. -/
theorem Graph.makeTree_mem (h : Heap K) (f : Nat) :
    ∀ (u : Nat) (src : Option Nat) (j : Joint K) (p s par : Int) (X Xb : PTransform K) (st st' : TreeSt K),
      makeTree h f u src j p s par X Xb st = .ok st' →
      (∀ b ∈ st'.bodies, b ∈ st.bodies ∨ ∃ n ∈ h.nodes, n.body.name = b.name) ∧
      (∀ x ∈ st'.joints, x ∈ st.joints ∨ x = j ∨ ∃ n ∈ h.nodes, ∃ a ∈ n.arcs, a.joint = x) := by
  induction f with
  | zero => intro u src j p s par X Xb st st' e; simp [makeTree] at e
  | succ f ih =>
    intro u src j p s par X Xb st st' e
    rw [makeTree] at e
    obtain ⟨n, hn, e⟩ := Res.bind_eq_ok.1 e
    have hmem : n ∈ h.nodes := List.mem_of_getElem? (rd_eq_ok_iff.1 hn)
    dsimp only at e
    generalize hXF : xFrom n src Xb = XF at e
    generalize hst : (TreeSt.mk (st.bodies ++ [⟨XF.dualMulI n.body.inertia, n.body.name⟩]) (st.joints ++ [j])
        (st.pred ++ [p]) (st.succ ++ [s]) (st.parent ++ [par]) (st.Xt ++ [X])) = st1 at e
    generalize (((st.bodies ++ [(⟨XF.dualMulI n.body.inertia, n.body.name⟩ : Body K)]).length : Int) - 1) = ci at e
    have key : ∀ (l : List (Arc K)), (∀ a ∈ l, a ∈ n.arcs) → ∀ (st1 st' : TreeSt K),
        l.foldlM (fun (st : TreeSt K) a =>
          if some a.next ≠ src then
            makeTree h f a.next (some u) a.joint ci (st.bodies.length : Int) ci (a.X * XF.inv) 1 st
          else pure st) st1 = .ok st' →
        (∀ b ∈ st'.bodies, b ∈ st1.bodies ∨ ∃ n ∈ h.nodes, n.body.name = b.name) ∧
        (∀ x ∈ st'.joints, x ∈ st1.joints ∨ ∃ n ∈ h.nodes, ∃ a ∈ n.arcs, a.joint = x) := by
      intro l
      induction l with
      | nil =>
        intro _ st1 st' e
        obtain rfl : st1 = st' := by simpa using e
        exact ⟨fun b hb => Or.inl hb, fun b hb => Or.inl hb⟩
      | cons a l ihl =>
        intro hl st1 st' e
        rw [List.foldlM_cons] at e
        obtain ⟨st2, e1, e2⟩ := Res.bind_eq_ok.1 e
        obtain ⟨k1, k2⟩ := ihl (fun b hb => hl b (List.mem_cons_of_mem _ hb)) st2 st' e2
        by_cases hs : some a.next = src
        · rw [if_neg (not_not.2 hs)] at e1
          obtain rfl : st1 = st2 := by simpa using e1
          exact ⟨k1, k2⟩
        · rw [if_pos hs] at e1
          obtain ⟨m1, m2⟩ := ih _ _ _ _ _ _ _ _ _ _ e1
          refine ⟨?_, ?_⟩
          · intro b hb
            rcases k1 b hb with h1 | h1
            · exact m1 b h1
            · exact Or.inr h1
          · intro x hx
            rcases k2 x hx with h1 | h1
            · rcases m2 x h1 with h2 | rfl | h2
              · exact Or.inl h2
              · exact Or.inr ⟨n, hmem, a, hl a (List.mem_cons_self ..), rfl⟩
              · exact Or.inr h2
            · exact Or.inr h1
    obtain ⟨k1, k2⟩ := key n.arcs (fun _ h => h) st1 st' e
    subst hst
    refine ⟨?_, ?_⟩
    · intro b hb
      rcases k1 b hb with h1 | h1
      · rw [List.mem_append, List.mem_singleton] at h1
        rcases h1 with h1 | rfl
        · exact Or.inl h1
        · exact Or.inr ⟨n, hmem, rfl⟩
      · exact Or.inr h1
    · intro x hx
      rcases k2 x hx with h1 | h1
      · rw [List.mem_append, List.mem_singleton] at h1
        rcases h1 with h1 | rfl
        · exact Or.inl h1
        · exact Or.inr (Or.inl rfl)
      · exact Or.inr (Or.inr h1)

omit [Scalar K] in
theorem MultiBody.mk'_lists {bodies : List (Body K)} {joints : List (Joint K)} {pred succ par : List Int}
    {Xt : List (PTransform K)} {mb : MultiBody K} (h : MultiBody.mk' bodies joints pred succ par Xt = .ok mb) :
    mb.bodies = bodies ∧ mb.joints = joints := by
  unfold MultiBody.mk' at h
  refine foldlM_ok_inv (P := fun _ (m : MultiBody K) => m.bodies = bodies ∧ m.joints = joints) ⟨rfl, rfl⟩ ?_ h
  intro pre x s s' hs e
  unfold MultiBody.ctorStep at e
  obtain ⟨b, -, e⟩ := Res.bind_eq_ok.1 e
  obtain ⟨j, -, e⟩ := Res.bind_eq_ok.1 e
  obtain ⟨j1, -, e⟩ := Res.bind_eq_ok.1 e
  obtain ⟨j2, -, e⟩ := Res.bind_eq_ok.1 e
  obtain rfl := Except.ok.inj e
  exact hs

/-- The bodies and the joints of a `MultiBody` made from a graph come from the heap. -/
theorem Graph.makeMultiBody_mem {h : Heap K} {g : Graph} {root : String} {t : JointType} {axis : Vec3 K}
    {X0 Xb : PTransform K} {mb : MultiBody K} (e : Graph.makeMultiBody h g root t axis X0 Xb = .ok mb) :
    (∀ b ∈ mb.bodies, ∃ n ∈ h.nodes, n.body.name = b.name) ∧
    (∀ x ∈ mb.joints, x = Joint.mk' t axis true g.rootName ∨ ∃ n ∈ h.nodes, ∃ a ∈ n.arcs, a.joint = x) := by
  unfold Graph.makeMultiBody at e
  obtain ⟨p, -, e⟩ := Res.bind_eq_ok.1 e
  dsimp only at e
  obtain ⟨st, e1, e2⟩ := Res.bind_eq_ok.1 e
  obtain ⟨k1, k2⟩ := makeTree_mem h _ _ _ _ _ _ _ _ _ _ _ e1
  obtain ⟨hb, hj⟩ := MultiBody.mk'_lists e2
  rw [hb, hj]
  refine ⟨?_, ?_⟩
  · intro b hb
    rcases k1 b hb with h1 | h1
    · cases h1
    · exact h1
  · intro x hx
    rcases k2 x hx with h1 | h1
    · cases h1
    · exact h1

namespace Graph

/-- The arcs of an assembled graph carry the joints of the links. -/
theorem mem_arcsAt {bs : List (Body K)} {es : List (Edge K)} {i : Nat} {a : Arc K} (ha : a ∈ arcsAt bs es i) :
    ∃ e ∈ es, ∃ d, a.joint = e.j.setForward d := by
  unfold arcsAt at ha
  obtain ⟨e, he, ha⟩ := List.mem_flatMap.1 ha
  refine ⟨e, he, ?_⟩
  rw [List.mem_append] at ha
  rcases ha with ha | ha
  · split at ha
    · rw [List.mem_singleton] at ha
      exact ⟨_, by rw [ha]; rfl⟩
    · cases ha
  · split at ha
    · rw [List.mem_singleton] at ha
      exact ⟨_, by rw [ha]; rfl⟩
    · cases ha

theorem Assembled.node_mem {bs : List (Body K)} {es : List (Edge K)} {s : GSt K} (A : Assembled bs es s) {n : GNode K}
    (hn : n ∈ s.1.nodes) : n.body ∈ bs ∧ ∃ i, n.arcs = arcsAt bs es i := by
  obtain ⟨i, hi, rfl⟩ := List.mem_iff_getElem.1 hn
  have hi' : i < bs.length := by rw [← A.len]; exact hi
  have := A.cell i bs[i] (List.getElem?_eq_getElem hi')
  rw [List.getElem?_eq_getElem hi] at this
  rw [Option.some_inj.1 this]
  exact ⟨List.getElem_mem hi', i, rfl⟩

end Graph
end

end RBDyn
