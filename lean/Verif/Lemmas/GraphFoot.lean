import Verif.Lemmas.GraphRemove

/-! What the operations on a graph may write. -/

namespace RBDyn
variable {K : Type}

/-- The state after a computation, whether it returned or threw. -/
def GM.after {α : Type} (x : GM K α) (s : GSt K) : GSt K :=
  match x s with
  | .ok _ s' => s'
  | .error _ s' => s'

namespace Graph

section
variable {α β : Type} {I : GSt K → Prop}

theorem after_ok {x : GM K α} {a : α} {s s' : GSt K} (h : x s = .ok a s') : GM.after x s = s' := by
  unfold GM.after; rw [h]

theorem after_error {x : GM K α} {e : Err} {s s' : GSt K} (h : x s = .error e s') : GM.after x s = s' := by
  unfold GM.after; rw [h]

theorem after_pure (a : α) (s : GSt K) : GM.after (pure a : GM K α) s = s := rfl
theorem after_throw (e : Err) (s : GSt K) : GM.after (throw e : GM K α) s = s := rfl
theorem after_set (t s : GSt K) : GM.after (set t : GM K PUnit) s = t := rfl

theorem after_bind {x : GM K α} {f : α → GM K β} {s : GSt K} (h1 : I (GM.after x s))
    (h2 : ∀ a s', x s = .ok a s' → I s' → I (GM.after (f a) s')) : I (GM.after (x >>= f) s) := by
  have e : (x >>= f) s = match x s with | .ok a s' => f a s' | .error e s' => .error e s' := by
    show EStateM.bind x f s = _
    unfold EStateM.bind
    cases x s <;> rfl
  unfold GM.after at h1 h2 ⊢
  rw [e]
  cases hx : x s with
  | ok a s' =>
    rw [hx] at h1
    exact h2 a s' hx h1
  | error e s' =>
    rw [hx] at h1
    exact h1

theorem after_get {f : GSt K → GM K β} {s : GSt K} (h : I (GM.after (f s) s)) : I (GM.after (get >>= f) s) := h

theorem after_lift {r : Res α} {f : α → GM K β} {s : GSt K} (h1 : I s) (h2 : ∀ a, r = .ok a → I (GM.after (f a) s)) :
    I (GM.after (GM.lift r >>= f) s) := by
  refine after_bind ?_ ?_
  · unfold GM.after GM.lift
    cases r <;> exact h1
  · intro a s' hx hs'
    unfold GM.lift at hx
    cases r with
    | error e => cases hx
    | ok b =>
      obtain ⟨rfl, rfl⟩ := EStateM.Result.ok.inj hx
      exact h2 b rfl

theorem after_forM {f : α → GM K PUnit} (l : List α) :
    ∀ {s : GSt K}, I s → (∀ a ∈ l, ∀ s, I s → I (GM.after (f a) s)) → I (GM.after (l.forM f) s) := by
  induction l with
  | nil => intro s hs _; exact hs
  | cons a l ih =>
    intro s hs hf
    refine after_bind (x := f a) (f := fun _ => l.forM f) (hf a (List.mem_cons_self ..) s hs) ?_
    intro _ s' _ hs'
    exact ih hs' (fun b hb => hf b (List.mem_cons_of_mem _ hb))

theorem after_foldlM {f : β → α → GM K β} (l : List α) :
    ∀ {s : GSt K} (b : β), I s → (∀ a ∈ l, ∀ b s, I s → I (GM.after (f b a) s)) → I (GM.after (l.foldlM f b) s) := by
  induction l with
  | nil => intro s b hs _; exact hs
  | cons a l ih =>
    intro s b hs hf
    rw [List.foldlM_cons]
    refine after_bind (hf a (List.mem_cons_self ..) b s hs) ?_
    intro b' s' _ hs'
    exact ih b' hs' (fun c hc => hf c (List.mem_cons_of_mem _ hc))

end

/-- The graph of `s` only refers to nodes satisfying `P`, and the heap only differs from `h0` at such nodes and by
new joints. -/
structure Foot (P : Nat → Prop) (h0 : Heap K) (s : GSt K) : Prop where
  off : ∀ x, ¬P x → s.1.nodes[x]? = h0.nodes[x]?
  len : h0.nodes.length ≤ s.1.nodes.length
  joff : ∀ x < h0.joints.length, s.1.joints[x]? = h0.joints[x]?
  jlen : h0.joints.length ≤ s.1.joints.length
  nodes : ∀ x ∈ s.2.nodes, P x
  map : ∀ t x, s.2.bodyMap.find t = some x → P x
  closed : ∀ x n, P x → s.1.nodes[x]? = some n → ∀ a ∈ n.arcs, P a.next

variable {P : Nat → Prop} {h0 : Heap K}

theorem Foot.setNode {h : Heap K} {g : Graph} (F : Foot P h0 (h, g)) {p : Nat} {n : GNode K} (hp : P p)
    (ha : ∀ a ∈ n.arcs, P a.next) : Foot P h0 ({ h with nodes := h.nodes.set p n }, g) := by
  refine ⟨?_, by simpa using F.len, F.joff, F.jlen, F.nodes, F.map, ?_⟩
  · intro x hx
    dsimp only
    rw [List.getElem?_set_ne (by rintro rfl; exact hx hp)]
    exact F.off x hx
  · intro x m hx hm
    dsimp only at hm
    rw [List.getElem?_set] at hm
    split at hm
    · split at hm
      · obtain rfl := Option.some_inj.1 hm; exact ha
      · cases hm
    · exact F.closed x m hx hm

theorem Foot.setArcs {h : Heap K} {g : Graph} (F : Foot P h0 (h, g)) {p : Nat} {n : GNode K} {l : List (Arc K)} (hp : P p)
    (ha : ∀ a ∈ l, P a.next) : Foot P h0 (h.setArcs p n l, g) := F.setNode hp ha

theorem Foot.graph {h : Heap K} {g g' : Graph} (F : Foot P h0 (h, g)) (hn : ∀ x ∈ g'.nodes, P x)
    (hm : ∀ t x, g'.bodyMap.find t = some x → P x) : Foot P h0 (h, g') :=
  ⟨F.off, F.len, F.joff, F.jlen, hn, hm, F.closed⟩

theorem Foot.closed_rd {s : GSt K} (F : Foot P h0 s) {p : Nat} {n : GNode K} (hp : P p) (hn : rd s.1.nodes p = .ok n) :
    ∀ a ∈ n.arcs, P a.next := F.closed p n hp (rd_eq_ok_iff.1 hn)

theorem eraseFind_sub {l l' : List Nat} {p : Nat} (h : eraseFind l p = .ok l') : ∀ x ∈ l', x ∈ l := by
  unfold eraseFind at h
  split at h
  · obtain rfl := Except.ok.inj h
    exact fun x hx => List.mem_of_mem_erase hx
  · cases h

theorem Foot.erase_map {s : GSt K} (F : Foot P h0 s) (k : String) :
    ∀ t x, (s.2.bodyMap.erase k).find t = some x → P x := by
  intro t x hx
  rw [SMap.find_erase] at hx
  split at hx
  · cases hx
  · exact F.map t x hx

theorem foot_rmArcFromMbg (f : Nat) : ∀ (a : Arc K) (s : GSt K), P a.next → Foot P h0 s →
    Foot P h0 (GM.after (rmArcFromMbg f a) s) := by
  induction f with
  | zero => intro a s _ F; exact F
  | succ f ih =>
    intro a s ha F
    obtain ⟨h, g⟩ := s
    rw [rmArcFromMbg]
    refine after_get ?_
    refine after_lift F (fun jt _ => ?_)
    refine after_lift F (fun js _ => ?_)
    have F1 : Foot P h0 (h, { g with joints := js, jointMap := g.jointMap.erase a.joint.name }) := F.graph F.nodes F.map
    refine after_bind F1 (fun _ s1 e1 _ => ?_)
    obtain rfl : _ = s1 := (EStateM.Result.ok.inj e1).2
    refine after_lift F1 (fun node hnode => ?_)
    have hcl := F.closed_rd ha hnode
    refine after_bind (after_forM _ F1 ?_) (fun _ s2 _ F2 => ?_)
    · intro b hb s F
      split
      · refine after_bind (ih b s (hcl b hb) F) (fun _ s' _ F' => ?_)
        refine after_get ?_
        refine after_lift F' (fun m _ => ?_)
        split <;> exact F'
      · exact F
    · obtain ⟨h2, g2⟩ := s2
      refine after_get ?_
      refine after_lift F2 (fun nodes hnodes => ?_)
      refine Foot.graph (g := g2) (F2.setArcs ha (by simp)) ?_ ?_
      · exact fun x hx => F2.nodes x (eraseFind_sub hnodes x hx)
      · exact F2.erase_map _

theorem foot_rmFound {node i : Nat} {a : Arc K} {s : GSt K} (hn : P node) (ha : P a.next) (F : Foot P h0 s) :
    Foot P h0 (GM.after (rmFound node i a) s) := by
  obtain ⟨h, g⟩ := s
  rw [rmFound]
  refine after_get ?_
  refine after_lift F (fun n hrd => ?_)
  refine after_bind (foot_rmArcFromMbg _ a _ ha F) (fun _ s' _ F' => ?_)
  obtain ⟨h', g'⟩ := s'
  refine after_get ?_
  refine after_lift F' (fun n' hrd' => ?_)
  have hcl := F'.closed_rd hn hrd'
  have F2 : Foot P h0 (h'.setArcs node n' (n'.arcs.eraseIdx i), g') :=
    F'.setArcs hn (fun b hb => hcl b ((List.eraseIdx_sublist ..).subset hb))
  dsimp only
  split
  · exact F'
  · exact F2

theorem foot_searchArc {act : Nat → Nat → Arc K → GM K Unit}
    (hact : ∀ node i a s, P node → P a.next → Foot P h0 s → Foot P h0 (GM.after (act node i a) s)) (f : Nat) :
    ∀ (node : Nat) (pj jn : String) (s : GSt K), P node → Foot P h0 s →
      Foot P h0 (GM.after (searchArc act f node pj jn) s) := by
  induction f with
  | zero => intro node pj jn s _ F; exact F
  | succ f ih =>
    intro node pj jn s hp F
    obtain ⟨h, g⟩ := s
    rw [searchArc]
    refine after_get ?_
    refine after_lift F (fun n hrd => ?_)
    have hcl := F.closed_rd hp hrd
    refine after_foldlM _ _ F ?_
    intro ai hai b s F
    have hm : P ai.1.next := hcl ai.1 (List.fst_mem_of_mem_zipIdx hai)
    split
    · exact F
    · split
      · split
        · refine after_bind (hact node ai.2 ai.1 s hp hm F) (fun _ s' _ F' => F')
        · exact ih ai.1.next _ jn s hm F
      · exact F

theorem getAt_find {α : Type} {m : SMap α} {k : String} {v : α} (h : m.getAt k = .ok v) : m.find k = some v := by
  unfold SMap.getAt at h; split at h <;> simp_all

theorem foot_removeJoint (root joint : String) {s : GSt K} (F : Foot P h0 s) :
    Foot P h0 (GM.after (removeJoint root joint) s) := by
  obtain ⟨h, g⟩ := s
  rw [removeJoint]
  refine after_get ?_
  refine after_lift F (fun p hp => ?_)
  split
  · refine after_bind (foot_searchArc (fun node i a s hn ha F => foot_rmFound hn ha F) _ p _ _ _
      (F.map _ _ (getAt_find hp)) F) (fun _ s' _ F' => F')
  · exact F

theorem foot_removeJoints (root : String) (l : List String) {s : GSt K} (F : Foot P h0 s) :
    Foot P h0 (GM.after (removeJoints root l) s) := by
  obtain ⟨h, g⟩ := s
  rw [removeJoints]
  refine after_get ?_
  refine after_lift F (fun p hp => ?_)
  refine after_forM _ F ?_
  intro t _ s F
  obtain ⟨h, g⟩ := s
  refine after_get ?_
  dsimp only
  split
  · exact foot_removeJoint root t F
  · exact F

theorem foot_clear {s : GSt K} (F : Foot P h0 s) : Foot P h0 (GM.after clear s) := by
  obtain ⟨h, g⟩ := s
  have key : ∀ (l : List Nat) (h h' : Heap K), (∀ x ∈ l, P x) → Foot P h0 (h, g) →
      l.foldlM (fun (h : Heap K) p => do
        let n ← rd h.nodes p
        pure (h.setArcs p n [])) h = .ok h' → Foot P h0 (h', g) := by
    intro l
    induction l with
    | nil => intro h h' _ F e; obtain rfl : h = h' := by simpa using e
             exact F
    | cons p l ih =>
      intro h h' hl F e
      rw [List.foldlM_cons] at e
      cases hn : rd h.nodes p with
      | error e' => rw [hn] at e; cases e
      | ok n =>
        rw [hn, Res.bind_ok, Res.pure_eq, Res.bind_ok] at e
        exact ih _ h' (fun x hx => hl x (List.mem_cons_of_mem _ hx))
          (F.setArcs (hl p (List.mem_cons_self ..)) (by simp)) e
  cases e : g.nodes.foldlM (fun (h : Heap K) p => do
        let n ← rd h.nodes p
        pure (h.setArcs p n [])) h with
  | error e' =>
    rw [after_error (e := e') (s' := (h, g)) (by simp only [clear, e])]
    exact F
  | ok h' =>
    rw [after_ok (a := ()) (s' := (h', { g with nodes := [], joints := [], bodyMap := [], jointMap := [] }))
      (by simp only [clear, e])]
    exact (key g.nodes h h' F.nodes F e).graph (by simp) (by simp)

theorem foot_addBody (b : Body K) {s : GSt K} (hfresh : P s.1.nodes.length) (F : Foot P h0 s) :
    Foot P h0 (GM.after (addBody b) s) := by
  cases hb : s.2.bodyMap.find b.name with
  | some p =>
    rw [after_error (addBody_some (by rw [hb]; rfl))]
    exact F
  | none =>
    rw [after_ok (addBody_none hb)]
    have hl : h0.nodes.length ≤ s.1.nodes.length := F.len
    unfold addBodySt
    refine ⟨?_, ?_, F.joff, F.jlen, ?_, ?_, ?_⟩
    · intro x hx
      dsimp only
      rw [getElem?_append_one, if_neg (by rintro rfl; exact hx (hfresh))]
      exact F.off x hx
    · simp only [List.length_append, List.length_singleton]; omega
    · intro x hx
      rcases List.mem_append.1 hx with hx | hx
      · exact F.nodes x hx
      · obtain rfl := List.mem_singleton.1 hx
        exact hfresh
    · intro t x hx
      dsimp only at hx
      rw [SMap.find_set] at hx
      split at hx
      · obtain rfl := Option.some_inj.1 hx
        exact hfresh
      · exact F.map t x hx
    · intro x n hx hn
      dsimp only at hn
      rw [getElem?_append_one] at hn
      split at hn
      · obtain rfl := Option.some_inj.1 hn
        simp
      · exact F.closed x n hx hn

theorem foot_addJoint (j : Joint K) {s : GSt K} (F : Foot P h0 s) :
    Foot P h0 (GM.after (addJoint j) s) := by
  cases hb : s.2.jointMap.find j.name with
  | some p =>
    rw [after_error (addJoint_some (by rw [hb]; rfl))]
    exact F
  | none =>
    rw [after_ok (addJoint_none hb)]
    have hl : h0.joints.length ≤ s.1.joints.length := F.jlen
    unfold addJointSt
    refine ⟨F.off, F.len, ?_, ?_, F.nodes, F.map, F.closed⟩
    · intro x hx
      dsimp only
      rw [getElem?_append_one, if_neg (by omega)]
      exact F.joff x hx
    · simp only [List.length_append, List.length_singleton]; omega

section
variable [Scalar K]

theorem foot_linkBodies (b1 : String) (t1 : PTransform K) (b2 : String) (t2 : PTransform K) (jn : String) (fwd : Bool)
    {s : GSt K} (F : Foot P h0 s) : Foot P h0 (GM.after (linkBodies b1 t1 b2 t2 jn fwd) s) := by
  obtain ⟨h, g⟩ := s
  cases e : linkHeap h g b1 t1 b2 t2 jn fwd with
  | error e' =>
    rw [after_error (e := e') (s' := (h, g)) (by simp only [linkBodies, e])]
    exact F
  | ok h' =>
    rw [after_ok (a := ()) (s' := (h', g)) (by simp only [linkBodies, e])]
    unfold linkHeap at e
    cases e1 : g.bodyMap.getAt b1 with
    | error _ => rw [e1] at e; cases e
    | ok p1 =>
    cases e2 : g.bodyMap.getAt b2 with
    | error _ => rw [e1, e2] at e; cases e
    | ok p2 =>
    cases e3 : g.jointMap.getAt jn with
    | error _ => rw [e1, e2, e3] at e; cases e
    | ok pj =>
    cases e4 : rd h.joints pj with
    | error _ => rw [e1, e2, e3, Res.bind_ok, Res.bind_ok, Res.bind_ok, e4] at e; cases e
    | ok j =>
    cases e5 : rd h.nodes p1 with
    | error _ => rw [e1, e2, e3, Res.bind_ok, Res.bind_ok, Res.bind_ok, e4, Res.bind_ok, e5] at e; cases e
    | ok n1 =>
    rw [e1, e2, e3, Res.bind_ok, Res.bind_ok, Res.bind_ok, e4, Res.bind_ok, e5, Res.bind_ok] at e
    have h1 : P p1 := F.map _ _ (getAt_find e1)
    have h2 : P p2 := F.map _ _ (getAt_find e2)
    have F1 : Foot P h0 (h.setArcs p1 n1 (n1.arcs ++ [mkArc t1 j (if fwd = true then j.isForward else !j.isForward) p2]), g) := by
      refine F.setArcs h1 (fun a ha => ?_)
      rcases List.mem_append.1 ha with ha | ha
      · exact F.closed_rd h1 e5 a ha
      · obtain rfl := List.mem_singleton.1 ha
        exact h2
    cases e6 : rd (h.setArcs p1 n1 (n1.arcs ++ [mkArc t1 j (if fwd = true then j.isForward else !j.isForward) p2])).nodes p2 with
    | error _ => dsimp only at e; rw [e6] at e; cases e
    | ok n2 =>
    dsimp only at e
    rw [e6, Res.bind_ok] at e
    obtain rfl := Except.ok.inj e
    refine F1.setArcs h2 (fun a ha => ?_)
    rcases List.mem_append.1 ha with ha | ha
    · exact F1.closed_rd h2 e6 a ha
    · obtain rfl := List.mem_singleton.1 ha
      exact h1

theorem foot_mergeFound (jp : SMap (List K)) {node i : Nat} {a : Arc K} {s : GSt K} (hn : P node) (ha : P a.next)
    (F : Foot P h0 s) : Foot P h0 (GM.after (mergeFound jp node i a) s) := by
  obtain ⟨h, g⟩ := s
  rw [mergeFound]
  refine after_get ?_
  refine after_lift F (fun n hrd => ?_)
  refine after_lift F (fun sub _ => ?_)
  refine after_lift F (fun I _ => ?_)
  have F1 : Foot P h0 ({ h with nodes := h.nodes.set node { n with body := ⟨I, n.body.name⟩ } }, g) :=
    F.setNode hn (F.closed_rd (n := n) hn hrd)
  refine after_bind F1 (fun _ s1 e1 _ => ?_)
  obtain rfl : _ = s1 := (EStateM.Result.ok.inj e1).2
  exact foot_rmFound hn ha F1

theorem foot_mergeSubBodies (root joint : String) (jp : SMap (List K)) {s : GSt K} (F : Foot P h0 s) :
    Foot P h0 (GM.after (mergeSubBodies root joint jp) s) := by
  obtain ⟨h, g⟩ := s
  rw [mergeSubBodies]
  refine after_get ?_
  refine after_lift F (fun p hp => ?_)
  refine after_bind (foot_searchArc (fun node i a s hn ha F => foot_mergeFound jp hn ha F) _ p _ _ _
      (F.map _ _ (getAt_find hp)) F) (fun _ s' _ F' => F')

end
end Graph
end RBDyn
