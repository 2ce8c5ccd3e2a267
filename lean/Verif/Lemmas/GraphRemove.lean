import Verif.Lemmas.GraphMB

/-! Effect of `rmArcFromMbg`, `rmArc` and `removeJoint` on a tree. -/

namespace RBDyn
variable {K : Type}

/-! ### Computations in `GM` -/

theorem gm_get {β : Type} (f : GSt K → GM K β) (s : GSt K) : ((get : GM K (GSt K)) >>= f) s = f s s := rfl

theorem gm_set {β : Type} (s' : GSt K) (f : PUnit → GM K β) (s : GSt K) :
    ((set s' : GM K PUnit) >>= f) s = f ⟨⟩ s' := rfl

theorem gm_lift_ok {α β : Type} {x : Res α} {a : α} (hx : x = .ok a) (f : α → GM K β) (s : GSt K) :
    (GM.lift x >>= f) s = f a s := by rw [hx]; rfl

theorem gm_lift_error {α β : Type} {x : Res α} {e : Err} (hx : x = .error e) (f : α → GM K β) (s : GSt K) :
    (GM.lift x >>= f) s = .error e s := by rw [hx]; rfl

theorem gm_ok {α β : Type} {x : GM K α} {s s' : GSt K} {a : α} (hx : x s = .ok a s') (f : α → GM K β) :
    (x >>= f) s = f a s' := by rw [Graph.gm_bind, hx]

theorem gm_error {α β : Type} {x : GM K α} {s s' : GSt K} {e : Err} (hx : x s = .error e s') (f : α → GM K β) :
    (x >>= f) s = .error e s' := by rw [Graph.gm_bind, hx]

/-- Loop rule for `forM`. -/
theorem gm_forM {α : Type} (f : α → GM K PUnit) (l : List α) (P : List α → GSt K → Prop) (s : GSt K) (h0 : P [] s)
    (hstep : ∀ (pre : List α) (a : α) (rest : List α) (s : GSt K), l = pre ++ a :: rest → P pre s →
      ∃ s', f a s = .ok ⟨⟩ s' ∧ P (pre ++ [a]) s') :
    ∃ s', l.forM f s = .ok ⟨⟩ s' ∧ P l s' := by
  suffices H : ∀ (rest pre : List α) (s : GSt K), l = pre ++ rest → P pre s →
      ∃ s', rest.forM f s = .ok ⟨⟩ s' ∧ P (pre ++ rest) s' by
    exact H l [] s rfl h0
  intro rest
  induction rest with
  | nil =>
    intro pre s _ hp
    exact ⟨s, rfl, by rw [List.append_nil]; exact hp⟩
  | cons a rest ih =>
    intro pre s hl hp
    obtain ⟨s1, e1, p1⟩ := hstep pre a rest s hl hp
    obtain ⟨s2, e2, p2⟩ := ih (pre ++ [a]) s1 (by rw [hl]; simp) p1
    refine ⟨s2, ?_, by rw [List.append_assoc] at p2; exact p2⟩
    have : (a :: rest).forM f = f a >>= fun _ => rest.forM f := rfl
    rw [this, gm_ok e1]
    exact e2

namespace Graph

/-! ### Joints of the tree -/

/-- `s` is the name of the joint between `x` and its parent. -/
def JointOf (h : Heap K) (g : Graph) (par : Nat → Nat) (x : Nat) (s : String) : Prop :=
  ∃ a, Link h g (par x) a ∧ a.next = x ∧ a.joint.name = s

section
variable [Scalar K] {h : Heap K} {g : Graph} {r : Nat} {d par : Nat → Nat}

theorem Joint_setForward_name (j : Joint K) (d : Bool) : (j.setForward d).name = j.name := rfl

theorem Forest.pair_name (F : Forest h g) {u : Nat} {a b : Arc K} (ha : Link h g u a) (hb : Link h g a.next b)
    (e : b.next = u) : b.joint.name = a.joint.name := by
  obtain ⟨c, hc, ec, j, d, e1, e2⟩ := F.paired u a ha
  obtain rfl := F.arc_unique hb hc (e.trans ec.symm)
  rw [e1, e2]; rfl

/-- Two links with the same joint lead to the same child. -/
theorem Rooted.jointOf_inj (R : Rooted h g r d par) (F : Forest h g) {x y : Nat} {s : String} (hx : x ∈ g.nodes)
    (hxr : x ≠ r) (hy : y ∈ g.nodes) (hyr : y ≠ r) (h1 : JointOf h g par x s) (h2 : JointOf h g par y s) : x = y := by
  obtain ⟨a, ha, rfl, ea⟩ := h1
  obtain ⟨b, hb, rfl, eb⟩ := h2
  rcases F.jointOnce _ _ a b ha hb (ea.trans eb.symm) with ⟨-, e⟩ | ⟨e1, e2⟩
  · rw [e]
  · have := R.up_d hx hxr
    have := R.up_d hy hyr
    rw [e1] at *
    rw [e2] at *
    omega

theorem Rooted.exists_arc (R : Rooted h g r d par) (F : Forest h g) {x : Nat} (hx : x ∈ g.nodes) (hxr : x ≠ r) :
    ∃ a, Link h g (par x) a ∧ a.next = x := by
  obtain ⟨b, hb, eb, _⟩ := R.up x hx hxr
  obtain ⟨c, hc, ec, _⟩ := F.paired x b hb
  rw [eb] at hc
  exact ⟨c, hc, ec⟩

/-- An arc of a child `v` of `u` bears the name of the joint between them iff it goes back to `u`. -/
theorem Forest.name_eq_iff (F : Forest h g) {u : Nat} {a b : Arc K} (ha : Link h g u a) (hb : Link h g a.next b) :
    b.joint.name = a.joint.name ↔ b.next = u := by
  constructor
  · intro e
    rcases F.jointOnce _ _ b a hb ha e with ⟨e1, -⟩ | ⟨-, e2⟩
    · exact absurd e1 (F.noLoop u a ha)
    · exact e2.symm
  · exact F.pair_name ha hb

/-- The joint map has at least as many keys as there are links. -/
theorem Rooted.jointMap_length (R : Rooted h g r d par) (F : Forest h g) :
    g.nodes.length ≤ g.jointMap.length + 1 := by
  classical
  have hex : ∀ x, ∃ s, x ∈ g.nodes → x ≠ r → JointOf h g par x s := by
    intro x
    by_cases hx : x ∈ g.nodes ∧ x ≠ r
    · obtain ⟨a, ha, e⟩ := R.exists_arc F hx.1 hx.2
      exact ⟨a.joint.name, fun _ _ => ⟨a, ha, e, rfl⟩⟩
    · exact ⟨"", fun h1 h2 => absurd ⟨h1, h2⟩ hx⟩
  choose jn hjn using hex
  have hnd : ((g.nodes.erase r).map jn).Nodup := by
    refine List.Nodup.map_on ?_ (F.nodes_nodup.erase r)
    intro x hx y hy e
    rw [F.nodes_nodup.mem_erase_iff] at hx hy
    have h1 := hjn x hx.2 hx.1
    have h2 := hjn y hy.2 hy.1
    rw [← e] at h2
    exact R.jointOf_inj F hx.2 hx.1 hy.2 hy.1 h1 h2
  have hs : (g.nodes.erase r).map jn ⊆ g.jointMap.map Prod.fst := by
    intro s hs
    obtain ⟨x, hx, rfl⟩ := List.mem_map.1 hs
    rw [F.nodes_nodup.mem_erase_iff] at hx
    obtain ⟨a, ha, _, e⟩ := hjn x hx.2 hx.1
    obtain ⟨p, hp⟩ := F.registered _ a ha
    rw [e] at hp
    obtain ⟨kv, hkv, e'⟩ := Option.map_eq_some_iff.1 hp
    exact List.mem_map.2 ⟨kv, List.mem_of_find?_eq_some hkv, by simpa using List.find?_some hkv⟩
  have := (hnd.subperm hs).length_le
  simp only [List.length_map, List.length_erase_of_mem R.mem] at this
  omega

end

/-! ### States met during a removal -/

open Classical in
/-- The state reached from `(h, g)` once the nodes of `A` and the joints named in `B` are removed. -/
structure Rem (h : Heap K) (g : Graph) (A : Nat → Prop) (B : String → Prop) (s : GSt K) : Prop where
  hjoints : s.1.joints = h.joints
  off : ∀ x, ¬ A x → s.1.nodes[x]? = h.nodes[x]?
  on : ∀ x n, A x → h.nodes[x]? = some n → s.1.nodes[x]? = some ⟨n.body, []⟩
  len : s.1.nodes.length = h.nodes.length
  root : s.2.rootName = g.rootName
  nodes : s.2.nodes = g.nodes.filter (fun x => decide (¬ A x))
  joints : s.2.joints = g.joints.filter (fun p => decide (¬ ∃ j, h.joints[p]? = some j ∧ B j.name))
  body : ∀ t p, s.2.bodyMap.find t = some p ↔ g.bodyMap.find t = some p ∧ ¬ A p
  joint : ∀ t p, s.2.jointMap.find t = some p ↔ g.jointMap.find t = some p ∧ ¬ B t

theorem Rem.start (h : Heap K) (g : Graph) : Rem h g (fun _ => False) (fun _ => False) (h, g) := by
  refine ⟨rfl, fun _ _ => rfl, fun _ _ h => h.elim, rfl, rfl, ?_, ?_, ?_, ?_⟩ <;> simp

theorem Rem.congr {h : Heap K} {g : Graph} {A A' : Nat → Prop} {B B' : String → Prop} {s : GSt K}
    (M : Rem h g A B s) (hA : ∀ x, A x ↔ A' x) (hB : ∀ x, B x ↔ B' x) : Rem h g A' B' s := by
  obtain rfl : A = A' := funext fun x => propext (hA x)
  obtain rfl : B = B' := funext fun x => propext (hB x)
  exact M

theorem filter_erase {l : List Nat} (hl : l.Nodup) (P Q : Nat → Bool) {p : Nat}
    (hQ : ∀ x ∈ l, Q x = true ↔ P x = true ∧ x ≠ p) : (l.filter P).erase p = l.filter Q := by
  rw [(hl.filter _).erase_eq_filter, List.filter_filter]
  refine List.filter_congr fun x hx => ?_
  have := hQ x hx
  cases h1 : Q x <;> cases h2 : P x <;> simp_all

/-- Removal of a joint. -/
theorem Rem.rmJoint {h : Heap K} {g : Graph} {A : Nat → Prop} {B : String → Prop} {s : GSt K} (I : Inv h g)
    (M : Rem h g A B s) {t : String} {p : Nat} (hp : g.jointMap.find t = some p) (hB : ¬ B t) :
    ∃ l, s.2.jointMap.getAt t = .ok p ∧ eraseFind s.2.joints p = .ok l ∧
      Rem h g A (fun u => B u ∨ u = t) (s.1, { s.2 with joints := l, jointMap := s.2.jointMap.erase t }) := by
  classical
  have h1 : s.2.jointMap.find t = some p := (M.joint t p).2 ⟨hp, hB⟩
  obtain ⟨hpg, j, hj, ej⟩ := (I.joint t p).1 hp
  have hm : p ∈ s.2.joints := by
    rw [M.joints, List.mem_filter]
    refine ⟨hpg, ?_⟩
    simp only [decide_eq_true_eq]
    rintro ⟨j', hj', hb⟩
    obtain rfl := Option.some_inj.1 (hj.symm.trans hj')
    exact hB (ej ▸ hb)
  refine ⟨s.2.joints.erase p, by rw [SMap.getAt, h1], by rw [eraseFind, if_pos hm], ?_⟩
  refine ⟨M.hjoints, M.off, M.on, M.len, M.root, M.nodes, ?_, M.body, ?_⟩
  · dsimp only
    rw [M.joints]
    refine filter_erase I.joints_nodup _ _ ?_
    intro x hx
    simp only [decide_eq_true_eq]
    constructor
    · intro hn
      refine ⟨fun ⟨j', e', b'⟩ => hn ⟨j', e', .inl b'⟩, ?_⟩
      rintro rfl
      exact hn ⟨j, hj, .inr ej⟩
    · rintro ⟨h2, h3⟩ ⟨j', e', b' | b'⟩
      · exact h2 ⟨j', e', b'⟩
      · exact h3 (I.joint_inj hx hpg e' hj (b'.trans ej.symm))
  · intro u q
    dsimp only
    rw [SMap.find_erase]
    by_cases e : u = t
    · rw [if_pos e]; simp [e]
    · rw [if_neg e, M.joint]; simp [e]

/-- Removal of a node. -/
theorem Rem.rmNode {h : Heap K} {g : Graph} {A : Nat → Prop} {B : String → Prop} {s : GSt K} (I : Inv h g)
    (M : Rem h g A B s) {v : Nat} {n : GNode K} (hv : v ∈ g.nodes) (hn : h.nodes[v]? = some n) (hA : ¬ A v) :
    ∃ l, eraseFind s.2.nodes v = .ok l ∧
      Rem h g (fun x => A x ∨ x = v) B
        (s.1.setArcs v n [], { s.2 with nodes := l, bodyMap := s.2.bodyMap.erase n.body.name }) := by
  classical
  have hm : v ∈ s.2.nodes := by
    rw [M.nodes, List.mem_filter]
    exact ⟨hv, by simpa using hA⟩
  have hlt : v < s.1.nodes.length := by rw [M.len]; exact I.node_lt hv
  refine ⟨s.2.nodes.erase v, by rw [eraseFind, if_pos hm], ?_⟩
  refine ⟨M.hjoints, ?_, ?_, ?_, M.root, ?_, M.joints, ?_, M.joint⟩
  · intro x hx
    dsimp only [Heap.setArcs]
    rw [List.getElem?_set, if_neg (fun e => hx (.inr e.symm))]
    exact M.off x fun ha => hx (.inl ha)
  · intro x m hx hm'
    dsimp only [Heap.setArcs]
    by_cases e : v = x
    · subst e
      obtain rfl := Option.some_inj.1 (hn.symm.trans hm')
      rw [List.getElem?_set_self hlt]
    · rw [List.getElem?_set, if_neg e]
      rcases hx with ha | e'
      · exact M.on x m ha hm'
      · exact absurd e'.symm e
  · dsimp only [Heap.setArcs]; rw [List.length_set, M.len]
  · dsimp only
    rw [M.nodes]
    refine filter_erase I.nodes_nodup _ _ ?_
    intro x _
    simp only [decide_eq_true_eq, not_or, ne_eq]
  · intro t p
    dsimp only
    rw [SMap.find_erase]
    by_cases e : t = n.body.name
    · rw [if_pos e]
      constructor
      · intro h; cases h
      · rintro ⟨h1, h2⟩
        obtain ⟨hp, m, hm', em⟩ := (I.body t p).1 h1
        exact absurd (.inr (I.name_inj hp hv hm' hn (em.trans e))) h2
    · rw [if_neg e, M.body]
      constructor
      · rintro ⟨h1, h2⟩
        refine ⟨h1, ?_⟩
        rintro (h3 | rfl)
        · exact h2 h3
        · obtain ⟨_, m, hm', em⟩ := (I.body t p).1 h1
          obtain rfl := Option.some_inj.1 (hn.symm.trans hm')
          exact e em.symm
      · rintro ⟨h1, h2⟩
        exact ⟨h1, fun h3 => h2 (.inl h3)⟩

section
variable [Scalar K] {h : Heap K} {g : Graph} {r : Nat} {d par : Nat → Nat}

/-- `rmArcFromMbg` removes the sub-tree the arc leads to, and its joints. -/
theorem rmArcFromMbg_spec (R : Rooted h g r d par) (F : Forest h g) :
    ∀ (f u : Nat) (a : Arc K) (A : Nat → Prop) (B : String → Prop) (s : GSt K), Link h g u a →
      some a.next ≠ srcOf r par u → g.nodes.length ≤ f + d a.next → Rem h g A B s →
      (∀ x, Below g r par a.next x → ¬ A x) →
      (∀ x t, Below g r par a.next x → JointOf h g par x t → ¬ B t) →
      ∃ s', rmArcFromMbg f a s = .ok ⟨⟩ s' ∧
        Rem h g (fun x => A x ∨ Below g r par a.next x)
          (fun t => B t ∨ ∃ x, Below g r par a.next x ∧ JointOf h g par x t) s' := by
  intro f
  induction f with
  | zero =>
    intro u a A B s ha _ hf
    have := R.lt _ (F.link_next ha)
    omega
  | succ f ih =>
    intro u a A B s ha hc hf M hA hB
    obtain ⟨hd, hpar, har⟩ := (R.child_iff ha).1 hc
    have hv : a.next ∈ g.nodes := F.link_next ha
    have hvv : Below g r par a.next a.next := .refl hv
    obtain ⟨n, hn⟩ := F.nodes_get _ hv
    have hJ : JointOf h g par a.next a.joint.name := ⟨a, by rw [hpar]; exact ha, rfl, rfl⟩
    obtain ⟨p, hp⟩ := F.registered u a ha
    obtain ⟨l, e1, e2, M1⟩ := M.rmJoint F.toInv hp (hB _ _ hvv hJ)
    have hn1 : s.1.nodes[a.next]? = some n := (M.off _ (hA _ hvv)).trans hn
    have hsrc : srcOf r par a.next = some u := R.src_child ha hc
    have hnd : n.arcs.Nodup := (F.single _ hv n hn).of_map
    -- child arcs of the node
    have hchild : ∀ b ∈ n.arcs, (b.joint.name ≠ a.joint.name ↔ some b.next ≠ srcOf r par a.next) := by
      intro b hb
      rw [hsrc, ne_eq, ne_eq, F.name_eq_iff ha ⟨hv, n, hn, hb⟩, Option.some_inj]
    have hlink : ∀ b ∈ n.arcs, Link h g a.next b := fun b hb => ⟨hv, n, hn, hb⟩
    have hsub : ∀ b ∈ n.arcs, some b.next ≠ srcOf r par a.next → ∀ x, Below g r par b.next x →
        Below g r par a.next x ∧ x ≠ a.next := by
      intro b hb hcb x hx
      obtain ⟨q1, q2, q3⟩ := (R.child_iff (hlink b hb)).1 hcb
      have hb' : Below g r par a.next b.next := .step (F.link_next (hlink b hb)) q3 (q2 ▸ hvv)
      refine ⟨hb'.trans hx, ?_⟩
      rintro rfl
      have := hx.d_le R
      omega
    -- the loop
    obtain ⟨s2, e3, M2⟩ := gm_forM (fun b : Arc K =>
      if b.joint.name ≠ a.joint.name then do
        rmArcFromMbg f b
        let (h, _) ← get
        let n' ← GM.lift (rd h.nodes a.next)
        if n'.arcs.length ≠ n.arcs.length then throw .ub
      else pure ()) n.arcs
      (fun pre s => Rem h g
        (fun x => A x ∨ ∃ b ∈ pre, some b.next ≠ srcOf r par a.next ∧ Below g r par b.next x)
        (fun t => (B t ∨ t = a.joint.name) ∨ ∃ b ∈ pre, some b.next ≠ srcOf r par a.next ∧
          ∃ x, Below g r par b.next x ∧ JointOf h g par x t) s) _
      (M1.congr (by simp) (by simp)) (by
        intro pre b rest s' hl M'
        have hb : b ∈ n.arcs := by rw [hl]; simp
        by_cases hcb : some b.next ≠ srcOf r par a.next
        · rw [if_pos ((hchild b hb).2 hcb)]
          obtain ⟨q1, q2, q3⟩ := (R.child_iff (hlink b hb)).1 hcb
          have hpre : ∀ c ∈ pre, some c.next ≠ srcOf r par a.next → ∀ x, Below g r par c.next x →
              Below g r par b.next x → False := by
            intro c hcp hcc x hx1 hx2
            have hc' : c ∈ n.arcs := by rw [hl]; simp [hcp]
            obtain ⟨k1, _, _⟩ := (R.child_iff (hlink c hc')).1 hcc
            have := F.arc_unique (hlink c hc') (hlink b hb) (hx1.eq_of_d R hx2 (by omega))
            subst this
            rw [hl, List.nodup_append] at hnd
            exact hnd.2.2 c hcp c (by simp) rfl
          obtain ⟨s3, e3, M3⟩ := ih a.next b _ _ s' (hlink b hb) hcb (by omega) M' (by
            rintro x hx (h1 | ⟨c, hcp, hcc, hx'⟩)
            · exact hA x (hsub b hb hcb x hx).1 h1
            · exact hpre c hcp hcc x hx' hx) (by
            rintro x t hx hxt ((h1 | h1) | ⟨c, hcp, hcc, y, hy, hyt⟩)
            · exact hB x t (hsub b hb hcb x hx).1 hxt h1
            · subst h1
              have hxr : x ≠ r := by
                rintro rfl
                have := hx.d_le R
                rw [R.d0] at this; omega
              exact (hsub b hb hcb x hx).2 (R.jointOf_inj F hx.mem hxr hv har hxt hJ)
            · have hc' : c ∈ n.arcs := by rw [hl]; simp [hcp]
              obtain ⟨k1, _, _⟩ := (R.child_iff (hlink c hc')).1 hcc
              have hxr : x ≠ r := by
                rintro rfl
                have := hx.d_le R
                rw [R.d0] at this; omega
              have hyr : y ≠ r := by
                rintro rfl
                have := hy.d_le R
                rw [R.d0] at this; omega
              have := R.jointOf_inj F hx.mem hxr hy.mem hyr hxt hyt
              subst this
              exact hpre c hcp hcc x hy hx)
          have hn3 : s3.1.nodes[a.next]? = some n := by
            rw [M3.off]
            · exact hn
            · rintro ((h1 | ⟨c, hcp, hcc, hx⟩) | hx)
              · exact hA _ hvv h1
              · exact (hsub c (by rw [hl]; simp [hcp]) hcc _ hx).2 rfl
              · exact (hsub b hb hcb _ hx).2 rfl
          refine ⟨s3, ?_, M3.congr ?_ ?_⟩
          · rw [gm_ok e3, gm_get]
            dsimp only
            rw [gm_lift_ok (rd_of_getElem? hn3), if_neg (by simp)]
            rfl
          · intro x
            simp only [List.mem_append, List.mem_singleton]
            constructor
            · rintro ((h1 | ⟨c, h1, h2⟩) | h1)
              · exact .inl h1
              · exact .inr ⟨c, .inl h1, h2⟩
              · exact .inr ⟨b, .inr rfl, hcb, h1⟩
            · rintro (h1 | ⟨c, h1 | rfl, h2, h3⟩)
              · exact .inl (.inl h1)
              · exact .inl (.inr ⟨c, h1, h2, h3⟩)
              · exact .inr h3
          · intro x
            simp only [List.mem_append, List.mem_singleton]
            constructor
            · rintro ((h1 | ⟨c, h1, h2⟩) | h1)
              · exact .inl h1
              · exact .inr ⟨c, .inl h1, h2⟩
              · exact .inr ⟨b, .inr rfl, hcb, h1⟩
            · rintro (h1 | ⟨c, h1 | rfl, h2, h3⟩)
              · exact .inl (.inl h1)
              · exact .inl (.inr ⟨c, h1, h2, h3⟩)
              · exact .inr h3
        · rw [if_neg (fun e => hcb ((hchild b hb).1 e))]
          refine ⟨s', rfl, M'.congr ?_ ?_⟩
          · intro x
            simp only [List.mem_append, List.mem_singleton]
            constructor
            · rintro (h1 | ⟨c, h1, h2⟩)
              · exact .inl h1
              · exact .inr ⟨c, .inl h1, h2⟩
            · rintro (h1 | ⟨c, h1 | rfl, h2, h3⟩)
              · exact .inl h1
              · exact .inr ⟨c, h1, h2, h3⟩
              · exact absurd h2 hcb
          · intro x
            simp only [List.mem_append, List.mem_singleton]
            constructor
            · rintro (h1 | ⟨c, h1, h2⟩)
              · exact .inl h1
              · exact .inr ⟨c, .inl h1, h2⟩
            · rintro (h1 | ⟨c, h1 | rfl, h2, h3⟩)
              · exact .inl h1
              · exact .inr ⟨c, h1, h2, h3⟩
              · exact absurd h2 hcb)
    have hA2 : ¬ (A a.next ∨ ∃ b ∈ n.arcs, some b.next ≠ srcOf r par a.next ∧ Below g r par b.next a.next) := by
      rintro (h1 | ⟨b, hb, hcb, hx⟩)
      · exact hA _ hvv h1
      · exact (hsub b hb hcb _ hx).2 rfl
    obtain ⟨l2, e4, M3⟩ := M2.rmNode F.toInv hv hn hA2
    refine ⟨_, ?_, M3.congr ?_ ?_⟩
    · rw [rmArcFromMbg, gm_get]
      dsimp only
      rw [gm_lift_ok e1, gm_lift_ok e2, gm_set, gm_lift_ok (rd_of_getElem? hn1), gm_ok e3, gm_get]
      exact gm_lift_ok e4 _ _
    · intro x
      constructor
      · rintro ((h1 | ⟨b, hb, hcb, hx⟩) | rfl)
        · exact .inl h1
        · exact .inr (hsub b hb hcb x hx).1
        · exact .inr hvv
      · rintro (h1 | h1)
        · exact .inl (.inl h1)
        · by_cases e : x = a.next
          · exact .inr e
          · obtain ⟨c, hc1, hc2, hc3, hc4⟩ := h1.of_child R e
            obtain ⟨b, hb, rfl⟩ := R.exists_arc F hc1 hc2
            rw [hc3] at hb
            obtain ⟨_, n', hn', hbm⟩ := id hb
            obtain rfl := Option.some_inj.1 (hn.symm.trans hn')
            refine .inl (.inr ⟨b, hbm, (R.child_iff hb).2 ⟨?_, hc3, hc2⟩, hc4⟩)
            have := R.up_d hc1 hc2
            rw [hc3] at this; exact this
    · intro t
      constructor
      · rintro ((h1 | rfl) | ⟨b, hb, hcb, x, hx, hxt⟩)
        · exact .inl h1
        · exact .inr ⟨_, hvv, hJ⟩
        · exact .inr ⟨x, (hsub b hb hcb x hx).1, hxt⟩
      · rintro (h1 | ⟨x, h1, hxt⟩)
        · exact .inl (.inl h1)
        · by_cases e : x = a.next
          · subst e
            obtain ⟨c, hc1, hc2, hc3⟩ := hxt
            rw [hpar] at hc1
            have := F.arc_unique ha hc1 hc2.symm
            subst this
            exact .inl (.inr hc3.symm)
          · obtain ⟨c, hc1, hc2, hc3, hc4⟩ := h1.of_child R e
            obtain ⟨b, hb, rfl⟩ := R.exists_arc F hc1 hc2
            rw [hc3] at hb
            obtain ⟨_, n', hn', hbm⟩ := id hb
            obtain rfl := Option.some_inj.1 (hn.symm.trans hn')
            refine .inr ⟨b, hbm, (R.child_iff hb).2 ⟨?_, hc3, hc2⟩, x, hc4, hxt⟩
            have := R.up_d hc1 hc2
            rw [hc3] at this; exact this

/-! ### Search of the arc -/

/-- Skipping the joint named `pj` is skipping the arc of `u` towards the root. -/
def SkipsParent (h : Heap K) (g : Graph) (r : Nat) (par : Nat → Nat) (u : Nat) (pj : String) : Prop :=
  ∀ b, Link h g u b → (b.joint.name ≠ pj ↔ some b.next ≠ srcOf r par u)

theorem Rooted.skips_child (R : Rooted h g r d par) (F : Forest h g) {u : Nat} {b : Arc K} (hb : Link h g u b)
    (hc : some b.next ≠ srcOf r par u) : SkipsParent h g r par b.next b.joint.name := by
  intro c hcl
  rw [R.src_child hb hc, ne_eq, ne_eq, F.name_eq_iff hb hcl, Option.some_inj]

omit [Scalar K] in
theorem skips_root (h0 : ∀ b, Link h g r b → b.joint.name ≠ g.rootName) :
    SkipsParent h g r par r g.rootName := by
  intro b hb
  rw [srcOf, if_pos rfl]
  exact ⟨fun _ => by simp, fun _ => h0 b hb⟩

omit [Scalar K] in
theorem searchArc_succ (act : (node i : Nat) → Arc K → GM K Unit) {f u : Nat} {n : GNode K} (pj t : String)
    (s : GSt K) (hn : s.1.nodes[u]? = some n) :
    searchArc act (f + 1) u pj t s = n.arcs.zipIdx.foldlM (fun found (ai : Arc K × Nat) =>
      if found then pure true
      else if ai.1.joint.name ≠ pj then
        if ai.1.joint.name = t then do
          act u ai.2 ai.1
          pure true
        else searchArc act f ai.1.next ai.1.joint.name t
      else pure false) false s := by
  rw [searchArc, gm_get]
  obtain ⟨h', g'⟩ := s
  dsimp only at hn ⊢
  exact gm_lift_ok (rd_of_getElem? hn) _ _

/-- The search does nothing if no link below `u` has the joint. -/
theorem searchArc_none (R : Rooted h g r d par) (F : Forest h g) (act : (node i : Nat) → Arc K → GM K Unit)
    {t : String} :
    ∀ (f u : Nat) (pj : String), u ∈ g.nodes → g.nodes.length ≤ f + d u → SkipsParent h g r par u pj →
      (∀ y, Below g r par u y → y ≠ u → ¬ JointOf h g par y t) →
      searchArc act f u pj t (h, g) = .ok false (h, g) := by
  intro f
  induction f with
  | zero => intro u pj hu hf; have := R.lt u hu; omega
  | succ f ih =>
    intro u pj hu hf hs hno
    obtain ⟨n, hn⟩ := F.nodes_get u hu
    rw [searchArc_succ act pj t (h, g) hn]
    have key : ∀ l : List (Arc K × Nat), (∀ ai ∈ l, ai.1 ∈ n.arcs) →
        l.foldlM (fun found (ai : Arc K × Nat) =>
          if found then pure true
          else if ai.1.joint.name ≠ pj then
            if ai.1.joint.name = t then do
              act u ai.2 ai.1
              pure true
            else searchArc act f ai.1.next ai.1.joint.name t
          else pure false) false (h, g) = (.ok false (h, g) : EStateM.Result Err (GSt K) Bool) := by
      intro l
      induction l with
      | nil => intro _; rfl
      | cons ai l ihl =>
        intro hl
        have hb : Link h g u ai.1 := ⟨hu, n, hn, hl ai (List.mem_cons_self ..)⟩
        rw [List.foldlM_cons, if_neg Bool.false_ne_true]
        by_cases hc : some ai.1.next ≠ srcOf r par u
        · obtain ⟨c1, c2, c3⟩ := (R.child_iff hb).1 hc
          have hmem := F.link_next hb
          have hbel : Below g r par u ai.1.next := .step hmem c3 (by rw [c2]; exact .refl hu)
          have hne : ai.1.next ≠ u := F.noLoop u _ hb
          have hnt : ai.1.joint.name ≠ t := fun e => hno _ hbel hne ⟨ai.1, c2 ▸ hb, rfl, e⟩
          rw [if_pos ((hs _ hb).2 hc), if_neg hnt,
            gm_ok (ih ai.1.next _ hmem (by omega) (R.skips_child F hb hc) (fun y hy hy2 => by
              refine hno y (hbel.trans hy) ?_
              rintro rfl
              have := hy.d_le R
              omega))]
          exact ihl fun a ha => hl a (List.mem_cons_of_mem _ ha)
        · rw [if_neg (fun e => hc ((hs _ hb).1 e)), gm_ok (show (pure false : GM K Bool) (h, g) = .ok false (h, g) from rfl)]
          exact ihl fun a ha => hl a (List.mem_cons_of_mem _ ha)
    refine key _ fun ai hai => ?_
    obtain ⟨_, e⟩ := List.mem_zipIdx' (x := ai.1) (i := ai.2) hai
    rw [e]; exact List.getElem_mem _

/-- The depth first search from `u` finds the joint `t` between `x` and its parent, below `u`. -/
theorem searchArc_found (R : Rooted h g r d par) (F : Forest h g) (act : (node i : Nat) → Arc K → GM K Unit)
    {x i : Nat} {t : String} {a : Arc K} {nx : GNode K} (hnx : h.nodes[par x]? = some nx)
    (hi : nx.arcs[i]? = some a) (hpm : par x ∈ g.nodes) (hax : a.next = x) (hxr : x ≠ r) (ht : a.joint.name = t) :
    ∀ (f u : Nat) (pj : String), u ∈ g.nodes → g.nodes.length ≤ f + d u → SkipsParent h g r par u pj →
      Below g r par u x → x ≠ u →
      searchArc act f u pj t (h, g) =
        match act (par x) i a (h, g) with
        | .ok _ s' => .ok true s'
        | .error e s' => .error e s' := by
  have ha : Link h g (par x) a := ⟨hpm, nx, hnx, List.mem_of_getElem? hi⟩
  have hxm : x ∈ g.nodes := hax ▸ F.link_next ha
  have hxt : JointOf h g par x t := ⟨a, ha, hax, ht⟩
  intro f
  induction f with
  | zero => intro u pj hu hf; have := R.lt u hu; omega
  | succ f ih =>
    intro u pj hu hf hs hbx hxu
    obtain ⟨n, hn⟩ := F.nodes_get u hu
    rw [searchArc_succ act pj t (h, g) hn]
    have hnd : n.arcs.Nodup := (F.single _ hu n hn).of_map
    -- once found
    have htrue : ∀ (l : List (Arc K × Nat)) (s : GSt K),
        l.foldlM (fun found (ai : Arc K × Nat) =>
          if found then pure true
          else if ai.1.joint.name ≠ pj then
            if ai.1.joint.name = t then do
              act u ai.2 ai.1
              pure true
            else searchArc act f ai.1.next ai.1.joint.name t
          else pure false) true s = (.ok true s : EStateM.Result Err (GSt K) Bool) := by
      intro l
      induction l with
      | nil => intro s; rfl
      | cons ai l ihl =>
        intro s
        rw [List.foldlM_cons, if_pos rfl, gm_ok (show (pure true : GM K Bool) s = .ok true s from rfl)]
        exact ihl s
    have key : ∀ l : List (Arc K × Nat), (∀ ai ∈ l, n.arcs[ai.2]? = some ai.1) →
        (∃ ai ∈ l, some ai.1.next ≠ srcOf r par u ∧ Below g r par ai.1.next x) →
        l.foldlM (fun found (ai : Arc K × Nat) =>
          if found then pure true
          else if ai.1.joint.name ≠ pj then
            if ai.1.joint.name = t then do
              act u ai.2 ai.1
              pure true
            else searchArc act f ai.1.next ai.1.joint.name t
          else pure false) false (h, g) =
        match act (par x) i a (h, g) with
        | .ok _ s' => .ok true s'
        | .error e s' => .error e s' := by
      intro l
      induction l with
      | nil => intro _ ⟨ai, h1, _⟩; cases h1
      | cons ai l ihl =>
        intro hl hex
        have hb : Link h g u ai.1 := ⟨hu, n, hn, List.mem_of_getElem? (hl ai (List.mem_cons_self ..))⟩
        have hmem := F.link_next hb
        rw [List.foldlM_cons, if_neg Bool.false_ne_true]
        by_cases hc : some ai.1.next ≠ srcOf r par u
        · obtain ⟨c1, c2, c3⟩ := (R.child_iff hb).1 hc
          have hbel : Below g r par u ai.1.next := .step hmem c3 (by rw [c2]; exact .refl hu)
          have hne : ai.1.next ≠ u := F.noLoop u _ hb
          rw [if_pos ((hs _ hb).2 hc)]
          by_cases hbx' : Below g r par ai.1.next x
          · by_cases e : x = ai.1.next
            · have hu' : par x = u := by rw [e, c2]
              have hnx' : nx = n := by rw [hu'] at hnx; exact Option.some_inj.1 (hnx.symm.trans hn)
              have haa : ai.1 = a := F.arc_unique hb (hu' ▸ ha) (e.symm.trans hax.symm)
              have hii : ai.2 = i := by
                have h1 := hl ai (List.mem_cons_self ..)
                rw [haa] at h1
                rw [hnx'] at hi
                obtain ⟨l1, e1⟩ := List.getElem?_eq_some_iff.1 h1
                obtain ⟨l2, e2⟩ := List.getElem?_eq_some_iff.1 hi
                exact (List.Nodup.getElem_inj_iff hnd).1 (e1.trans e2.symm)
              subst hu'
              rw [haa, hii, if_pos ht, gm_bind, gm_bind]
              cases act (par x) i a (h, g) with
              | ok v s' =>
                dsimp only
                exact htrue l s'
              | error e s' => rfl
            · have hnt : ai.1.joint.name ≠ t := fun e' =>
                e (R.jointOf_inj F hxm hxr hmem c3 hxt ⟨ai.1, c2 ▸ hb, rfl, e'⟩)
              rw [if_neg hnt, gm_bind, ih ai.1.next _ hmem (by omega) (R.skips_child F hb hc) hbx' e]
              cases act (par x) i a (h, g) with
              | ok v s' => exact htrue l s'
              | error e s' => rfl
          · have hnot : ∀ y, Below g r par ai.1.next y → ¬ JointOf h g par y t := by
              intro y hy hyt
              have hyr : y ≠ r := by
                rintro rfl
                have := hy.d_le R
                rw [R.d0] at this; omega
              have := R.jointOf_inj F hxm hxr hy.mem hyr hxt hyt
              exact hbx' (this ▸ hy)
            have hnt : ai.1.joint.name ≠ t := fun e =>
              hnot _ (.refl hmem) ⟨ai.1, c2 ▸ hb, rfl, e⟩
            rw [if_neg hnt, gm_ok (searchArc_none R F act f ai.1.next _ hmem (by omega) (R.skips_child F hb hc)
              (fun y hy _ => hnot y hy))]
            refine ihl (fun a ha => hl a (List.mem_cons_of_mem _ ha)) ?_
            obtain ⟨b, hb1, hb2, hb3⟩ := hex
            rcases List.mem_cons.1 hb1 with rfl | hb1
            · exact absurd hb3 hbx'
            · exact ⟨b, hb1, hb2, hb3⟩
        · rw [if_neg (fun e => hc ((hs _ hb).1 e)), gm_ok (show (pure false : GM K Bool) (h, g) = .ok false (h, g) from rfl)]
          refine ihl (fun a ha => hl a (List.mem_cons_of_mem _ ha)) ?_
          obtain ⟨b, hb1, hb2, hb3⟩ := hex
          rcases List.mem_cons.1 hb1 with rfl | hb1
          · exact absurd hb2 hc
          · exact ⟨b, hb1, hb2, hb3⟩
    refine key _ (fun ai hai => ?_) ?_
    · exact List.mem_zipIdx_iff_getElem?.1 hai
    · obtain ⟨c, hc1, hc2, hc3, hc4⟩ := hbx.of_child R hxu
      obtain ⟨b, hb, rfl⟩ := R.exists_arc F hc1 hc2
      rw [hc3] at hb
      obtain ⟨_, n', hn', hbm⟩ := id hb
      obtain rfl := Option.some_inj.1 (hn.symm.trans hn')
      obtain ⟨k, hk⟩ := List.mem_iff_getElem?.1 hbm
      refine ⟨(b, k), List.mem_zipIdx_iff_getElem?.2 hk, (R.child_iff hb).2 ⟨?_, hc3, hc2⟩, hc4⟩
      have := R.up_d hc1 hc2
      rw [hc3] at this; exact this

/-- Removal of the arc number `i` of the parent of `x`, which leads to `x`. -/
theorem rmFound_spec (R : Rooted h g r d par) (F : Forest h g) {x i : Nat} {a : Arc K} {nx : GNode K}
    (hnx : h.nodes[par x]? = some nx) (hi : nx.arcs[i]? = some a) (hpm : par x ∈ g.nodes) (hax : a.next = x)
    (hxr : x ≠ r) :
    ∃ s, rmFound (par x) i a (h, g) = .ok ⟨⟩ (s.1.setArcs (par x) nx (nx.arcs.eraseIdx i), s.2) ∧
      s.1.nodes[par x]? = some nx ∧
      Rem h g (Below g r par x) (fun t => ∃ y, Below g r par x y ∧ JointOf h g par y t) s := by
  have ha : Link h g (par x) a := ⟨hpm, nx, hnx, List.mem_of_getElem? hi⟩
  have hxm : x ∈ g.nodes := hax ▸ F.link_next ha
  have hd := R.up_d hxm hxr
  have hc : some a.next ≠ srcOf r par (par x) := (R.child_iff ha).2 (by rw [hax]; exact ⟨hd, rfl, hxr⟩)
  have hlen := R.jointMap_length F
  obtain ⟨s, e, M⟩ := rmArcFromMbg_spec R F (g.jointMap.length + 1) (par x) a _ _ (h, g) ha hc (by omega)
    (Rem.start h g) (fun _ _ h => h) (fun _ _ _ _ h => h)
  rw [hax] at M
  have M' := M.congr (A' := Below g r par x) (B' := fun t => ∃ y, Below g r par x y ∧ JointOf h g par y t)
    (by simp) (by simp)
  have hnb : ¬ Below g r par x (par x) := fun hb => by have := hb.d_le R; omega
  have hs : s.1.nodes[par x]? = some nx := (M'.off _ hnb).trans hnx
  refine ⟨s, ?_, hs, M'⟩
  rw [rmFound, gm_get]
  dsimp only
  rw [gm_lift_ok (rd_of_getElem? hnx), gm_ok e, gm_get]
  refine (gm_lift_ok (rd_of_getElem? hs) _ _).trans ?_
  rw [if_neg (by simp)]
  rfl

end
end Graph
end RBDyn
