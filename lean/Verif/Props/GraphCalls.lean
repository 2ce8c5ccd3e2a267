import Verif.Props.BuildOrder
import Verif.Props.GraphFK

/-! Property C15, the graphs built by calls: what the calls have to be for the graph to be a tree, whatever their order. -/

namespace RBDyn
variable {K : Type} [Scalar K]

open Graph

/-- The two bodies and the joint of the calls of `linkBodies`. -/
def linkCalls (ops : List (BuildOp K)) : List (String × String × String) :=
  ops.filterMap fun | .link b1 _ b2 _ jn _ => some (b1, b2, jn) | _ => none

/-- The undirected graph of the names of the bodies that are linked by a call. -/
def callGraph (ops : List (BuildOp K)) : SimpleGraph String where
  Adj a b := a ≠ b ∧ ∃ jn, (a, b, jn) ∈ linkCalls ops ∨ (b, a, jn) ∈ linkCalls ops
  symm := ⟨fun _ _ ⟨h, jn, e⟩ => ⟨h.symm, jn, e.symm⟩⟩
  loopless := ⟨fun _ h => h.1 rfl⟩

/-- The calls describe a tree: no body is linked to itself, no two bodies are linked twice, no joint is used twice, there is no closed chain and
all bodies are connected. -/
structure TreeCalls (ops : List (BuildOp K)) : Prop where
  noLoop : ∀ l ∈ linkCalls ops, l.1 ≠ l.2.1
  pairs : ((linkCalls ops).map fun l => s(l.1, l.2.1)).Nodup
  joints : ((linkCalls ops).map fun l => l.2.2).Nodup
  acyclic : (callGraph ops).IsAcyclic
  connected : ∀ b b', BuildOp.body b ∈ ops → BuildOp.body b' ∈ ops → (callGraph ops).Reachable b.name b'.name

omit [Scalar K] in
theorem mem_linkCalls {ops : List (BuildOp K)} {b1 b2 jn : String} :
    (b1, b2, jn) ∈ linkCalls ops ↔ ∃ t1 t2 dir, BuildOp.link b1 t1 b2 t2 jn dir ∈ ops := by
  unfold linkCalls
  rw [List.mem_filterMap]
  constructor
  · rintro ⟨op, hop, e⟩
    cases op <;> simp at e
    obtain ⟨rfl, rfl, rfl⟩ := e
    exact ⟨_, _, _, hop⟩
  · rintro ⟨t1, t2, dir, h⟩
    exact ⟨_, h, rfl⟩

/-- A graph without closed chains: no vertex has two neighbours that are at most as far away. -/
theorem acyclic_of_rank {V : Type} {G : SimpleGraph V} (d : V → Nat)
    (h : ∀ u v v', G.Adj u v → G.Adj u v' → d v ≤ d u → d v' ≤ d u → v = v') : G.IsAcyclic := by
  classical
  intro v c hc
  obtain ⟨u, hu, hmax⟩ : ∃ u ∈ c.support, ∀ w ∈ c.support, d w ≤ d u := by
    obtain ⟨u, hu, hm⟩ := c.support.toFinset.exists_max_image d ⟨v, by simp⟩
    exact ⟨u, by simpa using hu, fun w hw => hm w (by simpa using hw)⟩
  have hc' := hc.rotate hu
  have hsup : ∀ w ∈ (c.rotate _ hu).support, w ∈ c.support := fun w hw => (SimpleGraph.Walk.mem_support_rotate_iff _ _ _).1 hw
  exact hc'.snd_ne_penultimate (h _ _ _ ((c.rotate _ hu).adj_snd hc'.not_nil) ((c.rotate _ hu).adj_penultimate hc'.not_nil).symm
    (hmax _ (hsup _ (SimpleGraph.Walk.getVert_mem_support _ _))) (hmax _ (hsup _ (SimpleGraph.Walk.getVert_mem_support _ _))))

section
variable {ops : List (BuildOp K)} {s : GSt K} {rootName : String}

/-- The joints that the calls look up. -/
theorem PartsInv.exists_look (P : PartsInv rootName ops s) :
    ∃ look, LookOK look ops ∧ ∀ t j, look t = some j → BuildOp.joint j ∈ ops ∧ j.name = t := by
  classical
  refine ⟨fun t => if hj : ∃ j, BuildOp.joint j ∈ ops ∧ j.name = t then some hj.choose else none, fun j hj => ?_, fun t j e => ?_⟩
  · have hex : ∃ i, BuildOp.joint i ∈ ops ∧ i.name = j.name := ⟨j, hj, rfl⟩
    refine (dif_pos hex).trans ?_
    obtain ⟨h1, h2⟩ := hex.choose_spec
    obtain ⟨p, hp, ep⟩ := P.joint _ h1
    obtain ⟨q, hq, eq⟩ := P.joint _ hj
    have := P.inv.joint_inj hp hq ep eq h2
    subst this
    exact ep.symm.trans eq
  · by_cases hex : ∃ j, BuildOp.joint j ∈ ops ∧ j.name = t
    · have := (dif_pos hex).symm.trans e
      cases this
      exact hex.choose_spec
    · have := (dif_neg hex).symm.trans e
      cases this

theorem mem_arcsOf {look : String → Option (Joint K)} {name : String} {op : BuildOp K} {X : PTransform K} {i : Joint K} {o : Option String} :
    (X, i, o) ∈ arcsOf look name op ↔ ∃ b1 t1 b2 t2 jn dir j, op = .link b1 t1 b2 t2 jn dir ∧ look jn = some j ∧
      ((b1 = name ∧ X = t1 ∧ i = j.setForward (if dir then j.isForward else !j.isForward) ∧ o = some b2) ∨
        (b2 = name ∧ X = t2 ∧ i = j.setForward (!(if dir then j.isForward else !j.isForward)) ∧ o = some b1)) := by
  cases op with
  | body b => simp [arcsOf]
  | joint j => simp [arcsOf]
  | link b1 t1 b2 t2 jn dir =>
    simp only [arcsOf]
    cases hl : look jn with
    | none =>
      simp only [List.not_mem_nil, false_iff]
      rintro ⟨_, _, _, _, _, _, j, e, hj, -⟩
      cases e
      rw [hl] at hj
      cases hj
    | some j =>
      simp only [List.mem_append]
      constructor
      · rintro (h | h)
        · split at h
          · obtain ⟨rfl, rfl, rfl⟩ := by simpa using h
            exact ⟨_, _, _, _, _, _, j, rfl, hl, .inl ⟨‹_›, rfl, rfl, rfl⟩⟩
          · simp at h
        · split at h
          · obtain ⟨rfl, rfl, rfl⟩ := by simpa using h
            exact ⟨_, _, _, _, _, _, j, rfl, hl, .inr ⟨‹_›, rfl, rfl, rfl⟩⟩
          · simp at h
      · rintro ⟨_, _, _, _, _, _, j', e, hj, h⟩
        cases e
        rw [hl] at hj
        cases hj
        rcases h with ⟨h, rfl, rfl, rfl⟩ | ⟨h, rfl, rfl, rfl⟩
        · exact .inl (by rw [if_pos h]; exact List.mem_singleton_self _)
        · exact .inr (by rw [if_pos h]; exact List.mem_singleton_self _)

/-- An arc comes from a call of `linkBodies`. -/
theorem PartsInv.arcCall (P : PartsInv rootName ops s) {look : String → Option (Joint K)} (hl : LookOK look ops) {u : Nat} {a : Arc K}
    (h : Link s.1 s.2 u a) : ∃ n m b1 t1 b2 t2 jn dir j, s.1.nodes[u]? = some n ∧ s.1.nodes[a.next]? = some m ∧
      BuildOp.link b1 t1 b2 t2 jn dir ∈ ops ∧ look jn = some j ∧
      ((b1 = n.body.name ∧ a.X = t1 ∧ a.joint = j.setForward (if dir then j.isForward else !j.isForward) ∧ m.body.name = b2) ∨
        (b2 = n.body.name ∧ a.X = t2 ∧ a.joint = j.setForward (!(if dir then j.isForward else !j.isForward)) ∧ m.body.name = b1)) := by
  obtain ⟨hu, n, hn, ha⟩ := h
  obtain ⟨m, hm⟩ := P.inv.nodes_get _ (P.inv.arcs u hu n hn a ha)
  have : named s.1 a ∈ ops.flatMap (arcsOf look n.body.name) := by
    rw [← P.arcs look hl u hu n hn]
    exact List.mem_map_of_mem ha
  obtain ⟨op, hop, h⟩ := List.mem_flatMap.1 this
  unfold named at h
  obtain ⟨b1, t1, b2, t2, jn, dir, j, rfl, hj, h⟩ := mem_arcsOf.1 h
  rw [hm, Option.map_some] at h
  refine ⟨n, m, b1, t1, b2, t2, jn, dir, j, hn, hm, hop, hj, ?_⟩
  rcases h with ⟨h1, h2, h3, h4⟩ | ⟨h1, h2, h3, h4⟩
  · exact .inl ⟨h1, h2, h3, Option.some.inj h4⟩
  · exact .inr ⟨h1, h2, h3, Option.some.inj h4⟩

/-- A call of `linkBodies` leaves an arc at its first and at its second body. -/
theorem PartsInv.ends (P : PartsInv rootName ops s) {look : String → Option (Joint K)} (hl : LookOK look ops) {b1 : String} {t1 : PTransform K}
    {b2 : String} {t2 : PTransform K} {jn : String} {dir : Bool} {j : Joint K} (h : BuildOp.link b1 t1 b2 t2 jn dir ∈ ops) (hj : look jn = some j) :
    ∃ u v a b n m, Link s.1 s.2 u a ∧ Link s.1 s.2 v b ∧ a.next = v ∧ b.next = u ∧ s.1.nodes[u]? = some n ∧ s.1.nodes[v]? = some m ∧
      n.body.name = b1 ∧ m.body.name = b2 ∧ a.joint = j.setForward (if dir then j.isForward else !j.isForward) ∧
      b.joint = j.setForward (!(if dir then j.isForward else !j.isForward)) := by
  obtain ⟨⟨u, hu⟩, v, hv⟩ := P.links _ _ _ _ _ _ h
  obtain ⟨mu, n, hn, rfl⟩ := (P.inv.body _ _).1 hu
  obtain ⟨mv, m, hm, rfl⟩ := (P.inv.body _ _).1 hv
  have e1 : (t1, j.setForward (if dir then j.isForward else !j.isForward), some m.body.name) ∈ n.arcs.map (named s.1) := by
    rw [P.arcs look hl u mu n hn]
    exact List.mem_flatMap.2 ⟨_, h, mem_arcsOf.2 ⟨_, _, _, _, _, _, j, rfl, hj, .inl ⟨rfl, rfl, rfl, rfl⟩⟩⟩
  have e2 : (t2, j.setForward (!(if dir then j.isForward else !j.isForward)), some n.body.name) ∈ m.arcs.map (named s.1) := by
    rw [P.arcs look hl v mv m hm]
    exact List.mem_flatMap.2 ⟨_, h, mem_arcsOf.2 ⟨_, _, _, _, _, _, j, rfl, hj, .inr ⟨rfl, rfl, rfl, rfl⟩⟩⟩
  obtain ⟨a, ha, ea⟩ := List.mem_map.1 e1
  obtain ⟨b, hb, eb⟩ := List.mem_map.1 e2
  unfold named at ea eb
  obtain ⟨-, ea1, ea2⟩ := by simpa only [Prod.mk.injEq] using ea
  obtain ⟨-, eb1, eb2⟩ := by simpa only [Prod.mk.injEq] using eb
  have key : ∀ {x : Nat} {k : GNode K}, x ∈ s.2.nodes → s.1.nodes[x]? = some k → ∀ {c : Nat}, c ∈ s.2.nodes →
      (s.1.nodes[c]?).map (fun n => n.body.name) = some k.body.name → c = x := by
    intro x k hx hk c hc e
    obtain ⟨k', hk'⟩ := P.inv.nodes_get _ hc
    rw [hk', Option.map_some, Option.some_inj] at e
    exact P.inv.name_inj hc hx hk' hk e
  refine ⟨u, v, a, b, n, m, ⟨mu, n, hn, ha⟩, ⟨mv, m, hm, hb⟩, key mv hm (P.inv.arcs u mu n hn a ha) ea2, key mu hn (P.inv.arcs v mv m hm b hb) eb2,
    hn, hm, rfl, rfl, ea1, eb1⟩

/-- The joint of a call that does not throw is known. -/
theorem PartsInv.known {done : List (BuildOp K)} {s' : GSt K} (P : PartsInv rootName done s') (e : RBDyn.runAll ops s' = .ok () s) {b1 : String}
    {t1 : PTransform K} {b2 : String} {t2 : PTransform K} {jn : String} {dir : Bool} (h : BuildOp.link b1 t1 b2 t2 jn dir ∈ ops) :
    ∃ j, BuildOp.joint j ∈ done ++ ops ∧ j.name = jn := by
  induction ops generalizing done s' with
  | nil => simp at h
  | cons op ops ih =>
    simp only [RBDyn.runAll, bind, EStateM.bind] at e
    cases ho : op.run s' with
    | error er s1 => rw [ho] at e; cases e
    | ok u s1 =>
      rw [ho] at e
      rcases List.mem_cons.1 h with rfl | h'
      · rw [BuildOp.run] at ho
        cases hk : linkHeap s'.1 s'.2 b1 t1 b2 t2 jn dir with
        | error er => rw [linkBodies_error hk] at ho; cases ho
        | ok h1 =>
          obtain ⟨p, hp⟩ : ∃ p, s'.2.jointMap.find jn = some p := by
            refine Option.ne_none_iff_exists'.1 fun hf => ?_
            rw [linkHeap_unknown (.inr (.inr hf))] at hk
            cases hk
          obtain ⟨hpj, j, hj, ej⟩ := (P.inv.joint _ _).1 hp
          exact ⟨j, List.mem_append_left _ (P.jnt p hpj j hj), ej⟩
      · obtain ⟨j, hj, ej⟩ := ih (P.run ho) e h'
        exact ⟨j, by rwa [List.append_assoc] at hj, ej⟩

/-- The other ends of the arcs of a body are different bodies. -/
theorem arcs_nodup (look : String → Option (Joint K)) (name : String) (ops : List (BuildOp K)) (noLoop : ∀ l ∈ linkCalls ops, l.1 ≠ l.2.1)
    (pairs : ((linkCalls ops).map fun l => s(l.1, l.2.1)).Nodup) :
    ((ops.flatMap (arcsOf look name)).map fun x => x.2.2).Nodup := by
  induction ops with
  | nil => simp
  | cons op ops ih =>
    cases op with
    | body b => exact ih noLoop pairs
    | joint j => exact ih noLoop pairs
    | link b1 t1 b2 t2 jn dir =>
      have hn : b1 ≠ b2 := noLoop (b1, b2, jn) List.mem_cons_self
      obtain ⟨hp, pairs'⟩ := List.nodup_cons.1 (show (s(b1, b2) :: (linkCalls ops).map fun l => s(l.1, l.2.1)).Nodup from pairs)
      have ih' := ih (fun l hl => noLoop l (List.mem_cons_of_mem _ hl)) pairs'
      rw [List.flatMap_cons, List.map_append, List.nodup_append]
      refine ⟨?_, ih', ?_⟩
      · simp only [arcsOf]
        cases look jn with
        | none => simp
        | some j =>
          by_cases e1 : b1 = name
          · have e2 : b2 ≠ name := fun h => hn (e1.trans h.symm)
            simp [e1, e2]
          · by_cases e2 : b2 = name <;> simp [e1, e2]
      · intro x hx y hy hxy
        subst hxy
        obtain ⟨⟨X, i, o⟩, hm, rfl⟩ := List.mem_map.1 hx
        obtain ⟨⟨X', i', o'⟩, hm', eo⟩ := List.mem_map.1 hy
        dsimp only at eo
        subst eo
        obtain ⟨_, hop, hm'⟩ := List.mem_flatMap.1 hm'
        obtain ⟨_, _, _, _, _, _, _, e, -, h1⟩ := mem_arcsOf.1 hm
        cases e
        obtain ⟨c1, r1, c2, r2, kn, dir', _, rfl, -, h2⟩ := mem_arcsOf.1 hm'
        have hk : (c1, c2, kn) ∈ linkCalls ops := mem_linkCalls.2 ⟨_, _, _, hop⟩
        apply hp
        refine List.mem_map.2 ⟨_, hk, ?_⟩
        rcases h1 with ⟨p1, -, -, p2⟩ | ⟨p1, -, -, p2⟩ <;> rcases h2 with ⟨q1, -, -, q2⟩ | ⟨q1, -, -, q2⟩ <;> subst p1 <;> subst q1 <;> subst p2 <;> cases q2 <;>
          simp [Sym2.eq_swap]

/-- The graph after calls which describe a tree is a tree. -/
theorem PartsInv.tree (P : PartsInv rootName ops s) (C : TreeCalls ops) {look : String → Option (Joint K)} (hl : LookOK look ops)
    (hname : ∀ t j, look t = some j → BuildOp.joint j ∈ ops ∧ j.name = t)
    (hknown : ∀ l ∈ linkCalls ops, ∃ j, look l.2.2 = some j) : Tree s.1 s.2 := by
  have I := P.inv
  have hsingle : ∀ u ∈ s.2.nodes, ∀ n, s.1.nodes[u]? = some n → (n.arcs.map Arc.next).Nodup := by
    intro u hu n hn
    have h := arcs_nodup look n.body.name ops C.noLoop C.pairs
    rw [← P.arcs look hl u hu n hn, List.map_map] at h
    refine List.Nodup.of_map (fun x => (s.1.nodes[x]?).map fun n => n.body.name) ?_
    rw [List.map_map]
    exact h
  have hloop : ∀ (u : Nat) (a : Arc K), Link s.1 s.2 u a → a.next ≠ u := by
    intro u a ha e
    obtain ⟨n, m, b1, t1, b2, t2, jn, dir, j, hn, hm, hop, hj, h⟩ := P.arcCall hl ha
    rw [e, hn, Option.some_inj] at hm
    subst hm
    have := C.noLoop (b1, b2, jn) (mem_linkCalls.2 ⟨_, _, _, hop⟩)
    rcases h with ⟨h1, -, -, h2⟩ | ⟨h1, -, -, h2⟩
    · exact this (h1.trans h2)
    · exact this (h2.symm.trans h1.symm)
  have hinj : ∀ {x y : Nat} {n m : GNode K}, x ∈ s.2.nodes → y ∈ s.2.nodes → s.1.nodes[x]? = some n → s.1.nodes[y]? = some m →
      n.body.name = m.body.name → x = y := fun hx hy hn hm e => I.name_inj hx hy hn hm e
  refine { I with acyclic := ?_, noLoop := hloop, single := hsingle, paired := ?_, registered := ?_, jointOnce := ?_, connected := ?_ }
  · classical
    obtain ⟨B, hB⟩ : ∃ B, ∀ x ∈ s.2.nodes, ∀ n, s.1.nodes[x]? = some n → n.body.name.length < B := by
      refine ⟨((s.1.nodes.map fun n => n.body.name.length).foldr max 0) + 1, fun x _ n hn => Nat.lt_succ_of_le ?_⟩
      have : n ∈ s.1.nodes := List.mem_of_getElem? hn
      revert this
      generalize s.1.nodes = l
      intro this
      induction l with
      | nil => simp at this
      | cons a l ih =>
        rw [List.map_cons, List.foldr_cons]
        rcases List.mem_cons.1 this with rfl | h
        · exact le_max_left _ _
        · exact (ih h).trans (le_max_right _ _)
    let f : Nat → String := fun x => if x ∈ s.2.nodes then ((s.1.nodes[x]?).map fun n => n.body.name).getD "" else String.ofList (List.replicate (B + x) 'a')
    have fin : ∀ {x : Nat} {n : GNode K}, x ∈ s.2.nodes → s.1.nodes[x]? = some n → f x = n.body.name := by
      intro x n hx hn
      simp only [f, if_pos hx, hn, Option.map_some, Option.getD_some]
    have fout : ∀ {x : Nat}, x ∉ s.2.nodes → (f x).length = B + x := by
      intro x hx
      simp only [f, if_neg hx, String.length_ofList, List.length_replicate]
    have hf : Function.Injective f := by
      intro x y e
      by_cases hx : x ∈ s.2.nodes <;> by_cases hy : y ∈ s.2.nodes
      · obtain ⟨n, hn⟩ := I.nodes_get x hx
        obtain ⟨m, hm⟩ := I.nodes_get y hy
        rw [fin hx hn, fin hy hm] at e
        exact hinj hx hy hn hm e
      · obtain ⟨n, hn⟩ := I.nodes_get x hx
        have h1 := fout hy
        rw [← e, fin hx hn] at h1
        have := hB x hx n hn
        omega
      · obtain ⟨n, hn⟩ := I.nodes_get y hy
        have h1 := fout hx
        rw [e, fin hy hn] at h1
        have := hB y hy n hn
        omega
      · have h1 := fout hx
        have h2 := fout hy
        rw [e] at h1
        omega
    have hadj : ∀ {u v : Nat}, (∃ a, Link s.1 s.2 u a ∧ a.next = v) → (callGraph ops).Adj (f u) (f v) := by
      rintro u v ⟨a, ha, rfl⟩
      obtain ⟨n, m, b1, t1, b2, t2, jn, dir, j, hn, hm, hop, hj, h⟩ := P.arcCall hl ha
      refine ⟨fun e => hloop u a ha (hf e.symm), jn, ?_⟩
      rw [fin ha.mem hn, fin (I.link_next ha) hm]
      have hk : (b1, b2, jn) ∈ linkCalls ops := mem_linkCalls.2 ⟨_, _, _, hop⟩
      rcases h with ⟨rfl, -, -, rfl⟩ | ⟨rfl, -, -, rfl⟩
      · exact .inl hk
      · exact .inr hk
    refine C.acyclic.comap (⟨f, ?_⟩ : simple s.1 s.2 →g callGraph ops) hf
    rintro u v ⟨-, h | h⟩
    · exact hadj h
    · exact (hadj h).symm
  · intro u a ha
    obtain ⟨n, m, b1, t1, b2, t2, jn, dir, j, hn, hm, hop, hj, h⟩ := P.arcCall hl ha
    obtain ⟨u', v', a', b', n', m', la, lb, ea, eb, hn', hm', en, em, ja, jb⟩ := P.ends hl hop hj
    rcases h with ⟨h1, -, h3, h4⟩ | ⟨h1, -, h3, h4⟩
    · have e1 : u = u' := hinj ha.mem la.mem hn hn' (h1.symm.trans en.symm)
      have e2 : a.next = v' := hinj (I.link_next ha) lb.mem hm hm' (h4.trans em.symm)
      exact ⟨b', by rw [e2]; exact lb, by rw [e1]; exact eb, j, _, h3, jb⟩
    · have e1 : u = v' := hinj ha.mem lb.mem hn hm' (h1.symm.trans em.symm)
      have e2 : a.next = u' := hinj (I.link_next ha) la.mem hm hn' (h4.trans en.symm)
      exact ⟨a', by rw [e2]; exact la, by rw [e1]; exact ea, j, _, h3, by rw [ja, Bool.not_not]⟩
  · intro u a ha
    obtain ⟨n, m, b1, t1, b2, t2, jn, dir, j, hn, hm, hop, hj, h⟩ := P.arcCall hl ha
    obtain ⟨p, hp, ep⟩ := P.joint j (hname _ _ hj).1
    refine ⟨p, (I.joint _ _).2 ⟨hp, j, ep, ?_⟩⟩
    rcases h with ⟨-, -, h3, -⟩ | ⟨-, -, h3, -⟩ <;> rw [h3] <;> rfl
  · intro u v a b ha hb e
    obtain ⟨n, m, b1, t1, b2, t2, jn, dir, j, hn, hm, hop, hj, h⟩ := P.arcCall hl ha
    obtain ⟨n', m', c1, r1, c2, r2, kn, dir', j', hn', hm', hop', hj', h'⟩ := P.arcCall hl hb
    have ea : a.joint.name = jn := by
      rw [← (hname _ _ hj).2]
      rcases h with ⟨-, -, h3, -⟩ | ⟨-, -, h3, -⟩ <;> rw [h3] <;> rfl
    have eb : b.joint.name = kn := by
      rw [← (hname _ _ hj').2]
      rcases h' with ⟨-, -, h3, -⟩ | ⟨-, -, h3, -⟩ <;> rw [h3] <;> rfl
    have ek : jn = kn := by rw [← ea, ← eb, e]
    have := List.inj_on_of_nodup_map C.joints (mem_linkCalls.2 ⟨_, _, _, hop⟩) (mem_linkCalls.2 ⟨_, _, _, hop'⟩) ek
    cases this
    have hu := ha.mem
    have hv := hb.mem
    have hna := I.link_next ha
    have hnb := I.link_next hb
    have same : u = v → a.next = b.next → u = v ∧ a = b := by
      rintro rfl e2
      obtain ⟨-, k, hk, hak⟩ := ha
      obtain ⟨-, k', hk', hbk⟩ := hb
      rw [hk, Option.some_inj] at hk'
      subst hk'
      exact ⟨rfl, List.inj_on_of_nodup_map (hsingle u hu k hk) hak hbk e2⟩
    rcases h with ⟨h1, -, -, h4⟩ | ⟨h1, -, -, h4⟩ <;> rcases h' with ⟨h1', -, -, h4'⟩ | ⟨h1', -, -, h4'⟩
    · exact .inl (same (hinj hu hv hn hn' (h1.symm.trans h1')) (hinj hna hnb hm hm' (h4.trans h4'.symm)))
    · exact .inr ⟨hinj hu hnb hn hm' (h1.symm.trans h4'.symm), hinj hv hna hn' hm (h1'.symm.trans h4.symm)⟩
    · exact .inr ⟨hinj hu hnb hn hm' (h1.symm.trans h4'.symm), hinj hv hna hn' hm (h1'.symm.trans h4.symm)⟩
    · exact .inl (same (hinj hu hv hn hn' (h1.symm.trans h1')) (hinj hna hnb hm hm' (h4.trans h4'.symm)))
  · have key : ∀ {x y : String} (_ : (callGraph ops).Walk x y) (u : Nat) (_ : u ∈ s.2.nodes) (n : GNode K) (_ : s.1.nodes[u]? = some n) (_ : n.body.name = x)
        (v : Nat) (_ : v ∈ s.2.nodes) (m : GNode K) (_ : s.1.nodes[v]? = some m) (_ : m.body.name = y), (simple s.1 s.2).Reachable u v := by
      intro x y w
      induction w with
      | nil =>
        intro u hu n hn e v hv m hm e'
        rw [hinj hu hv hn hm (e.trans e'.symm)]
      | cons hxy w ih =>
        intro u hu n hn e v hv m hm e'
        obtain ⟨-, jn, h⟩ := hxy
        have step : ∀ {c d : Nat}, (∃ a, Link s.1 s.2 c a ∧ a.next = d) → (simple s.1 s.2).Adj c d := by
          rintro c d ⟨a, ha, rfl⟩
          exact ⟨(hloop c a ha).symm, .inl ⟨a, ha, rfl⟩⟩
        rcases h with h | h
        · obtain ⟨t1, t2, dir, hop⟩ := mem_linkCalls.1 h
          obtain ⟨j, hj⟩ := hknown _ h
          obtain ⟨u', v', a', b', n', m', la, lb, ea, eb, hn', hm', en, em, -, -⟩ := P.ends hl hop hj
          have e1 : u = u' := hinj hu la.mem hn hn' (e.trans en.symm)
          subst e1
          exact (step ⟨a', la, ea⟩).reachable.trans (ih v' lb.mem m' hm' em v hv m hm e')
        · obtain ⟨t1, t2, dir, hop⟩ := mem_linkCalls.1 h
          obtain ⟨j, hj⟩ := hknown _ h
          obtain ⟨u', v', a', b', n', m', la, lb, ea, eb, hn', hm', en, em, -, -⟩ := P.ends hl hop hj
          have e1 : u = v' := hinj hu lb.mem hn hm' (e.trans em.symm)
          subst e1
          exact (step ⟨b', lb, eb⟩).reachable.trans (ih u' la.mem n' hn' en v hv m hm e')
    intro u hu v hv
    obtain ⟨n, hn⟩ := I.nodes_get u hu
    obtain ⟨m, hm⟩ := I.nodes_get v hv
    obtain ⟨w⟩ := C.connected _ _ (P.node u hu n hn) (P.node v hv m hm)
    exact key w u hu n hn rfl v hv m hm rfl

end

/-- C15: calls of `addBody`, `addJoint` and `linkBodies` on an empty graph, in any order in which none of them throws, leave a tree when the links
are those of a tree; its joints and transforms are those of the calls. -/
theorem C15_calls {h : Heap K} {rootName : String} {ops : List (BuildOp K)} (C : TreeCalls ops) {s : GSt K}
    (e : runAll ops (h, Graph.empty rootName) = .ok () s) :
    Tree s.1 s.2 ∧ ((∀ j, BuildOp.joint j ∈ ops → j.Built) → BuiltArcs s.1 s.2) ∧
    ((∀ j, BuildOp.joint j ∈ ops → j.BuiltUnit) → (∀ b1 t1 b2 t2 jn dir, BuildOp.link b1 t1 b2 t2 jn dir ∈ ops → IsRigid t1 ∧ IsRigid t2) →
      RigidGraph s.1 s.2) := by
  have P : PartsInv rootName ops s := by simpa using (PartsInv.empty h rootName).runAll e
  obtain ⟨look, hl, hname⟩ := P.exists_look
  refine ⟨P.tree C hl hname fun l hm => ?_, fun H u a ha => ?_, fun H HX => ⟨fun u a ha => ?_, fun u a ha => ?_⟩⟩
  · obtain ⟨b1, b2, jn⟩ := l
    obtain ⟨t1, t2, dir, hop⟩ := mem_linkCalls.1 hm
    obtain ⟨j, hj, rfl⟩ := (PartsInv.empty h rootName).known e hop
    exact ⟨j, hl j (by simpa using hj)⟩
  · obtain ⟨n, m, b1, t1, b2, t2, jn, dir, j, hn, hm, hop, hj, h⟩ := P.arcCall hl ha
    rcases h with ⟨-, -, h3, -⟩ | ⟨-, -, h3, -⟩ <;> rw [h3] <;> exact .setForward _ _ (H j (hname _ _ hj).1)
  · obtain ⟨n, m, b1, t1, b2, t2, jn, dir, j, hn, hm, hop, hj, h⟩ := P.arcCall hl ha
    rcases h with ⟨-, -, h3, -⟩ | ⟨-, -, h3, -⟩ <;> rw [h3] <;> exact .setForward _ _ (H j (hname _ _ hj).1)
  · obtain ⟨n, m, b1, t1, b2, t2, jn, dir, j, hn, hm, hop, hj, h⟩ := P.arcCall hl ha
    obtain ⟨r1, r2⟩ := HX _ _ _ _ _ _ hop
    rcases h with ⟨-, h3, -, -⟩ | ⟨-, h3, -, -⟩ <;> rw [h3]
    · exact r1
    · exact r2

/-! ### Example -/

namespace Sample.Roots

theorem opsD_links : linkCalls opsD = [("base", "slider", "ball"), ("arm", "hand", "wrist"), ("base", "arm", "shoulder")] := by decide +kernel

theorem opsD_adj {a b : String} (h : (callGraph opsD).Adj a b) : (a, b) ∈ [("base", "slider"), ("arm", "hand"), ("base", "arm"), ("slider", "base"),
    ("hand", "arm"), ("arm", "base")] := by
  obtain ⟨-, jn, h⟩ := h
  rw [opsD_links] at h
  simp only [List.mem_cons, Prod.mk.injEq, List.not_mem_nil, or_false] at h ⊢
  tauto

/-- The links of the second sequence of calls come in an order in which the bodies are not connected one after the other. -/
theorem opsD_tree : TreeCalls opsD where
  noLoop := by rw [opsD_links]; decide +kernel
  pairs := by rw [opsD_links]; decide +kernel
  joints := by rw [opsD_links]; decide +kernel
  acyclic := by
    refine acyclic_of_rank (fun t => if t = "base" then 0 else if t = "hand" then 2 else 1) fun u v v' h h' => ?_
    have h1 := opsD_adj h
    have h2 := opsD_adj h'
    simp only [List.mem_cons, Prod.mk.injEq, List.not_mem_nil, or_false] at h1 h2
    rcases h1 with ⟨rfl, rfl⟩ | ⟨rfl, rfl⟩ | ⟨rfl, rfl⟩ | ⟨rfl, rfl⟩ | ⟨rfl, rfl⟩ | ⟨rfl, rfl⟩ <;> simp at h2 <;> rcases h2 with rfl | rfl <;> simp
  connected := by
    have adj : ∀ a b jn, a ≠ b → (a, b, jn) ∈ linkCalls opsD → (callGraph opsD).Reachable a b := fun a b jn h hm =>
      SimpleGraph.Adj.reachable ⟨h, jn, .inl hm⟩
    have h1 := adj "base" "slider" "ball" (by decide) (by rw [opsD_links]; decide)
    have h2 := adj "arm" "hand" "wrist" (by decide) (by rw [opsD_links]; decide)
    have h3 := adj "base" "arm" "shoulder" (by decide) (by rw [opsD_links]; decide)
    have key : ∀ b, BuildOp.body b ∈ opsD → (callGraph opsD).Reachable "base" b.name := by
      intro b hb
      have hn : b.name ∈ opsD.filterMap (fun | BuildOp.body b => some b.name | _ => none) := List.mem_filterMap.2 ⟨_, hb, rfl⟩
      rw [show opsD.filterMap (fun | BuildOp.body b => some b.name | _ => none) = ["hand", "slider", "base", "arm"] by decide +kernel] at hn
      generalize b.name = t at hn
      simp only [List.mem_cons, List.not_mem_nil, or_false] at hn
      rcases hn with rfl | rfl | rfl | rfl
      · exact h3.trans h2
      · exact h1
      · rfl
      · exact h3
    exact fun b b' hb hb' => (key b hb).symm.trans (key b' hb')

example : Tree gd.1 gd.2 ∧ BuiltArcs gd.1 gd.2 := by
  obtain ⟨h1, h2, -⟩ := C15_calls opsD_tree opsD_run
  refine ⟨h1, h2 fun j hj => ?_⟩
  have hm : j ∈ opsD.filterMap (fun | BuildOp.joint j => some j | _ => none) := List.mem_filterMap.2 ⟨_, hj, rfl⟩
  have e : opsD.filterMap (fun | BuildOp.joint j => some j | _ => none) = [leafC.joint, leafB.joint, leaf1.joint] := rfl
  rw [e] at hm
  simp only [List.mem_cons, List.not_mem_nil, or_false] at hm
  rcases hm with rfl | rfl | rfl <;> exact .mk _ _ _ _

end Sample.Roots

end RBDyn
