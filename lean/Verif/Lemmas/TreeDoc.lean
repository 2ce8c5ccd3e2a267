import Verif.Lemmas.Remake

/-! Descriptions of trees: the graph the readers build from them is a tree. -/

namespace RBDyn
open Graph
variable {K : Type}

/-- The pairs (parent, child) make a tree of the names, with root `base`: every other name is the child of exactly one
pair, and following the parents one gets closer to the root. -/
structure TreeShape (names : List String) (es : List (String × String)) (base : String) : Prop where
  root : base ∈ names
  once : (es.map Prod.snd).Nodup
  top : base ∉ es.map Prod.snd
  below : ∀ n ∈ names, n ≠ base → n ∈ es.map Prod.snd
  rank : ∃ d : String → Nat, ∀ e ∈ es, d e.1 < d e.2

namespace Graph

/-- The names an edge joins. -/
def Edge.ends (e : Edge K) : String × String := (e.parent, e.child)

variable [Scalar K] {bs : List (Body K)} {es : List (Edge K)} {s : GSt K}

/-- The arcs of an assembled graph. -/
theorem assembled_link_iff (A : Assembled bs es s) {u : Nat} {a : Arc K} :
    Link s.1 s.2 u a ↔ ∃ e ∈ es, ∃ p c, posOf bs e.parent = some p ∧ posOf bs e.child = some c ∧
      ((u = p ∧ a = mkArc e.X e.j e.j.isForward c) ∨ (u = c ∧ a = mkArc 1 e.j (!e.j.isForward) p)) := by
  have hpos : ∀ n ∈ bs.map Body.name, ∃ p, posOf bs n = some p := fun n hn => by
    cases h : posOf bs n with
    | none => exact absurd hn (posOf_none_iff.1 h)
    | some p => exact ⟨p, rfl⟩
  constructor
  · rintro ⟨hu, nd, hnd, ha⟩
    rw [A.nodes, List.mem_range] at hu
    have hb := List.getElem?_eq_getElem hu
    have := A.cell u _ hb
    obtain rfl := Option.some_inj.1 (hnd.symm.trans this)
    obtain ⟨e, he, ha⟩ := List.mem_flatMap.1 ha
    obtain ⟨p, hp⟩ := hpos _ (A.known e he).1
    obtain ⟨c, hc⟩ := hpos _ (A.known e he).2
    refine ⟨e, he, p, c, hp, hc, ?_⟩
    rw [hp, hc] at ha
    rcases List.mem_append.1 ha with h | h
    · split at h
      · rename_i hh
        left; exact ⟨(Option.some_inj.1 hh).symm, List.mem_singleton.1 h⟩
      · exact absurd h (by simp)
    · split at h
      · rename_i hh
        right; exact ⟨(Option.some_inj.1 hh).symm, List.mem_singleton.1 h⟩
      · exact absurd h (by simp)
  · rintro ⟨e, he, p, c, hp, hc, h⟩
    have hu : u < bs.length := by
      rcases h with h | h
      · rw [h.1]; exact posOf_lt hp
      · rw [h.1]; exact posOf_lt hc
    refine ⟨by rw [A.nodes, List.mem_range]; exact hu, _, A.cell u _ (List.getElem?_eq_getElem hu), ?_⟩
    refine List.mem_flatMap.2 ⟨e, he, ?_⟩
    rw [hp, hc]
    rcases h with ⟨rfl, rfl⟩ | ⟨rfl, rfl⟩
    · simp
    · simp

/-- The name of the `u`-th body. -/
def nameAt (bs : List (Body K)) (u : Nat) : String := (bs[u]?.map Body.name).getD ""

theorem nameAt_posOf (hn : (bs.map Body.name).Nodup) {n : String} {u : Nat} (h : posOf bs n = some u) :
    nameAt bs u = n := by
  obtain ⟨b, hb, e⟩ := (posOf_eq_some_iff hn).1 h
  simp [nameAt, hb, e]

theorem assembled_adj_iff (A : Assembled bs es s) {u v : Nat} :
    (simple s.1 s.2).Adj u v ↔ u ≠ v ∧ ∃ e ∈ es, (posOf bs e.parent = some u ∧ posOf bs e.child = some v) ∨
      (posOf bs e.parent = some v ∧ posOf bs e.child = some u) := by
  constructor
  · rintro ⟨hne, ⟨a, ha, hn⟩ | ⟨a, ha, hn⟩⟩
    · obtain ⟨e, he, p, c, hp, hc, ⟨rfl, rfl⟩ | ⟨rfl, rfl⟩⟩ := (assembled_link_iff A).1 ha
      · obtain rfl : c = v := hn
        exact ⟨hne, e, he, .inl ⟨hp, hc⟩⟩
      · obtain rfl : p = v := hn
        exact ⟨hne, e, he, .inr ⟨hp, hc⟩⟩
    · obtain ⟨e, he, p, c, hp, hc, ⟨rfl, rfl⟩ | ⟨rfl, rfl⟩⟩ := (assembled_link_iff A).1 ha
      · obtain rfl : c = u := hn
        exact ⟨hne, e, he, .inr ⟨hp, hc⟩⟩
      · obtain rfl : p = u := hn
        exact ⟨hne, e, he, .inl ⟨hp, hc⟩⟩
  · rintro ⟨hne, e, he, ⟨hp, hc⟩ | ⟨hp, hc⟩⟩
    · exact ⟨hne, .inl ⟨_, (assembled_link_iff A).2 ⟨e, he, _, _, hp, hc, .inl ⟨rfl, rfl⟩⟩, rfl⟩⟩
    · exact ⟨hne, .inr ⟨_, (assembled_link_iff A).2 ⟨e, he, _, _, hp, hc, .inl ⟨rfl, rfl⟩⟩, rfl⟩⟩

theorem posOf_inj (hn : (bs.map Body.name).Nodup) {n n' : String} {u : Nat} (h : posOf bs n = some u)
    (h' : posOf bs n' = some u) : n = n' := (nameAt_posOf hn h).symm.trans (nameAt_posOf hn h')

/-- Two edges with the same child are the same. -/
theorem _root_.RBDyn.TreeShape.child_inj {names : List String} {base : String}
    (T : TreeShape names (es.map Edge.ends) base) {e e' : Edge K} (he : e ∈ es) (he' : e' ∈ es)
    (h : e.child = e'.child) : e = e' := by
  have := T.once
  rw [List.map_map] at this
  exact List.inj_on_of_nodup_map this he he' h

/-- The graph of the description of a tree is a tree. -/
theorem assembled_tree (A : Assembled bs es s) {base : String}
    (T : TreeShape (bs.map Body.name) (es.map Edge.ends) base) : Tree s.1 s.2 := by
  obtain ⟨d, hd⟩ := T.rank
  have hd : ∀ e ∈ es, d e.parent < d e.child := fun e he => hd _ (List.mem_map_of_mem he)
  have hne : ∀ e ∈ es, e.parent ≠ e.child := fun e he h => by have := hd e he; rw [h] at this; omega
  have N := A.bnodup
  have hpne : ∀ e ∈ es, ∀ u, posOf bs e.parent = some u → posOf bs e.child = some u → False :=
    fun e he u h1 h2 => hne e he (posOf_inj N h1 h2)
  have hjinj : ∀ e ∈ es, ∀ e' ∈ es, e.j.name = e'.j.name → e = e' :=
    fun e he e' he' h => List.inj_on_of_nodup_map A.jnodup he he' h
  -- ranks of neighbours
  have hadj : ∀ u v, (simple s.1 s.2).Adj u v → d (nameAt bs u) ≠ d (nameAt bs v) ∧
      (d (nameAt bs v) < d (nameAt bs u) → ∃ e ∈ es, posOf bs e.parent = some v ∧ posOf bs e.child = some u) := by
    intro u v h
    obtain ⟨-, e, he, ⟨hp, hc⟩ | ⟨hp, hc⟩⟩ := (assembled_adj_iff A).1 h
    · rw [nameAt_posOf N hp, nameAt_posOf N hc]
      have := hd e he
      exact ⟨by omega, fun _ => by omega⟩
    · rw [nameAt_posOf N hp, nameAt_posOf N hc]
      have := hd e he
      exact ⟨by omega, fun _ => ⟨e, he, hp, hc⟩⟩
  refine { A.inv with acyclic := ?_, noLoop := ?_, single := ?_, paired := ?_, registered := ?_, jointOnce := ?_, connected := ?_ }
  · -- no cycle: the deepest vertex would have two parents
    intro v c hc
    obtain ⟨u, hu, hmax⟩ : ∃ u ∈ c.support, ∀ w ∈ c.support, d (nameAt bs w) ≤ d (nameAt bs u) := by
      obtain ⟨u, hu, hm⟩ := c.support.toFinset.exists_max_image (fun w => d (nameAt bs w))
        ⟨v, by simp⟩
      exact ⟨u, by simpa using hu, fun w hw => hm w (by simpa using hw)⟩
    have hc' := hc.rotate hu
    have hsup : ∀ w ∈ (c.rotate _ hu).support, w ∈ c.support := by
      intro w hw
      exact (SimpleGraph.Walk.mem_support_rotate_iff _ _ _).1 hw
    have hnil : ¬ (c.rotate _ hu).Nil := hc'.not_nil
    have h1 := (c.rotate _ hu).adj_snd hnil
    have h2 := (c.rotate _ hu).adj_penultimate hnil
    have hlow : ∀ w, w ∈ c.support → (simple s.1 s.2).Adj u w →
        ∃ e ∈ es, posOf bs e.parent = some w ∧ posOf bs e.child = some u := by
      intro w hw ha
      have := (hadj u w ha)
      exact this.2 (lt_of_le_of_ne (hmax w hw) (Ne.symm this.1))
    obtain ⟨e, he, hp, hcc⟩ := hlow _ (hsup _ (SimpleGraph.Walk.getVert_mem_support _ _)) h1
    obtain ⟨e', he', hp', hcc'⟩ := hlow _ (hsup _ (SimpleGraph.Walk.getVert_mem_support _ _)) h2.symm
    obtain rfl := T.child_inj he he' (posOf_inj N hcc hcc')
    exact hc'.snd_ne_penultimate (Option.some_inj.1 (hp.symm.trans hp'))
  · intro u a ha e
    obtain ⟨e, he, p, c, hp, hc, ⟨rfl, rfl⟩ | ⟨rfl, rfl⟩⟩ := (assembled_link_iff A).1 ha
    · have : c = u := e
      exact hpne _ he u hp (this ▸ hc)
    · have : p = u := e
      exact hpne _ he u (this ▸ hp) hc
  · intro u hu n hn
    rw [A.nodes, List.mem_range] at hu
    obtain rfl := Option.some_inj.1 (hn.symm.trans (A.cell u _ (List.getElem?_eq_getElem hu)))
    have hpos : ∀ n ∈ bs.map Body.name, ∃ p, posOf bs n = some p := fun n hn => by
      cases h : posOf bs n with
      | none => exact absurd hn (posOf_none_iff.1 h)
      | some p => exact ⟨p, rfl⟩
    -- the inner lists
    have hin : ∀ e ∈ es, ∀ v, v ∈ ((if posOf bs e.parent = some u then
        [mkArc e.X e.j e.j.isForward ((posOf bs e.child).getD 0)] else []) ++
        (if posOf bs e.child = some u then [mkArc 1 e.j (!e.j.isForward) ((posOf bs e.parent).getD 0)] else [])).map
          Arc.next →
        (posOf bs e.parent = some u ∧ posOf bs e.child = some v) ∨
        (posOf bs e.parent = some v ∧ posOf bs e.child = some u) := by
      intro e he v hv
      obtain ⟨p, hp⟩ := hpos _ (A.known e he).1
      obtain ⟨c, hc⟩ := hpos _ (A.known e he).2
      rw [hp, hc] at hv ⊢
      rw [List.map_append, List.mem_append] at hv
      rcases hv with hv | hv
      · split at hv
        · rename_i h; left
          refine ⟨h, ?_⟩
          have : v = c := by simpa [mkArc] using hv
          rw [this]
        · simp at hv
      · split at hv
        · rename_i h; right
          refine ⟨?_, h⟩
          have : v = p := by simpa [mkArc] using hv
          rw [this]
        · simp at hv
    show ((arcsAt bs es u).map Arc.next).Nodup
    unfold arcsAt
    rw [List.map_flatMap, List.nodup_flatMap]
    constructor
    · intro e he
      rw [List.map_append]
      by_cases h1 : posOf bs e.parent = some u
      · have h2 : ¬ posOf bs e.child = some u := fun h => hpne e he u h1 h
        simp [h1, h2]
      · by_cases h2 : posOf bs e.child = some u <;> simp [h1, h2]
    · have hnd : es.Nodup := List.Nodup.of_map _ A.jnodup
      refine List.Pairwise.imp_of_mem ?_ hnd
      intro e e' he he' hee v hv hv'
      rcases hin e he v hv with ⟨a1, a2⟩ | ⟨a1, a2⟩ <;> rcases hin e' he' v hv' with ⟨b1, b2⟩ | ⟨b1, b2⟩
      · exact hee (T.child_inj he he' (posOf_inj N a2 b2))
      · have h1 := hd e he
        have h2 := hd e' he'
        rw [posOf_inj N a1 b2, posOf_inj N a2 b1] at h1
        omega
      · have h1 := hd e he
        have h2 := hd e' he'
        rw [posOf_inj N a1 b2, posOf_inj N a2 b1] at h1
        omega
      · exact hee (T.child_inj he he' (posOf_inj N a2 b2))
  · intro u a ha
    obtain ⟨e, he, p, c, hp, hc, ⟨rfl, rfl⟩ | ⟨rfl, rfl⟩⟩ := (assembled_link_iff A).1 ha
    · exact ⟨_, (assembled_link_iff A).2 ⟨e, he, _, _, hp, hc, .inr ⟨rfl, rfl⟩⟩, rfl, e.j, e.j.isForward, rfl, rfl⟩
    · exact ⟨_, (assembled_link_iff A).2 ⟨e, he, _, _, hp, hc, .inl ⟨rfl, rfl⟩⟩, rfl, e.j, !e.j.isForward, rfl, by simp [mkArc]⟩
  · intro u a ha
    obtain ⟨e, he, p, c, hp, hc, h⟩ := (assembled_link_iff A).1 ha
    have hname : a.joint.name = e.j.name := by
      rcases h with ⟨-, rfl⟩ | ⟨-, rfl⟩ <;> rfl
    rw [A.jmap, hname]
    cases h : es.findIdx? (fun e' => e'.j.name = e.j.name) with
    | some p => exact ⟨p, rfl⟩
    | none =>
      rw [List.findIdx?_eq_none_iff] at h
      have := h e he
      simp at this
  · intro u v a b ha hb hab
    obtain ⟨e, he, p, c, hp, hc, h⟩ := (assembled_link_iff A).1 ha
    obtain ⟨e', he', p', c', hp', hc', h'⟩ := (assembled_link_iff A).1 hb
    have hn : a.joint.name = e.j.name := by rcases h with ⟨-, rfl⟩ | ⟨-, rfl⟩ <;> rfl
    have hn' : b.joint.name = e'.j.name := by rcases h' with ⟨-, rfl⟩ | ⟨-, rfl⟩ <;> rfl
    obtain rfl := hjinj e he e' he' (by rw [← hn, ← hn', hab])
    obtain rfl := Option.some_inj.1 (hp.symm.trans hp')
    obtain rfl := Option.some_inj.1 (hc.symm.trans hc')
    rcases h with ⟨rfl, rfl⟩ | ⟨rfl, rfl⟩ <;> rcases h' with ⟨rfl, rfl⟩ | ⟨rfl, rfl⟩
    · exact .inl ⟨rfl, rfl⟩
    · exact .inr ⟨rfl, rfl⟩
    · exact .inr ⟨rfl, rfl⟩
    · exact .inl ⟨rfl, rfl⟩
  · -- every body is joined to the root
    obtain ⟨b, hb⟩ : ∃ b, posOf bs base = some b := by
      cases h : posOf bs base with
      | none => exact absurd T.root (posOf_none_iff.1 h)
      | some p => exact ⟨p, rfl⟩
    have key : ∀ (k u : Nat), u < bs.length → d (nameAt bs u) = k → (simple s.1 s.2).Reachable b u := by
      intro k
      induction k using Nat.strong_induction_on with
      | _ k ih =>
        intro u hu hk
        have hbu := List.getElem?_eq_getElem hu
        have hpu : posOf bs bs[u].name = some u := (posOf_eq_some_iff N).2 ⟨_, hbu, rfl⟩
        by_cases hbase : bs[u].name = base
        · rw [hbase, hb] at hpu
          rw [Option.some_inj.1 hpu]
        · have hm : bs[u].name ∈ bs.map Body.name := List.mem_map_of_mem (List.getElem_mem hu)
          have := T.below _ hm hbase
          rw [List.map_map] at this
          obtain ⟨e, he, hce⟩ := List.mem_map.1 this
          have hce : e.child = bs[u].name := hce
          obtain ⟨p, hp⟩ : ∃ p, posOf bs e.parent = some p := by
            cases h : posOf bs e.parent with
            | none => exact absurd (A.known e he).1 (posOf_none_iff.1 h)
            | some p => exact ⟨p, rfl⟩
          have hlt : d (nameAt bs p) < k := by
            rw [← hk, nameAt_posOf N hp, nameAt_posOf N hpu, ← hce]
            exact hd e he
          refine (ih _ hlt p (posOf_lt hp) rfl).trans (SimpleGraph.Adj.reachable ?_)
          rw [(assembled_adj_iff A)]
          refine ⟨?_, e, he, .inl ⟨hp, hce ▸ hpu⟩⟩
          rintro rfl
          exact hpne e he p hp (hce ▸ hpu)
    intro u hu v hv
    rw [A.nodes, List.mem_range] at hu hv
    exact (key _ u hu rfl).symm.trans (key _ v hv rfl)

end Graph
end RBDyn
