import Verif.Lemmas.GraphWalk

/-! Which nodes the traversals of an arbitrary graph visit, and how often. -/

namespace RBDyn
variable {K : Type}

namespace Graph

/-- Two nodes have as many arcs to each other in both directions. -/
def Sym (h : Heap K) (g : Graph) : Prop := ∀ u v nu nv, u ∈ g.nodes → v ∈ g.nodes → h.nodes[u]? = some nu →
  h.nodes[v]? = some nv → (nu.arcs.map Arc.next).count v = (nv.arcs.map Arc.next).count u

variable {h : Heap K} {g : Graph}

theorem Sym.adj_iff (S : Sym h g) (I : Inv h g) {u v : Nat} :
    (simple h g).Adj u v ↔ u ≠ v ∧ ∃ a, Link h g u a ∧ a.next = v := by
  constructor
  · rintro ⟨hne, ha | ⟨a, ⟨hv, nv, hnv, ha⟩, rfl⟩⟩
    · exact ⟨hne, ha⟩
    · refine ⟨hne, ?_⟩
      have hu := I.arcs v hv nv hnv a ha
      obtain ⟨nu, hnu⟩ := I.nodes_get _ hu
      have hc := S _ _ _ _ hu hv hnu hnv
      have : 0 < (nv.arcs.map Arc.next).count a.next := List.count_pos_iff.2 (List.mem_map.2 ⟨a, ha, rfl⟩)
      rw [← hc, List.count_pos_iff, List.mem_map] at this
      obtain ⟨b, hb, e⟩ := this
      exact ⟨b, ⟨hu, nu, hnu, hb⟩, e⟩
  · rintro ⟨hne, ha⟩
    exact ⟨hne, .inl ha⟩

/-- There is a cycle through `x`. -/
def OnCycle (h : Heap K) (g : Graph) (x : Nat) : Prop := ∃ c : (simple h g).Walk x x, c.IsCycle

theorem Sym.canStep_cycle (S : Sym h g) (I : Inv h g) (n : Nat) {u : Nat} (src : Option Nat) (c : OnCycle h g u) :
    CanStep h n u src := by
  induction n generalizing u src with
  | zero => trivial
  | succ n ih =>
    obtain ⟨c, hc⟩ := c
    have step : ∀ w ∈ c.support, (simple h g).Adj u w → some w ≠ src → CanStep h (n + 1) u src := by
      intro w hw hadj hs
      obtain ⟨-, a, ⟨-, nd, hn, ha⟩, rfl⟩ := (S.adj_iff I).1 hadj
      exact ⟨nd, a, hn, ha, hs, ih (some u) ⟨c.rotate _ hw, hc.rotate hw⟩⟩
    by_cases e : some c.snd = src
    · refine step c.penultimate (c.getVert_mem_support _) (c.adj_penultimate hc.not_nil).symm ?_
      rw [← e, Ne, Option.some_inj]
      exact hc.snd_ne_penultimate.symm
    · exact step c.snd (c.getVert_mem_support _) (c.adj_snd hc.not_nil) e

theorem Sym.canStep_path (S : Sym h g) (I : Inv h g) {u x : Nat} (p : (simple h g).Walk u x) (hp : p.IsPath)
    (hx : OnCycle h g x) (n : Nat) (src : Option Nat) (hs : ∀ v ∈ p.support, some v ≠ src) : CanStep h n u src := by
  induction p generalizing n src with
  | nil => exact S.canStep_cycle I n src hx
  | @cons u v x e p ih =>
    cases n with
    | zero => trivial
    | succ n =>
      obtain ⟨-, a, ⟨-, nd, hn, ha⟩, rfl⟩ := (S.adj_iff I).1 e
      rw [SimpleGraph.Walk.cons_isPath_iff] at hp
      refine ⟨nd, a, hn, ha, hs _ ?_, ih hp.1 hx n (some u) ?_⟩
      · rw [SimpleGraph.Walk.support_cons]
        exact List.mem_cons_of_mem _ p.start_mem_support
      · intro w hw e
        rw [Option.some_inj] at e
        exact hp.2 (e ▸ hw)

/-! ### The nodes visited are those connected to the root -/

theorem Inv.dfs_reachable (I : Inv h g) (f : Nat) {u x : Nat} {src : Option Nat} (hu : u ∈ g.nodes)
    (hx : x ∈ dfs h f u src) : x ∈ g.nodes ∧ (simple h g).Reachable u x := by
  induction f generalizing u src with
  | zero => simp [dfs] at hx
  | succ f ih =>
    obtain ⟨n, hn⟩ := I.nodes_get u hu
    rcases (mem_dfs_succ hn).1 hx with rfl | ⟨a, ha, -, hx⟩
    · exact ⟨hu, .refl _⟩
    · have hl : Link h g u a := ⟨hu, n, hn, ha⟩
      obtain ⟨h1, h2⟩ := ih (I.link_next hl) hx
      refine ⟨h1, ?_⟩
      by_cases e : u = a.next
      · rw [e]; exact h2
      · exact (SimpleGraph.Adj.reachable (show (simple h g).Adj u a.next from ⟨e, .inl ⟨a, hl, rfl⟩⟩)).trans h2

theorem Sym.dfs_path (S : Sym h g) (I : Inv h g) {u x : Nat} (p : (simple h g).Walk u x) (hp : p.IsPath) (hu : u ∈ g.nodes)
    (f : Nat) (src : Option Nat) (hs : ∀ v ∈ p.support, some v ≠ src) (hf : ¬ CanStep h f u src) : x ∈ dfs h f u src := by
  induction p generalizing f src with
  | nil =>
    cases f with
    | zero => exact absurd trivial hf
    | succ f =>
      obtain ⟨n, hn⟩ := I.nodes_get _ hu
      exact (mem_dfs_succ hn).2 (.inl rfl)
  | @cons u v x e p ih =>
    cases f with
    | zero => exact absurd trivial hf
    | succ f =>
      obtain ⟨-, a, hl, rfl⟩ := (S.adj_iff I).1 e
      obtain ⟨-, nd, hn, ha⟩ := id hl
      rw [SimpleGraph.Walk.cons_isPath_iff] at hp
      have hsn : some a.next ≠ src := hs _ (by
        rw [SimpleGraph.Walk.support_cons]
        exact List.mem_cons_of_mem _ p.start_mem_support)
      refine (mem_dfs_succ hn).2 (.inr ⟨a, ha, hsn, ih hp.1 (I.link_next hl) f (some u) ?_ ?_⟩)
      · intro w hw e
        rw [Option.some_inj] at e
        exact hp.2 (e ▸ hw)
      · exact fun hc => hf ⟨nd, a, hn, ha, hsn, hc⟩

theorem Sym.mem_dfs_iff (S : Sym h g) (I : Inv h g) {f r x : Nat} (hr : r ∈ g.nodes) (hf : ¬ CanStep h f r none) :
    x ∈ dfs h f r none ↔ (simple h g).Reachable r x := by
  refine ⟨fun hx => (I.dfs_reachable f hr hx).2, fun hx => ?_⟩
  obtain ⟨p, hp⟩ := hx.exists_isPath
  exact S.dfs_path I p hp hr f none (by simp) hf

theorem dfs_self {f u : Nat} {src : Option Nat} (I : Inv h g) (hu : u ∈ g.nodes) (hf : ¬ CanStep h f u src) :
    u ∈ dfs h f u src := by
  cases f with
  | zero => exact absurd trivial hf
  | succ f =>
    obtain ⟨n, hn⟩ := I.nodes_get u hu
    exact (mem_dfs_succ hn).2 (.inl rfl)

/-! ### A node visited once has no link to itself and single links -/

theorem count_le_one_of_disjoint {α : Type} {l : List α} {f : α → List Nat} {nx : α → Nat} {v : Nat}
    (hl : l.Pairwise (Function.onFun List.Disjoint f)) (hv : ∀ a ∈ l, nx a = v → v ∈ f a) : (l.map nx).count v ≤ 1 := by
  induction l with
  | nil => simp
  | cons x l ih =>
    rw [List.pairwise_cons] at hl
    have ih' := ih hl.2 fun a ha => hv a (List.mem_cons_of_mem _ ha)
    rw [List.map_cons, List.count_cons]
    by_cases e : nx x = v
    · have : (l.map nx).count v = 0 := by
        rw [List.count_eq_zero, List.mem_map]
        rintro ⟨a, ha, ea⟩
        exact hl.1 a ha (hv x List.mem_cons_self e) (hv a (List.mem_cons_of_mem _ ha) ea)
      rw [this]
      simp [e]
    · simp [e, ih']

/-- At the node `u` nothing is linked to itself and no other node is linked twice. -/
def SingleAt (h : Heap K) (u : Nat) : Prop :=
  ∀ n, h.nodes[u]? = some n → u ∉ n.arcs.map Arc.next ∧ (n.arcs.map Arc.next).Nodup

theorem Sym.single_of_nodup (S : Sym h g) (I : Inv h g) {u x : Nat} (p : (simple h g).Walk u x) (hp : p.IsPath)
    (hu : u ∈ g.nodes) (f : Nat) (src : Option Nat) (hs : ∀ v ∈ p.support, some v ≠ src) (hf : ¬ CanStep h f u src)
    (hc : ∀ w n, src = some w → h.nodes[u]? = some n → (n.arcs.map Arc.next).count w ≤ 1)
    (hd : (dfs h f u src).Nodup) : SingleAt h x := by
  induction p generalizing f src with
  | @nil u =>
    cases f with
    | zero => exact absurd trivial hf
    | succ f =>
      intro n hn
      rw [dfs_succ hn, List.nodup_cons, List.nodup_flatMap] at hd
      obtain ⟨d1, d2, d3⟩ := hd
      have self : ∀ a ∈ n.arcs, some a.next ≠ src → a.next ∈ dfs h f a.next (some u) := fun a ha e =>
        dfs_self I (I.arcs u hu n hn a ha) fun hcs => hf ⟨n, a, hn, ha, e, hcs⟩
      refine ⟨?_, List.nodup_iff_count_le_one.2 fun v => ?_⟩
      · rw [List.mem_map]
        rintro ⟨a, ha, e⟩
        have hsn : some a.next ≠ src := by rw [e]; exact hs u (by simp)
        refine d1 (List.mem_flatMap.2 ⟨a, ha, ?_⟩)
        rw [if_pos hsn]
        have := self a ha hsn
        rwa [e] at this ⊢
      · by_cases e : some v = src
        · exact hc v n e.symm hn
        · refine count_le_one_of_disjoint d3 ?_
          rintro a ha rfl
          rw [if_pos e]
          exact self a ha e
  | @cons u v x e p ih =>
    cases f with
    | zero => exact absurd trivial hf
    | succ f =>
      obtain ⟨hne, a, hl, rfl⟩ := (S.adj_iff I).1 e
      have hl' := hl
      obtain ⟨-, nd, hn, ha⟩ := hl
      rw [SimpleGraph.Walk.cons_isPath_iff] at hp
      have hsn : some a.next ≠ src := hs _ (by
        rw [SimpleGraph.Walk.support_cons]
        exact List.mem_cons_of_mem _ p.start_mem_support)
      rw [dfs_succ hn, List.nodup_cons, List.nodup_flatMap] at hd
      obtain ⟨-, d2, d3⟩ := hd
      have hnf : ∀ b ∈ nd.arcs, some b.next ≠ src → ¬ CanStep h f b.next (some u) := fun b hb hbs hcs =>
        hf ⟨nd, b, hn, hb, hbs, hcs⟩
      have hv := I.link_next hl'
      refine ih hp.1 hv f (some u) ?_ (hnf a ha hsn) ?_ ?_
      · intro w hw e
        rw [Option.some_inj] at e
        exact hp.2 (e ▸ hw)
      · intro w n e1 e2
        obtain rfl := Option.some_inj.1 e1
        rw [← S _ _ _ _ hu hv hn e2]
        refine count_le_one_of_disjoint d3 ?_
        intro b hb e
        rw [e, if_pos hsn, ← e]
        exact dfs_self I (I.arcs u hu nd hn b hb) (hnf b hb (by rw [e]; exact hsn))
      · have := d2 a ha
        rwa [if_pos hsn] at this

/-! ### In a tree every node is visited once -/

/-- The neighbour from which a walk to the root starts. -/
def prev {r : Nat} : {u : Nat} → (simple h g).Walk u r → Option Nat
  | _, .nil => none
  | _, .cons (v := v) _ _ => some v

theorem grow {r u v : Nat} (p : (simple h g).Walk u r) (hp : p.IsPath) (hv : (simple h g).Adj v u) (hs : some v ≠ prev p)
    (hc : ¬ OnCycle h g v) : v ∉ p.support := by
  classical
  intro hm
  cases p with
  | nil =>
    rw [SimpleGraph.Walk.support_nil, List.mem_singleton] at hm
    exact hv.ne hm
  | @cons _ w _ e p =>
    rw [SimpleGraph.Walk.cons_isPath_iff] at hp
    have hm' : v ∈ p.support := by
      rw [SimpleGraph.Walk.support_cons, List.mem_cons] at hm
      exact hm.resolve_left hv.ne
    refine hc ⟨.cons hv (.cons e (p.takeUntil v hm')), ?_⟩
    rw [SimpleGraph.Walk.cons_isCycle_iff, SimpleGraph.Walk.cons_isPath_iff, SimpleGraph.Walk.edges_cons, List.mem_cons]
    refine ⟨⟨hp.1.takeUntil hm', fun h => hp.2 (p.support_takeUntil_subset_support hm' h)⟩, ?_⟩
    rintro (h1 | h1)
    · rw [Sym2.eq_iff] at h1
      rcases h1 with ⟨h2, -⟩ | ⟨h2, -⟩
      · exact hv.ne h2
      · exact hs (by rw [prev, h2])
    · exact hp.2 (p.support_takeUntil_subset_support hm' ((p.takeUntil v hm').snd_mem_support_of_mem_edges h1))

/-- What a tree is, seen from `r`: no cycle can be reached, and no node that can be reached is linked to itself or twice to
another. -/
def TreeFrom (h : Heap K) (g : Graph) (r : Nat) : Prop :=
  ∀ u, (simple h g).Reachable r u → ¬ OnCycle h g u ∧ SingleAt h u

theorem TreeFrom.step {r u : Nat} (T : TreeFrom h g r) (I : Inv h g) (hu : u ∈ g.nodes) (p : (simple h g).Walk u r)
    (hp : p.IsPath) {n : GNode K} (hn : h.nodes[u]? = some n) {a : Arc K} (ha : a ∈ n.arcs) (hs : some a.next ≠ prev p) :
    ∃ e : (simple h g).Adj a.next u, (SimpleGraph.Walk.cons e p).IsPath ∧ a.next ∈ g.nodes := by
  have hr : (simple h g).Reachable r u := ⟨p.reverse⟩
  have hl : Link h g u a := ⟨hu, n, hn, ha⟩
  have hne : u ≠ a.next := fun e => ((T u hr).2 n hn).1 (List.mem_map.2 ⟨a, ha, e.symm⟩)
  have e : (simple h g).Adj a.next u := ⟨hne.symm, .inr ⟨a, hl, rfl⟩⟩
  refine ⟨e, ?_, I.link_next hl⟩
  rw [SimpleGraph.Walk.cons_isPath_iff]
  exact ⟨hp, grow p hp e hs (T _ (hr.trans e.symm.reachable)).1⟩

theorem TreeFrom.bounded {r u : Nat} (T : TreeFrom h g r) (I : Inv h g) (f : Nat) (hu : u ∈ g.nodes)
    (p : (simple h g).Walk u r) (hp : p.IsPath) (c : CanStep h f u (prev p)) : p.length + f < g.nodes.length := by
  induction f generalizing u with
  | zero =>
    classical
    have h1 : p.support.toFinset ⊆ g.nodes.toFinset := fun x hx =>
      List.mem_toFinset.2 (I.walk_support hu p x (List.mem_toFinset.1 hx))
    have h2 := Finset.card_le_card h1
    rw [List.toFinset_card_of_nodup hp.support_nodup, List.toFinset_card_of_nodup I.nodes_nodup,
      SimpleGraph.Walk.length_support] at h2
    omega
  | succ f ih =>
    obtain ⟨n, a, hn, ha, hs, hc⟩ := c
    obtain ⟨e, hp', hm⟩ := T.step I hu p hp hn ha hs
    have := ih hm (.cons e p) hp' hc
    rw [SimpleGraph.Walk.length_cons] at this
    omega

/-- The links that can be reached from `r`. -/
def component (h : Heap K) (g : Graph) (r : Nat) : SimpleGraph Nat where
  Adj u v := (simple h g).Adj u v ∧ (simple h g).Reachable r u
  symm := ⟨fun _ _ e => ⟨e.1.symm, e.2.trans e.1.reachable⟩⟩
  loopless := ⟨fun _ e => e.1.ne rfl⟩

theorem TreeFrom.acyclic {r : Nat} (T : TreeFrom h g r) : (component h g r).IsAcyclic := by
  intro v c hc
  have hle : component h g r ≤ simple h g := fun _ _ e => e.1
  have hv := (c.adj_snd hc.not_nil).2
  exact (T v hv).1 ⟨c.mapLe hle, hc.mapLe hle⟩

theorem TreeFrom.unique {r x : Nat} (T : TreeFrom h g r) (p q : (simple h g).Walk x r) (hp : p.IsPath) (hq : q.IsPath) :
    p.support = q.support := by
  have tr : ∀ w : (simple h g).Walk x r, ∀ e ∈ w.edges, e ∈ (component h g r).edgeSet := by
    intro w e he
    induction e using Sym2.ind with
    | _ u v =>
      classical
      rw [SimpleGraph.mem_edgeSet]
      exact ⟨w.adj_of_mem_edges he, ⟨(w.dropUntil u (w.fst_mem_support_of_mem_edges he)).reverse⟩⟩
  have := (T.acyclic.subsingleton_path x r).elim ⟨p.transfer _ (tr p), hp.transfer (tr p)⟩
    ⟨q.transfer _ (tr q), hq.transfer (tr q)⟩
  have := congrArg (fun w => w.1.support) this
  simpa only [SimpleGraph.Walk.support_transfer] using this

theorem TreeFrom.dfs_suffix {r u x : Nat} (T : TreeFrom h g r) (I : Inv h g) (f : Nat) (hu : u ∈ g.nodes)
    (p : (simple h g).Walk u r) (hp : p.IsPath) (hx : x ∈ dfs h f u (prev p)) :
    ∃ q : (simple h g).Walk x r, q.IsPath ∧ p.support <:+ q.support := by
  induction f generalizing u with
  | zero => simp [dfs] at hx
  | succ f ih =>
    obtain ⟨n, hn⟩ := I.nodes_get u hu
    rcases (mem_dfs_succ hn).1 hx with rfl | ⟨a, ha, hs, hx⟩
    · exact ⟨p, hp, List.suffix_rfl⟩
    · obtain ⟨e, hp', hm⟩ := T.step I hu p hp hn ha hs
      obtain ⟨q, hq, hsuf⟩ := ih hm (.cons e p) hp' hx
      refine ⟨q, hq, List.IsSuffix.trans ?_ hsuf⟩
      rw [SimpleGraph.Walk.support_cons]
      exact List.suffix_cons _ _

theorem TreeFrom.dfs_nodup {r u : Nat} (T : TreeFrom h g r) (I : Inv h g) (f : Nat) (hu : u ∈ g.nodes)
    (p : (simple h g).Walk u r) (hp : p.IsPath) : (dfs h f u (prev p)).Nodup := by
  induction f generalizing u with
  | zero => simp [dfs]
  | succ f ih =>
    obtain ⟨n, hn⟩ := I.nodes_get u hu
    have hr : (simple h g).Reachable r u := ⟨p.reverse⟩
    rw [dfs_succ hn, List.nodup_cons, List.nodup_flatMap]
    refine ⟨?_, ?_, ?_⟩
    · rw [List.mem_flatMap]
      rintro ⟨a, ha, hx⟩
      by_cases hs : some a.next ≠ prev p
      · rw [if_pos hs] at hx
        obtain ⟨e, hp', hm⟩ := T.step I hu p hp hn ha hs
        obtain ⟨q, hq, hsuf⟩ := T.dfs_suffix I f hm (.cons e p) hp' hx
        have := hsuf.length_le
        rw [T.unique q p hq hp, SimpleGraph.Walk.support_cons, List.length_cons] at this
        omega
      · rw [if_neg hs] at hx
        simp at hx
    · intro a ha
      by_cases hs : some a.next ≠ prev p
      · rw [if_pos hs]
        obtain ⟨e, hp', hm⟩ := T.step I hu p hp hn ha hs
        exact ih hm (.cons e p) hp'
      · rw [if_neg hs]
        exact List.nodup_nil
    · have hd := ((T u hr).2 n hn).2
      rw [List.Nodup, List.pairwise_map] at hd
      refine List.Pairwise.imp_of_mem ?_ hd
      intro a b ha hb hab x hx1 hx2
      dsimp only at hx1 hx2
      by_cases hs : some a.next ≠ prev p
      · by_cases hs' : some b.next ≠ prev p
        · rw [if_pos hs] at hx1
          rw [if_pos hs'] at hx2
          obtain ⟨e, hp', hm⟩ := T.step I hu p hp hn ha hs
          obtain ⟨e', hp'', hm'⟩ := T.step I hu p hp hn hb hs'
          obtain ⟨q, hq, h1⟩ := T.dfs_suffix I f hm (.cons e p) hp' hx1
          obtain ⟨q', hq', h2⟩ := T.dfs_suffix I f hm' (.cons e' p) hp'' hx2
          rw [T.unique q' q hq' hq] at h2
          have := (List.suffix_of_suffix_length_le h1 h2 (by simp)).eq_of_length (by simp)
          rw [SimpleGraph.Walk.support_cons, SimpleGraph.Walk.support_cons] at this
          exact hab (List.cons.inj this).1
        · rw [if_neg hs'] at hx2
          simp at hx2
      · rw [if_neg hs] at hx1
        simp at hx1

/-- The traversal ends and visits no node twice exactly in trees. -/
theorem Sym.treeFrom_iff (S : Sym h g) (I : Inv h g) {r : Nat} (hr : r ∈ g.nodes) {f : Nat} (hf : g.nodes.length ≤ f) :
    (¬ CanStep h f r none ∧ (dfs h f r none).Nodup) ↔ TreeFrom h g r := by
  constructor
  · rintro ⟨hc, hd⟩ u hu
    obtain ⟨p, hp⟩ := hu.exists_isPath
    exact ⟨fun ho => hc (S.canStep_path I p hp ho f none (by simp)),
      S.single_of_nodup I p hp hr f none (by simp) hc (by simp) hd⟩
  · intro T
    refine ⟨fun hc => ?_, T.dfs_nodup I f hr .nil .nil⟩
    have := T.bounded I f hr .nil .nil hc
    rw [SimpleGraph.Walk.length_nil] at this
    omega

/-! ### When the traversal ends -/

/-- The node `u` is linked to itself. -/
def SelfAt (h : Heap K) (u : Nat) : Prop := ∃ n, h.nodes[u]? = some n ∧ u ∈ n.arcs.map Arc.next

/-- With two nodes linked to themselves the traversal goes to and fro between them. -/
theorem Sym.canStep_self (S : Sym h g) (I : Inv h g) {w w' : Nat} (hne : w ≠ w') (hw : SelfAt h w) (hw' : SelfAt h w')
    (hr : (simple h g).Reachable w w') (n : Nat) : ∀ {u : Nat} (p : (simple h g).Walk u w), p.IsPath →
      ∀ src : Option Nat, (∀ v ∈ p.support, some v ≠ src) → CanStep h n u src := by
  induction n using Nat.strong_induction_on generalizing w w' with
  | _ n IH =>
    intro u p hp src hs
    cases n with
    | zero => trivial
    | succ n =>
      cases p with
      | nil =>
        obtain ⟨nd, hn, hm⟩ := hw
        obtain ⟨a, ha, e⟩ := List.mem_map.1 hm
        refine ⟨nd, a, hn, ha, ?_, ?_⟩
        · rw [e]; exact hs w (by simp)
        · rw [e]
          cases n with
          | zero => trivial
          | succ n =>
            obtain ⟨q, hq⟩ := hr.exists_isPath
            cases q with
            | nil => exact absurd rfl hne
            | @cons _ v _ e' q =>
              obtain ⟨hne', b, ⟨-, nd', hn', hb⟩, rfl⟩ := (S.adj_iff I).1 e'
              rw [SimpleGraph.Walk.cons_isPath_iff] at hq
              refine ⟨nd', b, hn', hb, fun h => hne' (Option.some_inj.1 h).symm, ?_⟩
              refine IH n (by omega) hne.symm hw' ⟨nd, hn, hm⟩ hr.symm q hq.1 (some w) ?_
              intro x hx h
              exact hq.2 (Option.some_inj.1 h ▸ hx)
      | @cons _ v _ e p =>
        obtain ⟨-, a, ⟨-, nd, hn, ha⟩, rfl⟩ := (S.adj_iff I).1 e
        rw [SimpleGraph.Walk.cons_isPath_iff] at hp
        refine ⟨nd, a, hn, ha, hs _ ?_, IH n (by omega) hne hw hw' hr p hp.1 (some u) ?_⟩
        · rw [SimpleGraph.Walk.support_cons]
          exact List.mem_cons_of_mem _ p.start_mem_support
        · intro x hx h
          exact hp.2 (Option.some_inj.1 h ▸ hx)

/-- What the traversal from `r` can bear: no cycle, and at most one node linked to itself. -/
def EndsFrom (h : Heap K) (g : Graph) (r : Nat) : Prop :=
  (∀ u, (simple h g).Reachable r u → ¬ OnCycle h g u) ∧
  ∀ u v, (simple h g).Reachable r u → (simple h g).Reachable r v → SelfAt h u → SelfAt h v → u = v

theorem path_length_lt (I : Inv h g) {u r : Nat} (hu : u ∈ g.nodes) (p : (simple h g).Walk u r) (hp : p.IsPath) :
    p.length < g.nodes.length := by
  classical
  have h1 : p.support.toFinset ⊆ g.nodes.toFinset := fun x hx =>
    List.mem_toFinset.2 (I.walk_support hu p x (List.mem_toFinset.1 hx))
  have h2 := Finset.card_le_card h1
  rw [List.toFinset_card_of_nodup hp.support_nodup, List.toFinset_card_of_nodup I.nodes_nodup,
    SimpleGraph.Walk.length_support] at h2
  omega

theorem EndsFrom.step {r s u : Nat} (E : EndsFrom h g r) (I : Inv h g) (hrs : (simple h g).Reachable r s) (hu : u ∈ g.nodes)
    (p : (simple h g).Walk u s) (hp : p.IsPath) {n : GNode K} (hn : h.nodes[u]? = some n) {a : Arc K} (ha : a ∈ n.arcs)
    (hs : some a.next ≠ prev p) (hne : a.next ≠ u) :
    ∃ e : (simple h g).Adj a.next u, (SimpleGraph.Walk.cons e p).IsPath ∧ a.next ∈ g.nodes := by
  have hr : (simple h g).Reachable r u := hrs.trans ⟨p.reverse⟩
  have hl : Link h g u a := ⟨hu, n, hn, ha⟩
  have e : (simple h g).Adj a.next u := ⟨hne, .inr ⟨a, hl, rfl⟩⟩
  refine ⟨e, ?_, I.link_next hl⟩
  rw [SimpleGraph.Walk.cons_isPath_iff]
  exact ⟨hp, grow p hp e hs (E.1 _ (hr.trans e.symm.reachable))⟩

/-- After the link of `w` to itself was taken. -/
theorem EndsFrom.bounded_self {r w u : Nat} (E : EndsFrom h g r) (I : Inv h g) (hrw : (simple h g).Reachable r w)
    (hw : SelfAt h w) (f : Nat) (hu : u ∈ g.nodes) (p : (simple h g).Walk u w) (hp : p.IsPath)
    (c : CanStep h f u ((prev p).getD w)) : p.length + f < g.nodes.length := by
  induction f generalizing u with
  | zero => exact path_length_lt I hu p hp
  | succ f ih =>
    obtain ⟨n, a, hn, ha, hs, hc⟩ := c
    have hne : a.next ≠ u := by
      intro e
      have hself : SelfAt h u := ⟨n, hn, List.mem_map.2 ⟨a, ha, e⟩⟩
      obtain rfl := E.2 u w (hrw.trans ⟨p.reverse⟩) hrw hself hw
      have := SimpleGraph.Walk.isPath_iff_eq_nil.1 hp
      subst this
      exact hs (by rw [e]; rfl)
    have hs' : some a.next ≠ prev p := by
      cases p with
      | nil => simp [prev]
      | cons e p => exact hs
    obtain ⟨e, hp', hm⟩ := E.step I hrw hu p hp hn ha hs' hne
    have := ih hm (.cons e p) hp' hc
    rw [SimpleGraph.Walk.length_cons] at this
    omega

theorem EndsFrom.bounded {r u : Nat} (E : EndsFrom h g r) (I : Inv h g) (f : Nat) (hu : u ∈ g.nodes)
    (p : (simple h g).Walk u r) (hp : p.IsPath) (c : CanStep h f u (prev p)) : p.length + f < 2 * g.nodes.length := by
  induction f generalizing u with
  | zero =>
    have := path_length_lt I hu p hp
    omega
  | succ f ih =>
    obtain ⟨n, a, hn, ha, hs, hc⟩ := c
    by_cases hne : a.next = u
    · have hself : SelfAt h u := ⟨n, hn, List.mem_map.2 ⟨a, ha, hne⟩⟩
      rw [hne] at hc
      have h1 := E.bounded_self I ⟨p.reverse⟩ hself f hu .nil .nil hc
      have h2 := path_length_lt I hu p hp
      rw [SimpleGraph.Walk.length_nil] at h1
      omega
    · obtain ⟨e, hp', hm⟩ := E.step I (.refl r) hu p hp hn ha hs hne
      have := ih hm (.cons e p) hp' hc
      rw [SimpleGraph.Walk.length_cons] at this
      omega

/-- The traversal ends exactly if no cycle can be reached and at most one node linked to itself. -/
theorem Sym.endsFrom_iff (S : Sym h g) (I : Inv h g) {r : Nat} (hr : r ∈ g.nodes) {f : Nat} (hf : 2 * g.nodes.length ≤ f) :
    ¬ CanStep h f r none ↔ EndsFrom h g r := by
  constructor
  · intro hc
    refine ⟨fun u hu ho => ?_, fun u v hu hv su sv => ?_⟩
    · obtain ⟨p, hp⟩ := hu.exists_isPath
      exact hc (S.canStep_path I p hp ho f none (by simp))
    · by_contra hne
      obtain ⟨p, hp⟩ := hu.exists_isPath
      exact hc (S.canStep_self I hne su sv (hu.symm.trans hv) f p hp none (by simp))
  · intro E hc
    have := E.bounded I f hr .nil .nil hc
    rw [SimpleGraph.Walk.length_nil] at this
    omega

end Graph
end RBDyn
