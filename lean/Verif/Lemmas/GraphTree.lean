import Verif.Lemmas.GraphInv
import Mathlib.Combinatorics.SimpleGraph.Acyclic

/-! Tree-shaped graphs, and the certificate (depth, parent) of a tree seen from a root. -/

namespace RBDyn
variable {K : Type}

namespace Graph

/-- The undirected graph of the links: `u` and `v` are adjacent if an arc joins them. -/
def simple (h : Heap K) (g : Graph) : SimpleGraph Nat where
  Adj u v := u ≠ v ∧ ((∃ a, Link h g u a ∧ a.next = v) ∨ (∃ a, Link h g v a ∧ a.next = u))
  symm := ⟨fun _ _ h => ⟨h.1.symm, h.2.symm⟩⟩
  loopless := ⟨fun _ h => h.1 rfl⟩

/-- The links of the graph form a forest: the undirected graph has no cycle, no two links join the same two
bodies, a link joins two different bodies, is seen from both of them through the two directions of one joint, which
is known to the graph, and no other link uses the same joint. -/
structure Forest [Scalar K] (h : Heap K) (g : Graph) : Prop extends Inv h g where
  acyclic : (simple h g).IsAcyclic
  noLoop : ∀ (u : Nat) (a : Arc K), Link h g u a → a.next ≠ u
  single : ∀ u ∈ g.nodes, ∀ n, h.nodes[u]? = some n → (n.arcs.map Arc.next).Nodup
  paired : ∀ (u : Nat) (a : Arc K), Link h g u a → ∃ b, Link h g a.next b ∧ b.next = u ∧
    ∃ (j : Joint K) (d : Bool), a.joint = j.setForward d ∧ b.joint = j.setForward (!d)
  registered : ∀ (u : Nat) (a : Arc K), Link h g u a → ∃ p, g.jointMap.find a.joint.name = some p
  jointOnce : ∀ (u v : Nat) (a b : Arc K), Link h g u a → Link h g v b → a.joint.name = b.joint.name →
    (u = v ∧ a = b) ∨ (u = b.next ∧ v = a.next)

/-- The links of the graph form a tree. -/
structure Tree [Scalar K] (h : Heap K) (g : Graph) : Prop extends Forest h g where
  connected : ∀ u ∈ g.nodes, ∀ v ∈ g.nodes, (simple h g).Reachable u v

section
variable {h : Heap K} {g : Graph}

theorem Link.mem {u : Nat} {a : Arc K} (hl : Link h g u a) : u ∈ g.nodes := hl.1

theorem Inv.adj_mem (I : Inv h g) {u v : Nat} (e : (simple h g).Adj u v) : u ∈ g.nodes ∧ v ∈ g.nodes := by
  obtain ⟨-, ⟨a, hl, rfl⟩ | ⟨a, hl, rfl⟩⟩ := e
  · exact ⟨hl.mem, I.link_next hl⟩
  · exact ⟨I.link_next hl, hl.mem⟩

theorem Inv.walk_support (I : Inv h g) {u v : Nat} (hu : u ∈ g.nodes) (w : (simple h g).Walk u v) :
    ∀ x ∈ w.support, x ∈ g.nodes := by
  induction w with
  | nil => intro x hx; rw [SimpleGraph.Walk.support_nil, List.mem_singleton] at hx; exact hx ▸ hu
  | cons e w ih =>
    intro x hx
    rw [SimpleGraph.Walk.support_cons, List.mem_cons] at hx
    rcases hx with rfl | hx
    · exact hu
    · exact ih (I.adj_mem e).2 x hx

theorem Inv.nodes_length_le (I : Inv h g) : g.nodes.length ≤ h.nodes.length := by
  have hs : g.nodes ⊆ List.range h.nodes.length := fun p hp => List.mem_range.2 (I.node_lt hp)
  have := (I.nodes_nodup.subperm hs).length_le
  simpa using this

theorem Inv.nodes_length_le_fuel (I : Inv h g) : g.nodes.length ≤ h.fuel := by
  have := I.nodes_length_le
  unfold Heap.fuel
  nlinarith [Nat.zero_le h.nrArcs, Nat.zero_le h.nodes.length,
    Nat.zero_le (h.nodes.length * h.nrArcs), Nat.zero_le (h.nodes.length * h.nodes.length)]

section
variable [Scalar K]

theorem Forest.adj_iff (F : Forest h g) {u v : Nat} : (simple h g).Adj u v ↔ ∃ a, Link h g u a ∧ a.next = v := by
  constructor
  · rintro ⟨-, ⟨a, hl, e⟩ | ⟨a, hl, rfl⟩⟩
    · exact ⟨a, hl, e⟩
    · obtain ⟨b, hb, e, -⟩ := F.paired v a hl
      exact ⟨b, hb, e⟩
  · rintro ⟨a, hl, rfl⟩
    exact ⟨(F.noLoop u a hl).symm, Or.inl ⟨a, hl, rfl⟩⟩

/-- At most one arc joins two given nodes. -/
theorem Forest.arc_unique (F : Forest h g) {u : Nat} {a b : Arc K} (ha : Link h g u a) (hb : Link h g u b)
    (e : a.next = b.next) : a = b := by
  obtain ⟨hu, n, hn, ha⟩ := ha
  obtain ⟨-, n', hn', hb⟩ := hb
  obtain rfl := Option.some_inj.1 (hn.symm.trans hn')
  exact List.inj_on_of_nodup_map (F.single u hu n hn) ha hb e

end
end

/-! ### The tree seen from a root -/

/-- Two neighbours of `u` closer to `r` in an acyclic graph are equal. -/
theorem acyclic_parent_unique {V : Type} {G : SimpleGraph V} (hG : G.IsAcyclic) {r u v v' : V}
    (hr : G.Reachable r u) (hv : G.Adj v u) (hv' : G.Adj v' u) (e : G.dist r u = G.dist r v + 1)
    (e' : G.dist r u = G.dist r v' + 1) : v = v' := by
  obtain ⟨p, hp, hpl⟩ := hr.exists_path_of_dist
  have key : ∀ w, G.Adj w u → G.dist r u = G.dist r w + 1 → w = p.penultimate := by
    intro w hw ew
    obtain ⟨q, hq, hql⟩ := (hr.trans hw.symm.reachable).exists_path_of_dist
    by_cases hs : w ∈ p.support
    · exact hG.eq_penultimate_of_adj_end hp hw.symm hs
    · have hu : u ∈ q.support := hG.mem_support_of_ne_mem_support_of_adj_of_isPath hq hp hw hs
      have := congrArg SimpleGraph.Walk.length (hG.path_concat hp hq hw.symm hu)
      rw [SimpleGraph.Walk.length_concat] at this
      omega
  rw [key v hv e, key v' hv' e']

/-- Every reachable vertex but the root has a neighbour closer to the root. -/
theorem exists_parent {V : Type} {G : SimpleGraph V} {r u : V}
    (hr : G.Reachable r u) (hne : u ≠ r) : ∃ v, G.Adj v u ∧ G.dist r u = G.dist r v + 1 := by
  obtain ⟨p, hp, hpl⟩ := hr.exists_path_of_dist
  have hnil : ¬ p.Nil := fun hn => hne (hn.eq).symm
  have hadj := p.adj_penultimate hnil
  refine ⟨p.penultimate, hadj, ?_⟩
  have h1 := SimpleGraph.dist_le p.dropLast
  rw [SimpleGraph.Walk.length_dropLast] at h1
  have h3 : 0 < p.length := by
    rcases Nat.eq_zero_or_pos p.length with h0 | h0
    · exact absurd (SimpleGraph.Walk.eq_of_length_eq_zero h0) (Ne.symm hne)
    · exact h0
  have hr' : G.Reachable r p.penultimate := hr.trans hadj.symm.reachable
  have := SimpleGraph.Adj.diff_dist_adj (u := r) hadj
  rcases this with h | h | h <;> omega

/-- Certificate that the graph is a tree seen from the root `r`: `d` is the distance to the root, and `par u` the
neighbour of `u` towards the root. -/
structure Rooted (h : Heap K) (g : Graph) (r : Nat) (d par : Nat → Nat) : Prop where
  mem : r ∈ g.nodes
  d0 : d r = 0
  step : ∀ (u : Nat) (a : Arc K), Link h g u a → (d a.next = d u + 1 ∧ par a.next = u ∧ a.next ≠ r) ∨
    (d u = d a.next + 1 ∧ par u = a.next ∧ u ≠ r)
  up : ∀ u ∈ g.nodes, u ≠ r → ∃ a, Link h g u a ∧ a.next = par u ∧ d u = d (par u) + 1
  lt : ∀ u ∈ g.nodes, d u < g.nodes.length

theorem Tree.rooted [Scalar K] {h : Heap K} {g : Graph} (T : Tree h g) {r : Nat} (hr : r ∈ g.nodes) :
    ∃ d par, Rooted h g r d par := by
  classical
  have hex : ∀ u, ∃ v, (u ∈ g.nodes → u ≠ r → (simple h g).Adj v u ∧
      (simple h g).dist r u = (simple h g).dist r v + 1) := by
    intro u
    by_cases hu : u ∈ g.nodes ∧ u ≠ r
    · obtain ⟨v, hv⟩ := exists_parent (T.connected r hr u hu.1) hu.2
      exact ⟨v, fun _ _ => hv⟩
    · exact ⟨u, fun h1 h2 => absurd ⟨h1, h2⟩ hu⟩
  choose par hpar using hex
  refine ⟨(simple h g).dist r, par, hr, SimpleGraph.dist_self, ?_, ?_, ?_⟩
  · intro u a hl
    have hadj : (simple h g).Adj u a.next := T.adj_iff.2 ⟨a, hl, rfl⟩
    have hu := hl.mem
    have hn := T.link_next hl
    have key : ∀ x y, (simple h g).Adj x y → (simple h g).dist r y = (simple h g).dist r x + 1 →
        par y = x ∧ y ≠ r := by
      intro x y hxy hd
      have hy : y ∈ g.nodes := (T.adj_mem hxy).2
      have hne : y ≠ r := by
        rintro rfl
        rw [SimpleGraph.dist_self] at hd
        omega
      obtain ⟨h1, h2⟩ := hpar y hy hne
      exact ⟨acyclic_parent_unique T.acyclic (T.connected r hr y hy) h1 hxy h2 hd, hne⟩
    rcases T.acyclic.dist_eq_dist_add_one_of_adj_of_reachable r hadj (T.connected r hr u hu) with e | e
    · right
      obtain ⟨h1, h2⟩ := key _ _ hadj.symm e
      exact ⟨e, h1, h2⟩
    · left
      obtain ⟨h1, h2⟩ := key _ _ hadj e
      exact ⟨e, h1, h2⟩
  · intro u hu hne
    obtain ⟨h1, h2⟩ := hpar u hu hne
    obtain ⟨a, ha, e⟩ := T.adj_iff.1 h1.symm
    exact ⟨a, ha, e, h2⟩
  · intro u hu
    obtain ⟨p, hp, hpl⟩ := (T.connected r hr u hu).exists_path_of_dist
    have hs : p.support ⊆ g.nodes := fun x hx => T.walk_support hr p x hx
    have := (hp.support_nodup.subperm hs).length_le
    rw [SimpleGraph.Walk.length_support] at this
    omega

end Graph
end RBDyn
