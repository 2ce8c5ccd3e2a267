import Verif.Lemmas.GraphInv
import Mathlib.Data.List.Range
import Mathlib.Tactic.Ring

/-! `copy` of a graph: the copy is isomorphic to its source and lives in fresh cells. -/

namespace RBDyn
variable {K : Type}

namespace Graph

/-- `(h', g')` is an image of `(h, g)`: node number `i` of `g'` holds the body of node number `i` of `g`, with the same
arcs towards the corresponding nodes, and joint number `i` of `g'` is joint number `i` of `g`. -/
structure Iso (h : Heap K) (g : Graph) (φ : Nat → Nat) (h' : Heap K) (g' : Graph) : Prop where
  rootName : g'.rootName = g.rootName
  nodes : g'.nodes = g.nodes.map φ
  inj : ∀ x ∈ g.nodes, ∀ y ∈ g.nodes, φ x = φ y → x = y
  cells : ∀ x ∈ g.nodes, ∀ n, h.nodes[x]? = some n →
    h'.nodes[φ x]? = some ⟨n.body, n.arcs.map (fun a => { a with next := φ a.next })⟩
  joints : g'.joints.length = g.joints.length
  jcells : ∀ (i p p' : Nat), g.joints[i]? = some p → g'.joints[i]? = some p' → h'.joints[p']? = h.joints[p]?
  inv : Inv h' g'

/-- Invariant of the first loop of `copy`. -/
structure CopyN (h : Heap K) (g : Graph) (k : Nat) (s : GSt K) : Prop where
  low : ∀ x < h.nodes.length, s.1.nodes[x]? = h.nodes[x]?
  len : s.1.nodes.length = h.nodes.length + k
  new : ∀ i < k, ∀ p n, g.nodes[i]? = some p → h.nodes[p]? = some n → s.1.nodes[h.nodes.length + i]? = some ⟨n.body, []⟩
  nodes : s.2.nodes = (List.range k).map (h.nodes.length + ·)
  map : ∀ (t : String) (q : Nat), s.2.bodyMap.find t = some q ↔ ∃ (i p : Nat) (n : GNode K), i < k ∧ g.nodes[i]? = some p ∧
    h.nodes[p]? = some n ∧ n.body.name = t ∧ q = h.nodes.length + i
  hjoints : s.1.joints = h.joints
  joints : s.2.joints = []
  jmap : s.2.jointMap = []
  root : s.2.rootName = g.rootName

/-- Invariant of the second loop of `copy`. -/
structure CopyJ (h : Heap K) (g : Graph) (k : Nat) (s0 s : GSt K) : Prop where
  hnodes : s.1.nodes = s0.1.nodes
  nodes : s.2.nodes = s0.2.nodes
  bmap : s.2.bodyMap = s0.2.bodyMap
  root : s.2.rootName = s0.2.rootName
  low : ∀ x < h.joints.length, s.1.joints[x]? = h.joints[x]?
  len : s.1.joints.length = h.joints.length + k
  new : ∀ i < k, ∀ p, g.joints[i]? = some p → s.1.joints[h.joints.length + i]? = h.joints[p]?
  joints : s.2.joints = (List.range k).map (h.joints.length + ·)
  map : ∀ (t : String) (q : Nat), s.2.jointMap.find t = some q ↔ ∃ (i p : Nat) (n : Joint K), i < k ∧ g.joints[i]? = some p ∧
    h.joints[p]? = some n ∧ n.name = t ∧ q = h.joints.length + i

/-- Address of the copy of a node. -/
def copyAddr (h : Heap K) (g : Graph) (x : Nat) : Nat := h.nodes.length + g.nodes.idxOf x

/-- Invariant of the third loop of `copy`. -/
structure CopyA (h : Heap K) (g : Graph) (k : Nat) (h' : Heap K) : Prop where
  low : ∀ x < h.nodes.length, h'.nodes[x]? = h.nodes[x]?
  len : h'.nodes.length = h.nodes.length + g.nodes.length
  done : ∀ i < k, ∀ p n, g.nodes[i]? = some p → h.nodes[p]? = some n →
    h'.nodes[h.nodes.length + i]? = some ⟨n.body, n.arcs.map (fun a => { a with next := copyAddr h g a.next })⟩
  rest : ∀ i, k ≤ i → ∀ p n, g.nodes[i]? = some p → h.nodes[p]? = some n →
    h'.nodes[h.nodes.length + i]? = some ⟨n.body, []⟩

section
variable {h : Heap K} {g : Graph}

theorem copyNode_loop (I : Inv h g) :
    ∃ s, g.nodes.foldlM copyNode (h, empty g.rootName) = .ok s ∧ CopyN h g g.nodes.length s := by
  refine foldlM_list_inv copyNode g.nodes (CopyN h g) _ ?_ ?_
  · refine ⟨fun _ _ => rfl, rfl, fun i hi => absurd hi (Nat.not_lt_zero i), rfl, ?_, rfl, rfl, rfl, rfl⟩
    intro t q
    simp [Graph.empty]
  · intro i s hi C
    have hpm : g.nodes[i] ∈ g.nodes := List.getElem_mem hi
    have hp : g.nodes[i]? = some g.nodes[i] := List.getElem?_eq_getElem hi
    obtain ⟨n, hn⟩ := I.nodes_get _ hpm
    have hlt := I.node_lt hpm
    have hrd : rd s.1.nodes g.nodes[i] = .ok n := rd_of_getElem? ((C.low _ hlt).trans hn)
    refine ⟨_, by rw [copyNode, hrd, Res.bind_ok]; rfl, ?_⟩
    refine ⟨?_, ?_, ?_, ?_, ?_, C.hjoints, C.joints, C.jmap, C.root⟩
    · intro x hx
      dsimp only
      rw [getElem?_append_one, if_neg (by rw [C.len]; omega)]
      exact C.low x hx
    · dsimp only
      rw [List.length_append, C.len, List.length_singleton]; omega
    · intro i' hi' p m hp' hm
      dsimp only
      rw [getElem?_append_one, C.len]
      by_cases e : i' = i
      · subst e
        rw [if_pos rfl]
        obtain rfl := Option.some_inj.1 (hp.symm.trans hp')
        obtain rfl := Option.some_inj.1 (hn.symm.trans hm)
        rfl
      · rw [if_neg (by omega)]
        exact C.new i' (by omega) p m hp' hm
    · dsimp only
      rw [C.nodes, C.len, List.range_succ, List.map_append]
      rfl
    · intro t q
      dsimp only
      rw [SMap.find_set, C.len]
      by_cases e : t = n.body.name
      · rw [if_pos e]
        constructor
        · intro h1
          exact ⟨i, _, n, by omega, hp, hn, e.symm, (Option.some_inj.1 h1).symm⟩
        · rintro ⟨i', p, m, hi', hp', hm, em, rfl⟩
          have hpp := I.name_inj (List.mem_of_getElem? hp') hpm hm hn (em.trans e)
          subst hpp
          obtain ⟨hl', e'⟩ := List.getElem?_eq_some_iff.1 hp'
          have : i' = i := (List.Nodup.getElem_inj_iff I.nodes_nodup).1 e'
          rw [this]
      · rw [if_neg e, C.map]
        constructor
        · rintro ⟨i', p, m, hi', r⟩
          exact ⟨i', p, m, by omega, r⟩
        · rintro ⟨i', p, m, hi', hp', hm, em, r⟩
          by_cases e' : i' = i
          · subst e'
            obtain rfl := Option.some_inj.1 (hp.symm.trans hp')
            obtain rfl := Option.some_inj.1 (hn.symm.trans hm)
            exact absurd em.symm e
          · exact ⟨i', p, m, by omega, hp', hm, em, r⟩

theorem copyJoint_loop (I : Inv h g) {s0 : GSt K} (C0 : CopyN h g g.nodes.length s0) :
    ∃ s, g.joints.foldlM copyJoint s0 = .ok s ∧ CopyJ h g g.joints.length s0 s := by
  refine foldlM_list_inv copyJoint g.joints (fun k => CopyJ h g k s0) _ ?_ ?_
  · refine ⟨rfl, rfl, rfl, rfl, fun x _ => by rw [C0.hjoints], by rw [C0.hjoints]; rfl,
      fun i hi => absurd hi (Nat.not_lt_zero i), C0.joints, ?_⟩
    intro t q
    rw [C0.jmap]
    simp
  · intro i s hi C
    have hpm : g.joints[i] ∈ g.joints := List.getElem_mem hi
    have hp : g.joints[i]? = some g.joints[i] := List.getElem?_eq_getElem hi
    obtain ⟨n, hn⟩ := I.joints_get _ hpm
    have hlt := I.joint_lt hpm
    have hrd : rd s.1.joints g.joints[i] = .ok n := rd_of_getElem? ((C.low _ hlt).trans hn)
    refine ⟨_, by rw [copyJoint, hrd, Res.bind_ok]; rfl, ?_⟩
    refine ⟨C.hnodes, C.nodes, C.bmap, C.root, ?_, ?_, ?_, ?_, ?_⟩
    · intro x hx
      dsimp only
      rw [getElem?_append_one, if_neg (by rw [C.len]; omega)]
      exact C.low x hx
    · dsimp only
      rw [List.length_append, C.len, List.length_singleton]; omega
    · intro i' hi' p hp'
      dsimp only
      rw [getElem?_append_one, C.len]
      by_cases e : i' = i
      · subst e
        rw [if_pos rfl]
        obtain rfl := Option.some_inj.1 (hp.symm.trans hp')
        exact hn.symm
      · rw [if_neg (by omega)]
        exact C.new i' (by omega) p hp'
    · dsimp only
      rw [C.joints, C.len, List.range_succ, List.map_append]
      rfl
    · intro t q
      dsimp only
      rw [SMap.find_set, C.len]
      by_cases e : t = n.name
      · rw [if_pos e]
        constructor
        · intro h1
          exact ⟨i, _, n, by omega, hp, hn, e.symm, (Option.some_inj.1 h1).symm⟩
        · rintro ⟨i', p, m, hi', hp', hm, em, rfl⟩
          have hpp := I.joint_inj (List.mem_of_getElem? hp') hpm hm hn (em.trans e)
          subst hpp
          obtain ⟨hl', e'⟩ := List.getElem?_eq_some_iff.1 hp'
          have : i' = i := (List.Nodup.getElem_inj_iff I.joints_nodup).1 e'
          rw [this]
      · rw [if_neg e, C.map]
        constructor
        · rintro ⟨i', p, m, hi', r⟩
          exact ⟨i', p, m, by omega, r⟩
        · rintro ⟨i', p, m, hi', hp', hm, em, r⟩
          by_cases e' : i' = i
          · subst e'
            obtain rfl := Option.some_inj.1 (hp.symm.trans hp')
            obtain rfl := Option.some_inj.1 (hn.symm.trans hm)
            exact absurd em.symm e
          · exact ⟨i', p, m, by omega, hp', hm, em, r⟩

theorem Inv.idxOf_get (_ : Inv h g) {x : Nat} (hx : x ∈ g.nodes) : g.nodes[g.nodes.idxOf x]? = some x := by
  have hlt : g.nodes.idxOf x < g.nodes.length := List.idxOf_lt_length_iff.2 hx
  rw [List.getElem?_eq_getElem hlt, List.getElem_idxOf]

theorem copyArcs_loop (I : Inv h g) {dst : Graph} (hd : dst.nodes = (List.range g.nodes.length).map (h.nodes.length + ·))
    (hmap : ∀ (t : String) (q : Nat), dst.bodyMap.find t = some q ↔ ∃ (i p : Nat) (n : GNode K), i < g.nodes.length ∧
      g.nodes[i]? = some p ∧ h.nodes[p]? = some n ∧ n.body.name = t ∧ q = h.nodes.length + i)
    {h0 : Heap K} (C0 : CopyA h g 0 h0) :
    ∃ h', (List.range dst.nodes.length).foldlM (copyArcs g dst) h0 = .ok h' ∧ CopyA h g g.nodes.length h' ∧
      h'.joints = h0.joints := by
  have hdl : dst.nodes.length = g.nodes.length := by rw [hd]; simp
  rw [hdl]
  refine (foldlM_range_inv (copyArcs g dst) (fun k h' => CopyA h g k h' ∧ h'.joints = h0.joints) g.nodes.length h0
    ⟨C0, rfl⟩ ?_).elim (fun h' H => ⟨h', H.1, H.2⟩)
  rintro i h1 hi ⟨C, hj⟩
  have hpm : g.nodes[i] ∈ g.nodes := List.getElem_mem hi
  have hp : g.nodes[i]? = some g.nodes[i] := List.getElem?_eq_getElem hi
  obtain ⟨n, hn⟩ := I.nodes_get _ hpm
  have hlt := I.node_lt hpm
  have hq : dst.nodes[i]? = some (h.nodes.length + i) := by
    rw [hd, List.getElem?_map, List.getElem?_range hi]; rfl
  have hn1 : h1.nodes[g.nodes[i]]? = some n := (C.low _ hlt).trans hn
  let nxt : Arc K → Arc K := fun a => { a with next := copyAddr h g a.next }
  have step : ∃ h2, copyArcs g dst h1 i = .ok h2 ∧ (h2.nodes.length = h1.nodes.length ∧
      h2.nodes[h.nodes.length + i]? = some ⟨n.body, (n.arcs.take n.arcs.length).map nxt⟩ ∧
      ∀ x, x ≠ h.nodes.length + i → h2.nodes[x]? = h1.nodes[x]?) ∧ h2.joints = h1.joints := by
    rw [copyArcs, rd_of_getElem? hp, Res.bind_ok, rd_of_getElem? hq, Res.bind_ok, rd_of_getElem? hn1, Res.bind_ok]
    refine foldlM_list_inv _ n.arcs
      (fun k h2 => (h2.nodes.length = h1.nodes.length ∧
        h2.nodes[h.nodes.length + i]? = some ⟨n.body, (n.arcs.take k).map nxt⟩ ∧
        ∀ x, x ≠ h.nodes.length + i → h2.nodes[x]? = h1.nodes[x]?) ∧ h2.joints = h1.joints) h1
      ⟨⟨rfl, by simpa using C.rest i le_rfl _ n hp hn, fun _ _ => rfl⟩, rfl⟩ ?_
    rintro k h2 hk ⟨⟨l2, n2, o2⟩, j2⟩
    have ham : n.arcs[k] ∈ n.arcs := List.getElem_mem hk
    have hnm : n.arcs[k].next ∈ g.nodes := I.arcs _ hpm n hn _ ham
    obtain ⟨m, hm⟩ := I.nodes_get _ hnm
    have hml := I.node_lt hnm
    have hrd1 : rd h2.nodes n.arcs[k].next = .ok m := by
      refine rd_of_getElem? ?_
      rw [o2 _ (by omega), C.low _ hml, hm]
    have hget : dst.bodyMap.get m.body.name = .ok (copyAddr h g n.arcs[k].next) := by
      rw [SMap.get, (hmap _ _).2 ⟨_, _, m, List.idxOf_lt_length_iff.2 hnm, I.idxOf_get hnm, hm, rfl, rfl⟩]
      rfl
    have hrd2 : rd h2.nodes (h.nodes.length + i) = .ok ⟨n.body, (n.arcs.take k).map nxt⟩ := rd_of_getElem? n2
    have hlt2 : h.nodes.length + i < h2.nodes.length := (List.getElem?_eq_some_iff.1 n2).1
    refine ⟨h2.setArcs (h.nodes.length + i) ⟨n.body, (n.arcs.take k).map nxt⟩ ((n.arcs.take k).map nxt ++ [nxt n.arcs[k]]),
      by rw [hrd1, Res.bind_ok, hget, Res.bind_ok, hrd2, Res.bind_ok]; rfl, ⟨?_, ?_, ?_⟩, j2⟩
    · dsimp only [Heap.setArcs]; rw [List.length_set, l2]
    · dsimp only [Heap.setArcs]
      rw [List.getElem?_set_self hlt2, List.take_succ_eq_append_getElem hk, List.map_append]
      rfl
    · intro x hx
      dsimp only [Heap.setArcs]
      rw [List.getElem?_set, if_neg (Ne.symm hx)]
      exact o2 x hx
  obtain ⟨h2, e2, ⟨l2, n2, o2⟩, j2⟩ := step
  refine ⟨h2, e2, ⟨?_, ?_, ?_, ?_⟩, j2.trans hj⟩
  · intro x hx
    rw [o2 x (by omega)]
    exact C.low x hx
  · rw [l2, C.len]
  · intro i' hi' p m hp' hm
    by_cases e : i' = i
    · subst e
      obtain rfl := Option.some_inj.1 (hp.symm.trans hp')
      obtain rfl := Option.some_inj.1 (hn.symm.trans hm)
      rw [n2, List.take_length]
    · rw [o2 _ (by omega)]
      exact C.done i' (by omega) p m hp' hm
  · intro i' hi' p m hp' hm
    rw [o2 _ (by omega)]
    exact C.rest i' (by omega) p m hp' hm

/-- What `copy` does to the heap: nothing to the cells that exist, the copy is in fresh cells. -/
structure CopyRel (h : Heap K) (g : Graph) (h' : Heap K) (g' : Graph) : Prop where
  iso : Iso h g (copyAddr h g) h' g'
  low : ∀ x < h.nodes.length, h'.nodes[x]? = h.nodes[x]?
  len : h'.nodes.length = h.nodes.length + g.nodes.length
  jlow : ∀ x < h.joints.length, h'.joints[x]? = h.joints[x]?
  jlen : h'.joints.length = h.joints.length + g.joints.length
  fresh : ∀ x ∈ g'.nodes, h.nodes.length ≤ x
  jfresh : ∀ x ∈ g'.joints, h.joints.length ≤ x

theorem copyAddr_inj {x y : Nat} (hx : x ∈ g.nodes) (hxy : copyAddr h g x = copyAddr h g y) : x = y := by
  unfold copyAddr at hxy
  exact (List.idxOf_inj hx).1 (by omega)

theorem copy_spec (I : Inv h g) : ∃ h' g', copy h g = .ok (h', g') ∧ CopyRel h g h' g' := by
  obtain ⟨s1, e1, C1⟩ := copyNode_loop I
  obtain ⟨s2, e2, C2⟩ := copyJoint_loop I C1
  have C0 : CopyA h g 0 s2.1 := by
    refine ⟨?_, ?_, fun i hi => absurd hi (Nat.not_lt_zero i), ?_⟩
    · rw [C2.hnodes]; exact C1.low
    · rw [C2.hnodes]; exact C1.len
    · intro i _ p n hp hn
      rw [C2.hnodes]
      exact C1.new i (List.getElem?_eq_some_iff.1 hp).1 p n hp hn
  have hd : s2.2.nodes = (List.range g.nodes.length).map (h.nodes.length + ·) := C2.nodes.trans C1.nodes
  have hmap : ∀ (t : String) (q : Nat), s2.2.bodyMap.find t = some q ↔ ∃ (i p : Nat) (n : GNode K), i < g.nodes.length ∧
      g.nodes[i]? = some p ∧ h.nodes[p]? = some n ∧ n.body.name = t ∧ q = h.nodes.length + i := by
    rw [C2.bmap]; exact C1.map
  obtain ⟨h', e3, C3, hj⟩ := copyArcs_loop I hd hmap C0
  have hnm : s2.2.nodes = g.nodes.map (copyAddr h g) := by
    rw [hd]
    refine List.ext_getElem (by simp) (fun i h1 h2 => ?_)
    simp only [List.getElem_map, List.getElem_range, copyAddr]
    rw [I.nodes_nodup.idxOf_getElem]
  have cells : ∀ x ∈ g.nodes, ∀ n, h.nodes[x]? = some n →
      h'.nodes[copyAddr h g x]? = some ⟨n.body, n.arcs.map (fun a => { a with next := copyAddr h g a.next })⟩ :=
    fun x hx n hn => C3.done _ (List.idxOf_lt_length_iff.2 hx) x n (I.idxOf_get hx) hn
  have jc : ∀ (i p p' : Nat), g.joints[i]? = some p → s2.2.joints[i]? = some p' → h'.joints[p']? = h.joints[p]? := by
    intro i p p' hp hp'
    have hi := (List.getElem?_eq_some_iff.1 hp).1
    rw [C2.joints, List.getElem?_map, List.getElem?_range hi] at hp'
    rw [← Option.some_inj.1 hp', hj]
    exact C2.new i hi p hp
  refine ⟨h', s2.2, by rw [copy, e1, Res.bind_ok, e2, Res.bind_ok, e3, Res.bind_ok]; rfl, ?_⟩
  refine ⟨⟨C2.root.trans C1.root, hnm, fun x hx y _ e => copyAddr_inj hx e, cells, ?_, jc, ?_⟩, C3.low, C3.len, ?_, ?_, ?_, ?_⟩
  · rw [C2.joints]; simp
  · have hidx : ∀ i < g.nodes.length, ∃ p n, g.nodes[i]? = some p ∧ h.nodes[p]? = some n ∧ p ∈ g.nodes := by
      intro i hi
      obtain ⟨n, hn⟩ := I.nodes_get _ (List.getElem_mem hi)
      exact ⟨_, n, List.getElem?_eq_getElem hi, hn, List.getElem_mem hi⟩
    have hjidx : ∀ i < g.joints.length, ∃ p n, g.joints[i]? = some p ∧ h.joints[p]? = some n ∧
        h'.joints[h.joints.length + i]? = some n := by
      intro i hi
      obtain ⟨n, hn⟩ := I.joints_get _ (List.getElem_mem hi)
      refine ⟨_, n, List.getElem?_eq_getElem hi, hn, ?_⟩
      rw [hj, C2.new i hi _ (List.getElem?_eq_getElem hi), hn]
    refine ⟨?_, ?_, ?_, ?_, ?_, ?_, ?_⟩
    · rw [hd]
      exact List.Nodup.map (fun a b e => by simpa using e) List.nodup_range
    · rw [C2.joints]
      exact List.Nodup.map (fun a b e => by simpa using e) List.nodup_range
    · intro t q
      rw [hmap, hd, List.mem_map]
      constructor
      · rintro ⟨i, p, n, hi, hp, hn, e, rfl⟩
        exact ⟨⟨i, List.mem_range.2 hi, rfl⟩, _, C3.done i hi p n hp hn, e⟩
      · rintro ⟨⟨i, hi, rfl⟩, m, hm, e⟩
        have hi := List.mem_range.1 hi
        obtain ⟨p, n, hp, hn, _⟩ := hidx i hi
        obtain rfl := Option.some_inj.1 ((C3.done i hi p n hp hn).symm.trans hm)
        exact ⟨i, p, n, hi, hp, hn, e, rfl⟩
    · intro t q
      rw [C2.map, C2.joints, List.mem_map]
      constructor
      · rintro ⟨i, p, n, hi, hp, hn, e, rfl⟩
        obtain ⟨p', n', hp', hn', hc⟩ := hjidx i hi
        obtain rfl := Option.some_inj.1 (hp.symm.trans hp')
        obtain rfl := Option.some_inj.1 (hn.symm.trans hn')
        exact ⟨⟨i, List.mem_range.2 hi, rfl⟩, n, hc, e⟩
      · rintro ⟨⟨i, hi, rfl⟩, m, hm, e⟩
        have hi := List.mem_range.1 hi
        obtain ⟨p, n, hp, hn, hc⟩ := hjidx i hi
        obtain rfl := Option.some_inj.1 (hc.symm.trans hm)
        exact ⟨i, p, n, hi, hp, hn, e, rfl⟩
    · intro q hq
      rw [hd] at hq
      obtain ⟨i, hi, rfl⟩ := List.mem_map.1 hq
      have hi := List.mem_range.1 hi
      obtain ⟨p, n, hp, hn, _⟩ := hidx i hi
      exact ⟨_, C3.done i hi p n hp hn⟩
    · intro q hq
      rw [C2.joints] at hq
      obtain ⟨i, hi, rfl⟩ := List.mem_map.1 hq
      obtain ⟨p, n, _, _, hc⟩ := hjidx i (List.mem_range.1 hi)
      exact ⟨n, hc⟩
    · intro q hq m hm a ha
      rw [hd] at hq
      obtain ⟨i, hi, rfl⟩ := List.mem_map.1 hq
      have hi := List.mem_range.1 hi
      obtain ⟨p, n, hp, hn, hpm⟩ := hidx i hi
      obtain rfl := Option.some_inj.1 ((C3.done i hi p n hp hn).symm.trans hm)
      obtain ⟨b, hb, rfl⟩ := List.mem_map.1 ha
      rw [hnm]
      exact List.mem_map.2 ⟨b.next, I.arcs p hpm n hn b hb, rfl⟩
  · rw [hj]; exact C2.low
  · rw [hj]; exact C2.len
  · intro x hx
    rw [hd] at hx
    obtain ⟨i, _, rfl⟩ := List.mem_map.1 hx
    omega
  · intro x hx
    rw [C2.joints] at hx
    obtain ⟨i, _, rfl⟩ := List.mem_map.1 hx
    omega

end
end Graph
end RBDyn
