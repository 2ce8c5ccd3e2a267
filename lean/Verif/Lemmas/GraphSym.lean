import Verif.Lemmas.GraphLoop
import Verif.Lemmas.MultiBody
import Verif.Props.Graph

/-! The graphs built by the API have as many arcs in both directions, and the bodies `makeTree` makes of any graph. -/

namespace RBDyn
variable {K : Type}
open Graph

namespace Graph

theorem Sym.linked {h h' : Heap K} {g : Graph} (S : Sym h g) {p1 p2 : Nat} {n1 n2 : GNode K} (hn1 : h.nodes[p1]? = some n1)
    (hn2 : h.nodes[p2]? = some n2) {a b : Arc K} (ea : a.next = p2) (eb : b.next = p1)
    (ho : ∀ p, p ≠ p1 → p ≠ p2 → h'.nodes[p]? = h.nodes[p]?)
    (hd : p1 ≠ p2 → h'.nodes[p1]? = some { n1 with arcs := n1.arcs ++ [a] } ∧
      h'.nodes[p2]? = some { n2 with arcs := n2.arcs ++ [b] })
    (hs : p1 = p2 → h'.nodes[p1]? = some { n1 with arcs := n1.arcs ++ [a, b] }) : Sym h' g := by
  -- the arcs of a node after the call
  have key : ∀ u n', h'.nodes[u]? = some n' → ∃ n, h.nodes[u]? = some n ∧ ∀ v, (n'.arcs.map Arc.next).count v =
      (n.arcs.map Arc.next).count v + (if u = p1 ∧ v = p2 then 1 else 0) + (if u = p2 ∧ v = p1 then 1 else 0) := by
    intro u n' hu
    by_cases e : p1 = p2
    · by_cases e1 : u = p1
      · refine ⟨n1, e1 ▸ hn1, fun v => ?_⟩
        rw [e1, hs e] at hu
        obtain rfl := Option.some_inj.1 hu
        subst e e1
        by_cases ev : v = u
        · subst ev; simp [ea, eb]
        · simp [ea, eb, List.count_cons, ev, Ne.symm ev]
      · refine ⟨n', ?_, fun v => ?_⟩
        · rw [← ho u e1 (e ▸ e1)]; exact hu
        · rw [if_neg (fun h => e1 h.1), if_neg (fun h => e1 (h.1.trans e.symm))]
          rfl
    · obtain ⟨g1, g2⟩ := hd e
      by_cases e1 : u = p1
      · refine ⟨n1, e1 ▸ hn1, fun v => ?_⟩
        rw [e1, g1] at hu
        obtain rfl := Option.some_inj.1 hu
        subst e1
        by_cases ev : v = p2
        · subst ev; simp [ea, Ne.symm e]
        · simp [ea, List.count_cons, ev, Ne.symm ev, e]
      · by_cases e2 : u = p2
        · refine ⟨n2, e2 ▸ hn2, fun v => ?_⟩
          rw [e2, g2] at hu
          obtain rfl := Option.some_inj.1 hu
          subst e2
          by_cases ev : v = p1
          · subst ev; simp [eb, Ne.symm e]
          · simp [eb, List.count_cons, ev, Ne.symm ev, e1]
        · refine ⟨n', ?_, fun v => ?_⟩
          · rw [← ho u e1 e2]; exact hu
          · rw [if_neg (fun h => e1 h.1), if_neg (fun h => e2 h.1)]
            rfl
  intro u v nu nv hu hv hnu hnv
  obtain ⟨mu, hmu, cu⟩ := key u nu hnu
  obtain ⟨mv, hmv, cv⟩ := key v nv hnv
  rw [cu, cv, S u v mu mv hu hv hmu hmv, if_congr (and_comm (a := u = p1) (b := v = p2)) rfl rfl,
    if_congr (and_comm (a := u = p2) (b := v = p1)) rfl rfl]
  omega

theorem Sym.addBody {s : GSt K} (S : Sym s.1 s.2) (I : Inv s.1 s.2) (b : Body K) :
    Sym (addBodySt b s).1 (addBodySt b s).2 := by
  obtain ⟨h, g⟩ := s
  have key : ∀ u n, u ∈ g.nodes ++ [h.nodes.length] → (h.nodes ++ [⟨b, []⟩])[u]? = some n →
      (u = h.nodes.length ∧ n.arcs = []) ∨ (u ∈ g.nodes ∧ h.nodes[u]? = some n) := by
    intro u n hu hn
    rw [getElem?_append_one] at hn
    by_cases e : u = h.nodes.length
    · rw [if_pos e] at hn
      obtain rfl := Option.some_inj.1 hn
      exact .inl ⟨e, rfl⟩
    · rw [if_neg e] at hn
      rcases List.mem_append.1 hu with hu | hu
      · exact .inr ⟨hu, hn⟩
      · exact absurd (List.mem_singleton.1 hu) e
  have zero : ∀ v nv, v ∈ g.nodes → h.nodes[v]? = some nv → (nv.arcs.map Arc.next).count h.nodes.length = 0 := by
    intro v nv hv hn
    rw [List.count_eq_zero, List.mem_map]
    rintro ⟨a, ha, e⟩
    have := I.node_lt (I.arcs v hv nv hn a ha)
    dsimp only at this
    omega
  intro u v nu nv hu hv hnu hnv
  rcases key u nu hu hnu with ⟨e1, z1⟩ | ⟨m1, k1⟩ <;> rcases key v nv hv hnv with ⟨e2, z2⟩ | ⟨m2, k2⟩
  · rw [z1, z2]; rfl
  · rw [z1, e1, zero v nv m2 k2]; rfl
  · rw [z2, e2, zero u nu m1 k1]; rfl
  · exact S u v nu nv m1 m2 k1 k2

variable [Scalar K]

theorem Sym.run {s : GSt K} (S : Sym s.1 s.2) (I : Inv s.1 s.2) (op : BuildOp K) :
    Sym (stateAfter (op.run s)).1 (stateAfter (op.run s)).2 := by
  cases op with
  | body b =>
    cases hb : s.2.bodyMap.find b.name with
    | some p =>
      have : Graph.addBody b s = .error .domainError s := addBody_some (by rw [hb]; rfl)
      simp only [BuildOp.run, this, stateAfter]; exact S
    | none =>
      simp only [BuildOp.run, addBody_none hb, stateAfter]; exact S.addBody I b
  | joint j =>
    cases hb : s.2.jointMap.find j.name with
    | some p =>
      have : Graph.addJoint j s = .error .domainError s := addJoint_some (by rw [hb]; rfl)
      simp only [BuildOp.run, this, stateAfter]; exact S
    | none =>
      simp only [BuildOp.run, addJoint_none hb, stateAfter]; exact S
  | link b1 t1 b2 t2 name d =>
    cases h1 : s.2.bodyMap.find b1 with
    | none =>
      rw [BuildOp.run, linkBodies_error (linkHeap_unknown (Or.inl h1) t1 t2 d)]; exact S
    | some p1 =>
      cases h2 : s.2.bodyMap.find b2 with
      | none =>
        rw [BuildOp.run, linkBodies_error (linkHeap_unknown (Or.inr (Or.inl h2)) t1 t2 d)]; exact S
      | some p2 =>
        cases h3 : s.2.jointMap.find name with
        | none =>
          rw [BuildOp.run, linkBodies_error (linkHeap_unknown (Or.inr (Or.inr h3)) t1 t2 d)]; exact S
        | some pj =>
          obtain ⟨-, n1, hn1, -⟩ := (I.body _ _).1 h1
          obtain ⟨-, n2, hn2, -⟩ := (I.body _ _).1 h2
          obtain ⟨-, j, hj, -⟩ := (I.joint _ _).1 h3
          obtain ⟨h', hok, -, -, -, ho, hd, hs⟩ := linkHeap_known I h1 h2 h3 hn1 hn2 hj t1 t2 d
          rw [BuildOp.run, linkBodies_ok hok]
          exact S.linked hn1 hn2 rfl rfl ho hd hs

end Graph

section
variable [Scalar K]

theorem built_sym (h : Heap K) (rootName : String) (ops : List (BuildOp K)) :
    Sym (built h rootName ops).1 (built h rootName ops).2 := by
  unfold built
  generalize hs : ((h, Graph.empty rootName) : GSt K) = s
  have I : Inv s.1 s.2 := by rw [← hs]; exact Inv.empty h rootName
  have S : Sym s.1 s.2 := by
    rw [← hs]
    intro u v nu nv hu
    simp [Graph.empty] at hu
  clear hs
  induction ops generalizing s with
  | nil => exact S
  | cons op ops ih => exact ih _ (I.run op) (S.run I op)

end

namespace Graph

/-- The name of a body. -/
def nameOf (h : Heap K) (p : Nat) : String := ((h.nodes[p]?).map fun n => n.body.name).getD ""

variable [Scalar K]

/-- Whatever the graph, `makeTree` appends a body for every visit of a node, and a joint each time. -/
theorem makeTree_names {h : Heap K} (f : Nat) {u : Nat} {src : Option Nat} {j : Joint K} {p s par : Int} {Xti Xb : PTransform K}
    {st st' : TreeSt K} (e : makeTree h f u src j p s par Xti Xb st = .ok st') (hl : st.joints.length = st.bodies.length) :
    st'.bodies.map (fun b => b.name) = st.bodies.map (fun b => b.name) ++ (dfs h f u src).map (nameOf h) ∧
    st'.joints.length = st'.bodies.length := by
  induction f generalizing u src j p s par Xti Xb st st' with
  | zero => simp [makeTree] at e
  | succ f ih =>
    rw [makeTree] at e
    obtain ⟨n, hn, e⟩ := Res.bind_eq_ok.1 e
    have hn := rd_eq_ok_iff.1 hn
    rw [dfs_succ hn, List.map_cons, nameOf, hn, Option.map_some, Option.getD_some]
    dsimp only at e
    generalize hst : (TreeSt.mk (st.bodies ++ [_]) (st.joints ++ [j]) (st.pred ++ [p]) (st.succ ++ [s]) (st.parent ++ [par])
      (st.Xt ++ [Xti]) : TreeSt K) = st1 at e
    have l1 : st1.joints.length = st1.bodies.length := by rw [← hst]; simp [hl]
    have n1 : st1.bodies.map (fun b => b.name) = st.bodies.map (fun b => b.name) ++ [n.body.name] := by rw [← hst]; simp
    generalize hci : ((st.bodies ++ [(⟨(xFrom n src Xb).dualMulI n.body.inertia, n.body.name⟩ : Body K)]).length : Int) - 1 = ci at e
    have loop : ∀ (l : List (Arc K)) (s1 s2 : TreeSt K), s1.joints.length = s1.bodies.length →
        l.foldlM (fun (st : TreeSt K) a =>
          if some a.next ≠ src then
            makeTree h f a.next (some u) a.joint ci (st.bodies.length : Int) ci (a.X * (xFrom n src Xb).inv) 1 st
          else pure st) s1 = .ok s2 →
        s2.bodies.map (fun b => b.name) = s1.bodies.map (fun b => b.name) ++
          (l.flatMap (fun a => if some a.next ≠ src then dfs h f a.next (some u) else [])).map (nameOf h) ∧
        s2.joints.length = s2.bodies.length := by
      intro l
      induction l with
      | nil =>
        intro s1 s2 h1 h2
        obtain rfl : s1 = s2 := by simpa using h2
        exact ⟨by simp, h1⟩
      | cons a l ihl =>
        intro s1 s2 h1 h2
        rw [List.foldlM_cons] at h2
        obtain ⟨s3, h3, h4⟩ := Res.bind_eq_ok.1 h2
        rw [List.flatMap_cons, List.map_append, ← List.append_assoc]
        by_cases ha : some a.next ≠ src
        · rw [if_pos ha] at h3 ⊢
          obtain ⟨k1, k2⟩ := ih h3 h1
          rw [← k1]
          exact ihl s3 s2 k2 h4
        · rw [if_neg ha] at h3 ⊢
          obtain rfl : s1 = s3 := by simpa using h3
          rw [List.map_nil, List.append_nil]
          exact ihl s1 s2 h1 h4
    obtain ⟨k1, k2⟩ := loop n.arcs st1 st' l1 e
    refine ⟨?_, k2⟩
    rw [k1, n1, List.append_assoc]
    rfl

/-- `makeMultiBody` returns exactly if the traversal ends, and its bodies are those visited. -/
theorem Inv.makeMultiBody_ends {h : Heap K} {g : Graph} (I : Inv h g) {root : String} {r : Nat}
    (hr : g.bodyMap.find root = some r) (t : JointType) (axis : Vec3 K) (X0 Xb : PTransform K) :
    (CanStep h h.fuel r none → makeMultiBody h g root t axis X0 Xb = .error .diverges) ∧
    (¬ CanStep h h.fuel r none → ∃ mb, makeMultiBody h g root t axis X0 Xb = .ok mb ∧
      mb.bodies.map (fun b => b.name) = (dfs h h.fuel r none).map (nameOf h)) := by
  have hm := ((I.body _ _).1 hr).1
  have he := makeTree_ends I h.fuel hm none (Joint.mk' t axis true g.rootName) (-1) 0 (-1) X0 Xb ⟨[], [], [], [], [], []⟩
  simp only [makeMultiBody, SMap.getAt, hr, Res.bind_ok]
  constructor
  · intro hc
    rw [he.1 hc, Res.bind_error]
  · intro hc
    obtain ⟨st, e⟩ := he.2 hc
    obtain ⟨k1, k2⟩ := makeTree_names h.fuel e rfl
    rw [e, Res.bind_ok]
    obtain ⟨mb, e1, c⟩ := ctor_inv st.bodies st.joints st.pred st.succ st.parent st.Xt k2
    exact ⟨mb, e1, by rw [c.bodies, k1]; rfl⟩

end Graph
end RBDyn
