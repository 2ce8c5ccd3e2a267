import Verif.Lemmas.GraphDfs
import Verif.Lemmas.MultiBody

/-! `makeMultiBody`, `bodiesBaseTransform`, `predecessorJoint`, `successorJoints` on a tree. -/

namespace RBDyn
variable {K : Type}

namespace Graph

/-- Transform from the body of node `x` to the joint towards the root (`Xb` for the root), as found by the search
over the arcs of `x`. -/
def xf (h : Heap K) (r : Nat) (par : Nat → Nat) (Xb : PTransform K) (x : Nat) : PTransform K :=
  match h.nodes[x]? with
  | some n => xFrom n (srcOf r par x) Xb
  | none => Xb

variable {h : Heap K} {g : Graph} {r : Nat} {d par : Nat → Nat}

theorem xFrom_none (n : GNode K) (X : PTransform K) : xFrom n none X = X := by
  unfold xFrom
  have : n.arcs.find? (fun a => some a.next == none) = none := by
    rw [List.find?_eq_none]; intro a _; simp
  rw [this]

theorem xf_root (Xb : PTransform K) : xf h r par Xb r = Xb := by
  unfold xf
  cases h.nodes[r]? with
  | none => rfl
  | some n => simp only [srcOf, if_pos]; exact xFrom_none n Xb

section
variable [Scalar K]

theorem Forest.xFrom_arc (F : Forest h g) {x : Nat} {n : GNode K} {b : Arc K} (hn : h.nodes[x]? = some n)
    (hb : Link h g x b) (X : PTransform K) : xFrom n (some b.next) X = b.X := by
  obtain ⟨hx, n', hn', hb'⟩ := hb
  obtain rfl := Option.some_inj.1 (hn.symm.trans hn')
  unfold xFrom
  cases e : n.arcs.find? (fun a => some a.next == some b.next) with
  | none =>
    rw [List.find?_eq_none] at e
    exact absurd (e b hb') (by simp)
  | some c =>
    have h1 := List.find?_some e
    have h2 := List.mem_of_find?_eq_some e
    have : c = b := F.arc_unique ⟨hx, n, hn, h2⟩ ⟨hx, n, hn, hb'⟩ (by simpa using h1)
    rw [this]

theorem Forest.xf_arc (F : Forest h g) {x : Nat} {b : Arc K} (hb : Link h g x b)
    (e : b.next = par x) (hr : x ≠ r) (Xb : PTransform K) : xf h r par Xb x = b.X := by
  obtain ⟨hx, n, hn, -⟩ := id hb
  unfold xf
  rw [hn]
  simp only [srcOf, if_neg hr, ← e]
  exact F.xFrom_arc hn hb Xb

/-- The base transform found does not depend on the default value for a node other than the root. -/
theorem Rooted.xFrom_eq (R : Rooted h g r d par) (F : Forest h g) {x : Nat} {n : GNode K} (hx : x ∈ g.nodes)
    (hn : h.nodes[x]? = some n) {X Xb : PTransform K} (hX : x = r → X = Xb) :
    xFrom n (srcOf r par x) X = xf h r par Xb x := by
  by_cases hr : x = r
  · subst hr
    rw [hX rfl, xf_root, srcOf, if_pos rfl, xFrom_none]
  · obtain ⟨b, hb, e, -⟩ := R.up x hx hr
    rw [F.xf_arc hb e hr, srcOf, if_neg hr, ← e, F.xFrom_arc hn hb]

/-! ### makeTree -/

/-- Entry `i` of the vectors of `makeTree`, for the node `x` visited at step `i`. -/
structure EntryAt (h : Heap K) (g : Graph) (r : Nat) (par : Nat → Nat) (J : Joint K) (X0 Xb : PTransform K)
    (N : List Nat) (st : TreeSt K) (i x : Nat) : Prop where
  mem : x ∈ g.nodes
  body : ∃ n, h.nodes[x]? = some n ∧ st.bodies[i]? = some ⟨(xf h r par Xb x).dualMulI n.body.inertia, n.body.name⟩
  succ : st.succ[i]? = some (i : Int)
  root : x = r → i = 0 ∧ st.joints[i]? = some J ∧ st.pred[i]? = some (-1) ∧ st.parent[i]? = some (-1) ∧
    st.Xt[i]? = some X0
  child : x ≠ r → ∃ (k : Nat) (a : Arc K), N[k]? = some (par x) ∧ k < i ∧ Link h g (par x) a ∧ a.next = x ∧
    st.joints[i]? = some a.joint ∧ st.pred[i]? = some (k : Int) ∧ st.parent[i]? = some (k : Int) ∧
    st.Xt[i]? = some (a.X * (xf h r par Xb (par x)).inv)

/-- The state of `makeTree` once the nodes `N` have been visited. -/
structure TreeRel (h : Heap K) (g : Graph) (r : Nat) (par : Nat → Nat) (J : Joint K) (X0 Xb : PTransform K)
    (N : List Nat) (st : TreeSt K) : Prop where
  nbodies : st.bodies.length = N.length
  njoints : st.joints.length = N.length
  npred : st.pred.length = N.length
  nsucc : st.succ.length = N.length
  nparent : st.parent.length = N.length
  nXt : st.Xt.length = N.length
  entry : ∀ (i x : Nat), N[i]? = some x → EntryAt h g r par J X0 Xb N st i x

variable {J : Joint K} {X0 Xb : PTransform K}

theorem TreeRel.nil : TreeRel h g r par J X0 Xb [] ⟨[], [], [], [], [], []⟩ where
  nbodies := rfl
  njoints := rfl
  npred := rfl
  nsucc := rfl
  nparent := rfl
  nXt := rfl
  entry := by simp

/-- `push` of one node. -/
theorem TreeRel.push {N : List Nat} {st : TreeSt K} (t : TreeRel h g r par J X0 Xb N st) {u : Nat} {n : GNode K}
    (hu : u ∈ g.nodes) (hn : h.nodes[u]? = some n) {j : Joint K} {p : Int} {Xti : PTransform K}
    (hroot : u = r → N = [] ∧ j = J ∧ p = -1 ∧ Xti = X0)
    (hchild : u ≠ r → ∃ (k : Nat) (a : Arc K), N[k]? = some (par u) ∧ Link h g (par u) a ∧ a.next = u ∧
      j = a.joint ∧ p = k ∧ Xti = a.X * (xf h r par Xb (par u)).inv) :
    TreeRel h g r par J X0 Xb (N ++ [u])
      { bodies := st.bodies ++ [⟨(xf h r par Xb u).dualMulI n.body.inertia, n.body.name⟩]
        joints := st.joints ++ [j]
        pred := st.pred ++ [p]
        succ := st.succ ++ [(N.length : Int)]
        parent := st.parent ++ [p]
        Xt := st.Xt ++ [Xti] } where
  nbodies := by simp [t.nbodies]
  njoints := by simp [t.njoints]
  npred := by simp [t.npred]
  nsucc := by simp [t.nsucc]
  nparent := by simp [t.nparent]
  nXt := by simp [t.nXt]
  entry := by
    intro i x hi
    rw [getElem?_append_one] at hi
    by_cases e : i = N.length
    · rw [if_pos e] at hi
      obtain rfl := Option.some_inj.1 hi
      subst e
      refine ⟨hu, ⟨n, hn, ?_⟩, ?_, ?_, ?_⟩
      · simp [t.nbodies]
      · simp [t.nsucc]
      · intro hr
        obtain ⟨rfl, rfl, rfl, rfl⟩ := hroot hr
        simp [t.njoints, t.npred, t.nparent, t.nXt]
      · intro hr
        obtain ⟨k, a, hk, ha, ea, rfl, rfl, rfl⟩ := hchild hr
        have hk' := (List.getElem?_eq_some_iff.1 hk).1
        refine ⟨k, a, ?_, hk', ha, ea, ?_⟩
        · rw [List.getElem?_append_left hk', hk]
        · simp [t.njoints, t.npred, t.nparent, t.nXt]
    · rw [if_neg e] at hi
      have hi' := (List.getElem?_eq_some_iff.1 hi).1
      obtain ⟨h1, h2, h3, h4, h5⟩ := t.entry i x hi
      have hap : ∀ {α : Type} (l : List α) (y : α), l.length = N.length → (l ++ [y])[i]? = l[i]? := by
        intro α l y hl
        rw [List.getElem?_append_left (by omega)]
      refine ⟨h1, ?_, ?_, ?_, ?_⟩ <;> dsimp only
      · rw [hap _ _ t.nbodies]; exact h2
      · rw [hap _ _ t.nsucc]; exact h3
      · rw [hap _ _ t.njoints, hap _ _ t.npred, hap _ _ t.nparent, hap _ _ t.nXt]; exact h4
      · rw [hap _ _ t.njoints, hap _ _ t.npred, hap _ _ t.nparent, hap _ _ t.nXt]
        intro hr
        obtain ⟨k, a, hk, hki, hrest⟩ := h5 hr
        exact ⟨k, a, by rw [List.getElem?_append_left (by omega), hk], hki, hrest⟩

theorem makeTree_spec (R : Rooted h g r d par) (F : Forest h g) (f : Nat) :
    ∀ (u : Nat) (N : List Nat) (st : TreeSt K) (j : Joint K) (p : Int) (Xti Xbase : PTransform K),
      u ∈ g.nodes → g.nodes.length ≤ f + d u → TreeRel h g r par J X0 Xb N st →
      (u = r → N = [] ∧ j = J ∧ p = -1 ∧ Xti = X0 ∧ Xbase = Xb) →
      (u ≠ r → ∃ (k : Nat) (a : Arc K), N[k]? = some (par u) ∧ Link h g (par u) a ∧ a.next = u ∧
        j = a.joint ∧ p = k ∧ Xti = a.X * (xf h r par Xb (par u)).inv) →
      ∃ st', makeTree h f u (srcOf r par u) j p N.length p Xti Xbase st = .ok st' ∧
        TreeRel h g r par J X0 Xb (N ++ dfs h f u (srcOf r par u)) st' := by
  induction f with
  | zero => intro u N st j p Xti Xbase hu hf; have := R.lt u hu; omega
  | succ f ih =>
    intro u N st j p Xti Xbase hu hf t hroot hchild
    obtain ⟨n, hn⟩ := F.nodes_get u hu
    have tp := t.push hu hn (fun e => ⟨(hroot e).1, (hroot e).2.1, (hroot e).2.2.1, (hroot e).2.2.2.1⟩) hchild
    rw [makeTree, rd_of_getElem? hn, Res.bind_ok, dfs_succ hn, List.append_cons N u]
    rw [R.xFrom_eq F hu hn (fun e => (hroot e).2.2.2.2)]
    have hlen : ((st.bodies ++ [(⟨(xf h r par Xb u).dualMulI n.body.inertia, n.body.name⟩ : Body K)]).length : Int) - 1
        = N.length := by simp [t.nbodies]
    dsimp only
    rw [hlen]
    refine dfs_fold (h := h) _ (TreeRel h g r par J X0 Xb) f u (srcOf r par u) n.arcs (N ++ [u]) _ tp ?_ ?_
    · intro a _ hs st
      rw [if_neg hs]; rfl
    · intro a ha hs M st' t'
      have hl : Link h g u a := ⟨hu, n, hn, ha⟩
      obtain ⟨e1, e2, e3⟩ := (R.child_iff hl).1 hs
      have hsrc := R.src_child hl hs
      rw [if_pos hs, ← hsrc, t'.nbodies]
      refine ih a.next (N ++ [u] ++ M) st' a.joint N.length _ 1 (F.link_next hl) (by omega) t' ?_ ?_
      · intro e; exact absurd e e3
      · intro _
        refine ⟨N.length, a, ?_, by rw [e2]; exact hl, rfl, rfl, rfl, by rw [e2]⟩
        rw [e2, List.append_assoc, List.getElem?_append_right le_rfl]
        simp

/-- `makeMultiBody` on a tree. -/
theorem makeMultiBody_spec (R : Rooted h g r d par) (F : Forest h g) {root : String}
    (hr : g.bodyMap.find root = some r) (t : JointType) (axis : Vec3 K) (X0 Xb : PTransform K) :
    ∃ st, TreeRel h g r par (Joint.mk' t axis true g.rootName) X0 Xb (dfs h h.fuel r none) st ∧
      makeMultiBody h g root t axis X0 Xb =
        MultiBody.mk' st.bodies st.joints st.pred st.succ st.parent st.Xt := by
  obtain ⟨st, e, ht⟩ := makeTree_spec (J := Joint.mk' t axis true g.rootName) (X0 := X0) (Xb := Xb) R F h.fuel r []
    ⟨[], [], [], [], [], []⟩ (Joint.mk' t axis true g.rootName) (-1) X0 Xb R.mem
    (by rw [R.d0]; exact F.nodes_length_le_fuel) TreeRel.nil (fun _ => ⟨rfl, rfl, rfl, rfl, rfl⟩)
    (fun e => absurd rfl e)
  have hsrc : srcOf r par r = none := if_pos rfl
  rw [hsrc, List.nil_append] at ht
  rw [hsrc] at e
  refine ⟨st, ht, ?_⟩
  rw [makeMultiBody, SMap.getAt, hr]
  simp only [Res.bind_ok]
  have e' : makeTree h h.fuel r none (Joint.mk' t axis true g.rootName) (-1) 0 (-1) X0 Xb
    ⟨[], [], [], [], [], []⟩ = .ok st := e
  rw [e', Res.bind_ok]

end

/-! ### The maps computed by a traversal -/

/-- The map `m` holds, for the name of each visited node `x`, a value in relation `V x`, and nothing else. -/
structure MapRel {α : Type} (h : Heap K) (V : Nat → α → Prop) (N : List Nat) (m : SMap α) : Prop where
  found : ∀ x ∈ N, ∀ n, h.nodes[x]? = some n → ∃ v, m.find n.body.name = some v ∧ V x v
  absent : ∀ s : String, (∀ x ∈ N, ∀ n, h.nodes[x]? = some n → n.body.name ≠ s) → m.find s = none

theorem MapRel.nil {α : Type} (V : Nat → α → Prop) : MapRel h V [] [] :=
  ⟨by simp, fun _ _ => rfl⟩

theorem MapRel.push {α : Type} {V : Nat → α → Prop} {N : List Nat} {m : SMap α} (t : MapRel h V N m) (I : Inv h g)
    (hN : ∀ x ∈ N, x ∈ g.nodes) {u : Nat} {n : GNode K} (hu : u ∈ g.nodes) (hn : h.nodes[u]? = some n) {v : α}
    (hv : V u v) : MapRel h V (N ++ [u]) (m.set n.body.name v) := by
  constructor
  · intro x hx n' hn'
    rw [SMap.find_set]
    by_cases e : n'.body.name = n.body.name
    · rw [if_pos e]
      have hxm : x ∈ g.nodes := by
        rw [List.mem_append, List.mem_singleton] at hx
        rcases hx with hx | rfl
        · exact hN x hx
        · exact hu
      have : x = u := I.name_inj hxm hu hn' hn e
      exact ⟨v, rfl, by rw [this]; exact hv⟩
    · rw [if_neg e]
      rw [List.mem_append, List.mem_singleton] at hx
      rcases hx with hx | rfl
      · exact t.found x hx n' hn'
      · rw [hn] at hn'; obtain rfl := Option.some_inj.1 hn'; exact absurd rfl e
  · intro s hs
    rw [SMap.find_set, if_neg]
    · exact t.absent s (fun x hx => hs x (List.mem_append_left _ hx))
    · intro e; exact hs u (by simp) n hn e.symm

theorem Rooted.dfs_mem (R : Rooted h g r d par) (I : Inv h g) {f u x : Nat} (hu : u ∈ g.nodes)
    (hx : x ∈ dfs h f u (srcOf r par u)) : x ∈ g.nodes := (R.dfs_below I f hu hx).mem

section
variable [Scalar K]

theorem computeTransform_spec (R : Rooted h g r d par) (F : Forest h g) (Xb : PTransform K) (f : Nat) :
    ∀ (u : Nat) (N : List Nat) (m : SMap (PTransform K)) (Xbase : PTransform K),
      u ∈ g.nodes → g.nodes.length ≤ f + d u → (∀ x ∈ N, x ∈ g.nodes) →
      MapRel h (fun x v => v = (xf h r par Xb x).inv) N m → (u = r → Xbase = Xb) →
      ∃ m', computeTransform h f u (srcOf r par u) Xbase m = .ok m' ∧
        MapRel h (fun x v => v = (xf h r par Xb x).inv) (N ++ dfs h f u (srcOf r par u)) m' := by
  induction f with
  | zero => intro u N m Xbase hu hf; have := R.lt u hu; omega
  | succ f ih =>
    intro u N m Xbase hu hf hN t hX
    obtain ⟨n, hn⟩ := F.nodes_get u hu
    rw [computeTransform, rd_of_getElem? hn, Res.bind_ok, dfs_succ hn, List.append_cons N u]
    rw [R.xFrom_eq F hu hn hX]
    have hN' : ∀ x ∈ N ++ [u], x ∈ g.nodes := by
      intro x hx
      rw [List.mem_append, List.mem_singleton] at hx
      rcases hx with hx | rfl
      · exact hN x hx
      · exact hu
    refine (dfs_fold (h := h) _ (fun M m => (∀ x ∈ M, x ∈ g.nodes) ∧
      MapRel h (fun x v => v = (xf h r par Xb x).inv) M m) f u (srcOf r par u) n.arcs (N ++ [u]) _
      ⟨hN', t.push F.toInv hN hu hn rfl⟩ ?_ ?_).imp (fun m' hm => ⟨hm.1, hm.2.2⟩)
    · intro a _ hs st
      rw [if_neg hs]; rfl
    · rintro a ha hs M m' ⟨hM, t'⟩
      have hl : Link h g u a := ⟨hu, n, hn, ha⟩
      obtain ⟨e1, e2, e3⟩ := (R.child_iff hl).1 hs
      rw [if_pos hs, ← R.src_child hl hs]
      obtain ⟨m'', e, t''⟩ := ih a.next _ m' 1 (F.link_next hl) (by omega) hM t' (fun e => absurd e e3)
      refine ⟨m'', e, ?_, t''⟩
      intro x hx
      rw [List.mem_append] at hx
      rcases hx with hx | hx
      · exact hM x hx
      · exact R.dfs_mem F.toInv (F.link_next hl) hx

/-- Name of the joint towards the root. -/
def PredRel (h : Heap K) (g : Graph) (r : Nat) (par : Nat → Nat) (x : Nat) (s : String) : Prop :=
  (x = r → s = g.rootName) ∧ (x ≠ r → ∃ a, Link h g (par x) a ∧ a.next = x ∧ s = a.joint.name)

theorem computePredecessor_spec (R : Rooted h g r d par) (F : Forest h g) (f : Nat) :
    ∀ (u : Nat) (N : List Nat) (m : SMap String) (s : String),
      u ∈ g.nodes → g.nodes.length ≤ f + d u → (∀ x ∈ N, x ∈ g.nodes) →
      MapRel h (PredRel h g r par) N m → PredRel h g r par u s →
      ∃ m', computePredecessor h f u (srcOf r par u) s m = .ok m' ∧
        MapRel h (PredRel h g r par) (N ++ dfs h f u (srcOf r par u)) m' := by
  induction f with
  | zero => intro u N m s hu hf; have := R.lt u hu; omega
  | succ f ih =>
    intro u N m s hu hf hN t hX
    obtain ⟨n, hn⟩ := F.nodes_get u hu
    rw [computePredecessor, rd_of_getElem? hn, Res.bind_ok, dfs_succ hn, List.append_cons N u]
    have hN' : ∀ x ∈ N ++ [u], x ∈ g.nodes := by
      intro x hx
      rw [List.mem_append, List.mem_singleton] at hx
      rcases hx with hx | rfl
      · exact hN x hx
      · exact hu
    refine (dfs_fold (h := h) _ (fun M m => (∀ x ∈ M, x ∈ g.nodes) ∧
      MapRel h (PredRel h g r par) M m) f u (srcOf r par u) n.arcs (N ++ [u]) _
      ⟨hN', t.push F.toInv hN hu hn hX⟩ ?_ ?_).imp (fun m' hm => ⟨hm.1, hm.2.2⟩)
    · intro a _ hs st
      rw [if_neg hs]; rfl
    · rintro a ha hs M m' ⟨hM, t'⟩
      have hl : Link h g u a := ⟨hu, n, hn, ha⟩
      obtain ⟨e1, e2, e3⟩ := (R.child_iff hl).1 hs
      rw [if_pos hs, ← R.src_child hl hs]
      obtain ⟨m'', e, t''⟩ := ih a.next _ m' a.joint.name (F.link_next hl) (by omega) hM t'
        ⟨fun e => absurd e e3, fun _ => ⟨a, by rw [e2]; exact hl, rfl, rfl⟩⟩
      refine ⟨m'', e, ?_, t''⟩
      intro x hx
      rw [List.mem_append] at hx
      rcases hx with hx | hx
      · exact hM x hx
      · exact R.dfs_mem F.toInv (F.link_next hl) hx

/-- Names of the joints of the arcs of `l` that do not lead to `src`. -/
def succNames (src : Option Nat) (l : List (Arc K)) : List String :=
  (l.filter (fun a => decide (some a.next ≠ src))).map (fun a => a.joint.name)

theorem computeSuccessors_spec (R : Rooted h g r d par) (F : Forest h g) (f : Nat) :
    ∀ (u : Nat) (m : SMap (List String)),
      u ∈ g.nodes → g.nodes.length ≤ f + d u →
      ∃ m', computeSuccessors h f u (srcOf r par u) m = .ok m' ∧
        (∀ x ∈ dfs h f u (srcOf r par u), ∀ n, h.nodes[x]? = some n →
          m'.find n.body.name = some (succNames (srcOf r par x) n.arcs)) ∧
        (∀ s : String, (∀ x ∈ dfs h f u (srcOf r par u), ∀ n, h.nodes[x]? = some n → n.body.name ≠ s) →
          m'.find s = m.find s) := by
  induction f with
  | zero => intro u m hu hf; have := R.lt u hu; omega
  | succ f ih =>
    intro u m hu hf
    obtain ⟨n, hn⟩ := F.nodes_get u hu
    have hnd := R.dfs_nodup F (f + 1) hu
    rw [dfs_succ hn, List.nodup_cons] at hnd
    obtain ⟨hund, hnd⟩ := hnd
    rw [computeSuccessors, rd_of_getElem? hn, Res.bind_ok]
    simp only [dfs_succ hn, List.mem_cons]
    -- loop over the remaining arcs `l`
    have loop : ∀ (l : List (Arc K)) (m : SMap (List String)) (pre : List String), (∀ a ∈ l, a ∈ n.arcs) →
        (l.flatMap (fun a => if some a.next ≠ srcOf r par u then dfs h f a.next (some u) else [])).Nodup →
        m.find n.body.name = some pre →
        ∃ m', l.foldlM (fun (m : SMap (List String)) a =>
            if some a.next ≠ srcOf r par u then
              computeSuccessors h f a.next (some u)
                (m.set n.body.name ((m.find n.body.name).getD [] ++ [a.joint.name]))
            else pure m) m = .ok m' ∧
          m'.find n.body.name = some (pre ++ succNames (srcOf r par u) l) ∧
          (∀ x ∈ l.flatMap (fun a => if some a.next ≠ srcOf r par u then dfs h f a.next (some u) else []),
            ∀ n, h.nodes[x]? = some n → m'.find n.body.name = some (succNames (srcOf r par x) n.arcs)) ∧
          (∀ s : String, s ≠ n.body.name →
            (∀ x ∈ l.flatMap (fun a => if some a.next ≠ srcOf r par u then dfs h f a.next (some u) else []),
              ∀ n, h.nodes[x]? = some n → n.body.name ≠ s) → m'.find s = m.find s) := by
      intro l
      induction l with
      | nil =>
        intro m pre _ _ hm
        exact ⟨m, rfl, by simpa [succNames] using hm, by simp, fun _ _ _ => rfl⟩
      | cons a l ihl =>
        intro m pre hl hnd hm
        rw [List.foldlM_cons]
        rw [List.flatMap_cons] at hnd ⊢
        by_cases hs : some a.next ≠ srcOf r par u
        · have hla : Link h g u a := ⟨hu, n, hn, hl a (by simp)⟩
          obtain ⟨e1, e2, e3⟩ := (R.child_iff hla).1 hs
          have hsrc := R.src_child hla hs
          rw [if_pos hs] at hnd ⊢
          rw [if_pos hs]
          rw [List.nodup_append'] at hnd
          obtain ⟨hnd1, hnd2, hdisj⟩ := hnd
          obtain ⟨m1, E1, S1, U1⟩ := ih a.next
            (m.set n.body.name ((m.find n.body.name).getD [] ++ [a.joint.name])) (F.link_next hla) (by omega)
          rw [hsrc] at E1 S1 U1
          have hnotu : ∀ x ∈ dfs h f a.next (some u), ∀ n', h.nodes[x]? = some n' → n'.body.name ≠ n.body.name := by
            intro x hx n' hn' e
            rw [← hsrc] at hx
            have hxm := R.dfs_mem F.toInv (F.link_next hla) hx
            have : x = u := F.name_inj hxm hu hn' hn e
            subst this
            have := (R.dfs_below F.toInv f (F.link_next hla) hx).d_le R
            omega
          have hm1 : m1.find n.body.name = some (pre ++ [a.joint.name]) := by
            rw [U1 _ hnotu, SMap.find_set, if_pos rfl, hm]; rfl
          obtain ⟨m2, E2, P2, S2, U2⟩ := ihl m1 (pre ++ [a.joint.name]) (fun b hb => hl b (List.mem_cons_of_mem _ hb))
            hnd2 hm1
          rw [E1, Res.bind_ok]
          refine ⟨m2, E2, ?_, ?_, ?_⟩
          · rw [P2, List.append_assoc]
            congr 2
            simp [succNames, hs]
          · intro x hx n' hn'
            rw [List.mem_append] at hx
            rcases hx with hx | hx
            · have hxm : x ∈ g.nodes := by
                rw [← hsrc] at hx; exact R.dfs_mem F.toInv (F.link_next hla) hx
              rw [U2 _ (hnotu x hx n' hn'), S1 x hx n' hn']
              intro y hy ny hny e
              have hym : y ∈ g.nodes := by
                rw [List.mem_flatMap] at hy
                obtain ⟨b, hb, hy⟩ := hy
                have hlb : Link h g u b := ⟨hu, n, hn, hl b (List.mem_cons_of_mem _ hb)⟩
                by_cases hbs : some b.next ≠ srcOf r par u
                · rw [if_pos hbs, ← R.src_child hlb hbs] at hy
                  exact R.dfs_mem F.toInv (F.link_next hlb) hy
                · rw [if_neg hbs] at hy; simp at hy
              have : y = x := F.name_inj hym hxm hny hn' e
              exact hdisj hx (this ▸ hy)
            · exact S2 x hx n' hn'
          · intro s hsn hs'
            rw [U2 s hsn (fun x hx => hs' x (List.mem_append_right _ hx)),
              U1 s (fun x hx => hs' x (List.mem_append_left _ hx)), SMap.find_set, if_neg hsn]
        · rw [if_neg hs] at hnd ⊢
          rw [if_neg hs, Res.pure_eq, Res.bind_ok]
          rw [List.nil_append] at hnd ⊢
          obtain ⟨m2, E2, P2, S2, U2⟩ := ihl m pre (fun b hb => hl b (List.mem_cons_of_mem _ hb)) hnd hm
          refine ⟨m2, E2, ?_, S2, U2⟩
          rw [P2]
          congr 2
          simp only [succNames]
          rw [List.filter_cons_of_neg (by simpa using hs)]
    obtain ⟨m', E, P, S, U⟩ := loop n.arcs (m.set n.body.name []) [] (fun a ha => ha) hnd
      (by rw [SMap.find_set, if_pos rfl])
    refine ⟨m', E, ?_, ?_⟩
    · rintro x (rfl | hx) n' hn'
      · obtain rfl := Option.some_inj.1 (hn.symm.trans hn')
        simpa using P
      · exact S x hx n' hn'
    · intro s hs
      have hne : s ≠ n.body.name := fun e => hs u (Or.inl rfl) n hn e.symm
      rw [U s hne (fun x hx => hs x (Or.inr hx)), SMap.find_set, if_neg hne]

end

end Graph
end RBDyn
