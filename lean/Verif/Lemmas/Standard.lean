import Verif.Lemmas.Remake
import Verif.Lemmas.GraphFix
import Verif.Lemmas.GraphPrune

/-! Robots the writers of `src/parsers` can print. -/

namespace RBDyn
open Graph
variable {K : Type} [Scalar K]

/-- The `MultiBody` and the configuration of `r` were made from its graph, as the readers do, the graph is a tree, the
second transform of each link is the identity, as the readers ask, the joints are traversed in their own direction and
no joint has the name of the root joint. -/
structure PResult.Standard (env : ParserEnv K) (r : PResult K) (base : String) (fixed : Bool) : Prop where
  tree : Graph.Tree r.heap r.graph
  built : Graph.BuiltArcs r.heap r.graph
  made : finish env r.name base fixed ((r.heap, r.graph), r.limits) = .ok r
  back : ∀ (u : Nat) (a : Arc K), Link r.heap r.graph u a → a.joint.isForward = false → a.X = 1
  forward : ∀ j ∈ r.mb.joints, j.isForward = true
  rootName : r.graph.rootName = "Root"
  notRoot : ∀ (u : Nat) (a : Arc K), Link r.heap r.graph u a → a.joint.name ≠ "Root"

/-- The root joint `makeMultiBody(base, fixed)` creates. -/
def rootJoint (K : Type) [Scalar K] (fixed : Bool) : Joint K :=
  Joint.mk' (if fixed then .Fixed else .Free) Vec3.unitZ true "Root"

/-- Entry `i` of the vectors of the `MultiBody`, for a joint other than the root. -/
structure PResult.Entry (r : PResult K) (i : Nat) : Prop where
  out : ∃ (p : Nat) (bp bc : Body K) (j : Joint K) (X : PTransform K) (u : Nat) (nd : GNode K) (a : Arc K),
    p < i ∧ r.mb.pred[i]? = some (p : Int) ∧
    r.mb.bodies[p]? = some bp ∧ r.mb.bodies[i]? = some bc ∧ r.mb.joints[i]? = some j ∧ r.mb.Xt[i]? = some X ∧
    j.Built ∧ j.isForward = true ∧ r.graph.nodeByName bp.name = .ok u ∧ r.heap.nodes[u]? = some nd ∧
    nd.arcs.filter (fun a => a.joint.name = j.name) = [a] ∧ a.X = X ∧ j.name ≠ "Root"

/-- The `MultiBody` of a standard robot. -/
structure PResult.Spec (r : PResult K) (fixed : Bool) (n : Nat) : Prop where
  same : Same (stOf r.mb) n
  pos : 0 < n
  wf : r.mb.WF
  ctor : MultiBody.mk' r.mb.bodies r.mb.joints r.mb.pred r.mb.succ r.mb.parent r.mb.Xt = .ok r.mb
  find : ∀ (i : Nat) (j : Joint K), r.mb.joints[i]? = some j → r.mb.jointIndexByName j.name = .ok i
  succ : ∀ i : Nat, i < n → r.mb.succ[i]? = some (i : Int)
  par : r.mb.parent = r.mb.pred
  rootPred : r.mb.pred[0]? = some (-1)
  rootJ : r.mb.joints[0]? = some (rootJoint K fixed)
  rootX : r.mb.Xt[0]? = some 1
  kids : Kids r.mb.pred 0 1 n
  bnames : (r.mb.bodies.map Body.name).Nodup
  jnames : (r.mb.joints.map Joint.name).Nodup
  entry : ∀ i, 0 < i → i < n → r.Entry i

omit [Scalar K] in
theorem nodup_map_of_inj {α β : Type} {f : α → β} {l : List α}
    (h : ∀ (i i' : Nat) (a a' : α), l[i]? = some a → l[i']? = some a' → f a = f a' → i = i') : (l.map f).Nodup := by
  rw [List.nodup_iff_injective_get]
  rintro ⟨i, hi⟩ ⟨i', hi'⟩ e
  rw [List.length_map] at hi hi'
  have := h i i' _ _ (List.getElem?_eq_getElem hi) (List.getElem?_eq_getElem hi') (by simpa using e)
  exact Fin.ext this

theorem finish_mb {env : ParserEnv K} {name base : String} {fixed : Bool} {s : PSt K} {r : PResult K}
    (h : finish env name base fixed s = .ok r) : makeMultiBodyF s.1.1 s.1.2 base fixed 1 1 = .ok r.mb := by
  unfold finish at h
  obtain ⟨mb, h1, h⟩ := Res.bind_eq_ok.1 h
  obtain ⟨mbc, -, h⟩ := Res.bind_eq_ok.1 h
  obtain ⟨mbc, -, h⟩ := Res.bind_eq_ok.1 h
  obtain ⟨mbc, -, h⟩ := Res.bind_eq_ok.1 h
  obtain ⟨mbc, -, h⟩ := Res.bind_eq_ok.1 h
  rw [← Except.ok.inj h]
  exact h1

/-- The end of the readers depends only on the `MultiBody`. -/
theorem finish_of_mb {env : ParserEnv K} {name base name' base' : String} {fixed fixed' : Bool} {s s' : PSt K}
    {r : PResult K} (h : finish env name base fixed s = .ok r)
    (h' : makeMultiBodyF s'.1.1 s'.1.2 base' fixed' 1 1 = .ok r.mb) :
    finish env name' base' fixed' s' = .ok ⟨name', r.mb, r.mbc, s'.1.1, s'.1.2, s'.2⟩ := by
  unfold finish at h ⊢
  obtain ⟨mb, h1, h⟩ := Res.bind_eq_ok.1 h
  obtain ⟨mbc1, e1, h⟩ := Res.bind_eq_ok.1 h
  obtain ⟨mbc2, e2, h⟩ := Res.bind_eq_ok.1 h
  obtain ⟨mbc3, e3, h⟩ := Res.bind_eq_ok.1 h
  obtain ⟨mbc4, e4, h⟩ := Res.bind_eq_ok.1 h
  obtain rfl := Except.ok.inj h
  dsimp only at h' ⊢
  rw [h', Res.bind_ok, e1, Res.bind_ok, e2, Res.bind_ok, e3, Res.bind_ok, e4, Res.bind_ok]
  rfl

theorem PResult.Standard.spec {env : ParserEnv K} {r : PResult K} {base : String} {fixed : Bool}
    (S : r.Standard env base fixed) : ∃ n, r.Spec fixed n := by
  have hmade := finish_mb S.made
  dsimp only at hmade
  unfold makeMultiBodyF makeMultiBodyT at hmade
  have hbase : ∃ x, r.graph.bodyMap.find base = some x := by
    unfold Graph.makeMultiBody at hmade
    obtain ⟨x, hx, -⟩ := Res.bind_eq_ok.1 hmade
    exact ⟨x, getAt_find hx⟩
  obtain ⟨x0, hx0⟩ := hbase
  have hx0m : x0 ∈ r.graph.nodes := ((S.tree.body _ _).1 hx0).1
  obtain ⟨d, par, R⟩ := S.tree.rooted hx0m
  obtain ⟨mb, e, wf, c, tr⟩ := R.makeMultiBody S.tree.toForest S.built hx0 (if fixed then .Fixed else .Free)
    Vec3.unitZ 1 1
  obtain rfl := Except.ok.inj (hmade.symm.trans e)
  -- depth first order
  have hst : ∃ n, 0 < n ∧ Same (stOf r.mb) n ∧ Kids r.mb.pred 0 1 n ∧
      MultiBody.mk' r.mb.bodies r.mb.joints r.mb.pred r.mb.succ r.mb.parent r.mb.Xt = .ok r.mb := by
    have e1 := e
    unfold Graph.makeMultiBody at e1
    obtain ⟨x, hx, e1⟩ := Res.bind_eq_ok.1 e1
    dsimp only at e1
    obtain ⟨st', h1, h2⟩ := Res.bind_eq_ok.1 e1
    obtain ⟨n, sm, -, hlt, hg, k⟩ := makeTree_kids _ _ _ _ _ _ _ _ _ _ _ _ 0 ⟨rfl, rfl, rfl, rfl, rfl, rfl⟩ h1
    obtain ⟨mb', h3, hi⟩ := ctor_inv st'.bodies st'.joints st'.pred st'.succ st'.parent st'.Xt (sm.j.trans sm.b.symm)
    obtain rfl := Except.ok.inj (h2.symm.trans h3)
    have : stOf r.mb = st' := by
      unfold stOf; rw [hi.bodies, hi.joints, hi.pred, hi.succ, hi.parent, hi.Xt]
    refine ⟨n, hlt, this ▸ sm, ?_, ?_⟩
    · rw [hi.pred]; exact_mod_cast k
    · rw [hi.bodies, hi.joints, hi.pred, hi.succ, hi.parent, hi.Xt]; exact h2
  obtain ⟨n, hn0, sm, kids, hctor⟩ := hst
  have hN : (dfs r.heap r.heap.fuel x0 none).length = n := by rw [← tr.nbodies]; exact sm.b
  have hNd : (dfs r.heap r.heap.fuel x0 none).Nodup := by
    have := R.dfs_nodup S.tree.toForest r.heap.fuel R.mem
    rwa [show srcOf x0 par x0 = none from if_pos rfl] at this
  -- the index of the root
  have hroot : ∀ i x : Nat, (dfs r.heap r.heap.fuel x0 none)[i]? = some x → (x = x0 ↔ i = 0) := by
    intro i x hx
    constructor
    · intro h; exact ((tr.entry i x hx).root h).1
    · intro h
      by_contra hne
      obtain ⟨k, a, -, hk, -⟩ := (tr.entry i x hx).child hne
      omega
  have hget : ∀ i, i < n → ∃ x, (dfs r.heap r.heap.fuel x0 none)[i]? = some x :=
    fun i hi => ⟨_, List.getElem?_eq_getElem (by omega)⟩
  obtain ⟨y, hy⟩ := hget 0 hn0
  have E0 := (tr.entry 0 y hy).root ((hroot 0 y hy).2 rfl)
  -- the base transforms are identities
  have hxf : ∀ i x : Nat, (dfs r.heap r.heap.fuel x0 none)[i]? = some x → xf r.heap x0 par 1 x = 1 := by
    intro i x hx
    have E := tr.entry i x hx
    by_cases hr : x = x0
    · rw [hr, xf_root]
    · obtain ⟨k, a, -, -, ha, hax, hj, -⟩ := E.child hr
      obtain ⟨b, hb, hbn, j, dd, e1, e2⟩ := S.tree.paired _ a ha
      rw [hax] at hb
      rw [S.tree.toForest.xf_arc hb hbn hr]
      refine S.back _ _ hb ?_
      have hf := S.forward a.joint (List.mem_of_getElem? hj)
      rw [e1, Joint.isForward_setForward] at hf
      rw [e2, Joint.isForward_setForward, hf]; rfl
  have hroot' : ∀ u a, Link r.heap r.graph u a →
      a.joint.name ≠ (Joint.mk' (if fixed then .Fixed else .Free) Vec3.unitZ true r.graph.rootName : Joint K).name := by
    intro u a ha
    show a.joint.name ≠ r.graph.rootName
    rw [S.rootName]; exact S.notRoot u a ha
  have hjinj : ∀ (i i' : Nat) (b b' : Joint K), r.mb.joints[i]? = some b → r.mb.joints[i']? = some b' →
      b.name = b'.name → i = i' := fun i i' b b' hb hb' e =>
    tr.joint_inj R S.tree.toForest hNd hroot' hb hb' e
  refine ⟨n, sm, hn0, wf, hctor, ?_, ?_, tr.parent_eq, E0.2.2.1, ?_, E0.2.2.2.2, kids, ?_, ?_, ?_⟩
  · intro i j hj
    have h1 := Graph.CtorInv.joint_find c (sm.j.trans sm.b.symm) hjinj hj
    unfold MultiBody.sJointIndexByName at h1
    unfold MultiBody.jointIndexByName SMap.get
    rw [getAt_find h1]
  · intro i hi
    obtain ⟨x, hx⟩ := hget i hi
    exact (tr.entry i x hx).succ
  · have := E0.2.1
    rw [S.rootName] at this
    exact this
  · exact nodup_map_of_inj fun i i' b b' hb hb' e => tr.body_inj S.tree.toInv hNd hb hb' e
  · exact nodup_map_of_inj hjinj
  · intro i h0 hi
    obtain ⟨x, hx⟩ := hget i hi
    have E := tr.entry i x hx
    have hne : x ≠ x0 := fun h => by have := (hroot i x hx).1 h; omega
    obtain ⟨k, a, hk, hki, ha, hax, hj, hp, -, hX⟩ := E.child hne
    obtain ⟨bc, hbc⟩ : ∃ b, r.mb.bodies[i]? = some b :=
      ⟨_, List.getElem?_eq_getElem (by have : r.mb.bodies.length = n := sm.b; omega)⟩
    obtain ⟨nd, hnd, hbp⟩ := (tr.entry k _ hk).body
    obtain ⟨hpm, nd', hnd', ham⟩ := id ha
    obtain rfl := Option.some_inj.1 (hnd.symm.trans hnd')
    rw [hxf k _ hk, PTransform.inv_one, PTransform.mul_one'] at hX
    refine ⟨k, _, bc, a.joint, a.X, par x, nd, a, hki, hp, hbp, hbc, hj, hX, S.built _ _ ha,
      S.forward _ (List.mem_of_getElem? hj), ?_, hnd, ?_, rfl, S.notRoot _ _ ha⟩
    · exact getAt_some ((S.tree.body _ _).2 ⟨hpm, nd, hnd, rfl⟩)
    · have hone : ∀ b ∈ nd.arcs, b.joint.name = a.joint.name → b = a := by
        intro b hb e
        rcases S.tree.jointOnce _ _ b a ⟨hpm, nd, hnd, hb⟩ ha e with h | ⟨h1, h2⟩
        · exact h.2
        · exact absurd h1.symm (S.tree.noLoop _ _ ha)
      have hnod : nd.arcs.Nodup := List.Nodup.of_map _ (S.tree.single _ hpm nd hnd)
      refine List.perm_singleton.1
        ((List.perm_ext_iff_of_nodup (hnod.filter _) (List.nodup_singleton a)).2 (fun b => ?_))
      rw [List.mem_filter, List.mem_singleton]
      constructor
      · rintro ⟨hb, e⟩; exact hone b hb (by simpa using e)
      · rintro rfl; exact ⟨ham, by simp⟩

/-! ### The links of a standard robot -/

/-- The links `es` are those of the robot, and what the writers read of them in the graph. -/
structure PResult.Edges (r : PResult K) (es : List (Edge K)) (n : Nat) : Prop where
  links : Links (stOf r.mb) es n
  joints : r.mb.joints.tail = es.map Edge.j
  info : ∀ e ∈ es, jointInfo r e.j = (do
    let type ← writeType r.limits e.j
    let axis ← writeAxis e.j
    return ⟨type, e.parent, e.child, [e.X], axis⟩)
  jnodup : (es.map (fun e => e.j.name)).Nodup
  known : ∀ e ∈ es, e.parent ∈ r.mb.bodies.map Body.name ∧ e.child ∈ r.mb.bodies.map Body.name

theorem PResult.Spec.edges {r : PResult K} {fixed : Bool} {n : Nat} (S : r.Spec fixed n) : ∃ es, r.Edges es n := by
  have hE : ∀ t : Fin (n - 1), ∃ (e : Edge K) (p : Nat) (bp bc : Body K), p < t.1 + 1 ∧
      r.mb.pred[t.1 + 1]? = some (p : Int) ∧ r.mb.bodies[p]? = some bp ∧ r.mb.bodies[t.1 + 1]? = some bc ∧
      e.parent = bp.name ∧ e.child = bc.name ∧ r.mb.Xt[t.1 + 1]? = some e.X ∧ r.mb.joints[t.1 + 1]? = some e.j ∧
      e.j.isForward = true ∧ e.j.Built ∧ jointInfo r e.j = (do
        let type ← writeType r.limits e.j
        let axis ← writeAxis e.j
        return ⟨type, e.parent, e.child, [e.X], axis⟩) := by
    intro t
    have ht := t.2
    obtain ⟨p, bp, bc, j, X, u, nd, a, h1, h2, h3, h4, h5, h6, h7, h8, h9, h10, h11, h12, h13⟩ :=
      (S.entry (t.1 + 1) (by omega) (by omega)).out
    refine ⟨⟨bp.name, bc.name, X, j⟩, p, bp, bc, h1, h2, h3, h4, rfl, rfl, h6, h5, h8, h7, ?_⟩
    unfold jointInfo
    cases writeType r.limits j with
    | error e => rfl
    | ok type =>
      simp only [Res.bind_ok]
      rw [S.find _ _ h5, Res.bind_ok]
      unfold MultiBody.predecessor MultiBody.successor MultiBody.body
      rw [rdI_ofNat, rd_of_getElem? h2, Res.bind_ok, if_pos (by omega), rdI_ofNat, rd_of_getElem? h3, Res.bind_ok,
        rdI_ofNat, rd_of_getElem? (S.succ (t.1 + 1) (by omega)), Res.bind_ok, rdI_ofNat, rd_of_getElem? h4, Res.bind_ok,
        h9, Res.bind_ok, rd_of_getElem? h10, Res.bind_ok, h11]
      simp only [List.map_cons, List.map_nil, h12]
  choose e p bp bc h1 h2 h3 h4 h5 h6 h7 h8 h9 h10 h11 using hE
  have hget : ∀ (t : Nat) (x : Edge K), (List.ofFn e)[t]? = some x → ∃ ht : t < n - 1, x = e ⟨t, ht⟩ := by
    intro t x hx
    rw [List.getElem?_ofFn] at hx
    split at hx
    · rename_i ht; exact ⟨ht, (Option.some_inj.1 hx).symm⟩
    · cases hx
  have hjt : r.mb.joints.tail = (List.ofFn e).map Edge.j := by
    apply List.ext_getElem?
    intro t
    rw [List.getElem?_tail, List.getElem?_map]
    by_cases ht : t < n - 1
    · rw [h8 ⟨t, ht⟩, List.getElem?_ofFn, dif_pos ht]; rfl
    · have hl : r.mb.joints.length = n := S.same.j
      rw [List.getElem?_eq_none (by omega), List.getElem?_eq_none (by rw [List.length_ofFn]; omega)]
      rfl
  have hmem : ∀ x ∈ List.ofFn e, ∃ t, x = e t := by
    intro x hx
    obtain ⟨t, rfl⟩ := (List.mem_ofFn' _ _).1 hx
    exact ⟨t, rfl⟩
  refine ⟨List.ofFn e, ⟨S.same, S.pos, S.succ, S.par, S.rootPred, S.kids, ?_, ?_⟩, hjt, ?_, ?_, ?_⟩
  · rw [List.length_ofFn]; have := S.pos; omega
  · intro t x hx
    obtain ⟨ht, rfl⟩ := hget t x hx
    let u : Fin (n - 1) := ⟨t, ht⟩
    exact ⟨p u, bp u, bc u, h1 u, h2 u, h3 u, h4 u, h5 u, h6 u, h7 u, h8 u, h9 u, h10 u⟩
  · intro x hx
    obtain ⟨t, rfl⟩ := hmem x hx
    exact h11 t
  · have := S.jnames
    rw [show (List.ofFn e).map (fun e => e.j.name) = (r.mb.joints.map Joint.name).tail by
      rw [← List.map_tail, hjt, List.map_map]; rfl]
    exact this.tail
  · intro x hx
    obtain ⟨t, rfl⟩ := hmem x hx
    rw [h5, h6]
    exact ⟨List.mem_map_of_mem (List.mem_of_getElem? (h3 t)), List.mem_map_of_mem (List.mem_of_getElem? (h4 t))⟩

/-- The graph with the same links gives the same `MultiBody`. -/
theorem PResult.Edges.remake {r : PResult K} {fixed : Bool} {n : Nat} {es : List (Edge K)} (S : r.Spec fixed n)
    (E : r.Edges es n) {s : GSt K} (A : Assembled r.mb.bodies es s) {b0 : Body K} (hb : r.mb.bodies[0]? = some b0) :
    makeMultiBodyF s.1 s.2 b0.name fixed 1 1 = .ok r.mb := by
  unfold makeMultiBodyF makeMultiBodyT Graph.makeMultiBody
  have hp : s.2.bodyMap.getAt b0.name = .ok 0 := by
    apply getAt_some
    rw [A.bmap]
    exact (posOf_eq_some_iff A.bnodup).2 ⟨b0, hb, rfl⟩
  rw [hp, Res.bind_ok, A.root]
  have := E.links.make (s := s) (by exact A) S.rootJ S.rootX
  unfold rootJoint at this
  dsimp only
  rw [this, Res.bind_ok]
  exact S.ctor

/-- The loop of the writers over the joints. -/
theorem PResult.Edges.writeJoints {r : PResult K} {fixed : Bool} {n : Nat} {es : List (Edge K)} (S : r.Spec fixed n)
    (E : r.Edges es n) {β : Type} {w : Joint K → Res β} {xs : List β}
    (h : List.Forall₂ (fun e x => w e.j = .ok x) es xs) : RBDyn.writeJoints r w = .ok xs := by
  have hj : r.mb.joints = rootJoint K fixed :: es.map Edge.j := by
    rw [← E.joints]
    have := S.rootJ
    cases hjs : r.mb.joints with
    | nil => rw [hjs] at this; cases this
    | cons a l => rw [hjs] at this; rw [List.tail_cons, ← Option.some_inj.1 this]
  unfold RBDyn.writeJoints
  rw [hj, List.foldlM_cons, S.find 0 _ S.rootJ, Res.bind_ok]
  simp only [Nat.cast_zero, if_true]
  show (Except.ok [] >>= _) = _
  rw [Res.bind_ok]
  have key : ∀ (l : List (Edge K)) (ys acc : List β), List.Forall₂ (fun e x => w e.j = .ok x) l ys →
      (∀ e ∈ l, ∃ i : Nat, 0 < i ∧ r.mb.joints[i]? = some e.j) →
      (l.map Edge.j).foldlM (fun acc j => (do
        let index ← r.mb.jointIndexByName j.name
        if index = 0 then return acc
        let x ← w j
        return acc ++ [x])) acc = .ok (acc ++ ys) := by
    intro l ys acc hf
    induction hf generalizing acc with
    | nil => intro _; simp
    | @cons e x l ys he _ ih =>
      intro hm
      obtain ⟨i, h0, hi⟩ := hm e (by simp)
      rw [List.map_cons, List.foldlM_cons, S.find i _ hi, Res.bind_ok, if_neg (by omega)]
      rw [he, Res.bind_ok]
      show (Except.ok _ >>= _) = _
      rw [Res.bind_ok, ih _ (fun e he => hm e (by simp [he]))]
      simp
  refine (key es xs [] h ?_).trans (by simp)
  intro e he
  obtain ⟨t, ht, rfl⟩ := List.mem_iff_getElem.1 he
  refine ⟨t + 1, by omega, ?_⟩
  rw [hj, List.getElem?_cons_succ, List.getElem?_map, List.getElem?_eq_getElem ht]
  rfl

end RBDyn
