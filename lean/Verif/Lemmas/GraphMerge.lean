import Verif.Lemmas.GraphPrune
import Verif.Lemmas.GraphPlace

/-! Effect of `mergeSubBodies` on a tree. -/

namespace RBDyn
variable {K : Type}

/-- A fold some steps of which fail whatever the state, and the others never. -/
theorem foldlM_err {σ γ : Type _} (f : σ → γ → Res σ) (E : Err → Prop) (bad : γ → Prop) (l : List γ)
    (hf : ∀ c ∈ l, ∀ s, (¬ bad c → ∃ s', f s c = .ok s') ∧ (bad c → ∃ e, E e ∧ f s c = .error e)) (s : σ) :
    ((∀ c ∈ l, ¬ bad c) → ∃ s', l.foldlM f s = .ok s') ∧ ((∃ c ∈ l, bad c) → ∃ e, E e ∧ l.foldlM f s = .error e) := by
  induction l generalizing s with
  | nil => exact ⟨fun _ => ⟨s, rfl⟩, fun ⟨c, hc, _⟩ => by cases hc⟩
  | cons c l ih =>
    obtain ⟨h1, h2⟩ := hf c (List.mem_cons_self ..) s
    have ih := ih fun c hc => hf c (List.mem_cons_of_mem _ hc)
    by_cases hb : bad c
    · obtain ⟨e, he, hfe⟩ := h2 hb
      refine ⟨fun h => absurd hb (h c (List.mem_cons_self ..)), fun _ => ⟨e, he, ?_⟩⟩
      rw [List.foldlM_cons, hfe, Res.bind_error]
    · obtain ⟨s', hs'⟩ := h1 hb
      rw [List.foldlM_cons, hs', Res.bind_ok]
      refine ⟨fun h => (ih s').1 fun c hc => h c (List.mem_cons_of_mem _ hc), ?_⟩
      rintro ⟨c', hc', hb'⟩
      rcases List.mem_cons.1 hc' with rfl | hc'
      · exact absurd hb' hb
      · exact (ih s').2 ⟨c', hc', hb'⟩

namespace Graph
variable [Scalar K] {h : Heap K} {g : Graph} {r : Nat} {d par : Nat → Nat}

/-- Inertia of the body in a cell. -/
def inertiaAt (h : Heap K) (x : Nat) : RBInertia K := ((h.nodes[x]?).map (fun n => n.body.inertia)).getD 0

omit [Scalar K] in
theorem inertiaAt_eq [Scalar K] {x : Nat} {n : GNode K} (hn : h.nodes[x]? = some n) : inertiaAt h x = n.body.inertia := by
  rw [inertiaAt, hn]; rfl

theorem Forest.xParent_eq (F : Forest h g) {u : Nat} {a c : Arc K} {n : GNode K} (ha : Link h g u a)
    (hn : h.nodes[a.next]? = some n) (hc : c ∈ n.arcs) (ec : c.next = u) : xParent n a.joint.name = c.X := by
  have hv := F.link_next ha
  have hcl : Link h g a.next c := ⟨hv, n, hn, hc⟩
  rw [xParent]
  cases hf : n.arcs.find? (fun b => b.joint.name == a.joint.name) with
  | none =>
    rw [List.find?_eq_none] at hf
    exact absurd (by simpa using F.pair_name ha hcl ec) (hf c hc)
  | some b =>
    have h1 := List.find?_some hf
    have h2 : Link h g a.next b := ⟨hv, n, hn, List.mem_of_find?_eq_some hf⟩
    have h3 := (F.name_eq_iff ha h2).1 (by simpa using h1)
    rw [F.arc_unique h2 hcl (h3.trans ec.symm)]

/-- Merging one child: in the world frame, the inertia of the child is added. -/
theorem mergeInertia_eq (F : Forest h g) (H : RigidGraph h g) {Q : String → List K} (hQ : ValidConf h g Q)
    {W : Nat → PTransform K} (hW : Placement h g Q W) (rW : ∀ x ∈ g.nodes, IsRigid (W x)) {jp : SMap (List K)} {u : Nat}
    {a c : Arc K} (ha : Link h g u a) (hc : Link h g a.next c) (e : c.next = u)
    (hjp : jp.find a.joint.name = some (Q a.joint.name)) (I N : RBInertia K) :
    ∃ I', mergeInertia I (c.X.dualMulI N) a.joint a.X jp = .ok I' ∧
      (W u).transMulI I' = (W u).transMulI I + (W a.next).transMulI N := by
  obtain ⟨X, hX, -, rX⟩ := F.pair_pose H hQ ha hc e
  have hlen : (Q a.joint.name).length = a.joint.params := by
    have := hQ u a ha
    obtain ⟨t, ax, f, nm, h1 | ⟨mn, m, o, h1⟩⟩ := (H.joint u a ha).built.exists_mk <;>
      rw [h1] at this ⊢ <;> exact this.1
  refine ⟨I + (X * a.X).transMulI (c.X.dualMulI N), ?_, ?_⟩
  · rw [mergeInertia, hjp]
    dsimp only
    rw [if_neg (by rw [hlen]; simp), hX]
    rfl
  · have rc := H.X _ c hc
    have ra := H.X _ a ha
    have rXa := rX.mul ra
    rw [PTransform.transMulI_add, PTransform.dualMulI_eq rc,
      ← PTransform.mul_transMulI _ _ rXa (rW u ha.mem), ← hW u a c X ha hc e hX,
      PTransform.mul_transMulI _ _ rc (rW _ hc.mem), ← PTransform.mul_transMulI _ _ rc.inv rc,
      PTransform.inv_mul rc, PTransform.one_transMulI]

/-- `mergeSubNodes` gives the inertia of the whole sub-tree, in the frame of the joint. -/
theorem mergeSubNodes_spec (R : Rooted h g r d par) (F : Forest h g) (H : RigidGraph h g) {Q : String → List K}
    (hQ : ValidConf h g Q) {W : Nat → PTransform K} (hW : Placement h g Q W) (rW : ∀ x ∈ g.nodes, IsRigid (W x))
    {jp : SMap (List K)} :
    ∀ (f u : Nat) (a c : Arc K), Link h g u a → some a.next ≠ srcOf r par u → Link h g a.next c → c.next = u →
      g.nodes.length ≤ f + d a.next →
      (∀ x t, Below g r par a.next x → x ≠ a.next → JointOf h g par x t → jp.find t = some (Q t)) →
      ∃ N, mergeSubNodes h jp f a.next a.joint.name = .ok (c.X.dualMulI N) ∧
        (W a.next).transMulI N = ((dfs h f a.next (some u)).map (fun x => (W x).transMulI (inertiaAt h x))).sum := by
  intro f
  induction f with
  | zero =>
    intro u a c ha _ _ _ hf
    have := R.lt _ (F.link_next ha)
    omega
  | succ f ih =>
    intro u a c ha hch hc ec hf hjp
    obtain ⟨hd, hpar, har⟩ := (R.child_iff ha).1 hch
    have hv := F.link_next ha
    obtain ⟨n, hn⟩ := F.nodes_get _ hv
    have hsrc := R.src_child ha hch
    have hlink : ∀ b ∈ n.arcs, Link h g a.next b := fun b hb => ⟨hv, n, hn, hb⟩
    have hcn : c ∈ n.arcs := by
      obtain ⟨_, n', hn', hc'⟩ := hc
      rw [hn] at hn'
      rwa [Option.some_inj.1 hn']
    have hxp := F.xParent_eq ha hn hcn ec
    let w : Nat → RBInertia K := fun x => (W x).transMulI (inertiaAt h x)
    let sub : Arc K → List Nat := fun b => if some b.next ≠ some u then dfs h f b.next (some a.next) else []
    obtain ⟨N, hN, hPN⟩ := foldlM_list_inv (fun (I : RBInertia K) (b : Arc K) =>
      if b.joint.name ≠ a.joint.name then do
        let s ← mergeSubNodes h jp f b.next b.joint.name
        mergeInertia I s b.joint b.X jp
      else pure I) n.arcs
      (fun i I => (W a.next).transMulI I = w a.next + (((n.arcs.take i).flatMap sub).map w).sum) n.body.inertia
      (by simp [w, inertiaAt_eq hn]) (by
        intro i I hi hI
        have hb : n.arcs[i] ∈ n.arcs := List.getElem_mem hi
        have hbl := hlink _ hb
        rw [List.take_succ_eq_append_getElem hi, List.flatMap_append, List.map_append, List.sum_append, ← add_assoc, ← hI]
        by_cases hcb : some n.arcs[i].next ≠ some u
        · have hcb' : some n.arcs[i].next ≠ srcOf r par a.next := by rw [hsrc]; exact hcb
          obtain ⟨q1, q2, q3⟩ := (R.child_iff hbl).1 hcb'
          obtain ⟨c', hc', ec', -⟩ := F.paired _ _ hbl
          have hbel : Below g r par a.next n.arcs[i].next :=
            .step (F.link_next hbl) q3 (by rw [q2]; exact .refl hv)
          obtain ⟨N', e1, e2⟩ := ih a.next n.arcs[i] c' hbl hcb' hc' ec' (by omega) (by
            intro x t hx hne hxt
            refine hjp x t (hbel.trans hx) ?_ hxt
            rintro rfl
            have := hx.d_le R
            omega)
          obtain ⟨I', e3, e4⟩ := mergeInertia_eq F H hQ hW rW hbl hc' ec'
            (hjp _ _ hbel (F.noLoop _ _ hbl) ⟨_, by rw [q2]; exact hbl, rfl, rfl⟩) I N'
          refine ⟨I', ?_, ?_⟩
          · rw [if_pos, e1, Res.bind_ok, e3]
            rw [ne_eq, F.name_eq_iff ha hbl]
            exact fun e => hcb (by rw [e])
          · rw [e4, e2]
            congr 1
            simp only [List.flatMap_singleton, sub]
            rw [if_pos hcb]
        · refine ⟨I, ?_, ?_⟩
          · rw [if_neg]
            · rfl
            · rw [ne_eq, F.name_eq_iff ha hbl, not_not]
              exact Option.some_inj.1 (not_not.1 hcb)
          · simp only [List.flatMap_singleton, sub]
            rw [if_neg hcb]
            simp)
    refine ⟨N, ?_, ?_⟩
    · rw [mergeSubNodes, rd_of_getElem? hn, Res.bind_ok, hN, Res.bind_ok, hxp]
      rfl
    · rw [hPN, List.take_length, dfs_succ hn]
      rfl

/-! ### Errors -/

/-- The map gives a joint a vector of the right size. -/
def ConfOK (jp : SMap (List K)) (j : Joint K) : Prop := ∃ q, jp.find j.name = some q ∧ q.length = j.params

/-- The exceptions of `mergeInertia`. -/
def MergeErr (e : Err) : Prop := e = .outOfRange ∨ e = .domainError

theorem mergeInertia_cases {jp : SMap (List K)} {j : Joint K} (hj : j.Built) (I N : RBInertia K) (X : PTransform K) :
    (ConfOK jp j → ∃ I', mergeInertia I N j X jp = .ok I') ∧
    (¬ ConfOK jp j → ∃ e, MergeErr e ∧ mergeInertia I N j X jp = .error e) := by
  rw [mergeInertia]
  cases hf : jp.find j.name with
  | none =>
    refine ⟨fun ⟨q, hq, _⟩ => ?_, fun _ => ⟨_, .inl rfl, rfl⟩⟩
    rw [hf] at hq; cases hq
  | some q =>
    dsimp only
    by_cases hl : q.length = j.params
    · refine ⟨fun _ => ?_, fun hn => absurd ⟨q, hf, hl⟩ hn⟩
      obtain ⟨Y, hY⟩ := hj.pose_ok hl
      rw [if_neg (not_not.2 hl), hY]
      exact ⟨_, rfl⟩
    · refine ⟨fun ⟨q', hq', hl'⟩ => ?_, fun _ => ⟨_, .inr rfl, if_pos hl⟩⟩
      rw [hf] at hq'
      obtain rfl := Option.some_inj.1 hq'
      exact absurd hl' hl

/-- The joint between `x` and its parent has no suitable configuration. -/
def BadAt (h : Heap K) (g : Graph) (par : Nat → Nat) (jp : SMap (List K)) (x : Nat) : Prop :=
  ∃ a, Link h g (par x) a ∧ a.next = x ∧ ¬ ConfOK jp a.joint

theorem mergeSubNodes_cases (R : Rooted h g r d par) (F : Forest h g) (hB : BuiltArcs h g) {jp : SMap (List K)} :
    ∀ (f u : Nat) (a : Arc K), Link h g u a → some a.next ≠ srcOf r par u → g.nodes.length ≤ f + d a.next →
      ((∀ x, Below g r par a.next x → x ≠ a.next → ¬ BadAt h g par jp x) →
        ∃ I, mergeSubNodes h jp f a.next a.joint.name = .ok I) ∧
      ((∃ x, Below g r par a.next x ∧ x ≠ a.next ∧ BadAt h g par jp x) →
        ∃ e, MergeErr e ∧ mergeSubNodes h jp f a.next a.joint.name = .error e) := by
  intro f
  induction f with
  | zero =>
    intro u a ha _ hf
    have := R.lt _ (F.link_next ha)
    omega
  | succ f ih =>
    intro u a ha hch hf
    obtain ⟨hd, hpar, har⟩ := (R.child_iff ha).1 hch
    have hv := F.link_next ha
    obtain ⟨n, hn⟩ := F.nodes_get _ hv
    have hsrc := R.src_child ha hch
    have hlink : ∀ b ∈ n.arcs, Link h g a.next b := fun b hb => ⟨hv, n, hn, hb⟩
    have hchild : ∀ b ∈ n.arcs, (b.joint.name ≠ a.joint.name ↔ some b.next ≠ srcOf r par a.next) := by
      intro b hb
      rw [hsrc, ne_eq, ne_eq, F.name_eq_iff ha ⟨hv, n, hn, hb⟩, Option.some_inj]
    have key := foldlM_err (fun (I : RBInertia K) (b : Arc K) =>
      if b.joint.name ≠ a.joint.name then do
        let s ← mergeSubNodes h jp f b.next b.joint.name
        mergeInertia I s b.joint b.X jp
      else pure I) MergeErr
      (fun b => some b.next ≠ srcOf r par a.next ∧ ∃ x, Below g r par b.next x ∧ BadAt h g par jp x) n.arcs (by
        intro b hb I
        have hbl := hlink b hb
        by_cases hcb : some b.next ≠ srcOf r par a.next
        · obtain ⟨q1, q2, q3⟩ := (R.child_iff hbl).1 hcb
          have hbm := F.link_next hbl
          rw [if_pos ((hchild b hb).2 hcb)]
          obtain ⟨k1, k2⟩ := ih a.next b hbl hcb (by omega)
          have hself : BadAt h g par jp b.next ↔ ¬ ConfOK jp b.joint := by
            constructor
            · rintro ⟨b', hb', e, hno⟩
              rw [q2] at hb'
              rwa [F.arc_unique hb' hbl e] at hno
            · exact fun hno => ⟨b, by rw [q2]; exact hbl, rfl, hno⟩
          constructor
          · intro hnb
            have hnb' : ∀ x, Below g r par b.next x → ¬ BadAt h g par jp x := fun x hx hbad => hnb ⟨hcb, x, hx, hbad⟩
            obtain ⟨s, hs⟩ := k1 fun x hx _ => hnb' x hx
            rw [hs, Res.bind_ok]
            exact (mergeInertia_cases (hB _ _ hbl) I s b.X).1 (not_not.1 ((hself.not).1 (hnb' _ (.refl hbm))))
          · rintro ⟨-, x, hx, hbad⟩
            by_cases hsb : ∃ x, Below g r par b.next x ∧ x ≠ b.next ∧ BadAt h g par jp x
            · obtain ⟨e, he, hs⟩ := k2 hsb
              exact ⟨e, he, by rw [hs, Res.bind_error]⟩
            · obtain ⟨s, hs⟩ := k1 fun x hx hne hbad => hsb ⟨x, hx, hne, hbad⟩
              rw [hs, Res.bind_ok]
              have hxe : x = b.next := by
                by_contra hne
                exact hsb ⟨x, hx, hne, hbad⟩
              exact (mergeInertia_cases (hB _ _ hbl) I s b.X).2 (hself.1 (hxe ▸ hbad))
        · rw [if_neg (fun e => hcb ((hchild b hb).1 e))]
          exact ⟨fun _ => ⟨I, rfl⟩, fun h1 => absurd h1.1 hcb⟩) n.body.inertia
    rw [mergeSubNodes, rd_of_getElem? hn, Res.bind_ok]
    constructor
    · intro hno
      obtain ⟨I, hI⟩ := key.1 (by
        rintro b hb ⟨hcb, x, hx, hbad⟩
        have hbl := hlink b hb
        obtain ⟨q1, q2, q3⟩ := (R.child_iff hbl).1 hcb
        refine hno x (Below.trans (.step (F.link_next hbl) q3 (by rw [q2]; exact .refl hv)) hx) ?_ hbad
        rintro rfl
        have := hx.d_le R
        omega)
      rw [hI]
      exact ⟨_, rfl⟩
    · rintro ⟨x, hx, hne, hbad⟩
      obtain ⟨c, hc1, hc2, hc3, hc4⟩ := hx.of_child R hne
      obtain ⟨b, hb, rfl⟩ := R.exists_arc F hc1 hc2
      rw [hc3] at hb
      obtain ⟨_, n', hn', hbm⟩ := id hb
      obtain rfl := Option.some_inj.1 (hn.symm.trans hn')
      have hd' := R.up_d hc1 hc2
      rw [hc3] at hd'
      obtain ⟨e, he, hs⟩ := key.2 ⟨b, hbm, (R.child_iff hb).2 ⟨hd', hc3, hc2⟩, x, hc4, hbad⟩
      rw [hs]
      exact ⟨e, he, rfl⟩

/-! ### Change of the inertia of one body -/

/-- Write a new inertia in a node. -/
def setInertia (h : Heap K) (u : Nat) (n : GNode K) (I : RBInertia K) : Heap K :=
  { h with nodes := h.nodes.set u { n with body := ⟨I, n.body.name⟩ } }

omit [Scalar K] in
theorem setInertia_get {u : Nat} {n : GNode K} (hn : h.nodes[u]? = some n) (I : RBInertia K) (x : Nat) :
    (setInertia h u n I).nodes[x]? = if x = u then some ⟨⟨I, n.body.name⟩, n.arcs⟩ else h.nodes[x]? := by
  rw [setInertia, List.getElem?_set]
  by_cases e : u = x
  · subst e; rw [if_pos rfl, if_pos rfl, if_pos (List.getElem?_eq_some_iff.1 hn).1]
  · rw [if_neg e, if_neg (Ne.symm e)]

omit [Scalar K] in
theorem setInertia_cell {u : Nat} {n : GNode K} (hn : h.nodes[u]? = some n) (I : RBInertia K) (x : Nat) (m : GNode K) :
    ((setInertia h u n I).nodes[x]? = some m → ∃ m', h.nodes[x]? = some m' ∧ m'.arcs = m.arcs ∧ m'.body.name = m.body.name) ∧
    (h.nodes[x]? = some m → ∃ m', (setInertia h u n I).nodes[x]? = some m' ∧ m'.arcs = m.arcs ∧ m'.body.name = m.body.name) := by
  rw [setInertia_get hn]
  by_cases e : x = u
  · subst e
    rw [if_pos rfl]
    constructor
    · intro h1
      obtain rfl := Option.some_inj.1 h1
      exact ⟨n, hn, rfl, rfl⟩
    · intro h1
      obtain rfl := Option.some_inj.1 (hn.symm.trans h1)
      exact ⟨_, rfl, rfl, rfl⟩
  · rw [if_neg e]
    exact ⟨fun h1 => ⟨m, h1, rfl, rfl⟩, fun h1 => ⟨m, h1, rfl, rfl⟩⟩

omit [Scalar K] in
theorem setInertia_link {u : Nat} {n : GNode K} (hn : h.nodes[u]? = some n) (I : RBInertia K) {x : Nat} {a : Arc K} :
    Link (setInertia h u n I) g x a ↔ Link h g x a := by
  constructor
  · rintro ⟨hx, m, hm, ha⟩
    obtain ⟨m', hm', e, -⟩ := (setInertia_cell hn I x m).1 hm
    exact ⟨hx, m', hm', by rw [e]; exact ha⟩
  · rintro ⟨hx, m, hm, ha⟩
    obtain ⟨m', hm', e, -⟩ := (setInertia_cell hn I x m).2 hm
    exact ⟨hx, m', hm', by rw [e]; exact ha⟩

theorem Tree.setInertia (T : Tree h g) {u : Nat} {n : GNode K} (hn : h.nodes[u]? = some n) (I : RBInertia K) :
    Tree (setInertia h u n I) g := by
  have hl : ∀ {x a}, Link (Graph.setInertia h u n I) g x a ↔ Link h g x a := setInertia_link hn I
  have hs : simple (Graph.setInertia h u n I) g = simple h g := simple_congr fun x a => hl
  have I' : Inv (Graph.setInertia h u n I) g := by
    refine ⟨T.nodes_nodup, T.joints_nodup, ?_, T.joint, ?_, T.joints_get, ?_⟩
    · intro s p
      rw [T.body]
      refine and_congr_right fun _ => ?_
      constructor
      · rintro ⟨m, hm, e⟩
        obtain ⟨m', hm', -, e'⟩ := (setInertia_cell hn I p m).2 hm
        exact ⟨m', hm', e'.trans e⟩
      · rintro ⟨m, hm, e⟩
        obtain ⟨m', hm', -, e'⟩ := (setInertia_cell hn I p m).1 hm
        exact ⟨m', hm', e'.trans e⟩
    · intro p hp
      obtain ⟨m, hm⟩ := T.nodes_get p hp
      obtain ⟨m', hm', -⟩ := (setInertia_cell hn I p m).2 hm
      exact ⟨m', hm'⟩
    · intro p hp m hm a ha
      exact T.link_next (hl.1 ⟨hp, m, hm, ha⟩)
  refine { I' with acyclic := ?_, noLoop := ?_, single := ?_, paired := ?_, registered := ?_, jointOnce := ?_, connected := ?_ }
  · rw [hs]; exact T.acyclic
  · exact fun x a ha => T.noLoop x a (hl.1 ha)
  · intro x hx m hm
    obtain ⟨m', hm', e, -⟩ := (setInertia_cell hn I x m).1 hm
    rw [← e]; exact T.single x hx m' hm'
  · intro x a ha
    obtain ⟨b, hb, r⟩ := T.paired x a (hl.1 ha)
    exact ⟨b, hl.2 hb, r⟩
  · exact fun x a ha => T.registered x a (hl.1 ha)
  · exact fun x y a b ha hb => T.jointOnce x y a b (hl.1 ha) (hl.1 hb)
  · rw [hs]; exact T.connected

omit [Scalar K] in
theorem Rooted.setInertia (R : Rooted h g r d par) {u : Nat} {n : GNode K} (hn : h.nodes[u]? = some n)
    (I : RBInertia K) : Rooted (setInertia h u n I) g r d par :=
  ⟨R.mem, R.d0, fun x a ha => R.step x a ((setInertia_link hn I).1 ha),
    fun x hx hxr => by
      obtain ⟨a, ha, e⟩ := R.up x hx hxr
      exact ⟨a, (setInertia_link hn I).2 ha, e⟩, R.lt⟩

omit [Scalar K] in
theorem setInertia_kept {u : Nat} {n : GNode K} (hn : h.nodes[u]? = some n) (I : RBInertia K) (L : List String) (x : Nat) :
    Kept (setInertia h u n I) g L r x ↔ Kept h g L r x := by
  have : cut (setInertia h u n I) g L = cut h g L := by
    ext x y
    simp only [cut, setInertia_link hn I]
  rw [Kept, Kept, this]

end Graph
end RBDyn
