import Verif.Lemmas.TreeDoc
import Verif.Lemmas.Standard
import Verif.Lemmas.Kinematics
import Verif.Lemmas.Config

/-! The readers accept every description of a tree, and give the `MultiBody` described. -/

namespace RBDyn
open Graph
variable {K : Type} [Scalar K]

/-- The end of the readers does not fail on a well-formed `MultiBody`. -/
theorem finish_ok {env : ParserEnv K} {name base : String} {fixed : Bool} {s : PSt K} {mb : MultiBody K}
    (h : makeMultiBodyF s.1.1 s.1.2 base fixed 1 1 = .ok mb) (wf : mb.WF) :
    ∃ mbc : MBC K, mbc.Sized mb ∧ mbc.q = mb.joints.map (·.zeroParam) ∧ mbc.alpha = mb.joints.map (·.zeroDof) ∧
      finish env name base fixed s = .ok ⟨name, mb, mbc, s.1.1, s.1.2, s.2⟩ := by
  have hb := wf.built
  have hn := wf.njoints
  unfold finish
  rw [h, Res.bind_ok, MBC.mk'_eq, Res.bind_ok, MBC.zero_eq _ _ (by simp) (by simp) (by simp) (by simp), Res.bind_ok]
  have hd : (mb.joints.map (·.zeroDof)).map List.length = mb.joints.map (·.dof) := by
    rw [List.map_map]; exact List.map_congr_left fun j hj => (hb j hj).zeroDof_length
  have sz : MBC.Sized mb
      { q := mb.joints.map (·.zeroParam), alpha := mb.joints.map (·.zeroDof), alphaD := mb.joints.map (·.zeroDof),
        force := ((List.range mb.bodies.length).map env.uninit.fv).map fun _ => 0
        jointConfig := (List.range mb.joints.length).map env.uninit.X
        jointVelocity := (List.range mb.joints.length).map env.uninit.mv
        jointTorque := mb.joints.map (·.zeroDof)
        motionSubspace := (List.range mb.joints.length).map fun i =>
          (List.range ((mb.joints[i]?.map (·.dof)).getD 0)).map (env.uninit.col i)
        bodyPosW := (List.range mb.bodies.length).map env.uninit.X
        parentToSon := (List.range mb.bodies.length).map env.uninit.X
        bodyVelW := (List.range mb.bodies.length).map env.uninit.mv
        bodyVelB := (List.range mb.bodies.length).map env.uninit.mv
        bodyAccB := (List.range mb.bodies.length).map env.uninit.mv
        gravity := ⟨0, 981 / 100, 0⟩ } := by
    refine ⟨?_, hd, hd, hd, by simp, by simp [hn], by simp [hn], ?_, by simp, by simp, by simp, by simp, by simp⟩
    · show (mb.joints.map (·.zeroParam)).map List.length = mb.joints.map (·.params)
      rw [List.map_map]; exact List.map_congr_left fun j hj => (hb j hj).zeroParam_length
    · apply List.ext_getElem?
      intro i
      by_cases hi : i < mb.joints.length
      · simp [hi]
      · rw [List.getElem?_eq_none (by simp; omega), List.getElem?_eq_none (by simp; omega)]
  dsimp only
  generalize hm : (⟨_, _, _, _, _, _, _, _, _, _, _, _, _, _⟩ : MBC K) = m0 at sz ⊢
  have hq : m0.q = mb.joints.map (·.zeroParam) := by rw [← hm]
  have ha : m0.alpha = mb.joints.map (·.zeroDof) := by rw [← hm]
  clear hm
  obtain ⟨h1, h2, h3⟩ := sz.fk wf
  have hX : Filled (fkPost mb m0).parentToSon (fun i => some (mb.ptsAt (fkPost mb m0).q i)) mb.bodies.length
      mb.bodies.length := by
    rw [h3.parentToSon]; exact .of_range_map
  have hW : Filled (fkPost mb m0).bodyPosW (fun i => some (mb.posAt (fkPost mb m0).q i)) mb.bodies.length
      mb.bodies.length := by
    rw [h3.bodyPosW]; exact .of_range_map
  rw [h1, Res.bind_ok, fv_eq wf h2.alpha hX hW h2.jointVelocity h2.bodyVelB h2.bodyVelW, Res.bind_ok]
  refine ⟨fvPost mb (fkPost mb m0) (mb.ptsAt (fkPost mb m0).q) (mb.posAt (fkPost mb m0).q), ?_, hq, ha, rfl⟩
  refine { h2 with jointVelocity := ?_, bodyVelB := ?_, bodyVelW := ?_ } <;> simp [fvPost]

/-- What a reader must return for the bodies `bs`, the joints `es` and the root `base`: the bodies are those described,
each other joint than the root joint is one of those described, in the place described, and all are there. -/
structure PResult.Reads (r : PResult K) (bs : List (Body K)) (es : List (Edge K)) (base : String) (fixed : Bool) :
    Prop where
  wf : r.mb.WF
  sized : r.mbc.Sized r.mb
  bodies : r.mb.bodies.Perm bs
  joints : r.mb.joints.tail.Perm (es.map Edge.j)
  rootBody : ∃ b, r.mb.bodies[0]? = some b ∧ b.name = base
  rootJoint : r.mb.joints[0]? = some (rootJoint K fixed)
  rootPred : r.mb.pred[0]? = some (-1)
  rootX : r.mb.Xt[0]? = some 1
  entry : ∀ i, 0 < i → i < r.mb.nrJoints → ∃ e ∈ es, ∃ (p : Nat) (bp bc : Body K), r.mb.joints[i]? = some e.j ∧
    r.mb.Xt[i]? = some e.X ∧ r.mb.pred[i]? = some (p : Int) ∧ p < i ∧ r.mb.bodies[p]? = some bp ∧
    r.mb.bodies[i]? = some bc ∧ bp.name = e.parent ∧ bc.name = e.child

/-- A link seen from the parent in the tree is the one described. -/
theorem assembled_arc {bs : List (Body K)} {es : List (Edge K)} {s : GSt K} (A : Assembled bs es s) {base : String}
    (T : TreeShape (bs.map Body.name) (es.map Edge.ends) base) {r : Nat} (hr : posOf bs base = some r) {d par : Nat → Nat}
    (R : Rooted s.1 s.2 r d par) (Tr : Tree s.1 s.2) (k : Nat) :
    ∀ (u : Nat) (a : Arc K), d u = k → u ≠ r → u ∈ s.2.nodes → Link s.1 s.2 (par u) a → a.next = u →
      ∃ e ∈ es, posOf bs e.parent = some (par u) ∧ posOf bs e.child = some u ∧ a = mkArc e.X e.j e.j.isForward u := by
  induction k using Nat.strong_induction_on with
  | _ k ih =>
    intro u a hk hu hm ha hn
    obtain ⟨e, he, p, c, hp, hc, ⟨h1, rfl⟩ | ⟨h1, rfl⟩⟩ := (assembled_link_iff A).1 ha
    · obtain rfl : c = u := hn
      exact ⟨e, he, h1 ▸ hp, hc, rfl⟩
    · exfalso
      obtain rfl : p = u := hn
      have hcb : e.child ≠ base := fun h => T.top (by
        rw [List.map_map]; exact List.mem_map.2 ⟨e, he, h⟩)
      have hcr : c ≠ r := fun h => hcb (posOf_inj A.bnodup hc (h ▸ hr))
      have hcm : c ∈ s.2.nodes := h1 ▸ ha.mem
      obtain ⟨a1, -, -, hd1⟩ := R.up p hm hu
      rw [h1] at hd1
      obtain ⟨a2, ha2, hn2, hd2⟩ := R.up c hcm hcr
      obtain ⟨b, hb, hbn, -⟩ := Tr.paired _ _ ha2
      rw [hn2] at hb
      obtain ⟨e', he', hp', hc', -⟩ := ih (d c) (by omega) c b rfl hcr hcm hb hbn
      obtain rfl := T.child_inj he he' (posOf_inj A.bnodup hc hc')
      have : par c = p := Option.some_inj.1 (hp'.symm.trans hp)
      rw [this] at hd2
      omega

/-- From a description of a tree the readers make the `MultiBody` described. -/
theorem finish_tree {env : ParserEnv K} {name base : String} {fixed : Bool} {s : PSt K} {bs : List (Body K)}
    {es : List (Edge K)} (A : Assembled bs es s.1) (T : TreeShape (bs.map Body.name) (es.map Edge.ends) base)
    (hj : ∀ e ∈ es, e.j.Built ∧ e.j.isForward = true) :
    ∃ r, finish env name base fixed s = .ok r ∧ r.name = name ∧ r.heap = s.1.1 ∧ r.graph = s.1.2 ∧ r.limits = s.2 ∧
      r.Reads bs es base fixed ∧ ((∀ e ∈ es, e.j.name ≠ "Root") → r.Standard env base fixed) := by
  have Tr := assembled_tree A T
  obtain ⟨x0, hx0⟩ : ∃ b, posOf bs base = some b := by
    cases h : posOf bs base with
    | none => exact absurd T.root (posOf_none_iff.1 h)
    | some p => exact ⟨p, rfl⟩
  have hfind : s.1.2.bodyMap.find base = some x0 := by rw [A.bmap]; exact hx0
  have hx0m : x0 ∈ s.1.2.nodes := ((Tr.body _ _).1 hfind).1
  obtain ⟨d, par, R⟩ := Tr.rooted hx0m
  have hB : BuiltArcs s.1.1 s.1.2 := by
    intro u a ha
    obtain ⟨e, he, p, c, hp, hc, ⟨-, rfl⟩ | ⟨-, rfl⟩⟩ := (assembled_link_iff A).1 ha
    · exact Joint.Built.setForward _ _ (hj e he).1
    · exact Joint.Built.setForward _ _ (hj e he).1
  obtain ⟨mb, e, wf, c, tr⟩ := R.makeMultiBody Tr.toForest hB hfind (if fixed then .Fixed else .Free) Vec3.unitZ 1 1
  have hmake : makeMultiBodyF s.1.1 s.1.2 base fixed 1 1 = .ok mb := e
  obtain ⟨mbc, sz, -, -, hfin⟩ := finish_ok (env := env) (name := name) hmake wf
  have hperm := R.dfs_perm Tr.toForest Tr.nodes_length_le_fuel
  have hNd : (dfs s.1.1 s.1.1.fuel x0 none).Nodup := hperm.nodup_iff.2 Tr.nodes_nodup
  have hlen : mb.bodies.length = (dfs s.1.1 s.1.1.fuel x0 none).length := tr.nbodies
  have harc : ∀ (x : Nat) (a : Arc K), x ≠ x0 → x ∈ s.1.2.nodes → Link s.1.1 s.1.2 (par x) a → a.next = x →
      ∃ e ∈ es, posOf bs e.parent = some (par x) ∧ posOf bs e.child = some x ∧ a = ⟨e.X, e.j, x⟩ := by
    intro x a hx hm ha hn
    obtain ⟨e, he, h1, h2, rfl⟩ := assembled_arc A T hx0 R Tr _ x a rfl hx hm ha hn
    refine ⟨e, he, h1, h2, ?_⟩
    unfold mkArc
    rw [(hj e he).1.setForward_isForward]
  -- backward arcs carry the identity
  have hback : ∀ (u : Nat) (a : Arc K), Link s.1.1 s.1.2 u a → a.joint.isForward = false → a.X = 1 := by
    intro u a ha hf
    obtain ⟨e, he, p, c, hp, hc, ⟨-, rfl⟩ | ⟨-, rfl⟩⟩ := (assembled_link_iff A).1 ha
    · exfalso
      have h1 : (e.j.setForward e.j.isForward).isForward = false := hf
      rw [(hj e he).1.setForward_isForward, (hj e he).2] at h1
      exact absurd h1 (by simp)
    · rfl
  -- the base transforms are identities
  have hxf : ∀ i x : Nat, (dfs s.1.1 s.1.1.fuel x0 none)[i]? = some x → xf s.1.1 x0 par 1 x = 1 := by
    intro i x hx
    have E := tr.entry i x hx
    by_cases hr : x = x0
    · rw [hr, xf_root]
    · obtain ⟨k, a, -, -, ha, hax, -⟩ := E.child hr
      obtain ⟨b, hb, hbn, j, dd, e1, e2⟩ := Tr.paired _ a ha
      rw [hax] at hb
      rw [Tr.toForest.xf_arc hb hbn hr]
      refine hback _ _ hb ?_
      obtain ⟨e', he', -, -, rfl⟩ := harc x a hr E.mem ha hax
      have hf := (hj e' he').2
      have e1 : e'.j = j.setForward dd := e1
      rw [e1, Joint.isForward_setForward] at hf
      rw [e2, Joint.isForward_setForward, hf]; rfl
  -- bodies
  have hbody : ∀ i x : Nat, (dfs s.1.1 s.1.1.fuel x0 none)[i]? = some x → x < bs.length ∧ mb.bodies[i]? = bs[x]? := by
    intro i x hx
    have hxm := (tr.entry i x hx).mem
    rw [A.nodes, List.mem_range] at hxm
    obtain ⟨nd, hnd, hb⟩ := (tr.entry i x hx).body
    have := A.cell x _ (List.getElem?_eq_getElem hxm)
    obtain rfl := Option.some_inj.1 (hnd.symm.trans this)
    rw [hxf i x hx, one_dualMulI] at hb
    exact ⟨hxm, hb.trans (List.getElem?_eq_getElem hxm).symm⟩
  have hroot : ∀ i x : Nat, (dfs s.1.1 s.1.1.fuel x0 none)[i]? = some x → (x = x0 ↔ i = 0) := by
    intro i x hx
    constructor
    · intro h; exact ((tr.entry i x hx).root h).1
    · intro h
      by_contra hne
      obtain ⟨k, a, -, hk, -⟩ := (tr.entry i x hx).child hne
      omega
  have hentry : ∀ i, 0 < i → i < mb.bodies.length → ∃ e ∈ es, ∃ (p : Nat) (bp bc : Body K), mb.joints[i]? = some e.j ∧
    mb.Xt[i]? = some e.X ∧ mb.pred[i]? = some (p : Int) ∧ p < i ∧ mb.bodies[p]? = some bp ∧
    mb.bodies[i]? = some bc ∧ bp.name = e.parent ∧ bc.name = e.child := by
    intro i h0 hi
    obtain ⟨x, hx⟩ : ∃ x, (dfs s.1.1 s.1.1.fuel x0 none)[i]? = some x := ⟨_, List.getElem?_eq_getElem (by omega)⟩
    have E := tr.entry i x hx
    have hne : x ≠ x0 := fun h => by have := (hroot i x hx).1 h; omega
    obtain ⟨k, a, hk, hki, ha, hax, hjj, hp, -, hX⟩ := E.child hne
    obtain ⟨e', he', hp1, hc1, rfl⟩ := harc x a hne E.mem ha hax
    rw [hxf k _ hk, PTransform.inv_one, PTransform.mul_one'] at hX
    obtain ⟨bp, hbp, hbpn⟩ := (posOf_eq_some_iff A.bnodup).1 hp1
    obtain ⟨bc, hbc, hbcn⟩ := (posOf_eq_some_iff A.bnodup).1 hc1
    exact ⟨e', he', k, bp, bc, hjj, hX, hp, hki, (hbody k _ hk).2.trans hbp, (hbody i x hx).2.trans hbc, hbpn, hbcn⟩
  have hpos : 0 < mb.bodies.length := by
    rw [hlen, hperm.length_eq]; exact List.length_pos_of_mem hx0m
  obtain ⟨y, hy⟩ : ∃ x, (dfs s.1.1 s.1.1.fuel x0 none)[0]? = some x := ⟨_, List.getElem?_eq_getElem (by omega)⟩
  have E0 := (tr.entry 0 y hy).root ((hroot 0 y hy).2 rfl)
  have hj0 : mb.joints[0]? = some (rootJoint K fixed) := by
    have := E0.2.1
    rw [A.root] at this
    exact this
  have hbodies : mb.bodies.Perm bs := by
    have e1 : mb.bodies.map some = (dfs s.1.1 s.1.1.fuel x0 none).map (fun x => bs[x]?) := by
      apply List.ext_getElem?
      intro i
      rw [List.getElem?_map, List.getElem?_map]
      by_cases hi : i < mb.bodies.length
      · have hi' : i < (dfs s.1.1 s.1.1.fuel x0 none).length := by omega
        rw [List.getElem?_eq_getElem hi', (hbody i _ (List.getElem?_eq_getElem hi')).2]
        have := (hbody i _ (List.getElem?_eq_getElem hi')).1
        rw [List.getElem?_eq_getElem this]; simp [this]
      · rw [List.getElem?_eq_none (by omega), List.getElem?_eq_none (by omega)]; rfl
    have e2 : bs.map some = (List.range bs.length).map (fun x => bs[x]?) := by
      apply List.ext_getElem?
      intro i
      by_cases hi : i < bs.length
      · simp [hi]
      · rw [List.getElem?_eq_none (by simp; omega), List.getElem?_eq_none (by simp; omega)]
    have hp : (mb.bodies.map some).Perm (bs.map some) := by
      rw [e1, e2, ← A.nodes]; exact hperm.map _
    have := hp.filterMap id
    simpa using this
  have hEs : ∀ e' ∈ es, ∃ i, 0 < i ∧ i < mb.bodies.length ∧ mb.joints[i]? = some e'.j := by
    intro e' he'
    obtain ⟨bc, hbc, hn⟩ := List.mem_map.1 (A.known e' he').2
    obtain ⟨i, hi⟩ := List.mem_iff_getElem?.1 (hbodies.mem_iff.2 hbc)
    have hil := (List.getElem?_eq_some_iff.1 hi).1
    have hcb : e'.child ≠ base := fun h => T.top (by rw [List.map_map]; exact List.mem_map.2 ⟨e', he', h⟩)
    have h0 : 0 < i := by
      rcases Nat.eq_zero_or_pos i with rfl | h
      · exfalso
        have h1 := (hbody 0 y hy).2
        rw [(hroot 0 y hy).2 rfl] at h1
        obtain ⟨b, hb, hbn⟩ := (posOf_eq_some_iff A.bnodup).1 hx0
        rw [hb, hi] at h1
        exact hcb (by rw [← hn, Option.some_inj.1 h1, hbn])
      · exact h
    obtain ⟨e2, he2, p, bp, bc2, h1, -, -, -, -, h6, -, h8⟩ := hentry i h0 hil
    obtain rfl := T.child_inj he2 he' (by rw [← h8, ← hn]; rw [hi] at h6; rw [Option.some_inj.1 h6])
    exact ⟨i, h0, hil, h1⟩
  have hjn : mb.joints.length = mb.bodies.length := wf.njoints
  have hjoints : mb.joints.tail.Perm (es.map Edge.j) := by
    have n1 : (es.map Edge.j).Nodup := by
      refine List.Nodup.of_map Joint.name ?_
      rw [List.map_map]; exact A.jnodup
    have n2 : mb.joints.tail.Nodup := by
      refine List.Nodup.of_map Joint.name (nodup_map_of_inj ?_)
      intro i i' a a' h1 h2 hn
      rw [List.getElem?_tail] at h1 h2
      have l1 := (List.getElem?_eq_some_iff.1 h1).1
      have l2 := (List.getElem?_eq_some_iff.1 h2).1
      obtain ⟨e1, m1, -, -, bc1, a1, -, -, -, -, c1, -, d1⟩ := hentry (i + 1) (by omega) (by omega)
      obtain ⟨e2, m2, -, -, bc2, a2, -, -, -, -, c2, -, d2⟩ := hentry (i' + 1) (by omega) (by omega)
      obtain rfl := Option.some_inj.1 (h1.symm.trans a1)
      obtain rfl := Option.some_inj.1 (h2.symm.trans a2)
      obtain rfl := List.inj_on_of_nodup_map A.jnodup m1 m2 hn
      have hbn : (mb.bodies.map Body.name).Nodup := (hbodies.map _).nodup_iff.2 A.bnodup
      have g1 : (mb.bodies.map Body.name)[i + 1]? = some e1.child := by rw [List.getElem?_map, c1, ← d1]; rfl
      have g2 : (mb.bodies.map Body.name)[i' + 1]? = some e1.child := by rw [List.getElem?_map, c2, ← d2]; rfl
      have := (List.getElem?_inj (List.getElem?_eq_some_iff.1 g1).1 hbn).1 (g1.trans g2.symm)
      omega
    refine (List.perm_ext_iff_of_nodup n2 n1).2 (fun x => ?_)
    constructor
    · intro hx
      obtain ⟨i, hi⟩ := List.mem_iff_getElem?.1 hx
      rw [List.getElem?_tail] at hi
      have l1 := (List.getElem?_eq_some_iff.1 hi).1
      obtain ⟨e1, m1, -, -, -, a1, -⟩ := hentry (i + 1) (by omega) (by omega)
      obtain rfl := Option.some_inj.1 (hi.symm.trans a1)
      exact List.mem_map_of_mem m1
    · intro hx
      obtain ⟨e', he', rfl⟩ := List.mem_map.1 hx
      obtain ⟨i, h0, -, hi⟩ := hEs e' he'
      refine List.mem_of_getElem? (i := i - 1) ?_
      rw [List.getElem?_tail, Nat.sub_add_cancel h0]
      exact hi
  have hrb : ∃ b, mb.bodies[0]? = some b ∧ b.name = base := by
    obtain ⟨b, hb, hbn⟩ := (posOf_eq_some_iff A.bnodup).1 hx0
    refine ⟨b, ?_, hbn⟩
    rw [(hbody 0 y hy).2, (hroot 0 y hy).2 rfl, hb]
  refine ⟨_, hfin, rfl, rfl, rfl, rfl, ⟨wf, sz, hbodies, hjoints, hrb, hj0, E0.2.2.1, E0.2.2.2.2, ?_⟩, fun hR => ?_⟩
  · intro i h0 hi
    refine hentry i h0 ?_
    rw [← hjn]; exact hi
  · refine ⟨Tr, hB, hfin, hback, ?_, A.root, ?_⟩
    · intro j hjm
      obtain ⟨i, hi⟩ := List.mem_iff_getElem?.1 hjm
      have hi : mb.joints[i]? = some j := hi
      rcases Nat.eq_zero_or_pos i with rfl | h0
      · rw [← Option.some_inj.1 (hj0.symm.trans hi)]
        exact Joint.isForward_mk' ..
      · have l1 := (List.getElem?_eq_some_iff.1 hi).1
        obtain ⟨e1, m1, -, -, -, a1, -⟩ := hentry i h0 (by omega)
        rw [Option.some_inj.1 (hi.symm.trans a1)]
        exact (hj e1 m1).2
    · intro u a ha
      obtain ⟨e, he, p, c, hp, hc, ⟨-, rfl⟩ | ⟨-, rfl⟩⟩ := (assembled_link_iff A).1 ha
      · exact hR e he
      · exact hR e he

end RBDyn
