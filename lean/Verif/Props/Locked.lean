import Verif.Lemmas.GraphLock
import Verif.Lemmas.GraphFoot
import Verif.Props.GraphMerge
import Verif.Props.GraphDyn

/-! Property C78: a robot with merged bodies, or with fixed joints, is the robot whose merged or fixed joints are held still. -/

namespace RBDyn
variable {K : Type} [Scalar K]

open Graph

/-- The entry of the body `name` in a list with one entry for each body. -/
def MultiBody.ofBody {α : Type} (mb : MultiBody K) (l : List α) (name : String) : Res α := do
  let i ← mb.sBodyIndexByName name
  rdI l i

/-- `mergeSubBodies root t jp` is called where the joint `t` links the body `u`, on the side of `root`, to the bodies to be merged, and `jp`
gives `t` and the joints beyond it the positions `Q`. -/
structure MergeCall (h : Heap K) (g : Graph) (root t : String) (jp : SMap (List K)) (Q : String → List K) (u : Nat) : Prop where
  start : ∃ r, g.nodeByName root = .ok r ∧ (∀ b, Link h g r b → b.joint.name ≠ g.rootName) ∧ Kept h g [t] r u ∧
    ∀ x b, Link h g x b → ¬ Kept h g [t] r x → jp.find b.joint.name = some (Q b.joint.name)
  joint : ∃ a, Link h g u a ∧ a.joint.name = t

/-- The two `MultiBody` are made by the same call of `makeMultiBody`. -/
def MadeBoth (h : Heap K) (g : Graph) (h' : Heap K) (g' : Graph) (t : JointType) (mb mb' : MultiBody K) : Prop :=
  ∃ base axis X0 Xb, GoodRoot t axis X0 Xb ∧ makeMultiBody h g base t axis X0 Xb = .ok mb ∧ makeMultiBody h' g' base t axis X0 Xb = .ok mb'

section
variable {h h' : Heap K} {g g' : Graph} {root t : String} {jp : SMap (List K)} {Q : String → List K} {u : Nat}

/-- Every configuration of the joints is taken by some placement of the bodies. -/
theorem exists_placement (T : Tree h g) (H : RigidGraph h g) (hQ : ValidConf h g Q) {x : Nat} (hx : x ∈ g.nodes) :
    ∃ W, Placement h g Q W ∧ ∀ x ∈ g.nodes, IsRigid (W x) := by
  obtain ⟨n, hn⟩ := T.nodes_get x hx
  have hr : g.nodeByName n.body.name = .ok x := getAt_some ((T.body _ _).2 ⟨hx, n, hn, rfl⟩)
  obtain ⟨mb, m, d, par, N, -, -, G, -, -⟩ := root_rooting T H hr
    (show GoodRoot .Fixed (0 : Vec3 K) 1 1 from ⟨trivial, IsRigid.one, IsRigid.one⟩)
  have hm := blocks_matches mb [] Q
  refine ⟨_, fk_placement G.R T.toForest H G.wf G.tr G.perm hQ hm, G.place_rigid T.toForest H ?_⟩
  unfold ValidQ
  rw [List.forall₂_iff_get]
  refine ⟨by simp [MultiBody.blocks], fun i h1 h2 => ?_⟩
  have e1 : mb.joints[i]? = some (mb.joints.get ⟨i, h1⟩) := List.getElem?_eq_getElem h1
  have e2 : (mb.blocks [] Q)[i]? = some ((mb.blocks [] Q).get ⟨i, h2⟩) := List.getElem?_eq_getElem h2
  by_cases h0 : i = 0
  · subst h0
    have e3 := G.root.2.2.2.1
    rw [e1] at e3
    rw [Option.some.inj e3]
    have e4 : (mb.blocks [] Q)[0]? = some [] := by unfold MultiBody.blocks; rw [range_map_getElem? h1, if_pos rfl]
    rw [e4] at e2
    rw [← Option.some.inj e2]
    exact ⟨rfl, trivial⟩
  · obtain ⟨v, a, ha, e⟩ := G.joint e1 h0
    have e3 := hm i _ h0 e1
    rw [e2] at e3
    rw [Option.some.inj e3, e]
    exact hQ v a ha

theorem MergeCall.mergedAt (M : MergeCall h g root t jp Q u) (T : Tree h g) (H : RigidGraph h g) (hQ : ValidConf h g Q) :
    ∃ h' g', mergeSubBodies root t jp (h, g) = .ok ⟨⟩ (h', g') ∧ MergedAt h g u Q h' g' := by
  obtain ⟨r, hr, h0, hu, hjp⟩ := M.start
  obtain ⟨a, ha, hat⟩ := M.joint
  obtain ⟨W, hW, rW⟩ := exists_placement T H hQ ha.mem
  obtain ⟨h', g', n, I, e, hn, P, hI⟩ := C19_merge T H hr h0 ha hat hu hQ hjp hW rW
  have T1 := T.setInertia hn I
  have hl : ∀ {x b}, Link h' g' x b → Link h g x b := fun {x b} hb => (setInertia_link hn I).1 ((P.link T1.toInv).1 hb).2.1
  have hk : ∀ x, x ∈ g'.nodes ↔ Kept h g [t] r x := fun x => by rw [P.nodes, setInertia_kept hn I]
  have hcell : ∀ x ∈ g'.nodes, ∃ m, h.nodes[x]? = some m ∧
      h'.nodes[x]? = some ⟨⟨if x = u then I else m.body.inertia, m.body.name⟩, m.arcs.filter (fun a => decide (a.joint.name ∉ [t]))⟩ := by
    intro x hx
    obtain ⟨m, hm⟩ := T.nodes_get x (P.nodes_order.subset hx)
    refine ⟨m, hm, ?_⟩
    by_cases e : x = u
    · subst e
      rw [hn] at hm
      cases hm
      rw [P.cells x hx _ (by rw [setInertia_get hn, if_pos rfl]), if_pos rfl]
    · rw [P.cells x hx m (by rw [setInertia_get hn, if_neg e, hm]), if_neg e]
  have hug' : u ∈ g'.nodes := (hk u).2 hu
  refine ⟨h', g', e, P.tree, P.rootName, ?_, P.nodes_order, fun x b => hl, hug', ?_, ?_, ?_⟩
  · intro x hx
    obtain ⟨m, h1, h2⟩ := hcell x hx
    exact ⟨m, _, h1, h2, rfl⟩
  · have hrm : r ∈ g.nodes := ((T.body root r).1 (getAt_find hr)).1
    obtain ⟨d, par, R⟩ := T.rooted hrm
    refine ⟨d, fun x hx hn' => ?_⟩
    have hxr : x ≠ r := by
      rintro rfl
      exact hn' ((hk x).2 ⟨hx, .rfl⟩)
    obtain ⟨b, hb, eb, hd⟩ := R.up x hx hxr
    refine ⟨b, hb, ?_⟩
    by_cases hp : b.next ∈ g'.nodes
    · left
      have hbt : b.joint.name = t := by
        by_contra hne
        have h1 := ((hk _).1 hp).2
        have h2 : (cut h g [t]).Adj b.next x := ⟨T.noLoop x b hb, .inr ⟨b, hb, rfl, by simpa using hne⟩⟩
        exact hn' ((hk x).2 ⟨hx, h1.trans h2.reachable⟩)
      rcases T.jointOnce x u b a hb ha (hbt.trans hat.symm) with ⟨e1, -⟩ | ⟨-, e1⟩
      · exact absurd (e1 ▸ hug') hn'
      · exact e1.symm
    · right
      exact ⟨hp, by rw [eb]; omega⟩
  · intro x hx hne
    obtain ⟨m, h1, h2⟩ := hcell x hx
    unfold nodeInertia
    rw [h1, h2, if_neg hne]
    rfl
  · intro W hW rW
    obtain ⟨h'', g'', n', I', e', hn', P', hI'⟩ := C19_merge T H hr h0 ha hat hu hQ hjp hW rW
    rw [e] at e'
    cases e'
    rw [hn] at hn'
    cases hn'
    have eI : nodeInertia h' u = I' := by
      unfold nodeInertia
      rw [P'.cells u hug' _ (by rw [setInertia_get hn, if_pos rfl])]
      rfl
    have eu : nodeInertia h u = n.body.inertia := by unfold nodeInertia; rw [hn]; rfl
    rw [eI, eu, hI']
    rfl

end

/-- The positions and velocities of the two `MultiBody` are the same: those of the root joints, and those `Q` and `A` of the joints left. The
merged joints have the positions `Q` and no velocity. Forward kinematics and forward velocity were computed. -/
structure HeldState (h : Heap K) (g g' : Graph) (t : JointType) (mb mb' : MultiBody K) (Q A : String → List K) (c c' : MBC K) : Prop where
  pos : ConfigAt mb t Q c
  pos' : ConfigAt mb' t Q c'
  vel : MatchesConf mb c.alpha A
  vel' : MatchesConf mb' c'.alpha A
  rootPos : c.q[0]? = c'.q[0]?
  rootVel : c.alpha[0]? = c'.alpha[0]?
  still : Still h g g' A
  ready : c.VelReady mb
  ready' : c'.VelReady mb'

/-- The accelerations of the two `MultiBody` are the same: those of the root joints, and those `AD` of the joints left. The merged joints have
no acceleration. -/
structure HeldAcc (h : Heap K) (g g' : Graph) (mb mb' : MultiBody K) (AD : String → List K) (c c' : MBC K) : Prop where
  acc : MatchesConf mb c.alphaD AD
  acc' : MatchesConf mb' c'.alphaD AD
  root : c.alphaD[0]? = c'.alphaD[0]?
  still : Still h g g' AD

/-- The external forces `F` on the bodies of the graph; `u` gets those on the bodies merged into it. -/
structure ForcesAt (h : Heap K) (g : Graph) (u : Nat) (h' : Heap K) (g' : Graph) (mb mb' : MultiBody K) (F : Nat → ForceVec K) (c c' : MBC K) :
    Prop where
  all : ∀ x n, x ∈ g.nodes → h.nodes[x]? = some n → mb.ofBody c.force n.body.name = .ok (F x)
  left : ∀ x n, x ∈ g'.nodes → h'.nodes[x]? = some n → mb'.ofBody c'.force n.body.name =
    .ok (if x = u then F u + ((g.nodes.filter fun x => decide (x ∉ g'.nodes)).map F).sum else F x)

section
variable {h h' : Heap K} {g g' : Graph} {Q A AD : String → List K} {u : Nat} {t : JointType} {mb mb' : MultiBody K} {c c' : MBC K}

/-- The two rootings. -/
theorem Graph.MergedAt.rootings (M : MergedAt h g u Q h' g') (T : Tree h g) (H : RigidGraph h g) (B : MadeBoth h g h' g' t mb mb') :
    ∃ s d par d' par' J X0 Xb N N', Rooting h g s d par J X0 Xb N mb ∧ Rooting h' g' s d' par' J X0 Xb N' mb' ∧
      (∀ x n, x ∈ g.nodes → h.nodes[x]? = some n → mb.sBodyIndexByName n.body.name = .ok (N.idxOf x : Int)) ∧
      (∀ x n, x ∈ g'.nodes → h'.nodes[x]? = some n → mb'.sBodyIndexByName n.body.name = .ok (N'.idxOf x : Int)) ∧
      (∀ Q c, ValidConf h g Q → ConfigAt mb t Q c → ValidQ mb c.q) ∧ ∀ Q c, ValidConf h' g' Q → ConfigAt mb' t Q c → ValidQ mb' c.q := by
  obtain ⟨base, axis, X0, Xb, gr, e1, e2⟩ := B
  have hr' : ∃ s, g'.nodeByName base = .ok s := by
    cases e : g'.bodyMap.getAt base with
    | ok s => exact ⟨s, e⟩
    | error k => rw [makeMultiBody, e] at e2; cases e2
  obtain ⟨s, hr'⟩ := hr'
  have hs := (M.tree.body base s).1 (getAt_find hr')
  obtain ⟨n, n', hn, hn', en⟩ := M.cell s hs.1
  have hr : g.nodeByName base = .ok s := by
    refine getAt_some ((T.body base s).2 ⟨M.nodes.subset hs.1, n, hn, ?_⟩)
    obtain ⟨-, n'', hn'', e⟩ := hs
    rw [hn'] at hn''
    cases hn''
    rw [← e, en]
  obtain ⟨mb₁, m, d, par, N, e3, -, G, hx, hv⟩ := root_rooting T H hr gr
  rw [e1] at e3
  cases e3
  obtain ⟨mb₂, m', d', par', N', e4, -, G', hx', hv'⟩ := root_rooting M.tree (M.rigid H) hr' gr
  rw [e2] at e4
  cases e4
  rw [M.rootName] at G'
  exact ⟨s, d, par, d', par', _, X0, Xb, N, N', G, G', fun x n h1 h2 => (hx x n h1 h2).1, fun x n h1 h2 => (hx' x n h1 h2).1, hv, hv'⟩

theorem HeldState.posed (S : HeldState h g g' t mb mb' Q A c c') (hQ : ValidConf h g Q) (hv : ValidQ mb c.q) (hv' : ValidQ mb' c'.q) :
    Posed h g mb mb' Q c.q c'.q := ⟨hQ, S.pos.conf, S.pos'.conf, hv, hv', S.rootPos⟩

theorem HeldState.moving (S : HeldState h g g' t mb mb' Q A c c') : Moving h g g' mb mb' A c.alpha c'.alpha := ⟨S.vel, S.vel', S.rootVel, S.still⟩

theorem HeldAcc.moving (S : HeldAcc h g g' mb mb' AD c c') : Moving h g g' mb mb' AD c.alphaD c'.alphaD := ⟨S.acc, S.acc', S.root, S.still⟩

theorem ofBody_range {α : Type} {f : Nat → α} {l : List α} (hl : l = (List.range mb.bodies.length).map f) {name : String} {i : Nat}
    (hi : mb.sBodyIndexByName name = .ok (i : Int)) (hb : i < mb.bodies.length) : mb.ofBody l name = .ok (f i) := by
  simp only [MultiBody.ofBody, hi, Res.bind_ok, rdI_ofNat, hl]
  exact rd_of_getElem? (range_map_getElem? hb)

/-- C78: the bodies left have the same pose, the same velocity and, for the same accelerations of the joints, the same acceleration in the
robot with merged bodies as in the robot whose merged joints are held still. -/
theorem C78_merge_motion {root tj : String} {jp : SMap (List K)} (T : Tree h g) (H : RigidGraph h g) (hQ : ValidConf h g Q)
    (C : MergeCall h g root tj jp Q u) (e : mergeSubBodies root tj jp (h, g) = .ok ⟨⟩ (h', g')) (B : MadeBoth h g h' g' t mb mb')
    (S : HeldState h g g' t mb mb' Q A c c') {x : Nat} {n : GNode K} (hx : x ∈ g'.nodes) (hn : h'.nodes[x]? = some n) :
    (∃ P, mb.ofBody c.bodyPosW n.body.name = .ok P ∧ mb'.ofBody c'.bodyPosW n.body.name = .ok P) ∧
    (∃ V, mb.ofBody c.bodyVelB n.body.name = .ok V ∧ mb'.ofBody c'.bodyVelB n.body.name = .ok V) ∧
    ∀ AD a0, HeldAcc h g g' mb mb' AD c c' → ∃ k k' V, forwardAcceleration mb c a0 = .ok k ∧ forwardAcceleration mb' c' a0 = .ok k' ∧
      mb.ofBody k.bodyAccB n.body.name = .ok V ∧ mb'.ofBody k'.bodyAccB n.body.name = .ok V := by
  obtain ⟨h₂, g₂, e₂, M⟩ := C.mergedAt T H hQ
  rw [e] at e₂
  cases e₂
  obtain ⟨s, d, par, d', par', J, X0, Xb, N, N', G, G', nm, nm', hv, hv'⟩ := M.rootings T H B
  have hv := hv Q c hQ S.pos
  have hv' := hv' Q c' (M.validConf hQ) S.pos'
  obtain ⟨m, m', hm, hm', em⟩ := M.cell x hx
  rw [hn] at hm'
  cases hm'
  have i1 := nm x m (M.nodes.subset hx) hm
  rw [← em] at i1
  have i2 := nm' x n hx hn
  have b1 := (G.index (M.nodes.subset hx)).2
  have b2 := (G'.index hx).2
  have ex : xf h' s par' Xb x = xf h s par Xb x := M.xf_eq T.toForest G.R G'.R hx
  have rx := G.xf_rigid T.toForest H (M.nodes.subset hx)
  have back : ∀ f f' : Nat → MotionVec K, inGraph h s par Xb N f x = inGraph h' s par' Xb N' f' x → f (N.idxOf x) = f' (N'.idxOf x) := by
    intro f f' e
    rw [← G.xf_inGraph T.toForest H f (M.nodes.subset hx), e, ← ex, G'.xf_inGraph M.tree.toForest (M.rigid H) f' hx]
  refine ⟨⟨_, ofBody_range S.ready.bodyPosW i1 b1, ?_⟩, ⟨_, ofBody_range S.ready.bodyVelB i1 b1, ?_⟩, fun AD a0 D => ?_⟩
  · rw [ofBody_range S.ready'.bodyPosW i2 b2]
    have e := M.pos_eq T H G G' hQ S.pos.conf S.pos'.conf hv hv' S.rootPos hx
    unfold fkPlace at e
    rw [ex] at e
    have := congrArg (xf h s par Xb x * ·) e
    simp only [← PTransform.mul_assoc', PTransform.mul_inv rx, PTransform.one_mul'] at this
    rw [this]
  · rw [ofBody_range S.ready'.bodyVelB i2 b2, back _ _ (M.vel_eq T H G G' hQ S.pos.conf S.pos'.conf hv hv' S.vel S.vel' S.rootVel hx)]
  · refine ⟨_, _, _, S.pos.sized.fa G.wf G.rigid hv S.ready a0, S.pos'.sized.fa G'.wf G'.rigid hv' S.ready' a0, ofBody_range rfl i1 b1, ?_⟩
    rw [ofBody_range rfl i2 b2, back _ _ (M.acc_eq T H G G' hQ S.pos.conf S.pos'.conf hv hv' S.vel S.vel' D.acc D.acc' S.rootPos S.rootVel D.root a0 hx)]

theorem ForcesAt.loaded {F : Nat → ForceVec K} (f : ForcesAt h g u h' g' mb mb' F c c') (M : MergedAt h g u Q h' g') (T : Tree h g) {N N' : List Nat}
    (nm : ∀ x n, x ∈ g.nodes → h.nodes[x]? = some n → mb.sBodyIndexByName n.body.name = .ok (N.idxOf x : Int))
    (nm' : ∀ x n, x ∈ g'.nodes → h'.nodes[x]? = some n → mb'.sBodyIndexByName n.body.name = .ok (N'.idxOf x : Int)) :
    Loaded g g' u N N' c.forceAt c'.forceAt := by
  have h1 : ∀ x ∈ g.nodes, c.forceAt (N.idxOf x) = F x := by
    intro x hx
    obtain ⟨n, hn⟩ := T.nodes_get x hx
    have := f.all x n hx hn
    simp only [MultiBody.ofBody, nm x n hx hn, Res.bind_ok, rdI_ofNat] at this
    unfold MBC.forceAt
    rw [rd_eq_ok_iff.1 this]
    rfl
  have h2 : ∀ x ∈ g'.nodes, c'.forceAt (N'.idxOf x) = if x = u then F u + ((g.nodes.filter fun x => decide (x ∉ g'.nodes)).map F).sum else F x := by
    intro x hx
    obtain ⟨n, hn⟩ := M.tree.nodes_get x hx
    have := f.left x n hx hn
    simp only [MultiBody.ofBody, nm' x n hx hn, Res.bind_ok, rdI_ofNat] at this
    unfold MBC.forceAt
    rw [rd_eq_ok_iff.1 this]
    rfl
  refine ⟨fun x hx hne => by rw [h1 x (M.nodes.subset hx), h2 x hx, if_neg hne], ?_⟩
  rw [h1 u (M.nodes.subset M.mem), h2 u M.mem, if_pos rfl]
  congr 2
  refine List.map_congr_left fun x hx => ?_
  rw [h1 x (List.mem_filter.1 hx).1]

/-- C78: for the same accelerations, gravity and external forces, those on merged bodies acting on the body they were merged into, inverse
dynamics finds the same torques of the root joint and of the joints left, and each of the latter is a joint of the robot before. -/
theorem C78_merge_torques {root tj : String} {jp : SMap (List K)} (T : Tree h g) (H : RigidGraph h g) (hQ : ValidConf h g Q)
    (C : MergeCall h g root tj jp Q u) (e : mergeSubBodies root tj jp (h, g) = .ok ⟨⟩ (h', g')) (B : MadeBoth h g h' g' t mb mb')
    (S : HeldState h g g' t mb mb' Q A c c') (D : HeldAcc h g g' mb mb' AD c c') {F : Nat → ForceVec K}
    (hf : ForcesAt h g u h' g' mb mb' F c c') (hg : c.gravity = c'.gravity) {d d' : ID K} (hd : d.f.length = mb.nrBodies)
    (hd' : d'.f.length = mb'.nrBodies) :
    ∃ d₁ d₁' k k', d.inverseDynamics mb c = .ok (d₁, k) ∧ d'.inverseDynamics mb' c' = .ok (d₁', k') ∧
      k.jointTorque[0]? = k'.jointTorque[0]? ∧ SameByName mb mb' k.jointTorque k'.jointTorque ∧
      ∀ (i' : Nat) (j' : Joint K), i' ≠ 0 → mb'.joints[i']? = some j' → ∃ (i : Nat) (j : Joint K), i ≠ 0 ∧ mb.joints[i]? = some j ∧ j.name = j'.name := by
  obtain ⟨h₂, g₂, e₂, M⟩ := C.mergedAt T H hQ
  rw [e] at e₂
  cases e₂
  obtain ⟨s, dd, par, dd', par', J, X0, Xb, N, N', G, G', nm, nm', hv, hv'⟩ := M.rootings T H B
  have hv := hv Q c hQ S.pos
  have hv' := hv' Q c' (M.validConf hQ) S.pos'
  obtain ⟨z1, z2⟩ := M.torque T H G G' (S.posed hQ hv hv') S.moving D.moving ⟨0, c.gravity⟩ (hf.loaded M T nm nm')
  have b₁ := G.root.2.1
  have b₂ := G'.root.2.1
  refine ⟨_, _, _, _, id_eq G.wf G.rigid S.pos.sized hv S.ready hd rfl, id_eq G'.wf G'.rigid S.pos'.sized hv' S.ready' hd' rfl, ?_, ?_, ?_⟩
  · rw [range_map_getElem? b₁, range_map_getElem? b₂, ← hg, G.project_eq G' b₁ b₂ (G.root_eq G').2.2 z1]
  · intro i₁ i₂ j₁ j₂ hi₁ hi₂ hj₁ hj₂ e
    have l₁ : i₁ < mb.bodies.length := by rw [← G.wf.njoints]; exact (List.getElem?_eq_some_iff.1 hj₁).1
    have l₂ : i₂ < mb'.bodies.length := by rw [← G'.wf.njoints]; exact (List.getElem?_eq_some_iff.1 hj₂).1
    rw [range_map_getElem? l₁, range_map_getElem? l₂, ← hg, G.project_eq G' l₁ l₂ (M.same_joint T.toForest G G' hj₁ hj₂ hi₁ hi₂ e) fun a ha =>
      z2 i₁ i₂ j₁ j₂ a hj₁ hj₂ hi₁ hi₂ e ha]
  · intro i' j' hi hj
    obtain ⟨v, b, hb, rfl⟩ := G'.joint hj hi
    obtain ⟨i, j, h1, h2, h3, -⟩ := G.find_joint T.toForest (M.link v b hb)
    exact ⟨i, j, h1, h2, h3⟩

theorem massPos_carried {X W : PTransform K} (hX : IsRigid X) (I : RBInertia K) : massPos (X * W) I = massPos W (X.transMulI I) := by
  have e : X.dualMulI (X.transMulI I) = I := by
    rw [PTransform.dualMulI_eq hX, ← PTransform.mul_transMulI _ _ hX hX.inv, PTransform.mul_inv hX, PTransform.one_transMulI]
  conv_lhs => rw [← e]
  rw [massPos_dualMulI hX]

theorem massPos_add (W : PTransform K) (I I' : RBInertia K) : massPos W (I + I') = massPos W I + massPos W I' := by
  unfold massPos
  rw [RBInertia.add_h, RBInertia.add_m, Mat3.mulVec_add, add_smul]
  abel

theorem massPos_sum (W : PTransform K) (l : List Nat) (I : Nat → RBInertia K) : massPos W (l.map I).sum = (l.map fun x => massPos W (I x)).sum := by
  induction l with
  | nil => simp [massPos]
  | cons x l ih => simp only [List.map_cons, List.sum_cons, massPos_add, ih]

theorem mass_sum (l : List Nat) (I : Nat → RBInertia K) : (l.map I).sum.m = (l.map fun x => (I x).m).sum := by
  induction l with
  | nil => simp
  | cons x l ih => simp only [List.map_cons, List.sum_cons, RBInertia.add_m, ih]

theorem sum_transMul (l : List Nat) (f : Nat → ForceVec K) (X : PTransform K) : X.transMul (l.map f).sum = (l.map fun x => X.transMul (f x)).sum := by
  induction l with
  | nil => simp
  | cons x l ih => simp [PTransform.transMul_add, ih]

/-- C78: the centre of mass and the momentum about any point are the same. -/
theorem C78_merge_com_momentum {root tj : String} {jp : SMap (List K)} (T : Tree h g) (H : RigidGraph h g) (hQ : ValidConf h g Q)
    (C : MergeCall h g root tj jp Q u) (e : mergeSubBodies root tj jp (h, g) = .ok ⟨⟩ (h', g')) (B : MadeBoth h g h' g' t mb mb')
    (S : HeldState h g g' t mb mb' Q A c c') (hm : ∀ x n, x ∈ g.nodes → h.nodes[x]? = some n → 0 < n.body.inertia.m) :
    (∃ p, computeCoM mb c = .ok p ∧ computeCoM mb' c' = .ok p) ∧
      ∀ com, ∃ p, computeCentroidalMomentum mb c com = .ok p ∧ computeCentroidalMomentum mb' c' com = .ok p := by
  obtain ⟨h₂, g₂, e₂, M⟩ := C.mergedAt T H hQ
  rw [e] at e₂
  cases e₂
  obtain ⟨s, d, par, d', par', J, X0, Xb, N, N', G, G', nm, nm', hv, hv'⟩ := M.rootings T H B
  have hv := hv Q c hQ S.pos
  have hv' := hv' Q c' (M.validConf hQ) S.pos'
  have F := T.toForest
  have hW := fk_placement G.R F H G.wf G.tr G.perm hQ S.pos.conf
  have rW := G.place_rigid F H hv
  have ru := rW u (M.nodes.subset M.mem)
  have hp : ∀ x ∈ g.nodes, 0 < (nodeInertia h x).m := by
    intro x hx
    obtain ⟨n, hn⟩ := T.nodes_get x hx
    unfold nodeInertia
    rw [hn]
    exact hm x n hx hn
  have emu : (nodeInertia h' u).m = (nodeInertia h u).m + ((g.nodes.filter fun x => decide (x ∉ g'.nodes)).map fun x => (nodeInertia h x).m).sum := by
    rw [M.inertia_u hW rW, RBInertia.add_m, mass_sum]
    rfl
  have hm' : ∀ x n, x ∈ g'.nodes → h'.nodes[x]? = some n → 0 < n.body.inertia.m := by
    intro x n hx hn
    have e1 : n.body.inertia = nodeInertia h' x := by unfold nodeInertia; rw [hn]; rfl
    rw [e1]
    by_cases hxu : x = u
    · rw [hxu, emu]
      refine add_pos_of_pos_of_nonneg (hp u (M.nodes.subset M.mem)) (List.sum_nonneg fun y hy => ?_)
      obtain ⟨z, hz, rfl⟩ := List.mem_map.1 hy
      exact (hp z (List.mem_filter.1 hz).1).le
    · rw [M.inertia x hx hxu]
      exact hp x (M.nodes.subset hx)
  obtain ⟨k₁, K₁⟩ := G.massOK hm
  obtain ⟨k₂, K₂⟩ := G'.massOK hm'
  have hpos : ∀ x ∈ g'.nodes, fkPlace h' s par' Xb N' mb' c'.q x = fkPlace h s par Xb N mb c.q x := fun x hx =>
    (M.pos_eq T H G G' hQ S.pos.conf S.pos'.conf hv hv' S.rootPos hx).symm
  have hvel : ∀ x ∈ g'.nodes, inGraph h' s par' Xb N' (mb'.velAt c'.q c'.alpha) x = inGraph h s par Xb N (mb.velAt c.q c.alpha) x := fun x hx =>
    (M.vel_eq T H G G' hQ S.pos.conf S.pos'.conf hv hv' S.vel S.vel' S.rootVel hx).symm
  have back : ∀ x ∈ g.nodes, fkPlace h s par Xb N mb c.q x = fkPlace h s par Xb N mb c.q x * (fkPlace h s par Xb N mb c.q u).inv *
      fkPlace h s par Xb N mb c.q u := fun x _ => by rw [PTransform.mul_assoc', PTransform.inv_mul ru, PTransform.mul_one']
  constructor
  · refine ⟨_, computeCoM_eq k₁ K₁ S.ready.toPosReady, ?_⟩
    rw [computeCoM_eq k₂ K₂ S.ready'.toPosReady, comAt_massPos k₁, comAt_massPos k₂, G.massPos F H, G'.massPos M.tree.toForest (M.rigid H),
      G.mass F, G'.mass M.tree.toForest]
    have e1 := M.sum_eq F (w := fun x => (nodeInertia h x).m) (w' := fun x => (nodeInertia h' x).m)
      (fun x hx hne => by rw [M.inertia x hx hne]) emu
    have e2 := M.sum_eq F (w := fun x => massPos (fkPlace h s par Xb N mb c.q x) (nodeInertia h x))
      (w' := fun x => massPos (fkPlace h' s par' Xb N' mb' c'.q x) (nodeInertia h' x))
      (fun x hx hne => by rw [M.inertia x hx hne, hpos x hx]) (by
        rw [hpos u M.mem, M.inertia_u hW rW, massPos_add, massPos_sum]
        congr 2
        refine List.map_congr_left fun x hx => ?_
        have hx := (List.mem_filter.1 hx).1
        rw [← massPos_carried ((rW x hx).mul ru.inv), ← back x hx])
    rw [e1, e2]
  · intro com
    refine ⟨_, computeCentroidalMomentum_eq S.ready com, ?_⟩
    rw [computeCentroidalMomentum_eq S.ready' com, G.momentum F H hv, G'.momentum M.tree.toForest (M.rigid H) hv']
    congr 1
    have hV := fun x => M.carried F H hQ hW rW (G.velFlow F H hQ S.pos.conf hv S.vel) (fun x b X hb hx => velStep_still S.still X hb hx) (x := x)
    refine M.sum_eq F (fun x hx hne => by rw [M.inertia x hx hne, hpos x hx, hvel x hx]) ?_
    rw [hpos u M.mem, hvel u M.mem, momHom_apply, momHom_apply, M.inertia_u hW rW, RBInertia.add_mulMotion, PTransform.transMul_add, sum_mulMotion,
      sum_transMul]
    congr 2
    refine List.map_congr_left fun x hx => ?_
    obtain ⟨hx, hn⟩ := List.mem_filter.1 hx
    have hn : x ∉ g'.nodes := by simpa using hn
    have rX := (rW x hx).mul ru.inv
    rw [momHom_apply, hV x hx hn, PTransform.transMulI_mulMotion rX, ← PTransform.mul_transMul _ _ _ (ru.mul (ofTrans_rigid _)),
      ← PTransform.mul_assoc', ← back x hx]

/-- C78: forward dynamics of the merged robot is that of the robot before, held by torques. The accelerations that forward dynamics finds for
the merged robot, with none on the merged joints, are those for which inverse dynamics of the robot before finds the torques given to the
merged robot; given these, and the torques found on the merged joints, forward dynamics of the robot before finds these accelerations. The
linear systems must be solved exactly; for the last part the inertias must be positive definite and no joint may have a zero axis. -/
theorem C78_merge_forward_dynamics {root tj : String} {jp : SMap (List K)} (T : Tree h g) (H : RigidGraph h g) (hQ : ValidConf h g Q)
    (C : MergeCall h g root tj jp Q u) (e : mergeSubBodies root tj jp (h, g) = .ok ⟨⟩ (h', g')) (B : MadeBoth h g h' g' t mb mb')
    (S : HeldState h g g' t mb mb' Q A c c') {F : Nat → ForceVec K} (hf : ForcesAt h g u h' g' mb mb' F c c') (hg : c.gravity = c'.gravity)
    {solve : DMat K → List K → List K} {fd' : FD K} (hfd' : fd'.Fits mb')
    (hs' : ∀ fd₁, fd'.computeH mb' c' = .ok fd₁ → ExactSolve solve fd₁.H) {d : ID K} (hd : d.f.length = mb.nrBodies) :
    ∃ fd₁' k' αD d₁ k, fd'.forwardDynamics solve mb' c' = .ok (fd₁', k') ∧ d.inverseDynamics mb { c with alphaD := αD } = .ok (d₁, k) ∧
      (αD[0]? = k'.alphaD[0]? ∧ SameByName mb mb' αD k'.alphaD ∧ ∀ x b i j, Link h g x b → x ∉ g'.nodes → i ≠ 0 → mb.joints[i]? = some j →
        j.name = b.joint.name → αD[i]? = some (List.replicate j.dof 0)) ∧
      (k.jointTorque[0]? = c'.jointTorque[0]? ∧ SameByName mb mb' k.jointTorque c'.jointTorque) ∧
      ∀ fd : FD K, fd.Fits mb → (∀ fd₁, fd.computeH mb c = .ok fd₁ → ExactSolve solve fd₁.H) →
        (∀ b ∈ mb.bodies, ∀ v : MotionVec K, v ≠ 0 → 0 < v.dot (b.inertia.mulMotion v)) → (∀ j ∈ mb.joints, ∀ c ∈ j.S, c ≠ 0) →
        ∃ fd₁ m, fd.forwardDynamics solve mb k = .ok (fd₁, m) ∧ m.alphaD = αD := by
  classical
  obtain ⟨h₂, g₂, e₂, M⟩ := C.mergedAt T H hQ
  rw [e] at e₂
  cases e₂
  obtain ⟨s, dd, par, dd', par', J, X0, Xb, N, N', G, G', nm, nm', hv, hv'⟩ := M.rootings T H B
  have hv := hv Q c hQ S.pos
  have hv' := hv' Q c' (M.validConf hQ) S.pos'
  have TF := T.toForest
  obtain ⟨d', hd'⟩ : ∃ e : ID K, e.f.length = mb'.nrBodies := ⟨⟨List.replicate mb'.nrBodies 0⟩, by simp⟩
  obtain ⟨fd₁', k', d₁', l', F1, ek, -, sk, I1, T1⟩ := C27_forward_then_inverse G'.wf G'.rigid S.pos'.sized hv' S.ready' hd' hfd' hs'
  obtain ⟨β, rfl⟩ : ∃ β, k' = { c' with alphaD := β } := ⟨k'.alphaD, by conv_rhs => rw [← ek]⟩
  have hβ : SizedDof mb' β := sk.alphaD
  have hβl : β.length = mb'.joints.length := by have := congrArg List.length hβ; simpa using this
  obtain ⟨B', hB'⟩ := G'.exists_named M.tree.toForest hβl
  obtain ⟨Z, hZ⟩ := G.exists_named TF (l := mb.joints.map fun j => List.replicate j.dof 0) (by simp)
  obtain ⟨AD, hAD⟩ : ∃ AD : String → List K, AD = fun n => if ∃ v b, Link h' g' v b ∧ b.joint.name = n then B' n else Z n := ⟨_, rfl⟩
  have cut : ∀ x b, Link h g x b → x ∉ g'.nodes → AD b.joint.name = Z b.joint.name := by
    intro x b hb hx
    rw [hAD]
    refine if_neg ?_
    rintro ⟨v, b', hb', e⟩
    rcases TF.jointOnce x v b b' hb (M.link v b' hb') e.symm with ⟨h1, -⟩ | ⟨h1, -⟩
    · exact hx (h1 ▸ hb'.mem)
    · exact hx (h1 ▸ M.tree.link_next hb')
  have left : ∀ v b, Link h' g' v b → AD b.joint.name = B' b.joint.name := by
    intro v b hb
    rw [hAD]
    exact if_pos ⟨v, b, hb, rfl⟩
  have zero : ∀ i j, i ≠ 0 → mb.joints[i]? = some j → Z j.name = List.replicate j.dof 0 := by
    intro i j h0 hj
    have := hZ i j h0 hj
    rw [List.getElem?_map, hj] at this
    exact (Option.some.inj this).symm
  have hm' : MatchesConf mb' β AD := by
    intro i j h0 hj
    obtain ⟨v, b, hb, rfl⟩ := G'.joint hj h0
    rw [hB' i _ h0 hj, left v b hb]
  have still : Still h g g' AD := by
    intro x b hb hx y hy
    rw [cut x b hb hx] at hy
    obtain ⟨i, j, h1, h2, h3, -⟩ := G.find_joint TF hb
    rw [← h3, zero i j h1 h2] at hy
    exact List.eq_of_mem_replicate hy
  obtain ⟨-, -, hl, hJ, -⟩ := G.root
  obtain ⟨-, -, hl', hJ', -⟩ := G'.root
  obtain ⟨b, hb⟩ : ∃ b, β[0]? = some b := ⟨_, List.getElem?_eq_getElem (by omega)⟩
  have hroot : (mb.blocks b AD)[0]? = β[0]? := by
    unfold MultiBody.blocks
    rw [range_map_getElem? hl, if_pos rfl, hb]
  have hlen : ∀ {i : Nat} {l : List K} {j : Joint K}, β[i]? = some l → mb'.joints[i]? = some j → l.length = j.dof := by
    intro i l j h1 h2
    have := congrArg (·[i]?) hβ
    simpa [List.getElem?_map, h1, h2] using this
  have hsz : SizedDof mb (mb.blocks b AD) := by
    refine List.ext_getElem (by simp [MultiBody.blocks]) fun i h1 h2 => ?_
    have hi : i < mb.joints.length := by simpa using h2
    have hj := List.getElem?_eq_getElem hi
    simp only [List.getElem_map, MultiBody.blocks, List.getElem_range]
    by_cases h0 : i = 0
    · subst h0
      rw [hj] at hJ
      rw [if_pos rfl, hlen hb hJ', Option.some.inj hJ]
    · rw [if_neg h0, hj, Option.map_some, Option.getD_some]
      by_cases hx : ∃ v b, Link h' g' v b ∧ b.joint.name = mb.joints[i].name
      · obtain ⟨v, b', hb', en⟩ := hx
        obtain ⟨i', j', k1, k2, k3, -⟩ := G'.find_joint M.tree.toForest hb'
        have k4 := M.same_joint TF G G' hj k2 h0 k1 (by rw [k3, en])
        unfold MultiBody.dofAt at k4
        rw [hj, k2] at k4
        rw [← en, left v b' hb', ← k3, hlen (hB' i' j' k1 k2) k2]
        exact k4.symm
      · rw [hAD]
        beta_reduce
        rw [if_neg hx, zero i _ h0 hj, List.length_replicate]
  have hmat := blocks_matches mb b AD
  generalize mb.blocks b AD = αD at hroot hsz hmat
  have p : SamePosVel { c with alphaD := αD } c := rfl
  have p' : SamePosVel { c' with alphaD := β } c' := rfl
  have v1 := (p.ready S.ready hv).1
  have v2 := (p'.ready S.ready' hv').1
  have sz : MBC.Sized mb { c with alphaD := αD } := { S.pos.sized with alphaD := hsz }
  obtain ⟨d₁, d₂, k, k₂, J1, J2, t0, t1, -⟩ := C78_merge_torques (c := { c with alphaD := αD }) (c' := { c' with alphaD := β }) (AD := AD) (A := A)
    T H hQ C e B ⟨{ S.pos with sized := sz }, { S.pos' with sized := sk }, S.vel, S.vel', S.rootPos, S.rootVel, S.still, v1, v2⟩
    ⟨hmat, hm', hroot, still⟩ ⟨hf.all, hf.left⟩ hg hd hd'
  rw [I1] at J2
  cases J2
  rw [T1] at t0 t1
  refine ⟨fd₁', _, αD, d₁, k, F1, J1, ⟨hroot, ?_, ?_⟩, ⟨t0, t1⟩, ?_⟩
  · intro i₁ i₂ j₁ j₂ h1 h2 h3 h4 en
    show αD[i₁]? = β[i₂]?
    rw [hmat i₁ j₁ h1 h3, hm' i₂ j₂ h2 h4, en]
  · intro x b' i j hb' hx h0 hj en
    rw [hmat i j h0 hj, en, cut x b' hb' hx, ← en, zero i j h0 hj]
  · intro fd hfd hs hI hS
    obtain ⟨d3, m, fd₁, m', q1, q2, q3⟩ := C27_inverse_then_forward_physical G.wf G.rigid sz (p.ready S.ready hv).2 v1 hd hfd hI hS
      (solve := solve) (fun fd₁ e1 => hs fd₁ (by rw [← computeH_congr p, e1]))
    rw [J1] at q1
    cases q1
    exact ⟨fd₁, m', q2, q3⟩

end
namespace Sample.Lock
open Sample.Roots

/-- "arm" and "hand" are merged into "base". -/
def conf : SMap (List ℚ) := [("shoulder", [1]), ("wrist", [1, 1 / 2])]
def gm : GSt ℚ := match mergeSubBodies "base" "shoulder" conf gc with
  | .ok _ s => s
  | .error _ s => s

theorem gm_nodes : gm.2.nodes = [0, 3] := by decide +kernel

theorem gc_link_of {u : Nat} {b : Arc ℚ} (hu : u ∈ [0, 1, 2, 3]) (hb : b ∈ ((gc.1.nodes[u]?).map GNode.arcs).getD []) : Link gc.1 gc.2 u b := by
  refine ⟨by rw [gc_nodes]; exact hu, ?_⟩
  cases hn : gc.1.nodes[u]? with
  | none => rw [hn] at hb; simp at hb
  | some n => rw [hn] at hb; exact ⟨n, rfl, hb⟩

theorem gc_link {u : Nat} {b : Arc ℚ} (hb : Link gc.1 gc.2 u b) : u ∈ [0, 1, 2, 3] ∧ b ∈ ((gc.1.nodes[u]?).map GNode.arcs).getD [] := by
  obtain ⟨hu, n, hn, hb⟩ := hb
  exact ⟨by rw [← gc_nodes]; exact hu, by rw [hn]; exact hb⟩

def armArc : Arc ℚ := (((gc.1.nodes[0]?).map GNode.arcs).getD []).getD 0 ⟨1, Joint.mk' .Fixed 0 true "", 0⟩
def ballArc : Arc ℚ := (((gc.1.nodes[0]?).map GNode.arcs).getD []).getD 1 ⟨1, Joint.mk' .Fixed 0 true "", 0⟩

theorem base_kept : Kept gc.1 gc.2 ["shoulder"] 0 0 := ⟨by rw [gc_nodes]; decide, .refl _⟩
theorem ball_kept : Kept gc.1 gc.2 ["shoulder"] 0 3 :=
  base_kept.next gc_tree.toForest (a := ballArc) (gc_link_of (by decide) (by decide +kernel)) (by decide +kernel)

theorem call : MergeCall gc.1 gc.2 "base" "shoulder" conf cQ 0 where
  start := by
    refine ⟨0, by decide +kernel, fun b hb => ?_, base_kept, fun x b hb hx => ?_⟩
    · have key : ∀ b ∈ ((gc.1.nodes[0]?).map GNode.arcs).getD [], b.joint.name ≠ gc.2.rootName := by decide +kernel
      exact key b (gc_link hb).2
    · obtain ⟨h1, h2⟩ := gc_link hb
      have key : ∀ x ∈ [0, 1, 2, 3], ∀ b ∈ ((gc.1.nodes[x]?).map GNode.arcs).getD [], x = 0 ∨ x = 3 ∨ conf.find b.joint.name = some (cQ b.joint.name) := by
        decide +kernel
      rcases key x h1 b h2 with rfl | rfl | e
      · exact absurd base_kept hx
      · exact absurd ball_kept hx
      · exact e
  joint := ⟨armArc, gc_link_of (by decide) (by decide +kernel), by decide +kernel⟩

theorem merge_eq : mergeSubBodies "base" "shoulder" conf (gc.1, gc.2) = .ok ⟨⟩ (gm.1, gm.2) := by
  obtain ⟨h', g', e, -⟩ := call.mergedAt gc_tree gc_rigidGraph gc_validConf
  have : gm = (h', g') := by
    unfold gm
    rw [show gc = (gc.1, gc.2) from rfl, e]
  rw [e, this]

attribute [local irreducible] gm

def mbM : MultiBody ℚ := ((makeMultiBody gm.1 gm.2 "base" .Free ⟨0, 0, 1⟩ 1 gX).toOption).getD noMB
def mM : SMap (PTransform ℚ) := (bodiesBaseTransform gm.1 gm.2 "base" gX).toOption.getD []

theorem both : MadeBoth gc.1 gc.2 gm.1 gm.2 .Free mbF mbM :=
  ⟨"base", ⟨0, 0, 1⟩, 1, gX, ⟨trivial, IsRigid.one, gX_rigid⟩, by decide +kernel, by decide +kernel⟩

theorem madeM : MadeFrom gm.1 gm.2 .Free mbM mM :=
  ⟨"base", 0, ⟨0, 0, 1⟩, 1, gX, by decide +kernel, ⟨trivial, IsRigid.one, gX_rigid⟩, by decide +kernel, by decide +kernel⟩

/-- The velocities and accelerations: the merged joints have none. -/
def lA (name : String) : List ℚ := if name = "shoulder" then [0] else if name = "wrist" then [0, 0] else [1, 1 / 2, -1]
def lAD (name : String) : List ℚ := if name = "shoulder" then [0] else if name = "wrist" then [0, 0] else [5, 0, 1]
/-- The forces on the bodies of the graph. -/
def lF (x : Nat) : ForceVec ℚ :=
  if x = 0 then ⟨⟨1, 2, -1⟩, ⟨0, 4, 1⟩⟩ else if x = 1 then ⟨⟨1, 0, 2⟩, ⟨0, 3, 1⟩⟩ else if x = 2 then ⟨⟨0, 0, 5⟩, ⟨1, 1, 1⟩⟩ else ⟨⟨0, 1, 1⟩, ⟨1, 0, 0⟩⟩

def l0F : MBC ℚ :=
  { fresh mbF [[1, 0, 0, 0, 1, 2, 3], [1], [1, 1 / 2], [3 / 5, 0, 4 / 5, 0]] with
    alpha := [[1, 2, 3, 4, 5, 6], [0], [0, 0], [1, 1 / 2, -1]]
    alphaD := [[1, 0, -1, 2, 0, 3], [0], [0, 0], [5, 0, 1]]
    gravity := ⟨0, 0, 10⟩
    force := [lF 0, lF 1, lF 2, lF 3] }
def l0M : MBC ℚ :=
  { fresh mbM [[1, 0, 0, 0, 1, 2, 3], [3 / 5, 0, 4 / 5, 0]] with
    alpha := [[1, 2, 3, 4, 5, 6], [1, 1 / 2, -1]]
    alphaD := [[1, 0, -1, 2, 0, 3], [5, 0, 1]]
    gravity := ⟨0, 0, 10⟩
    force := [lF 0 + (lF 1 + lF 2), lF 3]
    jointTorque := [[0, 1, 0, 2, 0, 0], [1, 2, 3]] }
def lcF : MBC ℚ := moved mbF l0F
def lcM : MBC ℚ := moved mbM l0M

theorem l0F_conf : ConfigAt mbF .Free cQ l0F := by
  refine ⟨?_, named _ _ _ (by decide +kernel) (by decide +kernel), [1, 0, 0, 0, 1, 2, 3], by decide +kernel, rfl, by
    show (1 : ℚ) * 1 + 0 * 0 + 0 * 0 + 0 * 0 = 1; norm_num⟩
  constructor
  · show l0F.q.map List.length = mbF.joints.map (·.params); decide +kernel
  · show l0F.alpha.map List.length = mbF.joints.map (·.dof); decide +kernel
  · show l0F.alphaD.map List.length = mbF.joints.map (·.dof); decide +kernel
  · show l0F.jointTorque.map List.length = mbF.joints.map (·.dof); decide +kernel
  all_goals decide +kernel

theorem named2 (l : List (List ℚ)) (B : String → List ℚ) (h : ∀ i ∈ [1], ∀ j ∈ mbM.joints[i]?, l[i]? = some (B j.name)) : MatchesConf mbM l B := by
  intro i j hi hj
  have := (List.getElem?_eq_some_iff.1 hj).1
  have hl : mbM.joints.length = 2 := by decide +kernel
  exact h i (by simp; omega) j (by simpa using hj)

theorem l0M_conf : ConfigAt mbM .Free cQ l0M := by
  refine ⟨?_, named2 _ _ (by decide +kernel), [1, 0, 0, 0, 1, 2, 3], by decide +kernel, rfl, by
    show (1 : ℚ) * 1 + 0 * 0 + 0 * 0 + 0 * 0 = 1; norm_num⟩
  constructor
  · show l0M.q.map List.length = mbM.joints.map (·.params); decide +kernel
  · show l0M.alpha.map List.length = mbM.joints.map (·.dof); decide +kernel
  · show l0M.alphaD.map List.length = mbM.joints.map (·.dof); decide +kernel
  · show l0M.jointTorque.map List.length = mbM.joints.map (·.dof); decide +kernel
  all_goals decide +kernel

theorem mergedC : MergedAt gc.1 gc.2 0 cQ gm.1 gm.2 := by
  obtain ⟨h', g', e, M⟩ := call.mergedAt gc_tree gc_rigidGraph gc_validConf
  rw [merge_eq] at e
  injection e with _ e
  injection e with e1 e2
  rw [e1, e2]
  exact M

theorem lcF_spec : ConfigAt mbF .Free cQ lcF ∧ lcF.VelReady mbF ∧ lcF.alpha = l0F.alpha ∧ lcF.alphaD = l0F.alphaD ∧ lcF.force = l0F.force ∧
    lcF.gravity = l0F.gravity ∧ lcF.jointTorque = l0F.jointTorque :=
  moved_spec gc_tree gc_rigidGraph gc_validConf madeF l0F_conf
theorem lcM_spec : ConfigAt mbM .Free cQ lcM ∧ lcM.VelReady mbM ∧ lcM.alpha = l0M.alpha ∧ lcM.alphaD = l0M.alphaD ∧ lcM.force = l0M.force ∧
    lcM.gravity = l0M.gravity ∧ lcM.jointTorque = l0M.jointTorque :=
  moved_spec mergedC.tree (mergedC.rigid gc_rigidGraph) (mergedC.validConf gc_validConf) madeM l0M_conf

theorem still (B : String → List ℚ) (h1 : B "shoulder" = [0]) (h2 : B "wrist" = [0, 0]) : Still gc.1 gc.2 gm.2 B := by
  intro x b hb hx
  obtain ⟨h3, h4⟩ := gc_link hb
  have key : ∀ x ∈ [0, 1, 2, 3], ∀ b ∈ ((gc.1.nodes[x]?).map GNode.arcs).getD [], x = 0 ∨ x = 3 ∨ b.joint.name = "shoulder" ∨ b.joint.name = "wrist" := by
    decide +kernel
  rw [gm_nodes] at hx
  rcases key x h3 b h4 with rfl | rfl | e | e
  · simp at hx
  · simp at hx
  · rw [e, h1]; simp
  · rw [e, h2]; simp

theorem same : HeldState gc.1 gc.2 gm.2 .Free mbF mbM cQ lA lcF lcM where
  pos := lcF_spec.1
  pos' := lcM_spec.1
  vel := by rw [lcF_spec.2.2.1]; exact named _ _ _ (by decide +kernel) (by decide +kernel)
  vel' := by rw [lcM_spec.2.2.1]; exact named2 _ _ (by decide +kernel)
  rootPos := by decide +kernel
  rootVel := by decide +kernel
  still := still _ rfl rfl
  ready := lcF_spec.2.1
  ready' := lcM_spec.2.1

theorem sameAcc : HeldAcc gc.1 gc.2 gm.2 mbF mbM lAD lcF lcM where
  acc := by rw [lcF_spec.2.2.2.1]; exact named _ _ _ (by decide +kernel) (by decide +kernel)
  acc' := by rw [lcM_spec.2.2.2.1]; exact named2 _ _ (by decide +kernel)
  root := by decide +kernel
  still := still _ rfl rfl

theorem forces : ForcesAt gc.1 gc.2 0 gm.1 gm.2 mbF mbM lF lcF lcM where
  all := by
    intro x n hx hn
    have key : ∀ x ∈ [0, 1, 2, 3], ∀ n ∈ gc.1.nodes[x]?, mbF.ofBody lcF.force n.body.name = .ok (lF x) := by decide +kernel
    exact key x (by rw [← gc_nodes]; exact hx) n hn
  left := by
    intro x n hx hn
    have key : ∀ x ∈ [0, 3], ∀ n ∈ gm.1.nodes[x]?, mbM.ofBody lcM.force n.body.name =
      .ok (if x = 0 then lF 0 + ((gc.2.nodes.filter fun x => decide (x ∉ gm.2.nodes)).map lF).sum else lF x) := by decide +kernel
    exact key x (by rw [← gm_nodes]; exact hx) n hn

theorem gravity : lcF.gravity = lcM.gravity := by decide +kernel

/-- The hypotheses about motions hold, with a body that moves. -/
example : ∃ V, V ≠ 0 ∧ mbF.ofBody lcF.bodyVelB "slider" = .ok V ∧ mbM.ofBody lcM.bodyVelB "slider" = .ok V := by
  have key : (gm.1.nodes[3]?).map (·.body.name) = some "slider" := by decide +kernel
  obtain ⟨n, hn, en⟩ := Option.map_eq_some_iff.1 key
  obtain ⟨-, ⟨V, h1, h2⟩, h3⟩ := C78_merge_motion gc_tree gc_rigidGraph gc_validConf call merge_eq both same (x := 3) (by rw [gm_nodes]; decide) hn
  have := h3 lAD 0 sameAcc
  rw [en] at h1 h2
  refine ⟨V, ?_, h1, h2⟩
  rintro rfl
  exact absurd h1 (by decide +kernel)

/-- The hypotheses about torques hold. -/
example : ∃ d₁ d₁' k k', (ID.mk (List.replicate 4 0)).inverseDynamics mbF lcF = .ok (d₁, k) ∧
    (ID.mk (List.replicate 2 0)).inverseDynamics mbM lcM = .ok (d₁', k') ∧ SameByName mbF mbM k.jointTorque k'.jointTorque := by
  obtain ⟨d₁, d₁', k, k', h1, h2, -, h3, -⟩ := C78_merge_torques gc_tree gc_rigidGraph gc_validConf call merge_eq both same sameAcc forces gravity
    (d := ⟨List.replicate 4 0⟩) (d' := ⟨List.replicate 2 0⟩) (by decide +kernel) (by decide +kernel)
  exact ⟨d₁, d₁', k, k', h1, h2, h3⟩

/-- The bodies have mass. -/
example : ∃ p, computeCoM mbF lcF = .ok p ∧ computeCoM mbM lcM = .ok p :=
  (C78_merge_com_momentum gc_tree gc_rigidGraph gc_validConf call merge_eq both same fun x n hx hn => (gc_inertia x n hx hn).1).1

theorem gm_inertia : ∀ x n, x ∈ gm.2.nodes → gm.1.nodes[x]? = some n → ∀ v : MotionVec ℚ, v ≠ 0 → 0 < v.dot (n.body.inertia.mulMotion v) := by
  intro x n hx hn
  have key : ∀ x ∈ [0, 3], ∀ n ∈ gm.1.nodes[x]?, n.body.inertia ∈
      [⟨7, ⟨6, 7, 27 / 2⟩, ⟨281 / 4, -13, 261 / 4, -41 / 2, -55 / 2, 40⟩⟩, leafB.body.inertia] := by decide +kernel
  have hb := key x (by rw [← gm_nodes]; exact hx) n hn
  have key : ∀ w : Vec3 ℚ, w ≠ 0 → 0 < w.x ^ 2 + w.y ^ 2 + w.z ^ 2 := by
    intro w hw
    by_contra hcon
    push Not at hcon
    apply hw
    have h1 := sq_nonneg w.x
    have h2 := sq_nonneg w.y
    have h3 := sq_nonneg w.z
    ext <;> simp <;> nlinarith
  simp only [List.mem_cons, List.not_mem_nil, or_false] at hb
  rcases hb with e | e <;> rw [e] <;> refine RBInertia.pos_of (by decide +kernel) fun w hw => ?_ <;> have := key w hw <;>
    simp [leafB, leaf3, Vec3.dot, Vec3.cross, Sym3.toMat] <;>
    nlinarith [sq_nonneg w.x, sq_nonneg w.y, sq_nonneg w.z, sq_nonneg (w.x + w.y), sq_nonneg (w.x - w.y), sq_nonneg (w.x + w.z),
      sq_nonneg (w.x - w.z), sq_nonneg (w.y + w.z), sq_nonneg (w.y - w.z)]

/-- An exact solver of the equations of motion of a `MultiBody` with a free root joint, for one that solves regular systems. -/
theorem solver {h : Heap ℚ} {g : Graph} (T : Tree h g) (H : RigidGraph h g) {Q : String → List ℚ} (hQ : ValidConf h g Q)
    (hI : ∀ x n, x ∈ g.nodes → h.nodes[x]? = some n → ∀ v : MotionVec ℚ, v ≠ 0 → 0 < v.dot (n.body.inertia.mulMotion v))
    (hS : ∀ u a, Link h g u a → ∀ c ∈ a.joint.S, c ≠ 0) {mb : MultiBody ℚ} {m : SMap (PTransform ℚ)} {c : MBC ℚ} (M : MadeFrom h g .Free mb m)
    (hc : ConfigAt mb .Free Q c) (hv : c.VelReady mb) {solve : DMat ℚ → List ℚ → List ℚ}
    (hs : ∀ H : DMat ℚ, H.rows = mb.nrDof → H.cols = mb.nrDof →
      (∀ x : List ℚ, x.length = mb.nrDof → (∃ y ∈ x, y ≠ 0) → ∃ r, r < mb.nrDof ∧ H.mulVecAt x r ≠ 0) → ExactSolve solve H) :
    ∃ fd : FD ℚ, fd.Fits mb ∧ (∀ fd', fd.computeH mb c = .ok fd' → ExactSolve solve fd'.H) ∧
      (∀ b ∈ mb.bodies, ∀ v : MotionVec ℚ, v ≠ 0 → 0 < v.dot (b.inertia.mulMotion v)) ∧ ∀ j ∈ mb.joints, ∀ c ∈ j.S, c ≠ 0 := by
  obtain ⟨r, d, par, ax, X, Xb, N, G, -, hq⟩ := M.rooting T H
  have hq := hq Q c hQ hc
  obtain ⟨fd, -, hfit⟩ := C27_constructor G.wf (⟨⟨0, 0, fun _ _ => 0⟩, [], [], [], [], [], [], []⟩ : FD ℚ)
  refine ⟨fd, hfit, fun fd₁ e => ?_, G.posdef T.toForest H hI, G.cols_ne hS⟩
  obtain ⟨d', e', h⟩ := C29_positive_definite G.wf G.rigid hq hv.toPosReady hfit (G.posdef T.toForest H hI) (G.cols_ne hS)
  obtain ⟨d'', e'', hr, hcc, -⟩ := C28_symmetric G.wf G.rigid hq hv.toPosReady hfit
  rw [e] at e' e''
  cases e'
  cases e''
  refine hs _ hr hcc fun x hx hne => ?_
  by_contra hcon
  push Not at hcon
  have := h x hx hne
  rw [Finset.sum_eq_zero fun r hr => by rw [hcon r (Finset.mem_range.1 hr), mul_zero]] at this
  exact absurd this (lt_irrefl _)

/-- The hypotheses about forward dynamics hold, those of the last part included. -/
example : ∃ (solve : DMat ℚ → List ℚ → List ℚ) (fd fd' fd₁ fd₁' : FD ℚ) (k k' m : MBC ℚ), fd'.forwardDynamics solve mbM lcM = .ok (fd₁', k') ∧
    fd.forwardDynamics solve mbF k = .ok (fd₁, m) ∧ SameByName mbF mbM m.alphaD k'.alphaD := by
  obtain ⟨s1, h1⟩ := ExactSolve.exists_of_regular (K := ℚ) 12
  obtain ⟨s2, h2⟩ := ExactSolve.exists_of_regular (K := ℚ) 9
  have d1 : mbF.nrDof = 12 := by decide +kernel
  have d2 : mbM.nrDof = 9 := by decide +kernel
  have hS := fun u a ha => (gc_links u a ha).2
  obtain ⟨fd, f1, f2, f3, f4⟩ := solver gc_tree gc_rigidGraph gc_validConf (fun x n hx hn => (gc_inertia x n hx hn).2) hS madeF lcF_spec.1
    lcF_spec.2.1 (solve := fun H b => if H.rows = 12 then s1 H b else s2 H b) (by
      intro H hr hc hk
      rw [d1] at hr hc hk
      have := h1 H hr hc hk
      unfold ExactSolve at this ⊢
      simp only [hr, if_true] at this ⊢
      exact this)
  obtain ⟨fd', g1, g2, -, -⟩ := solver mergedC.tree (mergedC.rigid gc_rigidGraph) (mergedC.validConf gc_validConf) gm_inertia
    (fun u a ha => hS u a (mergedC.link u a ha)) madeM lcM_spec.1 lcM_spec.2.1 (solve := fun H b => if H.rows = 12 then s1 H b else s2 H b) (by
      intro H hr hc hk
      rw [d2] at hr hc hk
      have := h2 H hr hc hk
      unfold ExactSolve at this ⊢
      simp only [hr] at this ⊢
      exact this)
  obtain ⟨fd₁', k', αD, d₁, k, e1, e2, ⟨-, e3, -⟩, -, e4⟩ := C78_merge_forward_dynamics gc_tree gc_rigidGraph gc_validConf call merge_eq both same
    forces gravity g1 g2 (d := ⟨List.replicate 4 0⟩) (by decide +kernel)
  obtain ⟨fd₁, m, e5, e6⟩ := e4 fd f1 f2 f3 f4
  exact ⟨_, fd, fd', fd₁, fd₁', k, k', m, e1, e5, by rw [e6]; exact e3⟩

end Sample.Lock
end RBDyn
