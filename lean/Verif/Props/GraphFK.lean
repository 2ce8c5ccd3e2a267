import Verif.Lemmas.GraphMotion
import Verif.Lemmas.SampleGraph
import Verif.Props.Config
import Verif.Props.Kinematics

/-! Property C17: relative poses do not depend on the root body. -/

namespace RBDyn
variable {K : Type} [Scalar K]

open Graph

/-- World pose of the frame of the body `name` of the graph, as a user computes it from the result `mbc` of forward
kinematics and the result `m` of `bodiesBaseTransform`: `m.at(name) * mbc.bodyPosW[mb.bodyIndexByName(name)]`. -/
def graphBodyPose (mb : MultiBody K) (m : SMap (PTransform K)) (mbc : MBC K) (name : String) : Res (PTransform K) := do
  let i ← mb.sBodyIndexByName name
  let W ← rdI mbc.bodyPosW i
  let X ← m.getAt name
  return X * W

/-- The hypotheses on the root joint and base of one `MultiBody`. -/
structure GoodRoot (t : JointType) (axis : Vec3 K) (X0 Xb : PTransform K) : Prop where
  axis : ValidAxis t axis
  X0 : IsRigid X0
  Xb : IsRigid Xb

/-- A configuration of `mb` which puts the joints at `Q` (by name), the root joint at some valid position. -/
structure ConfigAt (mb : MultiBody K) (t : JointType) (Q : String → List K) (mbc : MBC K) : Prop where
  sized : mbc.Sized mb
  conf : MatchesConf mb mbc.q Q
  root : ∃ x, mbc.q[0]? = some x ∧ ValidParam t x

/-- What is known of the `MultiBody` made from the body `root`, and of the base transforms. -/
theorem root_rooting {h : Heap K} {g : Graph} (T : Tree h g) (H : RigidGraph h g) {root : String} {r : Nat}
    (hr : g.nodeByName root = .ok r) {t : JointType} {axis : Vec3 K} {X0 Xb : PTransform K} (gr : GoodRoot t axis X0 Xb) :
    ∃ mb m d par N, makeMultiBody h g root t axis X0 Xb = .ok mb ∧ bodiesBaseTransform h g root Xb = .ok m ∧
      Rooting h g r d par (Joint.mk' t axis true g.rootName) X0 Xb N mb ∧
      (∀ x n, x ∈ g.nodes → h.nodes[x]? = some n → mb.sBodyIndexByName n.body.name = .ok (N.idxOf x : Int) ∧
        m.getAt n.body.name = .ok (xf h r par Xb x).inv) ∧
      ∀ Q mbc, ValidConf h g Q → ConfigAt mb t Q mbc → ValidQ mb mbc.q := by
  have hr' : g.bodyMap.find root = some r := by
    unfold nodeByName SMap.getAt at hr
    split at hr <;> simp_all
  obtain ⟨d, par, R⟩ := T.rooted ((T.body _ _).1 hr').1
  obtain ⟨mb, e, wf, c, tr⟩ := R.makeMultiBody T.toForest H.built hr' t axis X0 Xb
  have hperm := R.dfs_perm T.toForest T.nodes_length_le_fuel
  have hnd : (dfs h h.fuel r none).Nodup := hperm.nodup_iff.2 T.nodes_nodup
  have hsrc : srcOf r par r = none := if_pos rfl
  obtain ⟨m, em, hm⟩ := computeTransform_spec R T.toForest Xb h.fuel r [] [] Xb R.mem
    (by rw [R.d0]; exact T.nodes_length_le_fuel) (by simp) (MapRel.nil _) (fun _ => rfl)
  rw [hsrc] at em hm
  rw [List.nil_append] at hm
  have hbody : ∀ (i i' : Nat) (b b' : Body K), mb.bodies[i]? = some b → mb.bodies[i']? = some b' → b.name = b'.name →
      i = i' := fun i i' b b' h1 h2 h3 => tr.body_inj T.toInv hnd h1 h2 h3
  have hjoint : ∀ (i : Nat) (j : Joint K), mb.joints[i]? = some j →
      (i = 0 ∧ j = Joint.mk' t axis true g.rootName) ∨ (i ≠ 0 ∧ ∃ u a, Link h g u a ∧ j = a.joint) := by
    intro i j hj
    have hi : i < (dfs h h.fuel r none).length := by
      rw [← tr.njoints]; exact (List.getElem?_eq_some_iff.1 hj).1
    have E := tr.entry i _ (List.getElem?_eq_getElem hi)
    by_cases hxr : (dfs h h.fuel r none)[i] = r
    · left
      obtain ⟨h1, h2, -⟩ := E.root hxr
      rw [show (stOf mb).joints[i]? = _ from hj] at h2
      exact ⟨h1, Option.some_inj.1 h2⟩
    · right
      obtain ⟨k, a, hk, hki, ha, -, h2, -⟩ := E.child hxr
      rw [show (stOf mb).joints[i]? = _ from hj] at h2
      exact ⟨by omega, _, a, ha, Option.some_inj.1 h2⟩
  have hrig : mb.Rigid := by
    constructor
    · intro j hj
      obtain ⟨i, hi, rfl⟩ := List.mem_iff_getElem.1 hj
      rcases hjoint i _ (List.getElem?_eq_getElem hi) with ⟨-, e⟩ | ⟨-, u, a, ha, e⟩
      · rw [e]; exact .mk _ _ _ _ gr.axis
      · rw [e]; exact H.joint u a ha
    · intro X hX
      obtain ⟨i, hi, rfl⟩ := List.mem_iff_getElem.1 hX
      have hi' : i < (dfs h h.fuel r none).length := by rw [← tr.nXt]; exact hi
      have E := tr.entry i _ (List.getElem?_eq_getElem hi')
      by_cases hxr : (dfs h h.fuel r none)[i] = r
      · obtain ⟨-, -, -, -, h2⟩ := E.root hxr
        rw [show (stOf mb).Xt[i]? = some mb.Xt[i] from List.getElem?_eq_getElem hi] at h2
        rw [Option.some_inj.1 h2]; exact gr.X0
      · obtain ⟨k, a, hk, hki, ha, -, -, -, -, h2⟩ := E.child hxr
        rw [show (stOf mb).Xt[i]? = some mb.Xt[i] from List.getElem?_eq_getElem hi] at h2
        rw [Option.some_inj.1 h2]
        exact (H.X _ a ha).mul (R.xf_rigid T.toForest H gr.Xb ha.mem).inv
  refine ⟨mb, m, d, par, _, e, by simp only [bodiesBaseTransform, SMap.getAt, hr', Res.bind_ok, em],
    ⟨R, wf, hrig, tr, hperm, gr.Xb⟩, ?_, ?_⟩
  · intro x n hx hn
    have hxm : x ∈ dfs h h.fuel r none := hperm.mem_iff.2 hx
    obtain ⟨i, hi, ei⟩ := List.mem_iff_getElem.1 hxm
    have hxi : (dfs h h.fuel r none)[i]? = some x := by rw [List.getElem?_eq_getElem hi, ei]
    obtain ⟨n', hn', hb⟩ := (tr.entry i x hxi).body
    obtain rfl := Option.some_inj.1 (hn.symm.trans hn')
    have hidx := Graph.CtorInv.body_find (b := ⟨(xf h r par Xb x).dualMulI n.body.inertia, n.body.name⟩) c hbody hb
    obtain ⟨X, hX, rfl⟩ := hm.found x hxm n hn
    rw [idxOf_of_getElem? hnd hxi]
    exact ⟨hidx, by simp only [SMap.getAt, hX]⟩
  · intro Q mbc hQ hc
    have hlen : mbc.q.length = mb.joints.length := by
      have := congrArg List.length hc.sized.q; simpa using this
    unfold ValidQ
    rw [List.forall₂_iff_get]
    refine ⟨hlen.symm, ?_⟩
    intro i h1 h2
    have e1 : mb.joints[i]? = some (mb.joints.get ⟨i, h1⟩) := List.getElem?_eq_getElem h1
    have e2 : mbc.q[i]? = some (mbc.q.get ⟨i, h2⟩) := List.getElem?_eq_getElem h2
    rcases hjoint i _ e1 with ⟨rfl, e⟩ | ⟨hi0, u, a, ha, e⟩
    · obtain ⟨x, hx, hv⟩ := hc.root
      rw [hx] at e2
      rw [e, ← Option.some_inj.1 e2]
      exact hv
    · have := hc.conf i _ hi0 e1
      rw [e2] at this
      rw [Option.some_inj.1 this, e]
      exact hQ u a ha

/-- One root: forward kinematics gives a placement of the bodies. -/
theorem fk_place {h : Heap K} {g : Graph} (T : Tree h g) (H : RigidGraph h g) {root : String} {r : Nat}
    (hr : g.nodeByName root = .ok r) {t : JointType} {axis : Vec3 K} {X0 Xb : PTransform K} (gr : GoodRoot t axis X0 Xb) :
    ∃ mb m, makeMultiBody h g root t axis X0 Xb = .ok mb ∧ bodiesBaseTransform h g root Xb = .ok m ∧ mb.WF ∧ mb.Rigid ∧
      ∀ Q mbc, ValidConf h g Q → ConfigAt mb t Q mbc → ValidQ mb mbc.q ∧
        ∃ mbc' W, forwardKinematics mb mbc = .ok mbc' ∧ Placement h g Q W ∧
        (∀ x ∈ g.nodes, IsRigid (W x)) ∧
        ∀ x n, x ∈ g.nodes → h.nodes[x]? = some n → graphBodyPose mb m mbc' n.body.name = .ok (W x) := by
  obtain ⟨mb, m, d, par, N, e, em, G, hx, hvq⟩ := root_rooting T H hr gr
  refine ⟨mb, m, e, em, G.wf, G.rigid, fun Q mbc hQ hc => ⟨hvq Q mbc hQ hc, ?_⟩⟩
  obtain ⟨mbc', efk, pr, -, hqq, -⟩ := C23_posReady G.wf hc.sized
  refine ⟨mbc', fkPlace h r par Xb N mb mbc.q, efk, fk_placement G.R T.toForest H G.wf G.tr G.perm hQ hc.conf, ?_, ?_⟩
  · intro x hx
    exact (G.xf_rigid T.toForest H hx).inv.mul (mb.posAt_rigid G.rigid (hvq Q mbc hQ hc) _)
  · intro x n hxg hn
    obtain ⟨h1, h2⟩ := hx x n hxg hn
    have hW : rdI mbc'.bodyPosW (N.idxOf x : Int) = .ok (mb.posAt mbc.q (N.idxOf x)) := by
      rw [rdI_ofNat]
      apply rd_of_getElem?
      rw [pr.bodyPosW, hqq]
      exact range_map_getElem? (G.index hxg).2
    simp only [graphBodyPose, h1, h2, Res.bind_ok, hW, Res.pure_eq, fkPlace]

/-- C17: for the same positions `Q` of the joints of a tree-shaped graph, the transform between the frames of any two bodies
obtained by forward kinematics on the `MultiBody` made from one root body equals the one obtained from any other root
body, whatever the root joints, their positions and the base transforms. -/
theorem C17_root_independent {h : Heap K} {g : Graph} (T : Tree h g) (H : RigidGraph h g)
    {root₁ root₂ : String} {r₁ r₂ : Nat} (hr₁ : g.nodeByName root₁ = .ok r₁) (hr₂ : g.nodeByName root₂ = .ok r₂)
    {t₁ t₂ : JointType} {axis₁ axis₂ : Vec3 K} {X₁ X₂ Xb₁ Xb₂ : PTransform K} (g₁ : GoodRoot t₁ axis₁ X₁ Xb₁)
    (g₂ : GoodRoot t₂ axis₂ X₂ Xb₂) :
    ∃ mb₁ mb₂ m₁ m₂, makeMultiBody h g root₁ t₁ axis₁ X₁ Xb₁ = .ok mb₁ ∧
      makeMultiBody h g root₂ t₂ axis₂ X₂ Xb₂ = .ok mb₂ ∧ bodiesBaseTransform h g root₁ Xb₁ = .ok m₁ ∧
      bodiesBaseTransform h g root₂ Xb₂ = .ok m₂ ∧
      ∀ Q c₁ c₂, ValidConf h g Q → ConfigAt mb₁ t₁ Q c₁ → ConfigAt mb₂ t₂ Q c₂ →
        ∃ c₁' c₂', forwardKinematics mb₁ c₁ = .ok c₁' ∧ forwardKinematics mb₂ c₂ = .ok c₂' ∧
          ∀ x y n k, x ∈ g.nodes → y ∈ g.nodes → h.nodes[x]? = some n → h.nodes[y]? = some k →
            ∃ A₁ B₁ A₂ B₂, graphBodyPose mb₁ m₁ c₁' n.body.name = .ok A₁ ∧
              graphBodyPose mb₁ m₁ c₁' k.body.name = .ok B₁ ∧ graphBodyPose mb₂ m₂ c₂' n.body.name = .ok A₂ ∧
              graphBodyPose mb₂ m₂ c₂' k.body.name = .ok B₂ ∧ A₁ * B₁.inv = A₂ * B₂.inv := by
  obtain ⟨mb₁, m₁, e₁, f₁, -, -, P₁⟩ := fk_place T H hr₁ g₁
  obtain ⟨mb₂, m₂, e₂, f₂, -, -, P₂⟩ := fk_place T H hr₂ g₂
  refine ⟨mb₁, mb₂, m₁, m₂, e₁, e₂, f₁, f₂, ?_⟩
  intro Q c₁ c₂ hQ hc₁ hc₂
  obtain ⟨-, c₁', W₁, k₁, w₁, r₁, v₁⟩ := P₁ Q c₁ hQ hc₁
  obtain ⟨-, c₂', W₂, k₂, w₂, r₂, v₂⟩ := P₂ Q c₂ hQ hc₂
  refine ⟨c₁', c₂', k₁, k₂, ?_⟩
  intro x y n k hx hy hn hk
  exact ⟨_, _, _, _, v₁ x n hx hn, v₁ y k hy hk, v₂ x n hx hn, v₂ y k hy hk,
    Placement.rel T.toForest H hQ w₁ w₂ r₁ r₂ hy (T.connected y hy x hx)⟩

/-- C17: forward kinematics from any root solves the equations of all links: for a link seen as arc `a` from body `u` and as
arc `c` from the other body, the two ways to the joint agree. -/
theorem C17_placement {h : Heap K} {g : Graph} (T : Tree h g) (H : RigidGraph h g) {root : String} {r : Nat}
    (hr : g.nodeByName root = .ok r) {t : JointType} {axis : Vec3 K} {X0 Xb : PTransform K} (gr : GoodRoot t axis X0 Xb) :
    ∃ mb m, makeMultiBody h g root t axis X0 Xb = .ok mb ∧ bodiesBaseTransform h g root Xb = .ok m ∧
      ∀ Q mbc, ValidConf h g Q → ConfigAt mb t Q mbc → ∃ mbc', forwardKinematics mb mbc = .ok mbc' ∧
        ∀ u a c n k, Link h g u a → Link h g a.next c → c.next = u → h.nodes[u]? = some n → h.nodes[a.next]? = some k →
          ∃ X A B, a.joint.pose (Q a.joint.name) = .ok X ∧ graphBodyPose mb m mbc' n.body.name = .ok A ∧
            graphBodyPose mb m mbc' k.body.name = .ok B ∧ c.X * B = X * a.X * A := by
  obtain ⟨mb, m, e, f, -, -, P⟩ := fk_place T H hr gr
  refine ⟨mb, m, e, f, ?_⟩
  intro Q mbc hQ hc
  obtain ⟨-, mbc', W, k, w, -, v⟩ := P Q mbc hQ hc
  refine ⟨mbc', k, ?_⟩
  intro u a c n k ha hc ec hn hk
  obtain ⟨X, hX, -⟩ := T.pair_pose H hQ ha hc ec
  exact ⟨X, _, _, hX, v u n ha.mem hn, v _ k hc.mem hk, w u a c X ha hc ec hX⟩

/-! The sample graph rooted at two of its bodies. -/

namespace Sample

theorem gs_rigidGraph : RigidGraph gs.1 gs.2 := ⟨gs_unit, gs_rigid⟩

/-- Positions by joint name. -/
def gQ (name : String) : List ℚ :=
  if name = "shoulder" then [1] else if name = "wrist" then [3 / 5, 0, 4 / 5, 0] else [-2]

theorem gs_validConf : ValidConf gs.1 gs.2 gQ := by
  rintro u a ⟨hu, n, hn, ha⟩
  have key : ∀ u ∈ [0, 1, 2, 3], ∀ a ∈ ((gs.1.nodes[u]?).map GNode.arcs).getD [],
      (a.joint.type = .Rev ∧ gQ a.joint.name = [1]) ∨ (a.joint.type = .Prism ∧ gQ a.joint.name = [-2]) ∨
      (a.joint.type = .Spherical ∧ gQ a.joint.name = [3 / 5, 0, 4 / 5, 0]) := by
    decide +kernel
  rcases key u (by rw [← gs_nodes]; exact hu) a (by rw [hn]; exact ha) with ⟨e1, e2⟩ | ⟨e1, e2⟩ | ⟨e1, e2⟩
  · rw [e1, e2]; exact ⟨rfl, trivial⟩
  · rw [e1, e2]; exact ⟨rfl, trivial⟩
  · rw [e1, e2]
    refine ⟨rfl, ?_⟩
    show (3 / 5 : ℚ) * (3 / 5) + 0 * 0 + 4 / 5 * (4 / 5) + 0 * 0 = 1
    norm_num

/-- The `MultiBody` rooted at "hand", with a revolute root joint, and the one rooted at "base", with a fixed root joint. -/
def mbH : MultiBody ℚ :=
  ((makeMultiBody gs.1 gs.2 "hand" .Rev ⟨0, 0, 1⟩ gX gY).toOption).getD ⟨[], [], [], [], [], [], [], [], [], [], 0, 0⟩
def mbB : MultiBody ℚ :=
  ((makeMultiBody gs.1 gs.2 "base" .Fixed ⟨0, 0, 1⟩ 1 gX).toOption).getD ⟨[], [], [], [], [], [], [], [], [], [], 0, 0⟩

theorem mbH_eq : makeMultiBody gs.1 gs.2 "hand" .Rev ⟨0, 0, 1⟩ gX gY = .ok mbH := by decide +kernel
theorem mbB_eq : makeMultiBody gs.1 gs.2 "base" .Fixed ⟨0, 0, 1⟩ 1 gX = .ok mbB := by decide +kernel

def fresh (mb : MultiBody ℚ) (q : List (List ℚ)) : MBC ℚ :=
  { (MBC.mk' junk mb).toOption.getD ⟨[], [], [], [], [], [], [], [], [], [], [], [], [], 0⟩ with q := q }

def mbcH : MBC ℚ := fresh mbH [[2], [3 / 5, 0, 4 / 5, 0], [1], [-2]]
def mbcB : MBC ℚ := fresh mbB [[], [1], [3 / 5, 0, 4 / 5, 0], [-2]]

theorem mbcH_sized : mbcH.Sized mbH := by
  constructor
  · show mbcH.q.map List.length = mbH.joints.map (·.params); decide +kernel
  · show mbcH.alpha.map List.length = mbH.joints.map (·.dof); decide +kernel
  · show mbcH.alphaD.map List.length = mbH.joints.map (·.dof); decide +kernel
  · show mbcH.jointTorque.map List.length = mbH.joints.map (·.dof); decide +kernel
  all_goals decide +kernel

theorem mbcB_sized : mbcB.Sized mbB := by
  constructor
  · show mbcB.q.map List.length = mbB.joints.map (·.params); decide +kernel
  · show mbcB.alpha.map List.length = mbB.joints.map (·.dof); decide +kernel
  · show mbcB.alphaD.map List.length = mbB.joints.map (·.dof); decide +kernel
  · show mbcB.jointTorque.map List.length = mbB.joints.map (·.dof); decide +kernel
  all_goals decide +kernel

theorem confH : ConfigAt mbH .Rev gQ mbcH := by
  refine ⟨mbcH_sized, ?_, [2], by decide +kernel, rfl, trivial⟩
  intro i j hi hj
  have hl : i < 4 := by
    have h1 : mbH.joints.length = 4 := by decide +kernel
    have := (List.getElem?_eq_some_iff.1 hj).1
    omega
  have key : ∀ i ∈ [1, 2, 3], ∀ j ∈ mbH.joints[i]?, mbcH.q[i]? = some (gQ j.name) := by decide +kernel
  exact key i (by simp; omega) j (by simpa using hj)

theorem confB : ConfigAt mbB .Fixed gQ mbcB := by
  refine ⟨mbcB_sized, ?_, [], by decide +kernel, rfl, trivial⟩
  intro i j hi hj
  have hl : i < 4 := by
    have h1 : mbB.joints.length = 4 := by decide +kernel
    have := (List.getElem?_eq_some_iff.1 hj).1
    omega
  have key : ∀ i ∈ [1, 2, 3], ∀ j ∈ mbB.joints[i]?, mbcB.q[i]? = some (gQ j.name) := by decide +kernel
  exact key i (by simp; omega) j (by simpa using hj)

/-- The hypotheses of C17 are met by the sample graph: the two roots give the same relative poses. -/
example : ∃ m₁ m₂ c₁ c₂, forwardKinematics mbH mbcH = .ok c₁ ∧ forwardKinematics mbB mbcB = .ok c₂ ∧
    bodiesBaseTransform gs.1 gs.2 "hand" gY = .ok m₁ ∧ bodiesBaseTransform gs.1 gs.2 "base" gX = .ok m₂ ∧
    ∃ A₁ B₁ A₂ B₂, graphBodyPose mbH m₁ c₁ "slider" = .ok A₁ ∧ graphBodyPose mbH m₁ c₁ "arm" = .ok B₁ ∧
      graphBodyPose mbB m₂ c₂ "slider" = .ok A₂ ∧ graphBodyPose mbB m₂ c₂ "arm" = .ok B₂ ∧
      A₁ * B₁.inv = A₂ * B₂.inv := by
  obtain ⟨mb₁, mb₂, m₁, m₂, e₁, e₂, f₁, f₂, P⟩ := C17_root_independent gs_tree gs_rigidGraph gs_hand gs_base
    (t₁ := .Rev) (t₂ := .Fixed) (axis₁ := ⟨0, 0, 1⟩) (axis₂ := ⟨0, 0, 1⟩) (X₁ := gX) (X₂ := 1) (Xb₁ := gY) (Xb₂ := gX)
    ⟨by simp [ValidAxis, IsUnit3], gX_rigid, gY_rigid⟩ ⟨trivial, IsRigid.one, gX_rigid⟩
  rw [mbH_eq] at e₁
  rw [mbB_eq] at e₂
  cases e₁
  cases e₂
  obtain ⟨c₁, c₂, k₁, k₂, h⟩ := P gQ mbcH mbcB gs_validConf confH confB
  refine ⟨m₁, m₂, c₁, c₂, k₁, k₂, f₁, f₂, ?_⟩
  have h3 : ∃ n, gs.1.nodes[3]? = some n ∧ n.body.name = "slider" := ⟨_, rfl, rfl⟩
  have h1 : ∃ n, gs.1.nodes[1]? = some n ∧ n.body.name = "arm" := ⟨_, rfl, rfl⟩
  obtain ⟨n, hn, en⟩ := h3
  obtain ⟨k, hk, ek⟩ := h1
  have := h 3 1 n k (by rw [gs_nodes]; decide) (by rw [gs_nodes]; decide) hn hk
  rwa [en, ek] at this

/-- Relative pose of two bodies without the base transforms. -/
def rawRel (mb : MultiBody ℚ) (mbc : MBC ℚ) (a b : String) : Res (PTransform ℚ) := do
  let c ← forwardKinematics mb mbc
  let i ← mb.sBodyIndexByName a
  let j ← mb.sBodyIndexByName b
  let A ← rdI c.bodyPosW i
  let B ← rdI c.bodyPosW j
  return A * B.inv

end Sample

open Sample in
/-- C17: without the base transforms the relative poses do depend on the root: `bodyPosW` holds the frame of the joint
through which the body was reached. -/
theorem C17_needs_base_transform : (rawRel mbH mbcH "slider" "arm").toBool = true ∧
    (rawRel mbB mbcB "slider" "arm").toBool = true ∧ rawRel mbH mbcH "slider" "arm" ≠ rawRel mbB mbcB "slider" "arm" := by
  decide +kernel

end RBDyn
