import Verif.Lemmas.GraphTwin
import Verif.Props.GraphFK
import Verif.Props.Dynamics
import Verif.Lemmas.Momentum
import Verif.Lemmas.DynDeriv

/-! Property C75: the motion and the dynamics of a robot do not depend on the root body of its `MultiBody`. -/

namespace RBDyn
variable {K : Type} [Scalar K]

open Graph
open scoped Mat3

/-- `mb` was made from some body of the graph with a root joint of type `t`, and `m` are its base transforms. -/
structure MadeFrom (h : Heap K) (g : Graph) (t : JointType) (mb : MultiBody K) (m : SMap (PTransform K)) : Prop where
  made : ∃ root r axis X0 Xb, g.nodeByName root = .ok r ∧ GoodRoot t axis X0 Xb ∧ makeMultiBody h g root t axis X0 Xb = .ok mb ∧
    bodiesBaseTransform h g root Xb = .ok m

/-- The vector of the body `name` in `l`, one of `bodyVelB` and `bodyAccB`, in the frame of the body of the graph. -/
def graphBodyMotion (mb : MultiBody K) (m : SMap (PTransform K)) (l : List (MotionVec K)) (name : String) : Res (MotionVec K) := do
  let i ← mb.sBodyIndexByName name
  let v ← rdI l i
  let X ← m.getAt name
  return X.mulMotion v

/-- Bodies with the same name have the same external forces. -/
def SameForces (mb₁ mb₂ : MultiBody K) (c₁ c₂ : MBC K) : Prop :=
  ∀ name i₁ i₂, mb₁.sBodyIndexByName name = .ok i₁ → mb₂.sBodyIndexByName name = .ok i₂ → rdI c₁.force i₁ = rdI c₂.force i₂

/-- Joints with the same name, the root joints apart, have the same entries. -/
def SameByName (mb₁ mb₂ : MultiBody K) (l₁ l₂ : List (List K)) : Prop :=
  ∀ (i₁ i₂ : Nat) (j₁ j₂ : Joint K), i₁ ≠ 0 → i₂ ≠ 0 → mb₁.joints[i₁]? = some j₁ → mb₂.joints[i₂]? = some j₂ → j₁.name = j₂.name →
    l₁[i₁]? = l₂[i₂]?

section
variable {h : Heap K} {g : Graph}

theorem MadeFrom.rooting (T : Tree h g) (H : RigidGraph h g) {t : JointType} {mb : MultiBody K} {m : SMap (PTransform K)}
    (M : MadeFrom h g t mb m) : ∃ r d par ax X0 Xb N, Rooting h g r d par (Joint.mk' t ax true g.rootName) X0 Xb N mb ∧
      (∀ x n, x ∈ g.nodes → h.nodes[x]? = some n → mb.sBodyIndexByName n.body.name = .ok (N.idxOf x : Int) ∧
        m.getAt n.body.name = .ok (xf h r par Xb x).inv) ∧
      ∀ Q mbc, ValidConf h g Q → ConfigAt mb t Q mbc → ValidQ mb mbc.q := by
  obtain ⟨root, r, axis, X0, Xb, hr, gr, e1, e2⟩ := M.made
  obtain ⟨mb', m', d, par, N, e3, e4, G, hx, hv⟩ := root_rooting T H hr gr
  rw [e1] at e3
  rw [e2] at e4
  cases e3
  cases e4
  exact ⟨r, d, par, axis, X0, Xb, N, G, hx, hv⟩

variable {r : Nat} {d par : Nat → Nat} {J : Joint K} {X0 Xb : PTransform K} {N : List Nat} {mb : MultiBody K} {m : SMap (PTransform K)}

theorem Graph.Rooting.pose_read (G : Rooting h g r d par J X0 Xb N mb) {c : MBC K} (hc : c.PosReady mb) {x : Nat} {n : GNode K} (hx : x ∈ g.nodes)
    (hn : mb.sBodyIndexByName n.body.name = .ok (N.idxOf x : Int) ∧ m.getAt n.body.name = .ok (xf h r par Xb x).inv) :
    graphBodyPose mb m c n.body.name = .ok (fkPlace h r par Xb N mb c.q x) := by
  have hW : rdI c.bodyPosW (N.idxOf x : Int) = .ok (mb.posAt c.q (N.idxOf x)) := by
    rw [rdI_ofNat, hc.bodyPosW]
    exact rd_of_getElem? (range_map_getElem? (G.index hx).2)
  simp only [graphBodyPose, hn.1, hn.2, Res.bind_ok, hW, Res.pure_eq, fkPlace]

theorem Graph.Rooting.motion_read (G : Rooting h g r d par J X0 Xb N mb) {l : List (MotionVec K)} {f : Nat → MotionVec K}
    (hl : l = (List.range mb.bodies.length).map f) {x : Nat} {n : GNode K} (hx : x ∈ g.nodes)
    (hn : mb.sBodyIndexByName n.body.name = .ok (N.idxOf x : Int) ∧ m.getAt n.body.name = .ok (xf h r par Xb x).inv) :
    graphBodyMotion mb m l n.body.name = .ok (inGraph h r par Xb N f x) := by
  have hW : rdI l (N.idxOf x : Int) = .ok (f (N.idxOf x)) := by
    rw [rdI_ofNat, hl]
    exact rd_of_getElem? (range_map_getElem? (G.index hx).2)
  simp only [graphBodyMotion, hn.1, hn.2, Res.bind_ok, hW, Res.pure_eq, inGraph]

end

section
variable {h : Heap K} {g : Graph} {t₁ t₂ : JointType} {mb₁ mb₂ : MultiBody K} {m₁ m₂ : SMap (PTransform K)} {c₁ c₂ : MBC K}
  {Q A : String → List K}

/-- C75: if the joints that the two roots turn round move about or along an axis, then for the same positions `Q` and velocities `A` of the
joints the velocity of one body of the graph relative to another is the same whatever body was made the root. `c₁` and `c₂` are states after forward kinematics
and forward velocity, the root joints have any type and any position and velocity. -/
theorem C75_velocities (T : Tree h g) (H : RigidGraph h g) (O : ReversedOneAxis mb₁ mb₂) (M₁ : MadeFrom h g t₁ mb₁ m₁) (M₂ : MadeFrom h g t₂ mb₂ m₂)
    (hQ : ValidConf h g Q) (hc₁ : ConfigAt mb₁ t₁ Q c₁) (hc₂ : ConfigAt mb₂ t₂ Q c₂) (hv₁ : c₁.VelReady mb₁) (hv₂ : c₂.VelReady mb₂)
    (ha₁ : MatchesConf mb₁ c₁.alpha A) (ha₂ : MatchesConf mb₂ c₂.alpha A) {x y : Nat} {n k : GNode K} (hx : x ∈ g.nodes) (hy : y ∈ g.nodes)
    (hn : h.nodes[x]? = some n) (hk : h.nodes[y]? = some k) :
    ∃ X₁ Y₁ X₂ Y₂ V₁ U₁ V₂ U₂, graphBodyPose mb₁ m₁ c₁ n.body.name = .ok X₁ ∧ graphBodyPose mb₁ m₁ c₁ k.body.name = .ok Y₁ ∧
      graphBodyPose mb₂ m₂ c₂ n.body.name = .ok X₂ ∧ graphBodyPose mb₂ m₂ c₂ k.body.name = .ok Y₂ ∧
      graphBodyMotion mb₁ m₁ c₁.bodyVelB n.body.name = .ok V₁ ∧ graphBodyMotion mb₁ m₁ c₁.bodyVelB k.body.name = .ok U₁ ∧
      graphBodyMotion mb₂ m₂ c₂.bodyVelB n.body.name = .ok V₂ ∧ graphBodyMotion mb₂ m₂ c₂.bodyVelB k.body.name = .ok U₂ ∧
      Y₁ * X₁.inv = Y₂ * X₂.inv ∧ U₁ - (Y₁ * X₁.inv).mulMotion V₁ = U₂ - (Y₂ * X₂.inv).mulMotion V₂ := by
  obtain ⟨r₁, d₁, par₁, ax₁, X₁, Xb₁, N₁, G₁, n₁, q₁⟩ := M₁.rooting T H
  obtain ⟨r₂, d₂, par₂, ax₂, X₂, Xb₂, N₂, G₂, n₂, q₂⟩ := M₂.rooting T H
  have q₁ := q₁ Q c₁ hQ hc₁
  have q₂ := q₂ Q c₂ hQ hc₂
  have w₁ := fk_placement G₁.R T.toForest H G₁.wf G₁.tr G₁.perm hQ hc₁.conf
  have w₂ := fk_placement G₂.R T.toForest H G₂.wf G₂.tr G₂.perm hQ hc₂.conf
  have i₁ : ∀ x ∈ g.nodes, IsRigid (fkPlace h r₁ par₁ Xb₁ N₁ mb₁ c₁.q x) := fun x hx =>
    (G₁.xf_rigid T.toForest H hx).inv.mul (mb₁.posAt_rigid G₁.rigid q₁ _)
  have i₂ : ∀ x ∈ g.nodes, IsRigid (fkPlace h r₂ par₂ Xb₂ N₂ mb₂ c₂.q x) := fun x hx =>
    (G₂.xf_rigid T.toForest H hx).inv.mul (mb₂.posAt_rigid G₂.rigid q₂ _)
  have f₁ := G₁.velFlow T.toForest H hQ hc₁.conf q₁ ha₁
  have f₂ := (G₂.velFlow T.toForest H hQ hc₂.conf q₂ ha₂).vel_turn T.toForest H (G₁.turned G₂ T.toForest O) hQ
  have e := Placement.rel T.toForest H hQ w₁ w₂ i₁ i₂ hx (T.connected x hx y hy)
  have e' := f₁.rel T.toForest H hQ w₁ i₁ f₂ hx (T.connected x hx y hy)
  refine ⟨_, _, _, _, _, _, _, _, G₁.pose_read hv₁.toPosReady hx (n₁ x n hx hn), G₁.pose_read hv₁.toPosReady hy (n₁ y k hy hk),
    G₂.pose_read hv₂.toPosReady hx (n₂ x n hx hn), G₂.pose_read hv₂.toPosReady hy (n₂ y k hy hk),
    G₁.motion_read hv₁.bodyVelB hx (n₁ x n hx hn), G₁.motion_read hv₁.bodyVelB hy (n₁ y k hy hk),
    G₂.motion_read hv₂.bodyVelB hx (n₂ x n hx hn), G₂.motion_read hv₂.bodyVelB hy (n₂ y k hy hk), e, ?_⟩
  rw [← e]
  rw [PTransform.mulMotion_sub] at e'
  rw [sub_eq_sub_iff_add_eq_add] at e' ⊢
  rw [e', add_comm]

/-- C75: if one body has the same pose and the same velocity seen from both roots, so has every body. -/
theorem C75_same_motion (T : Tree h g) (H : RigidGraph h g) (O : ReversedOneAxis mb₁ mb₂) (M₁ : MadeFrom h g t₁ mb₁ m₁) (M₂ : MadeFrom h g t₂ mb₂ m₂)
    (hQ : ValidConf h g Q) (hc₁ : ConfigAt mb₁ t₁ Q c₁) (hc₂ : ConfigAt mb₂ t₂ Q c₂) (hv₁ : c₁.VelReady mb₁) (hv₂ : c₂.VelReady mb₂)
    (ha₁ : MatchesConf mb₁ c₁.alpha A) (ha₂ : MatchesConf mb₂ c₂.alpha A) {x : Nat} {n : GNode K} (hx : x ∈ g.nodes) (hn : h.nodes[x]? = some n)
    (hP : graphBodyPose mb₁ m₁ c₁ n.body.name = graphBodyPose mb₂ m₂ c₂ n.body.name)
    (hV : graphBodyMotion mb₁ m₁ c₁.bodyVelB n.body.name = graphBodyMotion mb₂ m₂ c₂.bodyVelB n.body.name) {y : Nat} {k : GNode K}
    (hy : y ∈ g.nodes) (hk : h.nodes[y]? = some k) :
    ∃ P V, graphBodyPose mb₁ m₁ c₁ k.body.name = .ok P ∧ graphBodyPose mb₂ m₂ c₂ k.body.name = .ok P ∧
      graphBodyMotion mb₁ m₁ c₁.bodyVelB k.body.name = .ok V ∧ graphBodyMotion mb₂ m₂ c₂.bodyVelB k.body.name = .ok V := by
  obtain ⟨X₁, Y₁, X₂, Y₂, V₁, U₁, V₂, U₂, a1, a2, a3, a4, a5, a6, a7, a8, e, e'⟩ :=
    C75_velocities T H O M₁ M₂ hQ hc₁ hc₂ hv₁ hv₂ ha₁ ha₂ hx hy hn hk
  have p1 : X₁ = X₂ := by rw [a1, a3] at hP; exact Except.ok.inj hP
  have p2 : V₁ = V₂ := by rw [a5, a7] at hV; exact Except.ok.inj hV
  obtain ⟨root, r, axis, X0, Xb, hr, gr, e1, e2⟩ := M₁.made
  subst p1 p2
  have p4 : U₁ = U₂ := by rw [← e] at e'; exact sub_left_injective e'
  have rX : IsRigid X₁ := by
    obtain ⟨r₁, d₁, par₁, ax₁, X₁', Xb₁, N₁, G₁, n₁, q₁⟩ := M₁.rooting T H
    rw [G₁.pose_read hv₁.toPosReady hx (n₁ x n hx hn)] at a1
    cases a1
    exact (G₁.xf_rigid T.toForest H hx).inv.mul (mb₁.posAt_rigid G₁.rigid (q₁ Q c₁ hQ hc₁) _)
  have p3 : Y₁ = Y₂ := by
    have := congrArg (· * X₁) e
    simp only [PTransform.mul_assoc', PTransform.inv_mul rX, PTransform.mul_one'] at this
    exact this
  subst p3 p4
  exact ⟨_, _, a2, a4, a6, a8⟩

end

/-- Two `MultiBody` of the graph, with their states, put one body at the same pose with the same velocity. -/
structure SamePlaceVel (h : Heap K) (g : Graph) (mb₁ mb₂ : MultiBody K) (m₁ m₂ : SMap (PTransform K)) (c₁ c₂ : MBC K) (x : Nat) (n : GNode K) :
    Prop where
  mem : x ∈ g.nodes
  node : h.nodes[x]? = some n
  pose : graphBodyPose mb₁ m₁ c₁ n.body.name = graphBodyPose mb₂ m₂ c₂ n.body.name
  vel : graphBodyMotion mb₁ m₁ c₁.bodyVelB n.body.name = graphBodyMotion mb₂ m₂ c₂.bodyVelB n.body.name

section
variable {h : Heap K} {g : Graph} {mb₁ mb₂ : MultiBody K} {m₁ m₂ : SMap (PTransform K)} {c₁ c₂ : MBC K}
  {Q A AD : String → List K} {r₁ r₂ : Nat} {d₁ par₁ d₂ par₂ : Nat → Nat} {J₁ J₂ : Joint K} {X₁ Xb₁ X₂ Xb₂ : PTransform K} {N₁ N₂ : List Nat}

theorem Graph.Rooting.same_pos_vel (G₁ : Rooting h g r₁ d₁ par₁ J₁ X₁ Xb₁ N₁ mb₁) (G₂ : Rooting h g r₂ d₂ par₂ J₂ X₂ Xb₂ N₂ mb₂)
    (T : Tree h g) (H : RigidGraph h g) (O : ReversedOneAxis mb₁ mb₂) {q₁ q₂ α₁ α₂ : List (List K)}
    (hQ : ValidConf h g Q) (hq₁ : MatchesConf mb₁ q₁ Q) (hq₂ : MatchesConf mb₂ q₂ Q) (v₁ : ValidQ mb₁ q₁) (v₂ : ValidQ mb₂ q₂)
    (ha₁ : MatchesConf mb₁ α₁ A) (ha₂ : MatchesConf mb₂ α₂ A) {x : Nat} (hx : x ∈ g.nodes)
    (hP : fkPlace h r₁ par₁ Xb₁ N₁ mb₁ q₁ x = fkPlace h r₂ par₂ Xb₂ N₂ mb₂ q₂ x)
    (hV : inGraph h r₁ par₁ Xb₁ N₁ (mb₁.velAt q₁ α₁) x = inGraph h r₂ par₂ Xb₂ N₂ (mb₂.velAt q₂ α₂) x) :
    (∀ y ∈ g.nodes, fkPlace h r₁ par₁ Xb₁ N₁ mb₁ q₁ y = fkPlace h r₂ par₂ Xb₂ N₂ mb₂ q₂ y) ∧
      ∀ y ∈ g.nodes, inGraph h r₁ par₁ Xb₁ N₁ (mb₁.velAt q₁ α₁) y = inGraph h r₂ par₂ Xb₂ N₂ (mb₂.velAt q₂ α₂) y := by
  have w₁ := fk_placement G₁.R T.toForest H G₁.wf G₁.tr G₁.perm hQ hq₁
  have w₂ := fk_placement G₂.R T.toForest H G₂.wf G₂.tr G₂.perm hQ hq₂
  have i₁ : ∀ x ∈ g.nodes, IsRigid (fkPlace h r₁ par₁ Xb₁ N₁ mb₁ q₁ x) := fun x hx =>
    (G₁.xf_rigid T.toForest H hx).inv.mul (mb₁.posAt_rigid G₁.rigid v₁ _)
  have i₂ : ∀ x ∈ g.nodes, IsRigid (fkPlace h r₂ par₂ Xb₂ N₂ mb₂ q₂ x) := fun x hx =>
    (G₂.xf_rigid T.toForest H hx).inv.mul (mb₂.posAt_rigid G₂.rigid v₂ _)
  have f₁ := G₁.velFlow T.toForest H hQ hq₁ v₁ ha₁
  have f₂ := (G₂.velFlow T.toForest H hQ hq₂ v₂ ha₂).vel_turn T.toForest H (G₁.turned G₂ T.toForest O) hQ
  refine ⟨fun y hy => ?_, f₁.eq T H hQ w₁ i₁ f₂ hx hV⟩
  have e := Placement.rel T.toForest H hQ w₁ w₂ i₁ i₂ hx (T.connected x hx y hy)
  rw [← hP] at e
  have := congrArg (· * fkPlace h r₁ par₁ Xb₁ N₁ mb₁ q₁ x) e
  simp only [PTransform.mul_assoc', PTransform.inv_mul (i₁ x hx), PTransform.mul_one'] at this
  exact this

theorem Flow_acc_congr {W : Nat → MotionVec K} {V : Nat → MotionVec K} {D : Nat → Arc K → Prop} (e : ∀ y ∈ g.nodes, V y = W y) {A AD : String → List K}
    {B : Nat → MotionVec K} (f : Flow h g Q (accStep D A AD V) B) : Flow h g Q (accStep D A AD W) B := by
  intro u a c X ha hc ec hX
  rw [f u a c X ha hc ec hX, accStep, accStep, e u ha.mem]

theorem Graph.Rooting.same_acc (G₁ : Rooting h g r₁ d₁ par₁ J₁ X₁ Xb₁ N₁ mb₁) (G₂ : Rooting h g r₂ d₂ par₂ J₂ X₂ Xb₂ N₂ mb₂)
    (T : Tree h g) (H : RigidGraph h g) (O : ReversedOneAxis mb₁ mb₂) {q₁ q₂ α₁ α₂ β₁ β₂ : List (List K)} (a0 : MotionVec K)
    (hQ : ValidConf h g Q) (hq₁ : MatchesConf mb₁ q₁ Q) (hq₂ : MatchesConf mb₂ q₂ Q) (v₁ : ValidQ mb₁ q₁) (v₂ : ValidQ mb₂ q₂)
    (ha₁ : MatchesConf mb₁ α₁ A) (ha₂ : MatchesConf mb₂ α₂ A) (hb₁ : MatchesConf mb₁ β₁ AD) (hb₂ : MatchesConf mb₂ β₂ AD)
    (hV : ∀ y ∈ g.nodes, inGraph h r₁ par₁ Xb₁ N₁ (mb₁.velAt q₁ α₁) y = inGraph h r₂ par₂ Xb₂ N₂ (mb₂.velAt q₂ α₂) y) {x : Nat}
    (hx : x ∈ g.nodes)
    (hA : inGraph h r₁ par₁ Xb₁ N₁ (mb₁.accAt q₁ α₁ β₁ a0) x = inGraph h r₂ par₂ Xb₂ N₂ (mb₂.accAt q₂ α₂ β₂ a0) x) :
    ∀ y ∈ g.nodes, inGraph h r₁ par₁ Xb₁ N₁ (mb₁.accAt q₁ α₁ β₁ a0) y = inGraph h r₂ par₂ Xb₂ N₂ (mb₂.accAt q₂ α₂ β₂ a0) y := by
  have w₁ := fk_placement G₁.R T.toForest H G₁.wf G₁.tr G₁.perm hQ hq₁
  have i₁ : ∀ x ∈ g.nodes, IsRigid (fkPlace h r₁ par₁ Xb₁ N₁ mb₁ q₁ x) := fun x hx =>
    (G₁.xf_rigid T.toForest H hx).inv.mul (mb₁.posAt_rigid G₁.rigid v₁ _)
  have f₁ := Flow_acc_congr hV (G₁.accFlow T.toForest H hQ hq₁ v₁ ha₁ hb₁ a0)
  exact f₁.eq T H hQ w₁ i₁ ((G₂.accFlow T.toForest H hQ hq₂ v₂ ha₂ hb₂ a0).acc_turn T.toForest H (G₁.turned G₂ T.toForest O) hQ) hx hA

end

section
variable {h : Heap K} {g : Graph} {t₁ t₂ : JointType} {mb₁ mb₂ : MultiBody K} {m₁ m₂ : SMap (PTransform K)} {c₁ c₂ : MBC K}
  {Q A AD : String → List K}

/-- C75: for the same accelerations `AD` of the joints too, a body that has the same pose, velocity and acceleration from both roots makes
all bodies have the same acceleration. `a0` is the acceleration of the world frame that `forwardAcceleration` takes. -/
theorem C75_same_acceleration (T : Tree h g) (H : RigidGraph h g) (O : ReversedOneAxis mb₁ mb₂) (M₁ : MadeFrom h g t₁ mb₁ m₁)
    (M₂ : MadeFrom h g t₂ mb₂ m₂) (hQ : ValidConf h g Q) (hc₁ : ConfigAt mb₁ t₁ Q c₁) (hc₂ : ConfigAt mb₂ t₂ Q c₂) (hv₁ : c₁.VelReady mb₁)
    (hv₂ : c₂.VelReady mb₂) (ha₁ : MatchesConf mb₁ c₁.alpha A) (ha₂ : MatchesConf mb₂ c₂.alpha A) (hb₁ : MatchesConf mb₁ c₁.alphaD AD)
    (hb₂ : MatchesConf mb₂ c₂.alphaD AD) {x : Nat} {n : GNode K} (hs : SamePlaceVel h g mb₁ mb₂ m₁ m₂ c₁ c₂ x n) (a0 : MotionVec K) :
    ∃ k₁ k₂, forwardAcceleration mb₁ c₁ a0 = .ok k₁ ∧ forwardAcceleration mb₂ c₂ a0 = .ok k₂ ∧
      (graphBodyMotion mb₁ m₁ k₁.bodyAccB n.body.name = graphBodyMotion mb₂ m₂ k₂.bodyAccB n.body.name →
        ∀ y k, y ∈ g.nodes → h.nodes[y]? = some k →
          ∃ V, graphBodyMotion mb₁ m₁ k₁.bodyAccB k.body.name = .ok V ∧ graphBodyMotion mb₂ m₂ k₂.bodyAccB k.body.name = .ok V) := by
  obtain ⟨r₁, d₁, par₁, ax₁, X₁, Xb₁, N₁, G₁, n₁, q₁⟩ := M₁.rooting T H
  obtain ⟨r₂, d₂, par₂, ax₂, X₂, Xb₂, N₂, G₂, n₂, q₂⟩ := M₂.rooting T H
  have q₁ := q₁ Q c₁ hQ hc₁
  have q₂ := q₂ Q c₂ hQ hc₂
  have hP := hs.pose
  have hV := hs.vel
  rw [G₁.pose_read hv₁.toPosReady hs.mem (n₁ x n hs.mem hs.node), G₂.pose_read hv₂.toPosReady hs.mem (n₂ x n hs.mem hs.node)] at hP
  rw [G₁.motion_read hv₁.bodyVelB hs.mem (n₁ x n hs.mem hs.node), G₂.motion_read hv₂.bodyVelB hs.mem (n₂ x n hs.mem hs.node)] at hV
  obtain ⟨-, p2⟩ := G₁.same_pos_vel G₂ T H O hQ hc₁.conf hc₂.conf q₁ q₂ ha₁ ha₂ hs.mem (Except.ok.inj hP) (Except.ok.inj hV)
  refine ⟨_, _, hc₁.sized.fa G₁.wf G₁.rigid q₁ hv₁ a0, hc₂.sized.fa G₂.wf G₂.rigid q₂ hv₂ a0, fun hA y k hy hk => ?_⟩
  rw [G₁.motion_read rfl hs.mem (n₁ x n hs.mem hs.node), G₂.motion_read rfl hs.mem (n₂ x n hs.mem hs.node)] at hA
  have := G₁.same_acc G₂ T H O a0 hQ hc₁.conf hc₂.conf q₁ q₂ ha₁ ha₂ hb₁ hb₂ p2 hs.mem (Except.ok.inj hA) y hy
  exact ⟨_, G₁.motion_read rfl hy (n₁ y k hy hk), by rw [this]; exact G₂.motion_read rfl hy (n₂ y k hy hk)⟩

/-- C75: two roots, the first with a free root joint. If the states agree in the positions, velocities and accelerations of the joints, in
gravity, in the external forces on the bodies, and in pose, velocity and acceleration of one body, and if inverse dynamics from the first
root finds no torque on its free joint, then inverse dynamics from the second root finds no torque on its root joint, and the same torques on
all other joints. -/
theorem C75_torques (T : Tree h g) (H : RigidGraph h g) (O : ReversedOneAxis mb₁ mb₂) (M₁ : MadeFrom h g .Free mb₁ m₁)
    (M₂ : MadeFrom h g t₂ mb₂ m₂) (hQ : ValidConf h g Q) (hc₁ : ConfigAt mb₁ .Free Q c₁) (hc₂ : ConfigAt mb₂ t₂ Q c₂) (hv₁ : c₁.VelReady mb₁)
    (hv₂ : c₂.VelReady mb₂) (ha₁ : MatchesConf mb₁ c₁.alpha A) (ha₂ : MatchesConf mb₂ c₂.alpha A) (hb₁ : MatchesConf mb₁ c₁.alphaD AD)
    (hb₂ : MatchesConf mb₂ c₂.alphaD AD) {x : Nat} {n : GNode K} (hs : SamePlaceVel h g mb₁ mb₂ m₁ m₂ c₁ c₂ x n)
    (hg : c₁.gravity = c₂.gravity) (hf : SameForces mb₁ mb₂ c₁ c₂) {e₁ e₂ : ID K} (he₁ : e₁.f.length = mb₁.nrBodies)
    (he₂ : e₂.f.length = mb₂.nrBodies) :
    ∃ e₁' e₂' k₁ k₂, e₁.inverseDynamics mb₁ c₁ = .ok (e₁', k₁) ∧ e₂.inverseDynamics mb₂ c₂ = .ok (e₂', k₂) ∧
      (graphBodyMotion mb₁ m₁ k₁.bodyAccB n.body.name = graphBodyMotion mb₂ m₂ k₂.bodyAccB n.body.name →
        k₁.jointTorque[0]? = some [0, 0, 0, 0, 0, 0] →
        (∃ l, k₂.jointTorque[0]? = some l ∧ ∀ x ∈ l, x = 0) ∧ SameByName mb₁ mb₂ k₁.jointTorque k₂.jointTorque) := by
  obtain ⟨r₁, d₁, par₁, ax₁, X₁, Xb₁, N₁, G₁, n₁, q₁⟩ := M₁.rooting T H
  obtain ⟨r₂, d₂, par₂, ax₂, X₂, Xb₂, N₂, G₂, n₂, q₂⟩ := M₂.rooting T H
  have q₁ := q₁ Q c₁ hQ hc₁
  have q₂ := q₂ Q c₂ hQ hc₂
  have hP := hs.pose
  have hV := hs.vel
  rw [G₁.pose_read hv₁.toPosReady hs.mem (n₁ x n hs.mem hs.node), G₂.pose_read hv₂.toPosReady hs.mem (n₂ x n hs.mem hs.node)] at hP
  rw [G₁.motion_read hv₁.bodyVelB hs.mem (n₁ x n hs.mem hs.node), G₂.motion_read hv₂.bodyVelB hs.mem (n₂ x n hs.mem hs.node)] at hV
  obtain ⟨p1, p2⟩ := G₁.same_pos_vel G₂ T H O hQ hc₁.conf hc₂.conf q₁ q₂ ha₁ ha₂ hs.mem (Except.ok.inj hP) (Except.ok.inj hV)
  refine ⟨_, _, _, _, id_eq G₁.wf G₁.rigid hc₁.sized q₁ hv₁ he₁ rfl, id_eq G₂.wf G₂.rigid hc₂.sized q₂ hv₂ he₂ rfl, fun hA h0 => ?_⟩
  rw [G₁.motion_read rfl hs.mem (n₁ x n hs.mem hs.node), G₂.motion_read rfl hs.mem (n₂ x n hs.mem hs.node), hg] at hA
  have p3 := G₁.same_acc G₂ T H O _ hQ hc₁.conf hc₂.conf q₁ q₂ ha₁ ha₂ hb₁ hb₂ p2 hs.mem (Except.ok.inj hA)
  have p4 : ∀ y ∈ g.nodes, c₁.forceAt (N₁.idxOf y) = c₂.forceAt (N₂.idxOf y) := by
    intro y hy
    obtain ⟨k, hk⟩ := T.nodes_get y hy
    have := hf _ _ _ (n₁ y k hy hk).1 (n₂ y k hy hk).1
    have l₁ : N₁.idxOf y < c₁.force.length := by rw [hc₁.sized.force]; exact (G₁.index hy).2
    have l₂ : N₂.idxOf y < c₂.force.length := by rw [hc₂.sized.force]; exact (G₂.index hy).2
    rw [rdI_ofNat, rdI_ofNat, rd_of_getElem? (List.getElem?_eq_getElem l₁), rd_of_getElem? (List.getElem?_eq_getElem l₂)] at this
    unfold MBC.forceAt
    rw [List.getElem?_eq_getElem l₁, List.getElem?_eq_getElem l₂, Except.ok.inj this]
  have b₁ := G₁.root.2.1
  have b₂ := G₂.root.2.1
  obtain ⟨z1, z2⟩ := Twins.torque ⟨p1, p2, p3, p4⟩ G₁ G₂ T H O hQ hc₁.conf hc₂.conf q₁ q₂ rfl (by
    rw [← G₁.project_zero b₁]
    rw [range_map_getElem? b₁, hg] at h0
    rw [Option.some.inj h0]
    simp)
  constructor
  · refine ⟨_, range_map_getElem? b₂, ?_⟩
    rw [G₂.project_zero b₂]
    exact z1
  · intro i₁ i₂ j₁ j₂ hi₁ hi₂ hj₁ hj₂ e
    have l₁ : i₁ < mb₁.bodies.length := by rw [← G₁.wf.njoints]; exact (List.getElem?_eq_some_iff.1 hj₁).1
    have l₂ : i₂ < mb₂.bodies.length := by rw [← G₂.wf.njoints]; exact (List.getElem?_eq_some_iff.1 hj₂).1
    have ed := G₁.same_dof G₂ T.toForest hj₁ hj₂ hi₁ hi₂ e
    rw [range_map_getElem? l₁, range_map_getElem? l₂, hg, G₁.project_eq G₂ l₁ l₂ ed fun a ha =>
      z2 i₁ i₂ j₁ j₂ a hj₁ hj₂ hi₁ hi₂ e ha (by omega)]

theorem massPos_dualMulI {X : PTransform K} (hX : IsRigid X) (W : PTransform K) (I : RBInertia K) :
    massPos (X * W) (X.dualMulI I) = massPos W I := by
  have e : (X.dualMulI I).h = X.E *ᵥ (I.h - I.m • X.r) := rfl
  have e' : (X.dualMulI I).m = I.m := rfl
  unfold massPos
  rw [e, e', PTransform.mul_E, PTransform.mul_r, Mat3.tr_mul, Mat3.mul_mulVec, IsRot.tr_mulVec hX, Mat3.mulVec_sub, Mat3.mulVec_smul, smul_add]
  abel

theorem Graph.Rooting.momentum {r : Nat} {d par : Nat → Nat} {J : Joint K} {X0 Xb : PTransform K} {N : List Nat} {mb : MultiBody K}
    (G : Rooting h g r d par J X0 Xb N mb) (F : Forest h g) (H : RigidGraph h g) {q : List (List K)} (hv : ValidQ mb q) (α : List (List K))
    (com : Vec3 K) : mb.momentumAt (fun _ => 1) q α com = (g.nodes.map fun x =>
      momHom (fkPlace h r par Xb N mb q x) com (nodeInertia h x) (inGraph h r par Xb N (mb.velAt q α) x)).sum := by
  unfold MultiBody.momentumAt
  simp only [one_smul]
  rw [G.length]
  refine sum_range_nodes G.perm (G.nodup F) _ _ fun x hx => ?_
  have rx := G.xf_rigid F H hx
  have rW : IsRigid (fkPlace h r par Xb N mb q x) := rx.inv.mul (mb.posAt_rigid G.rigid hv _)
  have eW : mb.posAt q (N.idxOf x) = xf h r par Xb x * fkPlace h r par Xb N mb q x := by
    rw [fkPlace, ← PTransform.mul_assoc', PTransform.mul_inv rx, PTransform.one_mul']
  rw [momHom_apply, momHom_apply, G.inertia hx, eW, ← G.xf_inGraph F H (mb.velAt q α) hx, PTransform.dualMulI_mulMotion rx,
    PTransform.mul_assoc', PTransform.mul_transMul _ _ _ (rW.mul (ofTrans_rigid _)), PTransform.transMul_dualMul rx]

theorem Graph.Rooting.mass {r : Nat} {d par : Nat → Nat} {J : Joint K} {X0 Xb : PTransform K} {N : List Nat} {mb : MultiBody K}
    (G : Rooting h g r d par J X0 Xb N mb) (F : Forest h g) : mb.totalMass = (g.nodes.map fun x => (nodeInertia h x).m).sum := by
  unfold MultiBody.totalMass
  rw [G.length]
  refine sum_range_nodes G.perm (G.nodup F) _ _ fun x hx => ?_
  rw [G.inertia hx]
  rfl

theorem Graph.Rooting.massPos {r : Nat} {d par : Nat → Nat} {J : Joint K} {X0 Xb : PTransform K} {N : List Nat} {mb : MultiBody K}
    (G : Rooting h g r d par J X0 Xb N mb) (F : Forest h g) (H : RigidGraph h g) (q : List (List K)) :
    ∑ k ∈ Finset.range mb.bodies.length, RBDyn.massPos (mb.posAt q k) (mb.inertiaAt k) =
      (g.nodes.map fun x => RBDyn.massPos (fkPlace h r par Xb N mb q x) (nodeInertia h x)).sum := by
  rw [G.length]
  refine sum_range_nodes G.perm (G.nodup F) _ _ fun x hx => ?_
  have rx := G.xf_rigid F H hx
  have eW : mb.posAt q (N.idxOf x) = xf h r par Xb x * fkPlace h r par Xb N mb q x := by
    rw [fkPlace, ← PTransform.mul_assoc', PTransform.mul_inv rx, PTransform.one_mul']
  rw [eW, G.inertia hx, massPos_dualMulI rx]

theorem comAt_massPos {mb : MultiBody K} (hm : mb.MassOK) (q : List (List K)) :
    mb.comAt q = (1 / mb.totalMass) • ∑ k ∈ Finset.range mb.bodies.length, massPos (mb.posAt q k) (mb.inertiaAt k) := by
  unfold MultiBody.comAt
  congr 1
  refine Finset.sum_congr rfl fun k hk => ?_
  unfold massPos worldPoint
  rw [hm.moment (Finset.mem_range.1 hk)]
  ext <;> simp <;> ring

/-- The masses of the bodies of a `MultiBody` are those of the bodies of the graph. -/
theorem Graph.Rooting.massOK {r : Nat} {d par : Nat → Nat} {J : Joint K} {X0 Xb : PTransform K} {N : List Nat} {mb : MultiBody K}
    (G : Rooting h g r d par J X0 Xb N mb)
    (hm : ∀ x n, x ∈ g.nodes → h.nodes[x]? = some n → 0 < n.body.inertia.m) : mb.MassOK ∧ 0 < mb.totalMass := by
  have hp : ∀ i, i < mb.bodies.length → 0 < (mb.inertiaAt i).m := by
    intro i hi
    have hiN : i < N.length := by rw [← G.length]; exact hi
    have E := G.tr.entry i _ (List.getElem?_eq_getElem hiN)
    obtain ⟨n, hn, e⟩ := E.body
    unfold MultiBody.inertiaAt
    rw [show mb.bodies[i]? = _ from e]
    exact hm _ n E.mem hn
  constructor
  · intro b hb
    obtain ⟨i, hi, rfl⟩ := List.mem_iff_getElem.1 hb
    have := hp i hi
    unfold MultiBody.inertiaAt at this
    rw [List.getElem?_eq_getElem hi] at this
    exact .inl this
  · unfold MultiBody.totalMass
    exact Finset.sum_pos (fun i hi => hp i (Finset.mem_range.1 hi)) ⟨0, Finset.mem_range.2 G.root.2.1⟩

/-- C75: if one body has the same pose and the same velocity seen from both roots, the centre of mass and the momentum about any point are
the same. -/
theorem C75_com_momentum (T : Tree h g) (H : RigidGraph h g) (O : ReversedOneAxis mb₁ mb₂) (M₁ : MadeFrom h g t₁ mb₁ m₁)
    (M₂ : MadeFrom h g t₂ mb₂ m₂) (hQ : ValidConf h g Q) (hc₁ : ConfigAt mb₁ t₁ Q c₁) (hc₂ : ConfigAt mb₂ t₂ Q c₂) (hv₁ : c₁.VelReady mb₁)
    (hv₂ : c₂.VelReady mb₂) (ha₁ : MatchesConf mb₁ c₁.alpha A) (ha₂ : MatchesConf mb₂ c₂.alpha A) {x : Nat} {n : GNode K}
    (hs : SamePlaceVel h g mb₁ mb₂ m₁ m₂ c₁ c₂ x n) (hm : ∀ x n, x ∈ g.nodes → h.nodes[x]? = some n → 0 < n.body.inertia.m) :
    (∃ c, computeCoM mb₁ c₁ = .ok c ∧ computeCoM mb₂ c₂ = .ok c) ∧
      ∀ com, ∃ p, computeCentroidalMomentum mb₁ c₁ com = .ok p ∧ computeCentroidalMomentum mb₂ c₂ com = .ok p := by
  obtain ⟨r₁, d₁, par₁, ax₁, X₁, Xb₁, N₁, G₁, n₁, q₁⟩ := M₁.rooting T H
  obtain ⟨r₂, d₂, par₂, ax₂, X₂, Xb₂, N₂, G₂, n₂, q₂⟩ := M₂.rooting T H
  have q₁ := q₁ Q c₁ hQ hc₁
  have q₂ := q₂ Q c₂ hQ hc₂
  have hP := hs.pose
  have hV := hs.vel
  rw [G₁.pose_read hv₁.toPosReady hs.mem (n₁ x n hs.mem hs.node), G₂.pose_read hv₂.toPosReady hs.mem (n₂ x n hs.mem hs.node)] at hP
  rw [G₁.motion_read hv₁.bodyVelB hs.mem (n₁ x n hs.mem hs.node), G₂.motion_read hv₂.bodyVelB hs.mem (n₂ x n hs.mem hs.node)] at hV
  obtain ⟨p1, p2⟩ := G₁.same_pos_vel G₂ T H O hQ hc₁.conf hc₂.conf q₁ q₂ ha₁ ha₂ hs.mem (Except.ok.inj hP) (Except.ok.inj hV)
  obtain ⟨k₁, K₁⟩ := G₁.massOK hm
  obtain ⟨k₂, K₂⟩ := G₂.massOK hm
  constructor
  · refine ⟨_, computeCoM_eq k₁ K₁ hv₁.toPosReady, ?_⟩
    rw [computeCoM_eq k₂ K₂ hv₂.toPosReady, comAt_massPos k₁, comAt_massPos k₂, G₁.massPos T.toForest H, G₂.massPos T.toForest H,
      G₁.mass T.toForest, G₂.mass T.toForest]
    congr 3
    exact List.map_congr_left fun y hy => by rw [p1 y hy]
  · intro com
    refine ⟨_, computeCentroidalMomentum_eq hv₁ com, ?_⟩
    rw [computeCentroidalMomentum_eq hv₂ com, G₁.momentum T.toForest H q₁, G₂.momentum T.toForest H q₂]
    congr 2
    exact List.map_congr_left fun y hy => by rw [p1 y hy, p2 y hy]

end

/-- With positive definite inertias, inverse dynamics gives different torques for different accelerations. -/
theorem id_injective {mb : MultiBody K} (wf : mb.WF) (hr : mb.Rigid) {c : MBC K} (sz : c.Sized mb) (hq : ValidQ mb c.q) (hv : c.VelReady mb)
    (hI : ∀ b ∈ mb.bodies, ∀ v : MotionVec K, v ≠ 0 → 0 < v.dot (b.inertia.mulMotion v)) (hS : ∀ j ∈ mb.joints, ∀ c ∈ j.S, c ≠ 0)
    {αD αD' : List (List K)} (s : SizedDof mb αD) (s' : SizedDof mb αD') {d e d' e' : ID K} (hd : d.f.length = mb.nrBodies)
    (he : e.f.length = mb.nrBodies) {k k' : MBC K} (h1 : d.inverseDynamics mb { c with alphaD := αD } = .ok (d', k))
    (h2 : e.inverseDynamics mb { c with alphaD := αD' } = .ok (e', k')) (ht : k.jointTorque = k'.jointTorque) : αD = αD' := by
  obtain ⟨fd, -, hf⟩ := C27_constructor wf (⟨⟨0, 0, fun _ _ => 0⟩, [], [], [], [], [], [], []⟩ : FD K)
  have p1 : SamePosVel { c with alphaD := αD } c := rfl
  have p2 : SamePosVel { c with alphaD := αD' } c := rfl
  have sz1 : MBC.Sized mb { c with alphaD := αD } := { sz with alphaD := s }
  have sz2 : MBC.Sized mb { c with alphaD := αD' } := { sz with alphaD := s' }
  obtain ⟨d1, n1, fd₁, fd₂, i1, e1, e2, hH, f2, i6, i7⟩ := C27_equation_of_motion wf hr sz1 (p1.ready hv hq).2 (p1.ready hv hq).1 hd hf
  obtain ⟨d2, n2, fd₃, fd₄, j1, g1, g2, hH', f4, j6, j7⟩ := C27_equation_of_motion wf hr sz2 (p2.ready hv hq).2 (p2.ready hv hq).1 he hf
  rw [h1] at i1
  rw [h2] at j1
  cases i1
  cases j1
  rw [computeH_congr p1] at e1
  rw [computeH_congr p2, e1] at g1
  cases g1
  rw [computeC_congr p1] at e2
  rw [computeC_congr p2, e2] at g2
  cases g2
  refine blocks_ext (s.trans s'.symm) ?_
  have l1 := s.flatten_length wf
  have l2 := s'.flatten_length wf
  obtain ⟨fd₅, e5, h5⟩ := C29_positive_definite wf hr hq hv.toPosReady hf hI hS
  rw [e1] at e5
  cases e5
  by_contra hne
  have hz : ∃ z ∈ List.zipWith (· - ·) αD.flatten αD'.flatten, z ≠ 0 := by
    by_contra hcon
    push Not at hcon
    refine hne (List.ext_getElem (by omega) fun i h1 h2 => ?_)
    have := hcon (αD.flatten[i] - αD'.flatten[i]) (List.mem_iff_getElem.2 ⟨i, by simp only [List.length_zipWith]; omega, by simp⟩)
    exact sub_eq_zero.1 this
  have := h5 _ (by simp only [List.length_zipWith]; omega) hz
  rw [Finset.sum_eq_zero] at this
  · exact lt_irrefl _ this
  · intro r hr'
    have hr' := Finset.mem_range.1 hr'
    have k1 := i7 r hr'
    have k2 := j7 r hr'
    rw [ht, k2] at k1
    have k3 := add_right_cancel (Option.some.inj k1)
    rw [hH] at k3
    rw [DMat.mulVecAt_sub _ (by omega), k3, sub_self, mul_zero]

section
variable {h : Heap K} {g : Graph} {mb₁ mb₂ : MultiBody K} {m₁ m₂ : SMap (PTransform K)} {c₁ c₂ : MBC K} {Q A : String → List K}

theorem Graph.Rooting.posdef {r : Nat} {d par : Nat → Nat} {J : Joint K} {X0 Xb : PTransform K} {N : List Nat} {mb : MultiBody K}
    (G : Rooting h g r d par J X0 Xb N mb) (F : Forest h g) (H : RigidGraph h g)
    (hI : ∀ x n, x ∈ g.nodes → h.nodes[x]? = some n → ∀ v : MotionVec K, v ≠ 0 → 0 < v.dot (n.body.inertia.mulMotion v)) :
    ∀ b ∈ mb.bodies, ∀ v : MotionVec K, v ≠ 0 → 0 < v.dot (b.inertia.mulMotion v) := by
  intro b hb v hv
  obtain ⟨i, hi, rfl⟩ := List.mem_iff_getElem.1 hb
  have hiN : i < N.length := by rw [← G.length]; exact hi
  have E := G.tr.entry i _ (List.getElem?_eq_getElem hiN)
  obtain ⟨n, hn, e⟩ := E.body
  rw [show (stOf mb).bodies[i]? = some mb.bodies[i] from List.getElem?_eq_getElem hi] at e
  rw [Option.some.inj e]
  have rx := G.xf_rigid F H E.mem
  generalize xf h r par Xb N[i] = X at rx
  have ev : X.mulMotion (X.inv.mulMotion v) = v := PTransform.mulMotion_inv_cancel rx v
  have h0 : X.inv.mulMotion v ≠ 0 := by
    intro h0
    rw [h0, PTransform.mulMotion_zero] at ev
    exact hv ev.symm
  have := hI _ n E.mem hn _ h0
  rw [← PTransform.mulMotion_dot_dualMul rx, ← PTransform.dualMulI_mulMotion rx, ev] at this
  exact this

theorem Graph.Rooting.cols_ne {r : Nat} {d par : Nat → Nat} {ax : Vec3 K} {nm : String} {X0 Xb : PTransform K} {N : List Nat} {mb : MultiBody K}
    (G : Rooting h g r d par (Joint.mk' .Free ax true nm) X0 Xb N mb) (hS : ∀ u a, Link h g u a → ∀ c ∈ a.joint.S, c ≠ 0) :
    ∀ j ∈ mb.joints, ∀ c ∈ j.S, c ≠ 0 := by
  intro j hj
  obtain ⟨i, hi, rfl⟩ := List.mem_iff_getElem.1 hj
  by_cases h0 : i = 0
  · subst h0
    have e := G.root.2.2.2.1
    rw [List.getElem?_eq_getElem hi] at e
    rw [Option.some.inj e]
    intro c hc
    simp only [Joint.mk', Joint.mkS, List.mem_cons, List.not_mem_nil, or_false] at hc
    rcases hc with rfl | rfl | rfl | rfl | rfl | rfl <;> simp [MotionVec.ext_iff, Vec3.ext_iff]
  · obtain ⟨u, a, ha, e⟩ := G.joint (List.getElem?_eq_getElem hi) h0
    rw [e]
    exact hS u a ha

theorem Graph.Rooting.acc_base {r : Nat} {d par : Nat → Nat} {J : Joint K} {X0 Xb : PTransform K} {N : List Nat} {mb : MultiBody K}
    (G : Rooting h g r d par J X0 Xb N mb) {q : List (List K)} (hv : ValidQ mb q) (α β : List (List K)) (a0 : MotionVec K) (x : Nat) :
    inGraph h r par Xb N (mb.accAt q α β a0) x = (fkPlace h r par Xb N mb q x).mulMotion a0 + inGraph h r par Xb N (mb.accAt q α β 0) x := by
  unfold inGraph fkPlace
  rw [mb.accAt_base, PTransform.mulMotion_add, PTransform.mul_mulMotion _ _ _ (mb.posAt_rigid G.rigid hv _)]

theorem Graph.Rooting.blocks_sized {r₁ r₂ : Nat} {d₁ par₁ d₂ par₂ : Nat → Nat} {J₁ : Joint K} {ax : Vec3 K} {nm : String}
    {X₁ Xb₁ X₂ Xb₂ : PTransform K} {N₁ N₂ : List Nat} (G₁ : Rooting h g r₁ d₁ par₁ J₁ X₁ Xb₁ N₁ mb₁)
    (G₂ : Rooting h g r₂ d₂ par₂ (Joint.mk' .Free ax true nm) X₂ Xb₂ N₂ mb₂) (F : Forest h g) {β : List (List K)} (hβ : SizedDof mb₁ β)
    {B : String → List K} (hB : MatchesConf mb₁ β B) {b : List K} (hb : b.length = 6) : SizedDof mb₂ (mb₂.blocks b B) := by
  refine List.ext_getElem (by simp [MultiBody.blocks]) fun i h1 h2 => ?_
  have hi : i < mb₂.joints.length := by simpa using h2
  have hj := List.getElem?_eq_getElem hi
  simp only [List.getElem_map, MultiBody.blocks, List.getElem_range]
  by_cases h0 : i = 0
  · subst h0
    have e := G₂.root.2.2.2.1
    rw [hj] at e
    rw [if_pos rfl, hb, Option.some.inj e]
    rfl
  · rw [if_neg h0, hj, Option.map_some, Option.getD_some]
    obtain ⟨u, a, ha, e⟩ := G₂.joint hj h0
    obtain ⟨i₁, j₁, k1, k2, k3, -⟩ := G₁.find_joint F ha
    have k4 := hB i₁ j₁ k1 k2
    rw [k3] at k4
    have k5 := G₁.same_dof G₂ F k2 hj k1 h0 (by rw [k3, e])
    unfold MultiBody.dofAt at k5
    rw [k2, hj] at k5
    have k6 := congrArg (·[i₁]?) hβ
    simp only [List.getElem?_map, k4, k2, Option.map_some] at k6
    rw [e, Option.some.inj k6]
    rw [e] at k5
    exact k5

/-- C75: two roots, both with free root joints on which no torque acts. If the states agree in the positions, velocities and torques of the
joints, in gravity, in the external forces on the bodies, and in pose and velocity of one body, then forward dynamics from both roots finds
the same accelerations of the joints, and all bodies accelerate alike. The inertias must be positive definite, no prismatic joint may have
a zero axis, and the linear system must be solved exactly. -/
theorem C75_forward_dynamics (T : Tree h g) (H : RigidGraph h g) (O : ReversedOneAxis mb₁ mb₂) (M₁ : MadeFrom h g .Free mb₁ m₁)
    (M₂ : MadeFrom h g .Free mb₂ m₂) (hQ : ValidConf h g Q) (hc₁ : ConfigAt mb₁ .Free Q c₁) (hc₂ : ConfigAt mb₂ .Free Q c₂)
    (hv₁ : c₁.VelReady mb₁) (hv₂ : c₂.VelReady mb₂) (ha₁ : MatchesConf mb₁ c₁.alpha A) (ha₂ : MatchesConf mb₂ c₂.alpha A) {x : Nat}
    {n : GNode K} (hs : SamePlaceVel h g mb₁ mb₂ m₁ m₂ c₁ c₂ x n) (hg : c₁.gravity = c₂.gravity) (hf : SameForces mb₁ mb₂ c₁ c₂)
    (ht : SameByName mb₁ mb₂ c₁.jointTorque c₂.jointTorque) (ht₁ : c₁.jointTorque[0]? = some [0, 0, 0, 0, 0, 0])
    (ht₂ : c₂.jointTorque[0]? = some [0, 0, 0, 0, 0, 0])
    (hI : ∀ x n, x ∈ g.nodes → h.nodes[x]? = some n → ∀ v : MotionVec K, v ≠ 0 → 0 < v.dot (n.body.inertia.mulMotion v))
    (hS : ∀ u a, Link h g u a → ∀ c ∈ a.joint.S, c ≠ 0) {fd₁ fd₂ : FD K} (hf₁ : fd₁.Fits mb₁) (hf₂ : fd₂.Fits mb₂)
    {solve : DMat K → List K → List K} (hs₁ : ∀ fd, fd₁.computeH mb₁ c₁ = .ok fd → ExactSolve solve fd.H)
    (hs₂ : ∀ fd, fd₂.computeH mb₂ c₂ = .ok fd → ExactSolve solve fd.H) :
    ∃ fd₁' fd₂' k₁ k₂, fd₁.forwardDynamics solve mb₁ c₁ = .ok (fd₁', k₁) ∧ fd₂.forwardDynamics solve mb₂ c₂ = .ok (fd₂', k₂) ∧
      SameByName mb₁ mb₂ k₁.alphaD k₂.alphaD ∧
      ∀ a0, ∃ l₁ l₂, forwardAcceleration mb₁ k₁ a0 = .ok l₁ ∧ forwardAcceleration mb₂ k₂ a0 = .ok l₂ ∧
        ∀ y k, y ∈ g.nodes → h.nodes[y]? = some k →
          ∃ V, graphBodyMotion mb₁ m₁ l₁.bodyAccB k.body.name = .ok V ∧ graphBodyMotion mb₂ m₂ l₂.bodyAccB k.body.name = .ok V := by
  obtain ⟨r₁, d₁, par₁, ax₁, X₁, Xb₁, N₁, G₁, n₁, q₁⟩ := M₁.rooting T H
  obtain ⟨r₂, d₂, par₂, ax₂, X₂, Xb₂, N₂, G₂, n₂, q₂⟩ := M₂.rooting T H
  have q₁ := q₁ Q c₁ hQ hc₁
  have q₂ := q₂ Q c₂ hQ hc₂
  obtain ⟨e₁, he₁⟩ : ∃ e : ID K, e.f.length = mb₁.nrBodies := ⟨⟨List.replicate mb₁.nrBodies 0⟩, by simp⟩
  obtain ⟨e₂, he₂⟩ : ∃ e : ID K, e.f.length = mb₂.nrBodies := ⟨⟨List.replicate mb₂.nrBodies 0⟩, by simp⟩
  obtain ⟨fd₁', k₁, d₁', l₁, F1, ek₁, -, sk₁, I1, T1⟩ := C27_forward_then_inverse G₁.wf G₁.rigid hc₁.sized q₁ hv₁ he₁ hf₁ hs₁
  obtain ⟨fd₂', k₂, d₂', l₂, F2, ek₂, -, sk₂, I2, T2⟩ := C27_forward_then_inverse G₂.wf G₂.rigid hc₂.sized q₂ hv₂ he₂ hf₂ hs₂
  refine ⟨fd₁', fd₂', k₁, k₂, F1, F2, ?_⟩
  obtain ⟨β₁, rfl⟩ : ∃ β, k₁ = { c₁ with alphaD := β } := ⟨k₁.alphaD, by conv_rhs => rw [← ek₁]⟩
  obtain ⟨γ, rfl⟩ : ∃ β, k₂ = { c₂ with alphaD := β } := ⟨k₂.alphaD, by conv_rhs => rw [← ek₂]⟩
  have hβl : β₁.length = mb₁.joints.length := by have := congrArg List.length sk₁.alphaD; simpa using this
  obtain ⟨AD, hAD⟩ := G₁.exists_named T.toForest hβl
  obtain ⟨b, hb, hacc⟩ := G₂.exists_acceleration T.toForest H rfl q₂ c₂.alpha ⟨0, c₂.gravity⟩ AD
    (inGraph h r₁ par₁ Xb₁ N₁ (mb₁.accAt c₁.q c₁.alpha β₁ ⟨0, c₂.gravity⟩) r₂)
  have hsb := G₁.blocks_sized G₂ T.toForest sk₁.alphaD hAD hb
  have hmb := blocks_matches mb₂ b AD
  generalize mb₂.blocks b AD = β₂ at hacc hsb hmb
  obtain ⟨w, hw⟩ := T.nodes_get r₂ G₂.R.mem
  obtain ⟨P, V, s1, s2, s3, s4⟩ := C75_same_motion T H O M₁ M₂ hQ hc₁ hc₂ hv₁ hv₂ ha₁ ha₂ hs.mem hs.node hs.pose hs.vel G₂.R.mem hw
  have hs' : SamePlaceVel h g mb₁ mb₂ m₁ m₂ { c₁ with alphaD := β₁ } { c₂ with alphaD := β₂ } r₂ w :=
    ⟨G₂.R.mem, hw, s1.trans s2.symm, s3.trans s4.symm⟩
  have sz₂ : MBC.Sized mb₂ { c₂ with alphaD := β₂ } := { hc₂.sized with alphaD := hsb }
  have v₁' : MBC.VelReady mb₁ { c₁ with alphaD := β₁ } := (SamePosVel.ready (m := { c₁ with alphaD := β₁ }) (m' := c₁) rfl hv₁ q₁).1
  have v₂' : MBC.VelReady mb₂ { c₂ with alphaD := β₂ } := (SamePosVel.ready (m := { c₂ with alphaD := β₂ }) (m' := c₂) rfl hv₂ q₂).1
  obtain ⟨e₁', e₂', kk₁, kk₂, J1, J2, imp⟩ := C75_torques (c₁ := { c₁ with alphaD := β₁ }) (c₂ := { c₂ with alphaD := β₂ }) T H O M₁ M₂ hQ
    { hc₁ with sized := sk₁ } { hc₂ with sized := sz₂ } v₁' v₂' ha₁ ha₂ hAD hmb hs' hg hf he₁ he₂
  have E1 := id_eq G₁.wf G₁.rigid sk₁ q₁ v₁' he₁ rfl
  have E2 := id_eq G₂.wf G₂.rigid sz₂ q₂ v₂' he₂ rfl
  have a1 : kk₁.bodyAccB = (List.range mb₁.bodies.length).map (mb₁.accAt c₁.q c₁.alpha β₁ ⟨0, c₁.gravity⟩) := by
    rw [E1] at J1; cases J1; rfl
  have a2 : kk₂.bodyAccB = (List.range mb₂.bodies.length).map (mb₂.accAt c₂.q c₂.alpha β₂ ⟨0, c₂.gravity⟩) := by
    rw [E2] at J2; cases J2; rfl
  have hk : kk₁ = l₁ := by rw [I1] at J1; cases J1; rfl
  have hT1 : kk₁.jointTorque = c₁.jointTorque := by rw [hk]; exact T1
  obtain ⟨⟨z, hz1, hz2⟩, hname⟩ := imp (by
    rw [G₁.motion_read a1 G₂.R.mem (n₁ r₂ w G₂.R.mem hw), G₂.motion_read a2 G₂.R.mem (n₂ r₂ w G₂.R.mem hw), hacc, hg])
    (by rw [hT1]; exact ht₁)
  obtain ⟨d3, m3, e3, -, -, -, -, s3'⟩ := C26_inverse_dynamics G₂.wf G₂.rigid sz₂ q₂ v₂' he₂
  rw [J2] at e3
  cases e3
  have hT2 : kk₂.jointTorque = c₂.jointTorque := by
    have L1 : kk₂.jointTorque.length = mb₂.joints.length := by have := congrArg List.length s3'.jointTorque; simpa using this
    have L2 : c₂.jointTorque.length = mb₂.joints.length := by have := congrArg List.length hc₂.sized.jointTorque; simpa using this
    apply List.ext_getElem?
    intro i
    by_cases hi : i < mb₂.joints.length
    · by_cases h0 : i = 0
      · subst h0
        rw [ht₂, hz1]
        have L3 := congrArg (·[0]?) s3'.jointTorque
        simp only [List.getElem?_map, hz1, G₂.root.2.2.2.1, Option.map_some, Option.some.injEq] at L3
        have L3 : z.length = 6 := L3
        match z, L3 with
        | [z1, z2, z3, z4, z5, z6], _ => simp at hz2; simp [hz2]
      · have hj := List.getElem?_eq_getElem hi
        obtain ⟨u, a, ha, e⟩ := G₂.joint hj h0
        obtain ⟨i₁, j₁, k1, k2, k3, -⟩ := G₁.find_joint T.toForest ha
        rw [← hname i₁ i j₁ _ k1 h0 k2 hj (by rw [k3, e]), hT1, ht i₁ i j₁ _ k1 h0 k2 hj (by rw [k3, e])]
    · rw [List.getElem?_eq_none (by omega), List.getElem?_eq_none (by omega)]
  obtain rfl : γ = β₂ := id_injective G₂.wf G₂.rigid hc₂.sized q₂ hv₂ (G₂.posdef T.toForest H hI) (G₂.cols_ne hS) sk₂.alphaD hsb he₂ he₂ I2 J2
    (by rw [hT2]; exact T2)
  constructor
  · intro i₁ i₂ j₁ j₂ h1 h2 h3 h4 e
    show β₁[i₁]? = γ[i₂]?
    rw [hAD i₁ j₁ h1 h3, hmb i₂ j₂ h2 h4, e]
  · intro a0
    refine ⟨_, _, sk₁.fa G₁.wf G₁.rigid q₁ v₁' a0, sk₂.fa G₂.wf G₂.rigid q₂ v₂' a0, fun y k hy hk => ?_⟩
    have hP := hs.pose
    have hV := hs.vel
    rw [G₁.pose_read hv₁.toPosReady hs.mem (n₁ x n hs.mem hs.node), G₂.pose_read hv₂.toPosReady hs.mem (n₂ x n hs.mem hs.node)] at hP
    rw [G₁.motion_read hv₁.bodyVelB hs.mem (n₁ x n hs.mem hs.node), G₂.motion_read hv₂.bodyVelB hs.mem (n₂ x n hs.mem hs.node)] at hV
    obtain ⟨p1, p2⟩ := G₁.same_pos_vel G₂ T H O hQ hc₁.conf hc₂.conf q₁ q₂ ha₁ ha₂ hs.mem (Except.ok.inj hP) (Except.ok.inj hV)
    have p3 := G₁.same_acc G₂ T H O a0 hQ hc₁.conf hc₂.conf q₁ q₂ ha₁ ha₂ hAD hmb p2 G₂.R.mem (by
      rw [G₁.acc_base q₁, G₂.acc_base q₂] at hacc
      rw [G₁.acc_base q₁, G₂.acc_base q₂, p1 _ G₂.R.mem]
      rw [p1 _ G₂.R.mem] at hacc
      rw [add_left_cancel hacc]) y hy
    exact ⟨_, G₁.motion_read rfl hy (n₁ y k hy hk), by rw [p3]; exact G₂.motion_read rfl hy (n₂ y k hy hk)⟩

end
/-! The sample graph with a cylindrical joint as wrist, rooted at two of its bodies. -/

namespace Sample.Roots

def leafC : Leaf ℚ :=
  ⟨⟨⟨1, ⟨0, 0, 1⟩, ⟨2, 0, 2, 0, 0, 2⟩⟩, "hand"⟩, Joint.mk' .Cylindrical ⟨0, 0, 1⟩ true "wrist", "arm", gY, gX, false⟩
def leafB : Leaf ℚ := ⟨leaf3.body, Joint.mk' .Spherical ⟨0, 0, 1⟩ true "ball", "base", 1, gY, true⟩
def gc2 : GSt ℚ := after leafC gs1
def gc : GSt ℚ := after leafB gc2

theorem attachC : leafC.attach gs1 = .ok () gc2 := rfl
theorem attachB : leafB.attach gc2 = .ok () gc := rfl

theorem gc_build : TreeBuild Joint.BuiltUnit IsRigid ⟨[], []⟩ "Root" gc := by
  have b0 := TreeBuild.root Joint.BuiltUnit IsRigid (⟨[], []⟩ : Heap ℚ) "Root" base
  have b1 := b0.attach leaf1 (p1 := 0) (by decide +kernel) (by decide +kernel) (by decide +kernel)
    (.mk _ _ _ _ (by simp [ValidAxis, IsUnit3])) gX_rigid IsRigid.one attach1
  have b2 := b1.attach leafC (p1 := 1) (by decide +kernel) (by decide +kernel) (by decide +kernel)
    (.mk _ _ _ _ (by simp [ValidAxis, IsUnit3])) gY_rigid gX_rigid attachC
  exact b2.attach leafB (p1 := 0) (by decide +kernel) (by decide +kernel) (by decide +kernel)
    (.mk _ _ _ _ trivial) IsRigid.one gY_rigid attachB

theorem gc_tree : Tree gc.1 gc.2 := gc_build.tree

theorem gc_rigidGraph : RigidGraph gc.1 gc.2 := by
  refine ⟨fun u a ha => ?_, fun u a ha => (gc_build.forest.forest.2.2 u a ha).1⟩
  obtain ⟨-, j, d, hj, e⟩ := gc_build.forest.forest.2.2 u a ha
  rw [e]
  exact .setForward j d hj

theorem gc_nodes : gc.2.nodes = [0, 1, 2, 3] := by decide +kernel

/-- Positions, velocities and accelerations by joint name. -/
def cQ (name : String) : List ℚ := if name = "shoulder" then [1] else if name = "wrist" then [1, 1 / 2] else [3 / 5, 0, 4 / 5, 0]
def cA (name : String) : List ℚ := if name = "shoulder" then [2] else if name = "wrist" then [-1, 3] else [1, 1 / 2, -1]
def cAD (name : String) : List ℚ := if name = "shoulder" then [1] else if name = "wrist" then [2, -2] else [5, 0, 1]

theorem gc_links : ∀ u a, Link gc.1 gc.2 u a →
    ((a.joint.type = .Rev ∧ cQ a.joint.name = [1]) ∨ (a.joint.type = .Spherical ∧ cQ a.joint.name = [3 / 5, 0, 4 / 5, 0]) ∨
      (a.joint.type = .Cylindrical ∧ cQ a.joint.name = [1, 1 / 2])) ∧ ∀ c ∈ a.joint.S, c ≠ 0 := by
  rintro u a ⟨hu, n, hn, ha⟩
  have key : ∀ u ∈ [0, 1, 2, 3], ∀ a ∈ ((gc.1.nodes[u]?).map GNode.arcs).getD [],
      ((a.joint.type = .Rev ∧ cQ a.joint.name = [1]) ∨ (a.joint.type = .Spherical ∧ cQ a.joint.name = [3 / 5, 0, 4 / 5, 0]) ∨
        (a.joint.type = .Cylindrical ∧ cQ a.joint.name = [1, 1 / 2])) ∧ ∀ c ∈ a.joint.S, c ≠ 0 := by
    decide +kernel
  exact key u (by rw [← gc_nodes]; exact hu) a (by rw [hn]; exact ha)

theorem gc_validConf : ValidConf gc.1 gc.2 cQ := by
  intro u a ha
  rcases (gc_links u a ha).1 with ⟨e1, e2⟩ | ⟨e1, e2⟩ | ⟨e1, e2⟩ <;> rw [e1, e2]
  · exact ⟨rfl, trivial⟩
  · refine ⟨rfl, ?_⟩
    show (3 / 5 : ℚ) * (3 / 5) + 0 * 0 + 4 / 5 * (4 / 5) + 0 * 0 = 1
    norm_num
  · exact ⟨rfl, trivial⟩

def noMB : MultiBody ℚ := ⟨[], [], [], [], [], [], [], [], [], [], 0, 0⟩
/-- Rooted at "base" and at "hand", with free root joints. -/
def mbF : MultiBody ℚ := ((makeMultiBody gc.1 gc.2 "base" .Free ⟨0, 0, 1⟩ 1 gX).toOption).getD noMB
def mbG : MultiBody ℚ := ((makeMultiBody gc.1 gc.2 "hand" .Free ⟨0, 0, 1⟩ gX gY).toOption).getD noMB
def mF : SMap (PTransform ℚ) := (bodiesBaseTransform gc.1 gc.2 "base" gX).toOption.getD []
def mG : SMap (PTransform ℚ) := (bodiesBaseTransform gc.1 gc.2 "hand" gY).toOption.getD []

theorem madeF : MadeFrom gc.1 gc.2 .Free mbF mF :=
  ⟨"base", 0, ⟨0, 0, 1⟩, 1, gX, by decide +kernel, ⟨trivial, IsRigid.one, gX_rigid⟩, by decide +kernel, by decide +kernel⟩
theorem madeG : MadeFrom gc.1 gc.2 .Free mbG mG :=
  ⟨"hand", 2, ⟨0, 0, 1⟩, gX, gY, by decide +kernel, ⟨trivial, gX_rigid, gY_rigid⟩, by decide +kernel, by decide +kernel⟩

/-- Only "shoulder" and "wrist" are reversed. -/
theorem c_reversed : ReversedOneAxis mbF mbG := by
  intro i₁ i₂ j₁ j₂ h1 h2 h3 h4 h5 h6
  have l₁ : i₁ < 4 := (List.getElem?_eq_some_iff.1 h3).1.trans_eq (by decide +kernel)
  have l₂ : i₂ < 4 := (List.getElem?_eq_some_iff.1 h4).1.trans_eq (by decide +kernel)
  have key : ∀ i₁ ∈ [1, 2, 3], ∀ i₂ ∈ [1, 2, 3], ∀ j₁ ∈ mbF.joints[i₁]?, ∀ j₂ ∈ mbG.joints[i₂]?, j₁.name = j₂.name →
    j₁.isForward ≠ j₂.isForward → j₁.type = .Rev ∨ j₁.type = .Cylindrical := by decide +kernel
  unfold JointType.OneAxis
  rcases key i₁ (by simp; omega) i₂ (by simp; omega) j₁ h3 j₂ h4 h5 h6 with e | e <;> simp [e]

/-- The state before forward kinematics; the external force on "base" balances the motion. -/
def c0F : MBC ℚ :=
  { fresh mbF [[1, 0, 0, 0, 1, 2, 3], [1], [1, 1 / 2], [3 / 5, 0, 4 / 5, 0]] with
    alpha := [[1, 2, 3, 4, 5, 6], [2], [-1, 3], [1, 1 / 2, -1]]
    alphaD := [[1, 0, -1, 2, 0, 3], [1], [2, -2], [5, 0, 1]]
    gravity := ⟨0, 0, 10⟩
    force := [⟨⟨132359 / 250, 186081 / 500, -261867 / 500⟩, ⟨5014 / 25, -12059 / 100, 8031 / 50⟩⟩, ⟨⟨1, 0, 2⟩, ⟨0, 3, 1⟩⟩, 0, ⟨⟨0, 1, 1⟩, ⟨1, 0, 0⟩⟩]
    jointTorque := [[0, 0, 0, 0, 0, 0], [13 / 2], [32, -45 / 2], [8241 / 50, 12322 / 125, 439 / 25]] }
def c0G : MBC ℚ :=
  { fresh mbG [[1 / 2, -1 / 2, -1 / 2, 1 / 2, -3, -1, 5 / 2], [1, 1 / 2], [1], [3 / 5, 0, 4 / 5, 0]] with
    alpha := [[-3, -2, -2, -15, 2, 1 / 2], [-1, 3], [2], [1, 1 / 2, -1]]
    alphaD := [[0, 3, -9, -33 / 2, 18, -4], [2, -2], [1], [5, 0, 1]]
    gravity := ⟨0, 0, 10⟩
    force := [0, ⟨⟨1, 0, 2⟩, ⟨0, 3, 1⟩⟩, ⟨⟨132359 / 250, 186081 / 500, -261867 / 500⟩, ⟨5014 / 25, -12059 / 100, 8031 / 50⟩⟩, ⟨⟨0, 1, 1⟩, ⟨1, 0, 0⟩⟩]
    jointTorque := [[0, 0, 0, 0, 0, 0], [32, -45 / 2], [13 / 2], [8241 / 50, 12322 / 125, 439 / 25]] }

/-- Forward kinematics and forward velocity. -/
def moved (mb : MultiBody ℚ) (c : MBC ℚ) : MBC ℚ := ((forwardKinematics mb c >>= forwardVelocity mb).toOption).getD c
def cF : MBC ℚ := moved mbF c0F
def cG : MBC ℚ := moved mbG c0G

theorem c0F_sized : c0F.Sized mbF := by
  constructor
  · show c0F.q.map List.length = mbF.joints.map (·.params); decide +kernel
  · show c0F.alpha.map List.length = mbF.joints.map (·.dof); decide +kernel
  · show c0F.alphaD.map List.length = mbF.joints.map (·.dof); decide +kernel
  · show c0F.jointTorque.map List.length = mbF.joints.map (·.dof); decide +kernel
  all_goals decide +kernel

theorem c0G_sized : c0G.Sized mbG := by
  constructor
  · show c0G.q.map List.length = mbG.joints.map (·.params); decide +kernel
  · show c0G.alpha.map List.length = mbG.joints.map (·.dof); decide +kernel
  · show c0G.alphaD.map List.length = mbG.joints.map (·.dof); decide +kernel
  · show c0G.jointTorque.map List.length = mbG.joints.map (·.dof); decide +kernel
  all_goals decide +kernel

theorem named (mb : MultiBody ℚ) (l : List (List ℚ)) (B : String → List ℚ) (hl : mb.joints.length = 4)
    (h : ∀ i ∈ [1, 2, 3], ∀ j ∈ mb.joints[i]?, l[i]? = some (B j.name)) : MatchesConf mb l B := by
  intro i j hi hj
  have := (List.getElem?_eq_some_iff.1 hj).1
  exact h i (by simp; omega) j (by simpa using hj)

theorem c0F_conf : ConfigAt mbF .Free cQ c0F :=
  ⟨c0F_sized, named _ _ _ (by decide +kernel) (by decide +kernel), [1, 0, 0, 0, 1, 2, 3], by decide +kernel, rfl, by
    show (1 : ℚ) * 1 + 0 * 0 + 0 * 0 + 0 * 0 = 1; norm_num⟩

theorem c0G_conf : ConfigAt mbG .Free cQ c0G :=
  ⟨c0G_sized, named _ _ _ (by decide +kernel) (by decide +kernel), [1 / 2, -1 / 2, -1 / 2, 1 / 2, -3, -1, 5 / 2], by decide +kernel, rfl, by
    show (1 / 2 : ℚ) * (1 / 2) + (-1 / 2) * (-1 / 2) + (-1 / 2) * (-1 / 2) + 1 / 2 * (1 / 2) = 1; norm_num⟩

/-- What `moved` does to a state. -/
theorem moved_spec {h : Heap ℚ} {g : Graph} (T : Tree h g) (H : RigidGraph h g) {Q : String → List ℚ} (hQ : ValidConf h g Q)
    {mb : MultiBody ℚ} {m : SMap (PTransform ℚ)} (M : MadeFrom h g .Free mb m) {c : MBC ℚ} (hc : ConfigAt mb .Free Q c) :
    ConfigAt mb .Free Q (moved mb c) ∧ (moved mb c).VelReady mb ∧ (moved mb c).alpha = c.alpha ∧
      (moved mb c).alphaD = c.alphaD ∧ (moved mb c).force = c.force ∧ (moved mb c).gravity = c.gravity ∧
      (moved mb c).jointTorque = c.jointTorque := by
  obtain ⟨r, d, par, ax, X, Xb, N, G, -, hv⟩ := M.rooting T H
  obtain ⟨m₁, m, e1, e2, h1, h2, h3, h4, h5, h6, h7, h8⟩ := C24_velReady G.wf G.rigid hc.sized (hv Q c hQ hc)
  have e : moved mb c = m := by
    unfold moved
    rw [e1]
    show (forwardVelocity mb m₁).toOption.getD c = m
    rw [e2]
    rfl
  rw [e]
  exact ⟨⟨h2, by rw [h3]; exact hc.conf, by rw [h3]; exact hc.root⟩, h1, h4, h5, h6, h7, h8⟩

theorem cF_spec : ConfigAt mbF .Free cQ cF ∧ cF.VelReady mbF ∧ cF.alpha = c0F.alpha ∧ cF.alphaD = c0F.alphaD ∧ cF.force = c0F.force ∧
    cF.gravity = c0F.gravity ∧ cF.jointTorque = c0F.jointTorque :=
  moved_spec gc_tree gc_rigidGraph gc_validConf madeF c0F_conf
theorem cG_spec : ConfigAt mbG .Free cQ cG ∧ cG.VelReady mbG ∧ cG.alpha = c0G.alpha ∧ cG.alphaD = c0G.alphaD ∧ cG.force = c0G.force ∧
    cG.gravity = c0G.gravity ∧ cG.jointTorque = c0G.jointTorque :=
  moved_spec gc_tree gc_rigidGraph gc_validConf madeG c0G_conf

theorem c_place : SamePlaceVel gc.1 gc.2 mbF mbG mF mG cF cG 2 ⟨leafC.body, ((gc.1.nodes[2]?).map (·.arcs)).getD []⟩ :=
  ⟨by rw [gc_nodes]; decide, by decide +kernel, by decide +kernel, by decide +kernel⟩

theorem named_key {α : Type} {m : SMap α} {k : String} {v : α} (h : m.getAt k = .ok v) : k ∈ m.map (·.1) := by
  have : m.find k = some v := by unfold SMap.getAt at h; split at h <;> simp_all
  obtain ⟨e, he, -⟩ := Option.map_eq_some_iff.1 this
  exact List.mem_map.2 ⟨e, List.mem_of_find?_eq_some he, by simpa using List.find?_some he⟩

theorem c_forces : SameForces mbF mbG cF cG := by
  intro name i₁ i₂ h₁ h₂
  have key : ∀ name ∈ mbF.bodyNameToInd.map (·.1), ∀ i₁ ∈ (mbF.sBodyIndexByName name).toOption, ∀ i₂ ∈ (mbG.sBodyIndexByName name).toOption,
      rdI c0F.force i₁ = rdI c0G.force i₂ := by decide +kernel
  rw [cF_spec.2.2.2.2.1, cG_spec.2.2.2.2.1]
  exact key name (named_key h₁) i₁ (by rw [h₁]; rfl) i₂ (by rw [h₂]; rfl)

theorem cF_alpha : MatchesConf mbF cF.alpha cA := by
  rw [cF_spec.2.2.1]
  exact named _ _ _ (by decide +kernel) (by decide +kernel)
theorem cG_alpha : MatchesConf mbG cG.alpha cA := by
  rw [cG_spec.2.2.1]
  exact named _ _ _ (by decide +kernel) (by decide +kernel)
theorem cF_alphaD : MatchesConf mbF cF.alphaD cAD := by
  rw [cF_spec.2.2.2.1]
  exact named _ _ _ (by decide +kernel) (by decide +kernel)
theorem cG_alphaD : MatchesConf mbG cG.alphaD cAD := by
  rw [cG_spec.2.2.2.1]
  exact named _ _ _ (by decide +kernel) (by decide +kernel)

theorem gc_inertia : ∀ x n, x ∈ gc.2.nodes → gc.1.nodes[x]? = some n →
    0 < n.body.inertia.m ∧ ∀ v : MotionVec ℚ, v ≠ 0 → 0 < v.dot (n.body.inertia.mulMotion v) := by
  intro x n hx hn
  have key : ∀ x ∈ [0, 1, 2, 3], ∀ n ∈ gc.1.nodes[x]?, n.body ∈ [base, leaf1.body, leafC.body, leafB.body] := by decide +kernel
  have hb := key x (by rw [← gc_nodes]; exact hx) n hn
  have key : ∀ w : Vec3 ℚ, w ≠ 0 → 0 < w.x ^ 2 + w.y ^ 2 + w.z ^ 2 := by
    intro w hw
    by_contra hcon
    push Not at hcon
    apply hw
    have h1 := sq_nonneg w.x
    have h2 := sq_nonneg w.y
    have h3 := sq_nonneg w.z
    ext <;> simp <;> nlinarith
  simp only [List.mem_cons, List.not_mem_nil, or_false] at hb
  refine ⟨by rcases hb with e | e | e | e <;> rw [e] <;> decide +kernel, ?_⟩
  rcases hb with e | e | e | e <;> rw [e] <;> refine RBInertia.pos_of (by decide +kernel) fun w hw => ?_ <;> have := key w hw <;>
    simp [base, leaf1, leafC, leafB, leaf3, Vec3.dot, Vec3.cross, Sym3.toMat] <;>
    nlinarith [sq_nonneg w.x, sq_nonneg w.y, sq_nonneg w.z, sq_nonneg (w.x + w.y), sq_nonneg (w.x - w.y), sq_nonneg (w.x + w.z),
      sq_nonneg (w.x - w.z), sq_nonneg (w.y + w.z), sq_nonneg (w.y - w.z)]

/-- The two roots give the robot the same motion. -/
example : ∃ P V, graphBodyPose mbF mF cF "slider" = .ok P ∧ graphBodyPose mbG mG cG "slider" = .ok P ∧
    graphBodyMotion mbF mF cF.bodyVelB "slider" = .ok V ∧ graphBodyMotion mbG mG cG.bodyVelB "slider" = .ok V ∧ V ≠ 0 := by
  obtain ⟨a1, a2, -⟩ := cF_spec
  obtain ⟨b1, b2, -⟩ := cG_spec
  obtain ⟨n, hn, en⟩ : ∃ n, gc.1.nodes[3]? = some n ∧ n.body.name = "slider" := ⟨_, rfl, rfl⟩
  have := C75_same_motion gc_tree gc_rigidGraph c_reversed madeF madeG gc_validConf a1 b1 a2 b2 cF_alpha cG_alpha c_place.mem c_place.node
    c_place.pose c_place.vel (y := 3) (by rw [gc_nodes]; decide) hn
  rw [en] at this
  obtain ⟨P, V, h1, h2, h3, h4⟩ := this
  refine ⟨P, V, h1, h2, h3, h4, ?_⟩
  have key : graphBodyMotion mbF mF cF.bodyVelB "slider" ≠ .ok 0 := by decide +kernel
  rintro rfl
  exact key h3

/-- The hypotheses about accelerations and torques are met, with joint torques that are not zero. -/
example : ∃ e₁' e₂' k₁ k₂, (ID.mk (List.replicate 4 0)).inverseDynamics mbF cF = .ok (e₁', k₁) ∧
    (ID.mk (List.replicate 4 0)).inverseDynamics mbG cG = .ok (e₂', k₂) ∧
    graphBodyMotion mbF mF k₁.bodyAccB "hand" = graphBodyMotion mbG mG k₂.bodyAccB "hand" ∧
    k₁.jointTorque = [[0, 0, 0, 0, 0, 0], [13 / 2], [32, -45 / 2], [8241 / 50, 12322 / 125, 439 / 25]] ∧ k₂.jointTorque[0]? = some [0, 0, 0, 0, 0, 0] ∧
    SameByName mbF mbG k₁.jointTorque k₂.jointTorque := by
  obtain ⟨a1, a2, -, -, -, ag, -⟩ := cF_spec
  obtain ⟨b1, b2, -, -, -, bg, -⟩ := cG_spec
  obtain ⟨e₁', e₂', k₁, k₂, h1, h2, h⟩ := C75_torques gc_tree gc_rigidGraph c_reversed madeF madeG gc_validConf a1 b1 a2 b2 cF_alpha cG_alpha
    cF_alphaD cG_alphaD c_place (by rw [ag, bg]; rfl) c_forces
    (e₁ := ⟨List.replicate 4 0⟩) (e₂ := ⟨List.replicate 4 0⟩) (by decide +kernel) (by decide +kernel)
  have key : ∀ k₁ ∈ ((ID.mk (List.replicate 4 0)).inverseDynamics mbF cF).toOption,
      ∀ k₂ ∈ ((ID.mk (List.replicate 4 0)).inverseDynamics mbG cG).toOption,
      graphBodyMotion mbF mF k₁.2.bodyAccB "hand" = graphBodyMotion mbG mG k₂.2.bodyAccB "hand" ∧
      k₁.2.jointTorque = [[0, 0, 0, 0, 0, 0], [13 / 2], [32, -45 / 2], [8241 / 50, 12322 / 125, 439 / 25]] ∧ k₂.2.jointTorque[0]? = some [0, 0, 0, 0, 0, 0] := by decide +kernel
  obtain ⟨k1, k2, k3⟩ := key (e₁', k₁) (by rw [h1]; rfl) (e₂', k₂) (by rw [h2]; rfl)
  exact ⟨e₁', e₂', k₁, k₂, h1, h2, k1, k2, k3, (h k1 (by rw [show k₁.jointTorque = _ from k2]; rfl)).2⟩

example : ∃ c, computeCoM mbF cF = .ok c ∧ computeCoM mbG cG = .ok c := by
  obtain ⟨a1, a2, -⟩ := cF_spec
  obtain ⟨b1, b2, -⟩ := cG_spec
  exact (C75_com_momentum gc_tree gc_rigidGraph c_reversed madeF madeG gc_validConf a1 b1 a2 b2 cF_alpha cG_alpha c_place
    fun x n hx hn => (gc_inertia x n hx hn).1).1

/-- An exact solve exists for the matrices of both robots, and forward dynamics gives all joints the same accelerations. -/
example : ∃ (solve : DMat ℚ → List ℚ → List ℚ) (fd₁ fd₂ fd₁' fd₂' : FD ℚ) (k₁ k₂ : MBC ℚ), fd₁.forwardDynamics solve mbF cF = .ok (fd₁', k₁) ∧
    fd₂.forwardDynamics solve mbG cG = .ok (fd₂', k₂) ∧ SameByName mbF mbG k₁.alphaD k₂.alphaD := by
  obtain ⟨a1, a2, -, -, -, ag, at'⟩ := cF_spec
  obtain ⟨b1, b2, -, -, -, bg, bt⟩ := cG_spec
  have hI := fun x n hx hn => (gc_inertia x n hx hn).2
  have hS := fun u a ha => (gc_links u a ha).2
  obtain ⟨solve, hs⟩ := ExactSolve.exists_of_regular (K := ℚ) 12
  have exact' : ∀ {mb m c}, MadeFrom gc.1 gc.2 .Free mb m → ConfigAt mb .Free cQ c → c.VelReady mb → mb.nrDof = 12 →
      ∃ fd : FD ℚ, fd.Fits mb ∧ ∀ fd', fd.computeH mb c = .ok fd' → ExactSolve solve fd'.H := by
    intro mb m c M hc hv hn
    obtain ⟨r, d, par, ax, X, Xb, N, G, -, hq⟩ := M.rooting gc_tree gc_rigidGraph
    have hq := hq cQ c gc_validConf hc
    obtain ⟨fd, -, hfit⟩ := C27_constructor G.wf (⟨⟨0, 0, fun _ _ => 0⟩, [], [], [], [], [], [], []⟩ : FD ℚ)
    refine ⟨fd, hfit, fun fd₁ e => ?_⟩
    obtain ⟨d', e', h⟩ := C29_positive_definite G.wf G.rigid hq hv.toPosReady hfit (G.posdef gc_tree.toForest gc_rigidGraph hI) (G.cols_ne hS)
    obtain ⟨d'', e'', hr, hcc, -⟩ := C28_symmetric G.wf G.rigid hq hv.toPosReady hfit
    rw [e] at e' e''
    cases e'
    cases e''
    refine hs _ (hr.trans hn) (hcc.trans hn) fun x hx hne => ?_
    by_contra hcon
    push Not at hcon
    have := h x (hx.trans hn.symm) hne
    rw [Finset.sum_eq_zero fun r hr => by rw [hcon r (by rw [← hn]; exact Finset.mem_range.1 hr), mul_zero]] at this
    exact absurd this (lt_irrefl _)
  obtain ⟨fd₁, f₁, s₁⟩ := exact' madeF a1 a2 (by decide +kernel)
  obtain ⟨fd₂, f₂, s₂⟩ := exact' madeG b1 b2 (by decide +kernel)
  have ht : SameByName mbF mbG cF.jointTorque cG.jointTorque := by
    intro i₁ i₂ j₁ j₂ h1 h2 h3 h4 h5
    have l₁ : i₁ < 4 := (List.getElem?_eq_some_iff.1 h3).1.trans_eq (by decide +kernel)
    have l₂ : i₂ < 4 := (List.getElem?_eq_some_iff.1 h4).1.trans_eq (by decide +kernel)
    have key : ∀ i₁ ∈ [1, 2, 3], ∀ i₂ ∈ [1, 2, 3], ∀ j₁ ∈ mbF.joints[i₁]?, ∀ j₂ ∈ mbG.joints[i₂]?, j₁.name = j₂.name →
      c0F.jointTorque[i₁]? = c0G.jointTorque[i₂]? := by decide +kernel
    rw [at', bt]
    exact key i₁ (by simp; omega) i₂ (by simp; omega) j₁ h3 j₂ h4 h5
  obtain ⟨fd₁', fd₂', k₁, k₂, h1, h2, h3, -⟩ := C75_forward_dynamics gc_tree gc_rigidGraph c_reversed madeF madeG gc_validConf a1 b1 a2 b2
    cF_alpha cG_alpha c_place (by rw [ag, bg]; rfl) c_forces ht
    (by rw [at']; rfl) (by rw [bt]; rfl) hI hS f₁ f₂ s₁ s₂
  exact ⟨solve, fd₁, fd₂, fd₁', fd₂', k₁, k₂, h1, h2, h3⟩

/-! The sample graph itself, whose wrist is spherical and has its two bodies exchanged by the choice of the root. -/

def X0S : PTransform ℚ := ⟨⟨-1, 0, 0, 0, -24 / 25, 7 / 25, 0, 7 / 25, 24 / 25⟩, ⟨2, 143 / 25, 101 / 25⟩⟩
def mbSF : MultiBody ℚ := ((makeMultiBody gs.1 gs.2 "base" .Free ⟨0, 0, 1⟩ 1 1).toOption).getD noMB
def mbSG : MultiBody ℚ := ((makeMultiBody gs.1 gs.2 "hand" .Free ⟨0, 0, 1⟩ X0S gY).toOption).getD noMB
def mSF : SMap (PTransform ℚ) := (bodiesBaseTransform gs.1 gs.2 "base" 1).toOption.getD []
def mSG : SMap (PTransform ℚ) := (bodiesBaseTransform gs.1 gs.2 "hand" gY).toOption.getD []
/-- Only the wrist moves. -/
def sA (name : String) : List ℚ := if name = "wrist" then [1, 0, 0] else [0]
def c0SF : MBC ℚ :=
  { fresh mbSF [[1, 0, 0, 0, 0, 0, 0], [1], [3 / 5, 0, 4 / 5, 0], [-2]] with alpha := [[0, 0, 0, 0, 0, 0], [0], [1, 0, 0], [0]] }
def c0SG : MBC ℚ :=
  { fresh mbSG [[1, 0, 0, 0, 0, 0, 0], [3 / 5, 0, 4 / 5, 0], [1], [-2]] with alpha := [[0, 0, 1, 3, -1, 0], [1, 0, 0], [0], [0]] }
def cSF : MBC ℚ := moved mbSF c0SF
def cSG : MBC ℚ := moved mbSG c0SG

theorem madeSF : MadeFrom gs.1 gs.2 .Free mbSF mSF :=
  ⟨"base", 0, ⟨0, 0, 1⟩, 1, 1, by decide +kernel, ⟨trivial, IsRigid.one, IsRigid.one⟩, by decide +kernel, by decide +kernel⟩
theorem madeSG : MadeFrom gs.1 gs.2 .Free mbSG mSG :=
  ⟨"hand", 2, ⟨0, 0, 1⟩, X0S, gY, by decide +kernel, ⟨trivial, ⟨by decide +kernel, by decide +kernel⟩, gY_rigid⟩, by decide +kernel,
    by decide +kernel⟩

theorem c0SF_conf : ConfigAt mbSF .Free gQ c0SF := by
  refine ⟨?_, named _ _ _ (by decide +kernel) (by decide +kernel), [1, 0, 0, 0, 0, 0, 0], by decide +kernel, rfl, by
    show (1 : ℚ) * 1 + 0 * 0 + 0 * 0 + 0 * 0 = 1; norm_num⟩
  constructor
  · show c0SF.q.map List.length = mbSF.joints.map (·.params); decide +kernel
  · show c0SF.alpha.map List.length = mbSF.joints.map (·.dof); decide +kernel
  · show c0SF.alphaD.map List.length = mbSF.joints.map (·.dof); decide +kernel
  · show c0SF.jointTorque.map List.length = mbSF.joints.map (·.dof); decide +kernel
  all_goals decide +kernel

theorem c0SG_conf : ConfigAt mbSG .Free gQ c0SG := by
  refine ⟨?_, named _ _ _ (by decide +kernel) (by decide +kernel), [1, 0, 0, 0, 0, 0, 0], by decide +kernel, rfl, by
    show (1 : ℚ) * 1 + 0 * 0 + 0 * 0 + 0 * 0 = 1; norm_num⟩
  constructor
  · show c0SG.q.map List.length = mbSG.joints.map (·.params); decide +kernel
  · show c0SG.alpha.map List.length = mbSG.joints.map (·.dof); decide +kernel
  · show c0SG.alphaD.map List.length = mbSG.joints.map (·.dof); decide +kernel
  · show c0SG.jointTorque.map List.length = mbSG.joints.map (·.dof); decide +kernel
  all_goals decide +kernel

end Sample.Roots

/-- C75 fails for spherical joints: with all other hypotheses of `C75_same_motion`, and links that are revolute, prismatic or spherical, the
two roots give the same poses but different velocities to a body. The reversed spherical joint has the motion subspace of the forward one,
negated, although the velocity of the inverse rotation is the negated velocity *in the other frame*. -/
theorem C75_spherical_counterexample : ∃ (h : Heap ℚ) (g : Graph) (mb₁ mb₂ : MultiBody ℚ) (m₁ m₂ : SMap (PTransform ℚ)) (c₁ c₂ : MBC ℚ)
    (Q A : String → List ℚ) (x : Nat) (n : GNode ℚ), Tree h g ∧ RigidGraph h g ∧
    (∀ u a, Link h g u a → a.joint.type = .Rev ∨ a.joint.type = .Prism ∨ a.joint.type = .Spherical) ∧
    MadeFrom h g .Free mb₁ m₁ ∧ MadeFrom h g .Free mb₂ m₂ ∧ ValidConf h g Q ∧ ConfigAt mb₁ .Free Q c₁ ∧ ConfigAt mb₂ .Free Q c₂ ∧
    c₁.VelReady mb₁ ∧ c₂.VelReady mb₂ ∧ MatchesConf mb₁ c₁.alpha A ∧ MatchesConf mb₂ c₂.alpha A ∧ SamePlaceVel h g mb₁ mb₂ m₁ m₂ c₁ c₂ x n ∧
    ∃ y k V U, y ∈ g.nodes ∧ h.nodes[y]? = some k ∧ graphBodyPose mb₁ m₁ c₁ k.body.name = graphBodyPose mb₂ m₂ c₂ k.body.name ∧
      graphBodyMotion mb₁ m₁ c₁.bodyVelB k.body.name = .ok V ∧ graphBodyMotion mb₂ m₂ c₂.bodyVelB k.body.name = .ok U ∧ V ≠ U := by
  open Sample Sample.Roots in
  obtain ⟨a1, a2, a3, -⟩ := moved_spec gs_tree gs_rigidGraph gs_validConf madeSF c0SF_conf
  obtain ⟨b1, b2, b3, -⟩ := moved_spec gs_tree gs_rigidGraph gs_validConf madeSG c0SG_conf
  refine ⟨gs.1, gs.2, mbSF, mbSG, mSF, mSG, cSF, cSG, gQ, sA, 2, ⟨leaf2.body, ((gs.1.nodes[2]?).map (·.arcs)).getD []⟩, gs_tree, gs_rigidGraph,
    ?_, madeSF, madeSG, gs_validConf, a1, b1, a2, b2, ?_, ?_,
    ⟨by rw [gs_nodes]; decide, by decide +kernel, by decide +kernel, by decide +kernel⟩, 0,
    ⟨base, ((gs.1.nodes[0]?).map (·.arcs)).getD []⟩, 0, ⟨⟨0, 32 / 25, 24 / 25⟩, ⟨-16 / 25, -24 / 25, 32 / 25⟩⟩, by rw [gs_nodes]; decide,
    by decide +kernel, by decide +kernel, by decide +kernel, by decide +kernel, by decide +kernel⟩
  · rintro u a ⟨hu, n, hn, ha⟩
    have key : ∀ u ∈ [0, 1, 2, 3], ∀ a ∈ ((gs.1.nodes[u]?).map GNode.arcs).getD [],
      a.joint.type = .Rev ∨ a.joint.type = .Prism ∨ a.joint.type = .Spherical := by decide +kernel
    exact key u (by rw [← gs_nodes]; exact hu) a (by rw [hn]; exact ha)
  · rw [show cSF.alpha = _ from a3]
    exact named _ _ _ (by decide +kernel) (by decide +kernel)
  · rw [show cSG.alpha = _ from b3]
    exact named _ _ _ (by decide +kernel) (by decide +kernel)

end RBDyn
