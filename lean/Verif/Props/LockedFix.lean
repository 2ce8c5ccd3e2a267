import Verif.Props.GraphFix
import Verif.Props.Units
import Verif.Lemmas.GraphLock
import Verif.Lemmas.CoM
import Verif.Lemmas.Momentum

/-! Property C78, the part about `fixJoints`: a robot with fixed joints is the robot whose joints are held at their neutral positions. -/

namespace RBDyn
variable {K : Type} [Scalar K]

/-- The values `l` of the joints of a robot and those `l'` of the robot with the joints `sel` fixed: the same for the joints not fixed, zero
for those fixed. -/
structure HeldBlocks (sel : String → Prop) (mb : MultiBody K) (l l' : List (List K)) : Prop where
  held : ∀ (i : Nat) (j : Joint K) (x : List K), 0 < i → mb.joints[i]? = some j → sel j.name → l[i]? = some x → ∀ y ∈ x, y = 0
  free : ∀ (i : Nat) (j : Joint K), mb.joints[i]? = some j → ¬(0 < i ∧ sel j.name) → l[i]? = l'[i]?

/-- States of a robot and of the robot with the joints `sel` fixed: the fixed joints are at their neutral positions and have no velocity, the
others have the same positions and velocities. Forward kinematics and forward velocity were computed. -/
structure NeutralState (sel : String → Prop) (mb mb' : MultiBody K) (c c' : MBC K) : Prop where
  sized : c.Sized mb
  sized' : c'.Sized mb'
  valid : ValidQ mb c.q
  neutral : ∀ (i : Nat) (j : Joint K) (x : List K), 0 < i → mb.joints[i]? = some j → sel j.name → c.q[i]? = some x → AtNeutral j x
  free : ∀ (i : Nat) (j : Joint K), mb.joints[i]? = some j → ¬(0 < i ∧ sel j.name) → c.q[i]? = c'.q[i]?
  vel : HeldBlocks sel mb c.alpha c'.alpha
  ready : c.VelReady mb
  ready' : c'.VelReady mb'

structure FixedState (sel : String → Prop) (mb mb' : MultiBody K) (c c' : MBC K) : Prop extends NeutralState sel mb mb' c c' where
  fixed : FixedOf sel mb mb'
  wf : mb.WF
  wf' : mb'.WF
  rigid : mb.Rigid

/-- The joints that `fixJoints(names, all)` fixes. -/
def FixedNames (names : List String) (all : Bool) (s : String) : Prop := all = true ∨ s ∈ names

/-- `fixJoints(names, all)` was called on a tree, and `mb` and `mb'` were made from the graph before and from the graph it returned, with the same
root body and root joint. -/
structure FixCall (h : Heap K) (g : Graph) (names : List String) (all : Bool) (h' : Heap K) (g' : Graph) (mb mb' : MultiBody K) : Prop where
  tree : Graph.Tree h g
  rigid : Graph.RigidGraph h g
  known : if all then names ≠ [] else ∀ s ∈ names, ∃ p, g.jointByName s = .ok p
  call : Graph.fixJoints h g names all = .ok (h', g')
  made : ∃ root r t axis X0 Xb, g.nodeByName root = .ok r ∧ GoodRoot t axis X0 Xb ∧ Graph.makeMultiBody h g root t axis X0 Xb = .ok mb ∧
    Graph.makeMultiBody h' g' root t axis X0 Xb = .ok mb'

theorem FixCall.state {h h' : Heap K} {g g' : Graph} {names : List String} {all : Bool} {mb mb' : MultiBody K} {c c' : MBC K}
    (C : FixCall h g names all h' g' mb mb') (S : NeutralState (FixedNames names all) mb mb' c c') :
    FixedState (FixedNames names all) mb mb' c c' := by
  obtain ⟨root, r, t, axis, X0, Xb, hr, gr, e1, e2⟩ := C.made
  have G : mb.Rigid := by
    obtain ⟨mb₂, _, _, _, _, e₂, -, G, -⟩ := root_rooting C.tree C.rigid hr gr
    rw [e1] at e₂
    cases e₂
    exact G.rigid
  have hn := C.known
  have e := C.call
  cases all with
  | true =>
    obtain ⟨h₂, g₂, e₂, -, -, -, H⟩ := C20_fixAll C.tree C.rigid.built names (by simpa using hn)
    rw [e] at e₂
    cases e₂
    obtain ⟨m, m', k1, k2, w1, w2, F⟩ := H root r hr t axis X0 Xb
    rw [e1] at k1
    rw [e2] at k2
    cases k1
    cases k2
    exact ⟨S, F.congr fun _ => by simp [FixedNames], w1, w2, G⟩
  | false =>
    obtain ⟨h₂, g₂, e₂, -, -, -, -, -, H⟩ := C20_fixJoints C.tree C.rigid.built names (by simpa using hn)
    rw [e] at e₂
    cases e₂
    obtain ⟨m, m', k1, k2, w1, w2, F⟩ := H root r hr t axis X0 Xb
    rw [e1] at k1
    rw [e2] at k2
    cases k1
    cases k2
    exact ⟨S, F.congr fun _ => by simp [FixedNames], w1, w2, G⟩

section
variable {sel : String → Prop} {mb mb' : MultiBody K} {c c' : MBC K}

theorem FixedOf.par (F : FixedOf sel mb mb') : mb'.par = mb.par := by
  funext i
  unfold MultiBody.par
  rw [F.pred]

theorem FixedOf.inertiaAt (F : FixedOf sel mb mb') : mb'.inertiaAt = mb.inertiaAt := by
  funext i
  unfold MultiBody.inertiaAt
  rw [F.bodies]

/-- A joint of the robot with fixed joints: one that was fixed, or the same. -/
theorem FixedOf.joint (F : FixedOf sel mb mb') {i : Nat} {j : Joint K} (hj : mb.joints[i]? = some j) :
    (∃ j', 0 < i ∧ sel j.name ∧ mb'.joints[i]? = some j' ∧ j'.type = .Fixed ∧ j'.dof = 0) ∨ (¬(0 < i ∧ sel j.name) ∧ mb'.joints[i]? = some j) := by
  by_cases hs : 0 < i ∧ sel j.name
  · obtain ⟨j', h1, h2, h3, -⟩ := F.fixed i j hs.1 hj hs.2
    exact .inl ⟨j', hs.1, hs.2, h1, h2, h3⟩
  · refine .inr ⟨hs, ?_⟩
    by_cases h0 : i = 0
    · subst h0; rw [F.root]; exact hj
    · exact F.other i j (by omega) hj fun h => hs ⟨by omega, h⟩

theorem FixedOf.none (F : FixedOf sel mb mb') {i : Nat} (hj : mb.joints[i]? = none) : mb'.joints[i]? = none := by
  have := F.njoints
  rw [List.getElem?_eq_none_iff] at hj ⊢
  omega

theorem FixedOf.rigid (F : FixedOf sel mb mb') (wf' : mb'.WF) (hr : mb.Rigid) : mb'.Rigid := by
  refine ⟨fun j hj => ?_, by rw [F.Xt]; exact hr.Xt⟩
  obtain ⟨i, hi, rfl⟩ := List.mem_iff_getElem.1 hj
  have hi2 : i < mb.joints.length := by rw [← F.njoints]; exact hi
  rcases F.joint (List.getElem?_eq_getElem hi2) with ⟨j', -, -, h1, h2, -⟩ | ⟨-, h1⟩
  · rw [List.getElem?_eq_getElem hi] at h1
    rw [Option.some.inj h1]
    have hb := wf'.built _ (List.getElem_mem hi)
    rw [Option.some.inj h1] at hb
    obtain ⟨t, a, f, n, rfl | ⟨mn, m, o, rfl⟩⟩ := hb.exists_mk
    · obtain rfl : t = .Fixed := h2
      exact .mk _ _ _ _ trivial
    · obtain rfl : t = .Fixed := h2
      exact .makeMimic _ _ _ _ (.mk _ _ _ _ trivial)
  · rw [List.getElem?_eq_getElem hi] at h1
    rw [Option.some.inj h1]
    exact hr.joints _ (List.getElem_mem hi2)

theorem fixed_S {j : Joint K} (hb : j.Built) (ht : j.type = .Fixed) : j.S = [] ∧ ∀ x, j.pose x = .ok 1 := by
  obtain ⟨t, a, f, n, rfl | ⟨mn, m, o, rfl⟩⟩ := hb.exists_mk
  · obtain rfl : t = .Fixed := ht
    exact ⟨rfl, fun x => Joint.pose_fixed ..⟩
  · obtain rfl : t = .Fixed := ht
    exact ⟨rfl, fun x => by rw [Joint.pose_makeMimic]; exact Joint.pose_fixed ..⟩

theorem FixedState.rigid' (S : FixedState sel mb mb' c c') : mb'.Rigid := S.fixed.rigid S.wf' S.rigid

theorem FixedState.valid' (S : FixedState sel mb mb' c c') : ValidQ mb' c'.q := by
  have hl : c'.q.length = mb'.joints.length := by have := congrArg List.length S.sized'.q; simpa using this
  have hl2 : c.q.length = mb.joints.length := by have := congrArg List.length S.sized.q; simpa using this
  have hV := S.valid
  unfold ValidQ at hV ⊢
  rw [List.forall₂_iff_get] at hV ⊢
  refine ⟨hl.symm, fun i h1 h2 => ?_⟩
  have hi : i < mb.joints.length := by rw [← S.fixed.njoints]; exact h1
  have hx : i < c.q.length := by omega
  have e2 : c'.q[i]? = some (c'.q.get ⟨i, h2⟩) := List.getElem?_eq_getElem h2
  have e1 : mb'.joints[i]? = some (mb'.joints.get ⟨i, h1⟩) := List.getElem?_eq_getElem h1
  rcases S.fixed.joint (List.getElem?_eq_getElem hi) with ⟨j', -, -, k1, k2, -⟩ | ⟨hs, k1⟩
  · rw [e1] at k1
    have hn := congrArg (·[i]?) S.sized'.q
    simp only [List.getElem?_map, e1, e2, Option.map_some, Option.some.injEq] at hn
    have hb := S.wf'.built _ (List.mem_of_getElem? e1)
    rw [Option.some.inj k1] at hn hb ⊢
    generalize c'.q.get ⟨i, h2⟩ = x at hn
    have : j'.params = 0 := by
      obtain ⟨t, a, f, n, rfl | ⟨mn, m, o, rfl⟩⟩ := hb.exists_mk <;> obtain rfl : t = .Fixed := k2 <;> rfl
    rw [k2]
    exact ⟨hn.trans this, trivial⟩
  · rw [e1] at k1
    have hf := S.free i _ (List.getElem?_eq_getElem hi) hs
    rw [e2, List.getElem?_eq_getElem hx] at hf
    rw [Option.some.inj k1, ← Option.some.inj hf]
    exact hV.2 i hi hx

theorem FixedState.ptsAt (S : FixedState sel mb mb' c c') : mb'.ptsAt c'.q = mb.ptsAt c.q := by
  funext i
  unfold MultiBody.ptsAt
  have e : mb'.XtAt i = mb.XtAt i := by unfold MultiBody.XtAt; rw [S.fixed.Xt]
  rw [e]
  congr 1
  unfold MultiBody.poseAt
  cases hj : mb.joints[i]? with
  | none => rw [S.fixed.none hj]
  | some j =>
    have hl : c.q.length = mb.joints.length := by have := congrArg List.length S.sized.q; simpa using this
    have hi : i < c.q.length := by rw [hl]; exact (List.getElem?_eq_some_iff.1 hj).1
    rcases S.fixed.joint hj with ⟨j', h0, hs, k1, k2, -⟩ | ⟨hs, k1⟩
    · have hN := S.neutral i j _ h0 hj hs (List.getElem?_eq_getElem hi)
      rw [k1, List.getElem?_eq_getElem hi]
      dsimp only
      rw [hN.pose (S.wf.built j (List.mem_of_getElem? hj))]
      cases c'.q[i]? with
      | none => rfl
      | some y => dsimp only; rw [(fixed_S (S.wf'.built j' (List.mem_of_getElem? k1)) k2).2]
    · rw [k1, S.free i j hj hs]

theorem FixedState.SAt (S : FixedState sel mb mb' c c') {i : Nat} {j : Joint K} (hj : mb.joints[i]? = some j) (hs : ¬(0 < i ∧ sel j.name)) :
    mb'.SAt i = mb.SAt i ∧ mb'.dofAt i = mb.dofAt i := by
  rcases S.fixed.joint hj with ⟨j', h0, h1, -⟩ | ⟨-, k1⟩
  · exact absurd ⟨h0, h1⟩ hs
  · unfold MultiBody.SAt MultiBody.dofAt
    rw [hj, k1]
    exact ⟨rfl, rfl⟩

theorem FixedState.jointMotion (S : FixedState sel mb mb' c c') {a a' : List (List K)} (h : HeldBlocks sel mb a a') :
    mb'.jointMotion a' = mb.jointMotion a := by
  funext i
  unfold MultiBody.jointMotion
  cases hj : mb.joints[i]? with
  | none => simp [MultiBody.SAt, hj, S.fixed.none hj, applyCols]
  | some j =>
    rcases S.fixed.joint hj with ⟨j', h0, hs, k1, k2, -⟩ | ⟨hs, k1⟩
    · have e : mb'.SAt i = [] := by
        unfold MultiBody.SAt
        rw [k1]
        exact (fixed_S (S.wf'.built j' (List.mem_of_getElem? k1)) k2).1
      rw [e, applyCols_zeros (mb.SAt i)]
      · simp [applyCols]
      · cases hx : a[i]? with
        | none => simp
        | some x => exact h.held i j x h0 hj hs hx
    · rw [(S.SAt hj hs).1, h.free i j hj hs]

theorem FixedState.posAt (S : FixedState sel mb mb' c c') : mb'.posAt c'.q = mb.posAt c.q := by
  funext i
  unfold MultiBody.posAt
  rw [S.fixed.par, S.ptsAt]

theorem FixedState.relAt (S : FixedState sel mb mb' c c') : mb'.relAt c'.q = mb.relAt c.q := by
  funext k i
  unfold MultiBody.relAt
  rw [S.posAt]

theorem FixedState.path (S : FixedState sel mb mb' c c') : mb'.path = mb.path ∧ mb'.subtree = mb.subtree := by
  constructor <;> funext i
  · unfold MultiBody.path; rw [S.fixed.par, S.fixed.bodies]
  · unfold MultiBody.subtree; rw [S.fixed.par, S.fixed.bodies]

theorem FixedState.velAt (S : FixedState sel mb mb' c c') : mb'.velAt c'.q c'.alpha = mb.velAt c.q c.alpha := by
  funext i
  unfold MultiBody.velAt
  rw [S.path.1, S.relAt, S.jointMotion S.vel]

theorem FixedState.accAt (S : FixedState sel mb mb' c c') {b b' : List (List K)} (h : HeldBlocks sel mb b b') (a0 : MotionVec K) :
    mb'.accAt c'.q c'.alpha b' a0 = mb.accAt c.q c.alpha b a0 := by
  funext i
  unfold MultiBody.accAt
  rw [S.path.1, S.relAt, S.posAt, S.velAt, S.jointMotion S.vel, S.jointMotion h]

theorem FixedState.wrenchAt (S : FixedState sel mb mb' c c') {b b' : List (List K)} (h : HeldBlocks sel mb b b') (a0 : MotionVec K)
    (fe : Nat → ForceVec K) : mb'.wrenchAt c'.q (mb'.netForceAt c'.q c'.alpha b' a0 fe) = mb.wrenchAt c.q (mb.netForceAt c.q c.alpha b a0 fe) := by
  have e : mb'.netForceAt c'.q c'.alpha b' a0 fe = mb.netForceAt c.q c.alpha b a0 fe := by
    funext k
    unfold MultiBody.netForceAt
    rw [S.fixed.inertiaAt, S.accAt h, S.velAt, S.posAt]
  funext i
  unfold MultiBody.wrenchAt
  rw [e, S.path.2, S.relAt]

theorem FixedState.motion (S : FixedState sel mb mb' c c') :
    c'.bodyPosW = c.bodyPosW ∧ c'.bodyVelB = c.bodyVelB ∧ c'.bodyVelW = c.bodyVelW ∧
      (HeldBlocks sel mb c.alphaD c'.alphaD → ∀ a0, ∃ l l', forwardAcceleration mb c a0 = .ok l ∧ forwardAcceleration mb' c' a0 = .ok l' ∧
        l'.bodyAccB = l.bodyAccB) ∧
      computeCoM mb' c' = computeCoM mb c ∧ ∀ com, computeCentroidalMomentum mb' c' com = computeCentroidalMomentum mb c com := by
  have hb := S.fixed.bodies
  have e1 : c'.bodyPosW = c.bodyPosW := by rw [S.ready'.bodyPosW, S.ready.bodyPosW, hb, S.posAt]
  have e2 : c'.bodyVelB = c.bodyVelB := by rw [S.ready'.bodyVelB, S.ready.bodyVelB, hb, S.velAt]
  refine ⟨e1, e2, ?_, fun h a0 => ?_, ?_, fun com => ?_⟩
  · rw [S.ready'.bodyVelW, S.ready.bodyVelW, hb]
    refine List.map_congr_left fun i _ => ?_
    unfold MultiBody.velWAt
    rw [S.posAt, S.velAt]
  · refine ⟨_, _, S.sized.fa S.wf S.rigid S.valid S.ready a0, S.sized'.fa S.wf' S.rigid' S.valid' S.ready' a0, ?_⟩
    dsimp only
    rw [hb, S.accAt h]
  · unfold computeCoM MultiBody.nrBodies
    rw [hb, e1]
  · unfold computeCentroidalMomentum MultiBody.nrBodies
    rw [hb, e1, e2]

theorem FixedState.torques (S : FixedState sel mb mb' c c') (h : HeldBlocks sel mb c.alphaD c'.alphaD) (hf : c.force = c'.force)
    (hg : c.gravity = c'.gravity) {d d' : ID K} (hd : d.f.length = mb.nrBodies) (hd' : d'.f.length = mb'.nrBodies) :
    ∃ d₁ d₁' k k', d.inverseDynamics mb c = .ok (d₁, k) ∧ d'.inverseDynamics mb' c' = .ok (d₁', k') ∧ d₁' = d₁ ∧
      ∀ (i : Nat) (j : Joint K), mb.joints[i]? = some j → ¬(0 < i ∧ sel j.name) → k.jointTorque[i]? = k'.jointTorque[i]? := by
  have hb := S.fixed.bodies
  have ef : c'.forceAt = c.forceAt := by funext i; unfold MBC.forceAt; rw [hf]
  refine ⟨_, _, _, _, id_eq S.wf S.rigid S.sized S.valid S.ready hd rfl, id_eq S.wf' S.rigid' S.sized' S.valid' S.ready' hd' rfl, ?_, ?_⟩
  · rw [hb, ef, ← hg, S.wrenchAt h]
  · intro i j hj hs
    have hi : i < mb.bodies.length := by rw [← S.wf.njoints]; exact (List.getElem?_eq_some_iff.1 hj).1
    have hi' : i < mb'.bodies.length := by rw [hb]; exact hi
    rw [range_map_getElem? hi, range_map_getElem? hi', ef, ← hg, S.wrenchAt h]
    unfold MultiBody.project
    rw [(S.SAt hj hs).1]

theorem FixedState.equation (S : FixedState sel mb mb' c c') (hf : c.force = c'.force) (hg : c.gravity = c'.gravity) {fd fd' : FD K}
    (hd : fd.Fits mb) (hd' : fd'.Fits mb') :
    ∃ a b a' b', fd.computeH mb c = .ok a ∧ a.computeC mb c = .ok b ∧ fd'.computeH mb' c' = .ok a' ∧ a'.computeC mb' c' = .ok b' ∧
      ∀ i j x, mb.joints[i]? = some j → ¬(0 < i ∧ sel j.name) → x < mb.dofAt i → b.C[mb.dofPosAt i + x]? = b'.C[mb'.dofPosAt i + x]? ∧
        ∀ k l y, mb.joints[k]? = some l → ¬(0 < k ∧ sel l.name) → y < mb.dofAt k →
          a.H.get (mb.dofPosAt i + x) (mb.dofPosAt k + y) = a'.H.get (mb'.dofPosAt i + x) (mb'.dofPosAt k + y) := by
  have hb := S.fixed.bodies
  have ef : c'.forceAt = c.forceAt := by funext i; unfold MBC.forceAt; rw [hf]
  obtain ⟨a, e1, H1, F1, -⟩ := computeH_eq S.wf S.rigid S.valid S.ready.toPosReady hd
  obtain ⟨a', e2, H2, F2, -⟩ := computeH_eq S.wf' S.rigid' S.valid' S.ready'.toPosReady hd'
  obtain ⟨b, e3, C1, -, -⟩ := computeC_eq S.wf S.rigid S.sized.force S.valid S.ready F1
  obtain ⟨b', e4, C2, -, -⟩ := computeC_eq S.wf' S.rigid' S.sized'.force S.valid' S.ready' F2
  refine ⟨a, b, a', b', e1, e3, e2, e4, fun i j x hj hs hx => ?_⟩
  have lt : ∀ {i : Nat} {j : Joint K}, mb.joints[i]? = some j → i < mb.bodies.length := fun h => by
    rw [← S.wf.njoints]; exact (List.getElem?_eq_some_iff.1 h).1
  have h0 : HeldBlocks sel mb [] [] := ⟨fun _ _ _ _ _ _ h => by simp at h, fun _ _ _ _ => rfl⟩
  obtain ⟨s1, s2⟩ := S.SAt hj hs
  refine ⟨?_, fun k l y hl ht hy => ?_⟩
  · rw [C1 i x (lt hj) hx, C2 i x (by rw [hb]; exact lt hj) (by rw [s2]; exact hx), s1, ef, ← hg, S.wrenchAt h0]
  · obtain ⟨t1, t2⟩ := S.SAt hl ht
    rw [(H1.2.2 i x k y (lt hj) (lt hl) hx hy).1 trivial,
      (H2.2.2 i x k y (by rw [hb]; exact lt hj) (by rw [hb]; exact lt hl) (by rw [s2]; exact hx) (by rw [t2]; exact hy)).1 trivial]
    unfold MultiBody.massAt MultiBody.colAt
    rw [hb, S.fixed.inertiaAt, S.fixed.par, S.relAt, s1, t1]

/-- The values `l'` of the robot with fixed joints, with zeros for the fixed joints. -/
noncomputable def heldBlocks (sel : String → Prop) (mb : MultiBody K) (l' : List (List K)) : List (List K) := by
  classical exact (List.range mb.joints.length).map fun i => match mb.joints[i]? with
    | some j => if 0 < i ∧ sel j.name then List.replicate j.dof 0 else (l'[i]?).getD []
    | none => []

theorem heldBlocks_get {l' : List (List K)} {i : Nat} {j : Joint K} (hj : mb.joints[i]? = some j) :
    (0 < i ∧ sel j.name → (heldBlocks sel mb l')[i]? = some (List.replicate j.dof 0)) ∧
      (¬(0 < i ∧ sel j.name) → (heldBlocks sel mb l')[i]? = some ((l'[i]?).getD [])) := by
  classical
  have e : (heldBlocks sel mb l')[i]? = some (if 0 < i ∧ sel j.name then List.replicate j.dof 0 else (l'[i]?).getD []) := by
    unfold heldBlocks
    rw [range_map_getElem? (List.getElem?_eq_some_iff.1 hj).1]
    simp only [hj]
  constructor <;> intro h
  · rw [e, if_pos h]
  · rw [e, if_neg h]

theorem FixedState.heldBlocks (S : FixedState sel mb mb' c c') {l' : List (List K)} (hl : SizedDof mb' l') :
    SizedDof mb (RBDyn.heldBlocks sel mb l') ∧ HeldBlocks sel mb (RBDyn.heldBlocks sel mb l') l' := by
  have len : l'.length = mb.joints.length := by
    have := congrArg List.length hl
    rw [← S.fixed.njoints]
    simpa using this
  have get : ∀ (i : Nat) (j : Joint K), mb.joints[i]? = some j → ¬(0 < i ∧ sel j.name) →
      (RBDyn.heldBlocks sel mb l')[i]? = l'[i]? ∧ ∃ x, l'[i]? = some x ∧ x.length = j.dof := by
    intro i j hj hs
    obtain ⟨x, hx⟩ : ∃ x, l'[i]? = some x := ⟨_, List.getElem?_eq_getElem (by rw [len]; exact (List.getElem?_eq_some_iff.1 hj).1)⟩
    refine ⟨by rw [(heldBlocks_get hj).2 hs, hx]; rfl, x, hx, ?_⟩
    have hj' : mb'.joints[i]? = some j := by
      by_cases h0 : i = 0
      · subst h0
        rw [S.fixed.root, hj]
      · exact S.fixed.other i j (by omega) hj fun h => hs ⟨by omega, h⟩
    have := congrArg (·[i]?) hl
    simpa [List.getElem?_map, hx, hj'] using this
  refine ⟨?_, fun i j x h0 hj hs hx => ?_, fun i j hj hs => (get i j hj hs).1⟩
  · refine List.ext_getElem? fun i => ?_
    rw [List.getElem?_map, List.getElem?_map]
    rcases hj : mb.joints[i]? with _ | j
    · rw [List.getElem?_eq_none]
      · rfl
      · unfold RBDyn.heldBlocks
        simpa using hj
    · by_cases hs : 0 < i ∧ sel j.name
      · rw [(heldBlocks_get hj).1 hs]
        simp
      · obtain ⟨e, x, hx, hl⟩ := get i j hj hs
        rw [e, hx]
        simp [hl]
  · rw [(heldBlocks_get hj).1 ⟨h0, hs⟩] at hx
    cases hx
    exact fun y hy => List.eq_of_mem_replicate hy

theorem FixedState.forward (S : FixedState sel mb mb' c c') (hf : c.force = c'.force) (hg : c.gravity = c'.gravity)
    {solve : DMat K → List K → List K} {fd' : FD K} (hfd' : fd'.Fits mb')
    (hs' : ∀ fd₁, fd'.computeH mb' c' = .ok fd₁ → ExactSolve solve fd₁.H) {d : ID K} (hd : d.f.length = mb.nrBodies) :
    ∃ fd₁' k' αD d₁ k, fd'.forwardDynamics solve mb' c' = .ok (fd₁', k') ∧ d.inverseDynamics mb { c with alphaD := αD } = .ok (d₁, k) ∧
      HeldBlocks sel mb αD k'.alphaD ∧
      (∀ (i : Nat) (j : Joint K), mb.joints[i]? = some j → ¬(0 < i ∧ sel j.name) → k.jointTorque[i]? = c'.jointTorque[i]?) ∧
      ∀ fd : FD K, fd.Fits mb → (∀ fd₁, fd.computeH mb c = .ok fd₁ → ExactSolve solve fd₁.H) →
        (∀ b ∈ mb.bodies, ∀ v : MotionVec K, v ≠ 0 → 0 < v.dot (b.inertia.mulMotion v)) → (∀ j ∈ mb.joints, ∀ c ∈ j.S, c ≠ 0) →
        ∃ fd₁ m, fd.forwardDynamics solve mb k = .ok (fd₁, m) ∧ m.alphaD = αD := by
  obtain ⟨d', hd'⟩ : ∃ e : ID K, e.f.length = mb'.nrBodies := ⟨⟨List.replicate mb'.nrBodies 0⟩, by simp⟩
  obtain ⟨fd₁', k', d₁', l', F1, ek, -, sk, I1, T1⟩ := C27_forward_then_inverse S.wf' S.rigid' S.sized' S.valid' S.ready' hd' hfd' hs'
  obtain ⟨β, rfl⟩ : ∃ β, k' = { c' with alphaD := β } := ⟨k'.alphaD, by conv_rhs => rw [← ek]⟩
  obtain ⟨hsz, hb⟩ := S.heldBlocks (l' := β) sk.alphaD
  generalize RBDyn.heldBlocks sel mb β = αD at hsz hb
  have p : SamePosVel { c with alphaD := αD } c := rfl
  have p' : SamePosVel { c' with alphaD := β } c' := rfl
  have v1 := (p.ready S.ready S.valid).1
  have v2 := (p'.ready S.ready' S.valid').1
  have sz : MBC.Sized mb { c with alphaD := αD } := { S.sized with alphaD := hsz }
  have S' : FixedState sel mb mb' { c with alphaD := αD } { c' with alphaD := β } :=
    ⟨⟨sz, sk, S.valid, S.neutral, S.free, S.vel, v1, v2⟩, S.fixed, S.wf, S.wf', S.rigid⟩
  obtain ⟨d₁, d₂, k, k₂, J1, J2, -, t1⟩ := S'.torques hb hf hg hd hd'
  rw [I1] at J2
  cases J2
  rw [T1] at t1
  refine ⟨fd₁', _, αD, d₁, k, F1, J1, hb, t1, ?_⟩
  intro fd hfd hs hI hS
  obtain ⟨d3, m, fd₁, m', q1, q2, q3⟩ := C27_inverse_then_forward_physical S.wf S.rigid sz S.valid v1 hd hfd hI hS
    (solve := solve) (fun fd₁ e1 => hs fd₁ (by rw [← computeH_congr p, e1]))
  rw [J1] at q1
  cases q1
  exact ⟨fd₁, m', q2, q3⟩

end

section
variable {h h' : Heap K} {g g' : Graph} {names : List String} {all : Bool} {mb mb' : MultiBody K} {c c' : MBC K}

/-- C78: the poses and velocities of all bodies are the same, the accelerations if the fixed joints have none, and so are the centre of mass
and the momentum. -/
theorem C78_fixed_motion (C : FixCall h g names all h' g' mb mb') (S : NeutralState (FixedNames names all) mb mb' c c') :
    c'.bodyPosW = c.bodyPosW ∧ c'.bodyVelB = c.bodyVelB ∧ c'.bodyVelW = c.bodyVelW ∧
      (HeldBlocks (FixedNames names all) mb c.alphaD c'.alphaD → ∀ a0, ∃ l l', forwardAcceleration mb c a0 = .ok l ∧
        forwardAcceleration mb' c' a0 = .ok l' ∧ l'.bodyAccB = l.bodyAccB) ∧
      computeCoM mb' c' = computeCoM mb c ∧ ∀ com, computeCentroidalMomentum mb' c' com = computeCentroidalMomentum mb c com :=
  (C.state S).motion

/-- C78: inverse dynamics finds the same torques of the joints not fixed, when the fixed joints have no acceleration. The root joint, number 0,
is not fixed. -/
theorem C78_fixed_torques (C : FixCall h g names all h' g' mb mb') (S : NeutralState (FixedNames names all) mb mb' c c')
    (ha : HeldBlocks (FixedNames names all) mb c.alphaD c'.alphaD) (hf : c.force = c'.force)
    (hg : c.gravity = c'.gravity) {d d' : ID K} (hd : d.f.length = mb.nrBodies) (hd' : d'.f.length = mb'.nrBodies) :
    ∃ d₁ d₁' k k', d.inverseDynamics mb c = .ok (d₁, k) ∧ d'.inverseDynamics mb' c' = .ok (d₁', k') ∧ d₁' = d₁ ∧
      ∀ (i : Nat) (j : Joint K), mb.joints[i]? = some j → ¬(0 < i ∧ FixedNames names all j.name) → k.jointTorque[i]? = k'.jointTorque[i]? :=
  (C.state S).torques ha hf hg hd hd'

/-- C78: the mass matrix and the nonlinear terms of the robot with fixed joints are those of the robot before, without the rows and columns
of the fixed joints, which are none in the robot with fixed joints. -/
theorem C78_fixed_equation (C : FixCall h g names all h' g' mb mb') (S : NeutralState (FixedNames names all) mb mb' c c')
    (hf : c.force = c'.force) (hg : c.gravity = c'.gravity) {fd fd' : FD K} (hd : fd.Fits mb) (hd' : fd'.Fits mb') :
    (∀ i j, 0 < i → mb.joints[i]? = some j → FixedNames names all j.name → mb'.dofAt i = 0) ∧
    ∃ a b a' b', fd.computeH mb c = .ok a ∧ a.computeC mb c = .ok b ∧ fd'.computeH mb' c' = .ok a' ∧ a'.computeC mb' c' = .ok b' ∧
      ∀ i j x, mb.joints[i]? = some j → ¬(0 < i ∧ FixedNames names all j.name) → x < mb.dofAt i →
        b.C[mb.dofPosAt i + x]? = b'.C[mb'.dofPosAt i + x]? ∧
        ∀ k l y, mb.joints[k]? = some l → ¬(0 < k ∧ FixedNames names all l.name) → y < mb.dofAt k →
          a.H.get (mb.dofPosAt i + x) (mb.dofPosAt k + y) = a'.H.get (mb'.dofPosAt i + x) (mb'.dofPosAt k + y) := by
  refine ⟨fun i j h0 hj hs => ?_, (C.state S).equation hf hg hd hd'⟩
  obtain ⟨j', h1, -, h2, -⟩ := (C.state S).fixed.fixed i j h0 hj hs
  unfold MultiBody.dofAt
  rw [h1]
  exact h2

/-- C78: forward dynamics of the robot with fixed joints is that of the robot before, held by torques. The accelerations that forward dynamics
finds for the robot with fixed joints, with none on the fixed joints, are those for which inverse dynamics of the robot before finds the torques
given to the robot with fixed joints; given these, and the torques found on the fixed joints, forward dynamics of the robot before finds these
accelerations. The linear systems must be solved exactly; for the last part the inertias must be positive definite and no joint may have a zero
axis. -/
theorem C78_fixed_forward_dynamics (C : FixCall h g names all h' g' mb mb') (S : NeutralState (FixedNames names all) mb mb' c c')
    (hf : c.force = c'.force) (hg : c.gravity = c'.gravity) {solve : DMat K → List K → List K} {fd' : FD K} (hfd' : fd'.Fits mb')
    (hs' : ∀ fd₁, fd'.computeH mb' c' = .ok fd₁ → ExactSolve solve fd₁.H) {d : ID K} (hd : d.f.length = mb.nrBodies) :
    ∃ fd₁' k' αD d₁ k, fd'.forwardDynamics solve mb' c' = .ok (fd₁', k') ∧ d.inverseDynamics mb { c with alphaD := αD } = .ok (d₁, k) ∧
      HeldBlocks (FixedNames names all) mb αD k'.alphaD ∧
      (∀ (i : Nat) (j : Joint K), mb.joints[i]? = some j → ¬(0 < i ∧ FixedNames names all j.name) →
        k.jointTorque[i]? = c'.jointTorque[i]?) ∧
      ∀ fd : FD K, fd.Fits mb → (∀ fd₁, fd.computeH mb c = .ok fd₁ → ExactSolve solve fd₁.H) →
        (∀ b ∈ mb.bodies, ∀ v : MotionVec K, v ≠ 0 → 0 < v.dot (b.inertia.mulMotion v)) → (∀ j ∈ mb.joints, ∀ c ∈ j.S, c ≠ 0) →
        ∃ fd₁ m, fd.forwardDynamics solve mb k = .ok (fd₁, m) ∧ m.alphaD = αD :=
  (C.state S).forward hf hg hfd' hs' hd

end
namespace Sample

/-- The wrist, a spherical joint, is at its neutral position and still. -/
def holdN : MBC ℚ := { mbcN with alpha := [[], [2], [0, 0, 0], [-1]], alphaD := [[], [1], [0, 0, 0], [3]], gravity := ⟨0, 0, 10⟩ }
def holdF : MBC ℚ := { mbcF with alpha := [[], [2], [], [-1]], alphaD := [[], [1], [], [3]], gravity := ⟨0, 0, 10⟩ }

theorem validQ_of {mb : MultiBody ℚ} {q : List (List ℚ)} {ts : List JointType} (h : mb.joints.map (·.type) = ts)
    (hq : List.Forall₂ (fun t x => ValidParam t x) ts q) : ValidQ mb q := by
  unfold ValidQ
  rw [← h, List.forall₂_map_left_iff] at hq
  exact hq

theorem hold_state : ∃ h' g' c c', FixCall gs.1 gs.2 ["wrist"] false h' g' mbB mbF ∧ NeutralState (FixedNames ["wrist"] false) mbB mbF c c' ∧
    HeldBlocks (FixedNames ["wrist"] false) mbB c.alphaD c'.alphaD ∧ c.force = c'.force ∧ c.gravity = c'.gravity ∧ c.alpha = holdN.alpha := by
  have kn : ∀ s ∈ ["wrist"], ∃ p, gs.2.jointByName s = .ok p := by
    intro s hs
    obtain rfl := List.mem_singleton.1 hs
    exact ⟨1, by decide +kernel⟩
  obtain ⟨h', g', e, -, -, -, -, -, H⟩ := C20_fixJoints gs_tree gs_built ["wrist"] kn
  obtain ⟨mb, mb', h1, h2, w1, w2, F⟩ := H "base" 0 gs_base .Fixed ⟨0, 0, 1⟩ 1 gX
  obtain ⟨mb₂, _, _, _, _, e₂, -, G, -⟩ := root_rooting gs_tree gs_rigidGraph gs_base (show GoodRoot .Fixed (⟨0, 0, 1⟩ : Vec3 ℚ) 1 gX from
    ⟨trivial, IsRigid.one, gX_rigid⟩)
  rw [mbB_eq] at h1 e₂
  cases h1
  cases e₂
  have : mbF = mb' := by
    unfold mbF
    rw [e, Res.bind_ok]
    dsimp only
    rw [h2]
    rfl
  subst this
  have q1 : ValidQ mbB holdN.q := validQ_of (ts := [.Fixed, .Rev, .Spherical, .Prism]) (by decide +kernel)
    (.cons ⟨rfl, trivial⟩ (.cons ⟨rfl, trivial⟩ (.cons ⟨rfl, by show (1 : ℚ) * 1 + 0 * 0 + 0 * 0 + 0 * 0 = 1; norm_num⟩ (.cons ⟨rfl, trivial⟩ .nil))))
  have q2 : ValidQ mbF holdF.q := validQ_of (ts := [.Fixed, .Rev, .Fixed, .Prism]) (by decide +kernel)
    (.cons ⟨rfl, trivial⟩ (.cons ⟨rfl, trivial⟩ (.cons ⟨rfl, trivial⟩ (.cons ⟨rfl, trivial⟩ .nil))))
  have s1 : holdN.Sized mbB := { mbcN_sized with
    alpha := by show holdN.alpha.map List.length = mbB.joints.map (·.dof); decide +kernel
    alphaD := by show holdN.alphaD.map List.length = mbB.joints.map (·.dof); decide +kernel }
  have s2 : holdF.Sized mbF := { mbcF_sized with
    alpha := by show holdF.alpha.map List.length = mbF.joints.map (·.dof); decide +kernel
    alphaD := by show holdF.alphaD.map List.length = mbF.joints.map (·.dof); decide +kernel }
  obtain ⟨-, c, -, -, r1, z1, a1, a2, a3, a4, a5, -⟩ := C24_velReady w1 G.rigid s1 q1
  obtain ⟨-, c', -, -, r2, z2, b1, b2, b3, b4, b5, -⟩ := C24_velReady w2 (F.rigid w2 G.rigid) s2 q2
  have lt : ∀ {i : Nat} {j : Joint ℚ}, mbB.joints[i]? = some j → i ∈ [0, 1, 2, 3] := by
    intro i j hj
    have h1 : mbB.joints.length = 4 := by decide +kernel
    have := (List.getElem?_eq_some_iff.1 hj).1
    simp; omega
  have nm : ∀ {s : String}, FixedNames ["wrist"] false s → s ∈ ["wrist"] := fun h => h.resolve_left (by decide)
  have held : ∀ l l' : List (List ℚ), (∀ i ∈ [0, 1, 2, 3], ∀ j ∈ mbB.joints[i]?, ∀ x ∈ l[i]?, 0 < i → j.name ∈ ["wrist"] → ∀ y ∈ x, y = 0) →
      (∀ i ∈ [0, 1, 2, 3], ∀ j ∈ mbB.joints[i]?, ¬(0 < i ∧ j.name ∈ ["wrist"]) → l[i]? = l'[i]?) → HeldBlocks (FixedNames ["wrist"] false) mbB l l' :=
    fun l l' k1 k2 => ⟨fun i j x h0 hj hs hx => k1 i (lt hj) j hj x hx h0 (nm hs), fun i j hj hs => k2 i (lt hj) j hj fun h => hs ⟨h.1, .inr h.2⟩⟩
  refine ⟨h', g', c, c', ⟨gs_tree, gs_rigidGraph, kn, e, "base", 0, .Fixed, ⟨0, 0, 1⟩, 1, gX, gs_base, ⟨trivial, IsRigid.one, gX_rigid⟩, mbB_eq, h2⟩,
    ⟨z1, z2, by rw [a1]; exact q1, ?_, ?_, ?_, r1, r2⟩, ?_, ?_, ?_, a2⟩
  · intro i j x h0 hj hs hx
    have key : ∀ i ∈ [0, 1, 2, 3], ∀ j ∈ mbB.joints[i]?, ∀ x ∈ holdN.q[i]?, 0 < i → j.name ∈ ["wrist"] → j.isMimic = false ∧ x = j.zeroParam := by
      decide +kernel
    rw [a1] at hx
    exact key i (lt hj) j hj x hx h0 (nm hs)
  · intro i j hj hs
    have key : ∀ i ∈ [0, 1, 2, 3], ∀ j ∈ mbB.joints[i]?, ¬(0 < i ∧ j.name ∈ ["wrist"]) → holdN.q[i]? = holdF.q[i]? := by decide +kernel
    rw [a1, b1]
    exact key i (lt hj) j hj fun h => hs ⟨h.1, .inr h.2⟩
  · rw [a2, b2]
    exact held _ _ (by decide +kernel) (by decide +kernel)
  · rw [a3, b3]
    exact held _ _ (by decide +kernel) (by decide +kernel)
  · rw [a4, b4]
    decide +kernel
  · rw [a5, b5]
    rfl

/-- The hypotheses hold with joints that move. -/
example : ∃ c c' d₁ d₁' k k', c.alpha = [[], [2], [0, 0, 0], [-1]] ∧ c'.bodyVelB = c.bodyVelB ∧
    (ID.mk (List.replicate 4 0)).inverseDynamics mbB c = .ok (d₁, k) ∧ (ID.mk (List.replicate 4 0)).inverseDynamics mbF c' = .ok (d₁', k') ∧
    k.jointTorque[3]? = k'.jointTorque[3]? := by
  obtain ⟨h', g', c, c', C, S, h, hf, hg, ha⟩ := hold_state
  obtain ⟨d₁, d₁', k, k', e1, e2, -, e3⟩ := C78_fixed_torques C S h hf hg (d := ⟨List.replicate 4 0⟩) (d' := ⟨List.replicate 4 0⟩)
    (by decide +kernel) (by decide +kernel)
  have key : ∃ j, mbB.joints[3]? = some j ∧ ¬(0 < 3 ∧ j.name ∈ ["wrist"]) := by decide +kernel
  obtain ⟨j, hj, hs⟩ := key
  replace hs : ¬(0 < 3 ∧ FixedNames ["wrist"] false j.name) := fun h => hs ⟨h.1, h.2.resolve_left (by decide)⟩
  exact ⟨c, c', d₁, d₁', k, k', ha, (C78_fixed_motion C S).2.1, e1, e2, e3 3 j hj hs⟩

example : ∃ (c c' : MBC ℚ) (fd fd' a a' : FD ℚ), fd.computeH mbB c = .ok a ∧ fd'.computeH mbF c' = .ok a' ∧ a.H.get 4 0 = a'.H.get 1 0 := by
  obtain ⟨h', g', c, c', C, S, h, hf, hg, ha⟩ := hold_state
  obtain ⟨fd, -, f1⟩ := C27_constructor (C.state S).wf (⟨⟨0, 0, fun _ _ => 0⟩, [], [], [], [], [], [], []⟩ : FD ℚ)
  obtain ⟨fd', -, f2⟩ := C27_constructor (C.state S).wf' (⟨⟨0, 0, fun _ _ => 0⟩, [], [], [], [], [], [], []⟩ : FD ℚ)
  obtain ⟨-, a, b, a', b', e1, -, e2, -, e3⟩ := C78_fixed_equation C S hf hg f1 f2
  have key : ∃ j, mbB.joints[3]? = some j ∧ ¬(0 < 3 ∧ j.name ∈ ["wrist"]) := by decide +kernel
  obtain ⟨j, hj, hs⟩ := key
  replace hs : ¬(0 < 3 ∧ FixedNames ["wrist"] false j.name) := fun h => hs ⟨h.1, h.2.resolve_left (by decide)⟩
  have key : ∃ j, mbB.joints[1]? = some j ∧ ¬(0 < 1 ∧ j.name ∈ ["wrist"]) := by decide +kernel
  obtain ⟨l, hl, ht⟩ := key
  replace ht : ¬(0 < 1 ∧ FixedNames ["wrist"] false l.name) := fun h => ht ⟨h.1, h.2.resolve_left (by decide)⟩
  have := (e3 3 j 0 hj hs (by decide +kernel)).2 1 l 0 hl ht (by decide +kernel)
  rw [show mbB.dofPosAt 3 = 4 by decide +kernel, show mbB.dofPosAt 1 = 0 by decide +kernel, show mbF.dofPosAt 3 = 1 by decide +kernel,
    show mbF.dofPosAt 1 = 0 by decide +kernel] at this
  exact ⟨c, c', fd, fd', a, a', e1, e2, this⟩

theorem mbB_pos : ∀ b ∈ mbB.bodies, ∀ v : MotionVec ℚ, v ≠ 0 → 0 < v.dot (b.inertia.mulMotion v) := by
  have hb : mbB.bodies = [⟨⟨4, ⟨-8, 3, -10⟩, ⟨32, 6, 45, -20, 7, 25⟩⟩, "base"⟩, ⟨⟨2, ⟨0, 1, 0⟩, ⟨3, 0, 3, 0, 0, 3⟩⟩, "arm"⟩,
      ⟨⟨1, ⟨-2, 1, -2⟩, ⟨6, 2, 9, -4, 2, 7⟩⟩, "hand"⟩, ⟨⟨3, ⟨1, 0, -4⟩, ⟨9, 0, 9, 0, 0, 4⟩⟩, "slider"⟩] := by decide +kernel
  rw [hb]
  intro b hb
  have key : ∀ w : Vec3 ℚ, w ≠ 0 → 0 < w.x ^ 2 + w.y ^ 2 + w.z ^ 2 := by
    intro w hw
    by_contra hcon
    push Not at hcon
    apply hw
    ext
    · simp only [Vec3.zero_x]; nlinarith [sq_nonneg w.x, sq_nonneg w.y, sq_nonneg w.z]
    · simp only [Vec3.zero_y]; nlinarith [sq_nonneg w.x, sq_nonneg w.y, sq_nonneg w.z]
    · simp only [Vec3.zero_z]; nlinarith [sq_nonneg w.x, sq_nonneg w.y, sq_nonneg w.z]
  simp only [List.mem_cons, List.not_mem_nil, or_false] at hb
  rcases hb with rfl | rfl | rfl | rfl <;> refine RBInertia.pos_of (by norm_num) fun w hw => ?_ <;> have := key w hw <;>
    simp [Vec3.dot, Vec3.cross, Sym3.toMat] <;>
    nlinarith [sq_nonneg w.x, sq_nonneg w.y, sq_nonneg w.z, sq_nonneg (w.x + w.y), sq_nonneg (w.x - w.y), sq_nonneg (w.x + w.z),
      sq_nonneg (w.x - w.z), sq_nonneg (w.y + w.z), sq_nonneg (w.y - w.z)]

/-- Forward dynamics of the robot with the wrist fixed and of the robot before, with exact solvers. -/
example : ∃ (c c' k k' : MBC ℚ) (fd' fd₁' : FD ℚ) (d d₁ : ID ℚ) (αD : List (List ℚ)) (solve : DMat ℚ → List ℚ → List ℚ),
    fd'.forwardDynamics solve mbF c' = .ok (fd₁', k') ∧ d.inverseDynamics mbB { c with alphaD := αD } = .ok (d₁, k) ∧
    αD[3]? = k'.alphaD[3]? ∧ k.jointTorque[3]? = c'.jointTorque[3]? ∧
    ∃ fd fd₁ m, FD.forwardDynamics solve fd mbB k = .ok (fd₁, m) ∧ m.alphaD = αD := by
  obtain ⟨h', g', c, c', C, S, h, hf, hg, ha⟩ := hold_state
  have F := C.state S
  obtain ⟨fd, -, f1⟩ := C27_constructor F.wf (⟨⟨0, 0, fun _ _ => 0⟩, [], [], [], [], [], [], []⟩ : FD ℚ)
  obtain ⟨fd', -, f2⟩ := C27_constructor F.wf' (⟨⟨0, 0, fun _ _ => 0⟩, [], [], [], [], [], [], []⟩ : FD ℚ)
  have hS : ∀ j ∈ mbB.joints, ∀ c ∈ j.S, c ≠ 0 := by decide +kernel
  obtain ⟨s₁, h₁⟩ := ExactSolve.exists_physical F.wf F.rigid F.valid F.ready.toPosReady f1 mbB_pos hS
  obtain ⟨s₂, h₂⟩ := ExactSolve.exists_physical F.wf' F.rigid' F.valid' F.ready'.toPosReady f2
    (by rw [F.fixed.bodies]; exact mbB_pos) (by decide +kernel)
  obtain ⟨a, q1, H1, -⟩ := computeH_eq F.wf F.rigid F.valid F.ready.toPosReady f1
  obtain ⟨a', q2, H2, -⟩ := computeH_eq F.wf' F.rigid' F.valid' F.ready'.toPosReady f2
  have hne : mbB.nrDof ≠ mbF.nrDof := by decide +kernel
  obtain ⟨solve, hs⟩ : ∃ solve : DMat ℚ → List ℚ → List ℚ, solve = fun A => if A.rows = mbB.nrDof then s₁ A else s₂ A := ⟨_, rfl⟩
  have k1 : ∀ fd₁, fd.computeH mbB c = .ok fd₁ → ExactSolve solve fd₁.H := by
    intro fd₁ e
    have := h₁ fd₁ e
    rw [q1] at e
    cases e
    have hr : a.H.rows = mbB.nrDof := H1.1
    unfold ExactSolve at this ⊢
    rw [hs]
    simpa only [hr, if_true] using this
  have k2 : ∀ fd₁, fd'.computeH mbF c' = .ok fd₁ → ExactSolve solve fd₁.H := by
    intro fd₁ e
    have := h₂ fd₁ e
    rw [q2] at e
    cases e
    have hr : a'.H.rows = mbF.nrDof := H2.1
    unfold ExactSolve at this ⊢
    rw [hs]
    simpa only [hr, hne.symm, if_false] using this
  obtain ⟨fd₁', k', αD, d₁, k, e1, e2, e3, e4, e5⟩ := C78_fixed_forward_dynamics C S hf hg f2 k2 (d := ⟨List.replicate 4 0⟩) (by decide +kernel)
  obtain ⟨fd₁, m, e6, e7⟩ := e5 fd f1 k1 mbB_pos hS
  have key : ∃ j, mbB.joints[3]? = some j ∧ ¬(0 < 3 ∧ j.name ∈ ["wrist"]) := by decide +kernel
  obtain ⟨j, hj, hs⟩ := key
  replace hs : ¬(0 < 3 ∧ FixedNames ["wrist"] false j.name) := fun h => hs ⟨h.1, h.2.resolve_left (by decide)⟩
  exact ⟨c, c', k, k', fd', fd₁', _, d₁, αD, solve, e1, e2, e3.free 3 j hj hs, e4 3 j hj hs, fd, fd₁, m, e6, e7⟩

end Sample
end RBDyn
