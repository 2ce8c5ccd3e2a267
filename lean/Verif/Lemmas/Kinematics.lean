import Verif.Model.Kinematics
import Verif.Lemmas.Tree

/-! The kinematics loops compute the specified values. -/

namespace RBDyn
variable {K : Type} [Scalar K] {mb : MultiBody K}

theorem Joint.Built.pose_ok {j : Joint K} (h : j.Built) {q : List K} (hl : q.length = j.params) :
    ∃ X, j.pose q = .ok X := by
  obtain ⟨t, a, f, n, rfl | ⟨mn, m, o, rfl⟩⟩ := h.exists_mk
  all_goals
    have hl : q.length = Joint.nParams t := hl
    cases t
    case Rev => obtain ⟨a, rfl⟩ := List.length_eq_one_iff.1 hl; exact ⟨_, rfl⟩
    case Prism => obtain ⟨a, rfl⟩ := List.length_eq_one_iff.1 hl; exact ⟨_, rfl⟩
    case Spherical => match q, hl with | [_, _, _, _], _ => exact ⟨_, rfl⟩
    case Planar => match q, hl with | [_, _, _], _ => exact ⟨_, rfl⟩
    case Cylindrical => match q, hl with | [_, _], _ => exact ⟨_, rfl⟩
    case Free => match q, hl with | [_, _, _, _, _, _, _], _ => exact ⟨_, rfl⟩
    case Fixed => exact ⟨_, rfl⟩

theorem SizedQ.length {q : List (List K)} (h : SizedQ mb q) : q.length = mb.joints.length := by
  have := congrArg List.length h; simpa using this
theorem SizedDof.length {q : List (List K)} (h : SizedDof mb q) : q.length = mb.joints.length := by
  have := congrArg List.length h; simpa using this
theorem SizedQ.get {q : List (List K)} (h : SizedQ mb q) {i : Nat} {x : List K} {j : Joint K} (hx : q[i]? = some x)
    (hj : mb.joints[i]? = some j) : x.length = j.params := by
  have := congrArg (fun l => l[i]?) h
  simpa [hx, hj] using this
theorem SizedDof.get {q : List (List K)} (h : SizedDof mb q) {i : Nat} {x : List K} {j : Joint K} (hx : q[i]? = some x)
    (hj : mb.joints[i]? = some j) : x.length = j.dof := by
  have := congrArg (fun l => l[i]?) h
  simpa [hx, hj] using this

theorem MultiBody.WF.joint_get (wf : mb.WF) {i : Nat} (hi : i < mb.bodies.length) :
    ∃ j, mb.joints[i]? = some j ∧ j.Built := by
  have hi' : i < mb.joints.length := by rw [wf.njoints]; exact hi
  exact ⟨_, List.getElem?_eq_getElem hi', wf.built _ (List.getElem_mem hi')⟩

theorem MultiBody.WF.rd_pose (wf : mb.WF) {q : List (List K)} (hq : SizedQ mb q) {i : Nat} (hi : i < mb.bodies.length) :
    ∃ j x, rd mb.joints i = .ok j ∧ rd q i = .ok x ∧ j.pose x = .ok (mb.poseAt q i) ∧ j.S = mb.SAt i := by
  obtain ⟨j, hj, hb⟩ := wf.joint_get hi
  have hi' : i < q.length := by rw [hq.length, wf.njoints]; exact hi
  have hx := List.getElem?_eq_getElem hi'
  obtain ⟨X, hX⟩ := hb.pose_ok (hq.get hx hj)
  exact ⟨j, _, rd_of_getElem? hj, rd_of_getElem? hx, by simp [MultiBody.poseAt, hj, hx, hX, Except.toOption],
    by simp [MultiBody.SAt, hj]⟩

theorem MultiBody.WF.rd_motion (wf : mb.WF) {a : List (List K)} (ha : SizedDof mb a) {i : Nat} (hi : i < mb.bodies.length) :
    ∃ j x, rd mb.joints i = .ok j ∧ rd a i = .ok x ∧ j.motion x = .ok (mb.jointMotion a i) ∧
      j.tanAccel x = .ok (mb.jointMotion a i) := by
  obtain ⟨j, hj, hb⟩ := wf.joint_get hi
  have hi' : i < a.length := by rw [ha.length, wf.njoints]; exact hi
  have hx := List.getElem?_eq_getElem hi'
  have h := Joint.motion_eq_applyCols hb (ha.get hx hj)
  have e : mb.jointMotion a i = applyCols j.S a[i] := by simp [MultiBody.jointMotion, MultiBody.SAt, hj, hx]
  exact ⟨j, _, rd_of_getElem? hj, rd_of_getElem? hx, by rw [e, h], by rw [Joint.tanAccel_eq_motion, e, h]⟩

theorem MultiBody.WF.rd_Xt (wf : mb.WF) {i : Nat} (hi : i < mb.bodies.length) : rd mb.Xt i = .ok (mb.XtAt i) := by
  have hi' : i < mb.Xt.length := by rw [wf.nXt]; exact hi
  rw [rd_ok hi']; simp [MultiBody.XtAt, List.getElem?_eq_getElem hi']

/-- Reading the world pose of the parent (or taking the root value). -/
theorem MultiBody.WF.pos_cases (wf : mb.WF) (q : List (List K)) {i : Nat} (hi : i < mb.bodies.length) :
    ∃ p, rd mb.pred i = .ok p ∧ ((p = -1 ∧ mb.posAt q i = mb.ptsAt q i ∧ mb.par i = none) ∨ ∃ j : Nat, p = j ∧ j < i ∧
      mb.par i = some j ∧ mb.posAt q i = mb.ptsAt q i * mb.posAt q j) := by
  obtain ⟨p, hp, ⟨h1, h2⟩ | ⟨j, h1, h2, h3⟩⟩ := wf.pred_cases hi
  · exact ⟨p, hp, .inl ⟨h1, wf.posAt_none q h2, h2⟩⟩
  · exact ⟨p, hp, .inr ⟨j, h1, h3, h2, wf.posAt_some q h2⟩⟩

/-- What `forwardKinematics` returns. -/
def fkPost (mb : MultiBody K) (mbc : MBC K) : MBC K :=
  { mbc with
    jointConfig := (List.range mb.bodies.length).map (mb.poseAt mbc.q)
    parentToSon := (List.range mb.bodies.length).map (mb.ptsAt mbc.q)
    motionSubspace := (List.range mb.bodies.length).map mb.SAt
    bodyPosW := (List.range mb.bodies.length).map (mb.posAt mbc.q) }

theorem fk_eq (wf : mb.WF) {mbc : MBC K} (hq : SizedQ mb mbc.q) (h1 : mbc.jointConfig.length = mb.bodies.length)
    (h2 : mbc.parentToSon.length = mb.bodies.length) (h3 : mbc.motionSubspace.length = mb.bodies.length)
    (h4 : mbc.bodyPosW.length = mb.bodies.length) : forwardKinematics mb mbc = .ok (fkPost mb mbc) := by
  unfold forwardKinematics
  rw [wf.njoints]
  set n := mb.bodies.length with hn
  refine (foldlM_range_inv (fkStep mb) (fun k s =>
    Filled s.jointConfig (fun i => some (mb.poseAt mbc.q i)) k n ∧
    Filled s.parentToSon (fun i => some (mb.ptsAt mbc.q i)) k n ∧
    Filled s.motionSubspace (fun i => some (mb.SAt i)) k n ∧
    Filled s.bodyPosW (fun i => some (mb.posAt mbc.q i)) k n ∧
    s = { mbc with jointConfig := s.jointConfig, parentToSon := s.parentToSon, motionSubspace := s.motionSubspace,
                   bodyPosW := s.bodyPosW }) n mbc
    ⟨.zero h1, .zero h2, .zero h3, .zero h4, rfl⟩ ?_).elim ?_
  · rintro i s hi ⟨f1, f2, f3, f4, hs⟩
    obtain ⟨j, x, hj, hx, hpose, hS⟩ := wf.rd_pose hq hi
    have hxs : rd s.q i = .ok x := by rw [hs]; exact hx
    have hXt := wf.rd_Xt hi
    have b1 : i < s.jointConfig.length := by rw [f1.1]; exact hi
    have b2 : i < s.parentToSon.length := by rw [f2.1]; exact hi
    have b3 : i < s.motionSubspace.length := by rw [f3.1]; exact hi
    have b4 : i < s.bodyPosW.length := by rw [f4.1]; exact hi
    obtain ⟨p, hp, ⟨rfl, hpos, -⟩ | ⟨k, rfl, hk, -, hpos⟩⟩ := wf.pos_cases mbc.q hi
    · have e : mb.poseAt mbc.q i * mb.XtAt i = mb.posAt mbc.q i := hpos.symm
      simp only [fkStep, hp, hj, hxs, hpose, hXt, wf.rd_succ hi, wr_ok b1, wr_ok b2, wr_ok b3, Res.bind_ok, e, hS,
        ne_eq, not_true_eq_false, if_false, wrI_ofNat, wr_ok b4, Res.pure_eq, Except.ok.injEq, exists_eq_left']
      refine ⟨f1.set hi rfl, f2.set hi ?_, f3.set hi rfl, f4.set hi rfl, by rw [hs]⟩
      exact congrArg some hpos.symm
    · have e : mb.poseAt mbc.q i * mb.XtAt i = mb.ptsAt mbc.q i := rfl
      have hne : ((k : Int) ≠ -1) := by omega
      simp only [fkStep, hp, hj, hxs, hpose, hXt, wf.rd_succ hi, wr_ok b1, wr_ok b2, wr_ok b3, Res.bind_ok, e, hS,
        hne, if_true, ne_eq, not_false_eq_true, wrI_ofNat, rdI_ofNat, f4.rd hk, wr_ok b4, Res.pure_eq, ← hpos, Except.ok.injEq,
        exists_eq_left']
      refine ⟨f1.set hi rfl, f2.set hi rfl, f3.set hi rfl, f4.set hi rfl, by rw [hs]⟩
  · rintro s ⟨hs, f1, f2, f3, f4, e⟩
    rw [hs]
    unfold fkPost
    rw [← hn, ← f1.range_map, ← f2.range_map, ← f3.range_map, ← f4.range_map, ← e]

/-- Recursive form of the velocity of a body for given parent-to-son transforms and joint velocities. -/
def velRec (par : Nat → Option Nat) (X : Nat → PTransform K) (vj : Nat → MotionVec K) (i : Nat) : MotionVec K :=
  treeRec par vj (fun i v => (X i).mulMotion v + vj i) i

/-- What `forwardVelocity` returns on a configuration with given parent-to-son transforms and world poses. -/
def fvPost (mb : MultiBody K) (mbc : MBC K) (X W : Nat → PTransform K) : MBC K :=
  { mbc with
    jointVelocity := (List.range mb.bodies.length).map (mb.jointMotion mbc.alpha)
    bodyVelB := (List.range mb.bodies.length).map (velRec mb.par X (mb.jointMotion mbc.alpha))
    bodyVelW := (List.range mb.bodies.length).map (fun i =>
      (PTransform.ofRot (W i).E).invMul (velRec mb.par X (mb.jointMotion mbc.alpha) i)) }

theorem fv_eq (wf : mb.WF) {mbc : MBC K} (ha : SizedDof mb mbc.alpha) {X W : Nat → PTransform K}
    (hX : Filled mbc.parentToSon (fun i => some (X i)) mb.bodies.length mb.bodies.length)
    (hW : Filled mbc.bodyPosW (fun i => some (W i)) mb.bodies.length mb.bodies.length)
    (h1 : mbc.jointVelocity.length = mb.bodies.length) (h2 : mbc.bodyVelB.length = mb.bodies.length)
    (h3 : mbc.bodyVelW.length = mb.bodies.length) : forwardVelocity mb mbc = .ok (fvPost mb mbc X W) := by
  unfold forwardVelocity
  rw [wf.njoints]
  set n := mb.bodies.length with hn
  set vj := mb.jointMotion mbc.alpha with hvj
  refine (foldlM_range_inv (fvStep mb) (fun k s =>
    Filled s.jointVelocity (fun i => some (vj i)) k n ∧
    Filled s.bodyVelB (fun i => some (velRec mb.par X vj i)) k n ∧
    Filled s.bodyVelW (fun i => some ((PTransform.ofRot (W i).E).invMul (velRec mb.par X vj i))) k n ∧
    s = { mbc with jointVelocity := s.jointVelocity, bodyVelB := s.bodyVelB, bodyVelW := s.bodyVelW }) n mbc
    ⟨.zero h1, .zero h2, .zero h3, rfl⟩ ?_).elim ?_
  · rintro i s hi ⟨f1, f2, f3, hs⟩
    obtain ⟨j, x, hj, hx, hm, -⟩ := wf.rd_motion ha hi
    have hxs : rd s.alpha i = .ok x := by rw [hs]; exact hx
    have hXs : rd s.parentToSon i = .ok (X i) := by rw [hs]; exact hX.rd hi
    have hWs : rd s.bodyPosW i = .ok (W i) := by rw [hs]; exact hW.rd hi
    have b1 : i < s.jointVelocity.length := by rw [f1.1]; exact hi
    have b2 : i < s.bodyVelB.length := by rw [f2.1]; exact hi
    have b3 : i < s.bodyVelW.length := by rw [f3.1]; exact hi
    have r2 : ∀ v, rd (s.bodyVelB.set i v) i = .ok v := fun v => rd_of_getElem? (by simp [b2])
    obtain ⟨p, hp, ⟨rfl, hpar⟩ | ⟨k, rfl, hpar, hk⟩⟩ := wf.pred_cases hi
    · have e : velRec mb.par X vj i = vj i := treeRec_none hpar
      simp only [fvStep, hp, hj, hxs, hm, hXs, wf.rd_succ hi, wr_ok b1, Res.bind_ok, ne_eq, not_true_eq_false, if_false,
        wrI_ofNat, rdI_ofNat, wr_ok b2, hWs, r2, wr_ok b3, Res.pure_eq, Except.ok.injEq, exists_eq_left']
      refine ⟨f1.set hi rfl, f2.set hi (congrArg some e), f3.set hi (by rw [e]), by rw [hs]⟩
    · have e : velRec mb.par X vj i = (X i).mulMotion (velRec mb.par X vj k) + vj i := treeRec_some hpar hk
      have hne : ((k : Int) ≠ -1) := by omega
      simp only [fvStep, hp, hj, hxs, hm, hXs, wf.rd_succ hi, wr_ok b1, Res.bind_ok, ne_eq, hne, not_false_eq_true, if_true,
        wrI_ofNat, rdI_ofNat, f2.rd hk, wr_ok b2, hWs, r2, wr_ok b3, Res.pure_eq, Except.ok.injEq, exists_eq_left', ← hvj,
        ← e]
      refine ⟨f1.set hi rfl, f2.set hi rfl, f3.set hi rfl, by rw [hs]⟩
  · rintro s ⟨hs, f1, f2, f3, e⟩
    rw [hs]
    unfold fvPost
    rw [← hn, ← hvj, ← f1.range_map, ← f2.range_map, ← f3.range_map, ← e]

/-- Recursive form of the acceleration of a body. -/
def accRec (par : Nat → Option Nat) (X : Nat → PTransform K) (a0 : MotionVec K) (c : Nat → MotionVec K) (i : Nat) :
    MotionVec K :=
  treeRec par (fun i => (X i).mulMotion a0 + c i) (fun i a => (X i).mulMotion a + c i) i

/-- What `forwardAcceleration` returns. -/
def faPost (mb : MultiBody K) (mbc : MBC K) (a0 : MotionVec K) (X : Nat → PTransform K) (v vj : Nat → MotionVec K) : MBC K :=
  { mbc with
    bodyAccB := (List.range mb.bodies.length).map
      (accRec mb.par X a0 (fun i => mb.jointMotion mbc.alphaD i + (v i).cross (vj i))) }

theorem fa_eq (wf : mb.WF) {mbc : MBC K} (a0 : MotionVec K) (ha : SizedDof mb mbc.alphaD) {X : Nat → PTransform K}
    {v vj : Nat → MotionVec K}
    (hX : Filled mbc.parentToSon (fun i => some (X i)) mb.bodies.length mb.bodies.length)
    (hv : Filled mbc.bodyVelB (fun i => some (v i)) mb.bodies.length mb.bodies.length)
    (hvj : Filled mbc.jointVelocity (fun i => some (vj i)) mb.bodies.length mb.bodies.length)
    (h1 : mbc.bodyAccB.length = mb.bodies.length) : forwardAcceleration mb mbc a0 = .ok (faPost mb mbc a0 X v vj) := by
  unfold forwardAcceleration
  rw [wf.njoints]
  set n := mb.bodies.length with hn
  set c := (fun i => mb.jointMotion mbc.alphaD i + (v i).cross (vj i)) with hc
  refine (foldlM_range_inv (faStep mb a0) (fun k s =>
    Filled s.bodyAccB (fun i => some (accRec mb.par X a0 c i)) k n ∧ s = { mbc with bodyAccB := s.bodyAccB }) n mbc
    ⟨.zero h1, rfl⟩ ?_).elim ?_
  · rintro i s hi ⟨f1, hs⟩
    obtain ⟨j, x, hj, hx, -, hm⟩ := wf.rd_motion ha hi
    have hxs : rd s.alphaD i = .ok x := by rw [hs]; exact hx
    have hXs : rd s.parentToSon i = .ok (X i) := by rw [hs]; exact hX.rd hi
    have hvs : rd s.bodyVelB i = .ok (v i) := by rw [hs]; exact hv.rd hi
    have hvjs : rd s.jointVelocity i = .ok (vj i) := by rw [hs]; exact hvj.rd hi
    have b1 : i < s.bodyAccB.length := by rw [f1.1]; exact hi
    obtain ⟨p, hp, ⟨rfl, hpar⟩ | ⟨k, rfl, hpar, hk⟩⟩ := wf.pred_cases hi
    · have e : accRec mb.par X a0 c i = (X i).mulMotion a0 + mb.jointMotion mbc.alphaD i + (v i).cross (vj i) := by
        rw [add_assoc]; exact treeRec_none hpar
      simp only [faStep, hp, hj, hxs, hm, hXs, hvs, hvjs, wf.rd_succ hi, Res.bind_ok, ne_eq, not_true_eq_false, if_false,
        wrI_ofNat, wr_ok b1, Res.pure_eq, Except.ok.injEq, exists_eq_left', ← e]
      exact ⟨f1.set hi rfl, by rw [hs]⟩
    · have e : accRec mb.par X a0 c i = (X i).mulMotion (accRec mb.par X a0 c k) + mb.jointMotion mbc.alphaD i +
          (v i).cross (vj i) := by
        rw [add_assoc]; exact treeRec_some hpar hk
      have hne : ((k : Int) ≠ -1) := by omega
      simp only [faStep, hp, hj, hxs, hm, hXs, hvs, hvjs, wf.rd_succ hi, Res.bind_ok, ne_eq, hne, not_false_eq_true, if_true,
        wrI_ofNat, rdI_ofNat, f1.rd hk, wr_ok b1, Res.pure_eq, Except.ok.injEq, exists_eq_left', ← e]
      exact ⟨f1.set hi rfl, by rw [hs]⟩
  · rintro s ⟨hs, f1, e⟩
    rw [hs]
    unfold faPost
    rw [← hn, ← hc, ← f1.range_map, ← e]

/-! ### Closed forms -/

theorem MultiBody.poseAt_rigid (hr : mb.Rigid) {q : List (List K)} (hq : ValidQ mb q) (i : Nat) : IsRigid (mb.poseAt q i) := by
  unfold MultiBody.poseAt
  split
  · rename_i j x hj hx
    obtain ⟨hi, rfl⟩ := List.getElem?_eq_some_iff.1 hj
    obtain ⟨hi', rfl⟩ := List.getElem?_eq_some_iff.1 hx
    have hv : ValidParam (Joint.type mb.joints[i]) q[i] := hq.get hi hi'
    obtain ⟨t, a, f, n, ha, h⟩ := (hr.joints _ (List.getElem_mem hi)).exists_mk
    have : ∃ X, (Joint.mk' t a f n).pose q[i] = .ok X ∧ IsRigid X := by
      apply Joint.pose_mk'_rigid ha
      rcases h with h | ⟨mn, m, o, h⟩ <;> (rw [h] at hv; exact hv)
    obtain ⟨X, hX, hXr⟩ := this
    have : mb.joints[i].pose q[i] = .ok X := by
      rcases h with h | ⟨mn, m, o, h⟩ <;> (rw [h]; exact hX)
    rw [this]; exact hXr
  · exact IsRigid.one

theorem MultiBody.ptsAt_rigid (hr : mb.Rigid) {q : List (List K)} (hq : ValidQ mb q) (i : Nat) : IsRigid (mb.ptsAt q i) := by
  refine (mb.poseAt_rigid hr hq i).mul ?_
  unfold MultiBody.XtAt
  cases h : mb.Xt[i]? with
  | none => exact IsRigid.one
  | some X => exact hr.Xt _ (List.mem_of_getElem? h)

theorem isRigid_prod {l : List (PTransform K)} (h : ∀ X ∈ l, IsRigid X) : IsRigid l.prod := by
  induction l with
  | nil => exact IsRigid.one
  | cons X l ih => rw [List.prod_cons]; exact (h X (by simp)).mul (ih fun Y hY => h Y (by simp [hY]))

theorem MultiBody.posAt_rigid (hr : mb.Rigid) {q : List (List K)} (hq : ValidQ mb q) (i : Nat) : IsRigid (mb.posAt q i) := by
  apply isRigid_prod
  intro X hX
  obtain ⟨k, -, rfl⟩ := List.mem_map.1 hX
  exact mb.ptsAt_rigid hr hq k

/-- Closed form of the recursive acceleration. -/
theorem accRec_closed (wf : mb.WF) (hr : mb.Rigid) {q : List (List K)} (hq : ValidQ mb q) (a0 : MotionVec K)
    (c : Nat → MotionVec K) {i : Nat} (hi : i < mb.bodies.length) :
    accRec mb.par (mb.ptsAt q) a0 c i =
      (mb.posAt q i).mulMotion a0 + ∑ k ∈ mb.path i, (mb.relAt q k i).mulMotion (c k) := by
  induction i using Nat.strong_induction_on with
  | _ i ih =>
    have hself : mb.relAt q i i = 1 := PTransform.mul_inv (mb.posAt_rigid hr hq i)
    cases h : mb.par i with
    | none =>
      rw [wf.sum_path_none hi h, wf.posAt_none q h, hself]
      simp only [PTransform.one_mulMotion]
      exact treeRec_none h
    | some j =>
      have hj := wf.par_lt _ _ h
      rw [wf.sum_path_some hi h, hself]
      have e : accRec mb.par (mb.ptsAt q) a0 c i = (mb.ptsAt q i).mulMotion (accRec mb.par (mb.ptsAt q) a0 c j) + c i :=
        treeRec_some h hj
      have hs : ∀ k, (mb.relAt q k i).mulMotion (c k) = (mb.ptsAt q i).motionHom ((mb.relAt q k j).mulMotion (c k)) := by
        intro k
        unfold MultiBody.relAt
        rw [wf.posAt_some q h, PTransform.mul_assoc', PTransform.mul_mulMotion _ _ _
          ((mb.posAt_rigid hr hq j).mul (mb.posAt_rigid hr hq k).inv)]
        rfl
      rw [e, ih j hj (by omega), wf.posAt_some q h, PTransform.mul_mulMotion _ _ _ (mb.posAt_rigid hr hq j),
        PTransform.mulMotion_add, Finset.sum_congr rfl (fun k _ => hs k), ← map_sum, PTransform.one_mulMotion,
        PTransform.motionHom_apply]
      abel

theorem velRec_eq_accRec (par : Nat → Option Nat) (X : Nat → PTransform K) (vj : Nat → MotionVec K) :
    velRec par X vj = accRec par X 0 vj := by
  funext i
  unfold velRec accRec
  congr 1
  funext i
  simp

/-- Closed form of the recursive velocity. -/
theorem velRec_closed (wf : mb.WF) (hr : mb.Rigid) {q : List (List K)} (hq : ValidQ mb q) (vj : Nat → MotionVec K) {i : Nat}
    (hi : i < mb.bodies.length) :
    velRec mb.par (mb.ptsAt q) vj i = ∑ k ∈ mb.path i, (mb.relAt q k i).mulMotion (vj k) := by
  rw [velRec_eq_accRec, accRec_closed wf hr hq _ _ hi]; simp

theorem velRec_eq_velAt (wf : mb.WF) (hr : mb.Rigid) {q : List (List K)} (hq : ValidQ mb q) (alpha : List (List K)) {i : Nat}
    (hi : i < mb.bodies.length) :
    velRec mb.par (mb.ptsAt q) (mb.jointMotion alpha) i = mb.velAt q alpha i := velRec_closed wf hr hq _ hi

theorem accRec_congr {par : Nat → Option Nat} (hp : ∀ i j, par i = some j → j < i) {X : Nat → PTransform K} {a0 : MotionVec K}
    {c c' : Nat → MotionVec K} {n : Nat} (h : ∀ k, k < n → c k = c' k) {i : Nat} (hi : i < n) :
    accRec par X a0 c i = accRec par X a0 c' i := by
  induction i using Nat.strong_induction_on with
  | _ i ih =>
    cases hpi : par i with
    | none => unfold accRec; rw [treeRec_none hpi, treeRec_none hpi, h i hi]
    | some j =>
      have := ih j (hp i j hpi) (by have := hp i j hpi; omega)
      unfold accRec at this ⊢
      rw [treeRec_some hpi (hp i j hpi), treeRec_some hpi (hp i j hpi), this, h i hi]

theorem MultiBody.WF.velAt_none (wf : mb.WF) (hr : mb.Rigid) {q : List (List K)} (hq : ValidQ mb q) (alpha : List (List K))
    {i : Nat} (hi : i < mb.bodies.length) (h : mb.par i = none) : mb.velAt q alpha i = mb.jointMotion alpha i := by
  rw [← velRec_eq_velAt wf hr hq alpha hi]; exact treeRec_none h

theorem MultiBody.WF.velAt_some (wf : mb.WF) (hr : mb.Rigid) {q : List (List K)} (hq : ValidQ mb q) (alpha : List (List K))
    {i j : Nat} (hi : i < mb.bodies.length) (h : mb.par i = some j) :
    mb.velAt q alpha i = (mb.ptsAt q i).mulMotion (mb.velAt q alpha j) + mb.jointMotion alpha i := by
  have hj := wf.par_lt _ _ h
  rw [← velRec_eq_velAt wf hr hq alpha hi, ← velRec_eq_velAt wf hr hq alpha (by omega : j < mb.bodies.length)]
  exact treeRec_some h hj

theorem MultiBody.WF.accAt_none (wf : mb.WF) (hr : mb.Rigid) {q : List (List K)} (hq : ValidQ mb q)
    (alpha alphaD : List (List K)) (a0 : MotionVec K) {i : Nat} (hi : i < mb.bodies.length) (h : mb.par i = none) :
    mb.accAt q alpha alphaD a0 i = (mb.ptsAt q i).mulMotion a0 +
      (mb.jointMotion alphaD i + (mb.velAt q alpha i).cross (mb.jointMotion alpha i)) := by
  have := accRec_closed wf hr hq a0 (fun k => mb.jointMotion alphaD k + (mb.velAt q alpha k).cross (mb.jointMotion alpha k)) hi
  rw [MultiBody.accAt, ← this]; exact treeRec_none h

theorem MultiBody.WF.accAt_some (wf : mb.WF) (hr : mb.Rigid) {q : List (List K)} (hq : ValidQ mb q)
    (alpha alphaD : List (List K)) (a0 : MotionVec K) {i j : Nat} (hi : i < mb.bodies.length) (h : mb.par i = some j) :
    mb.accAt q alpha alphaD a0 i = (mb.ptsAt q i).mulMotion (mb.accAt q alpha alphaD a0 j) +
      (mb.jointMotion alphaD i + (mb.velAt q alpha i).cross (mb.jointMotion alpha i)) := by
  have hj := wf.par_lt _ _ h
  have h1 := accRec_closed wf hr hq a0 (fun k => mb.jointMotion alphaD k + (mb.velAt q alpha k).cross (mb.jointMotion alpha k)) hi
  have h2 := accRec_closed wf hr hq a0 (fun k => mb.jointMotion alphaD k + (mb.velAt q alpha k).cross (mb.jointMotion alpha k))
    (by omega : j < mb.bodies.length)
  rw [MultiBody.accAt, ← h1, MultiBody.accAt, ← h2]; exact treeRec_some h hj

/-! ### Consequences for whole runs -/

theorem ofRot_invMul (E : Mat3 K) (v : MotionVec K) :
    (PTransform.ofRot E).invMul v = ⟨E.tr.mulVec v.ang, E.tr.mulVec v.lin⟩ := by
  simp [PTransform.ofRot, PTransform.invMul]

theorem MBC.Sized.fk (wf : mb.WF) {mbc : MBC K} (sz : mbc.Sized mb) :
    forwardKinematics mb mbc = .ok (fkPost mb mbc) ∧ (fkPost mb mbc).Sized mb ∧ (fkPost mb mbc).PosReady mb := by
  have hm : mbc.motionSubspace.length = mb.bodies.length := by
    have := congrArg List.length sz.motionSubspace
    rw [← wf.njoints]; simpa using this
  refine ⟨fk_eq wf sz.q sz.jointConfig sz.parentToSon hm sz.bodyPosW, ?_, ⟨rfl, rfl, rfl⟩⟩
  refine { sz with jointConfig := ?_, parentToSon := ?_, bodyPosW := ?_, motionSubspace := ?_ }
  · simp [fkPost]
  · simp only [fkPost]
    apply List.ext_getElem?
    intro i
    by_cases hi : i < mb.bodies.length
    · obtain ⟨j, hj, hb⟩ := wf.joint_get hi
      simp only [List.map_map, List.getElem?_map, List.getElem?_range hi, Option.map_some, Function.comp, hj, Option.some.injEq]
      have : mb.SAt i = j.S := by simp [MultiBody.SAt, hj]
      rw [this]
      obtain ⟨t, a, f, n, rfl | ⟨mn, m, o, rfl⟩⟩ := hb.exists_mk <;> exact Joint.mkS_length ..
    · rw [List.getElem?_eq_none (by simp; omega), List.getElem?_eq_none (by simp [wf.njoints]; omega)]
  · simp [fkPost]
  · simp [fkPost]

theorem MBC.Sized.fv (wf : mb.WF) (hr : mb.Rigid) {mbc : MBC K} (sz : mbc.Sized mb) (hq : ValidQ mb mbc.q)
    (hp : mbc.PosReady mb) :
    ∃ m, forwardVelocity mb mbc = .ok m ∧ m.Sized mb ∧ m.VelReady mb ∧
      { m with jointVelocity := mbc.jointVelocity, bodyVelB := mbc.bodyVelB, bodyVelW := mbc.bodyVelW } = mbc := by
  have hX : Filled mbc.parentToSon (fun i => some (mb.ptsAt mbc.q i)) mb.bodies.length mb.bodies.length := by
    rw [hp.parentToSon]; exact .of_range_map
  have hW : Filled mbc.bodyPosW (fun i => some (mb.posAt mbc.q i)) mb.bodies.length mb.bodies.length := by
    rw [hp.bodyPosW]; exact .of_range_map
  refine ⟨_, fv_eq wf sz.alpha hX hW sz.jointVelocity sz.bodyVelB sz.bodyVelW, ?_, ?_, rfl⟩
  · refine { sz with jointVelocity := ?_, bodyVelB := ?_, bodyVelW := ?_ } <;> simp [fvPost]
  · refine { parentToSon := hp.parentToSon, bodyPosW := hp.bodyPosW, motionSubspace := hp.motionSubspace,
             jointVelocity := rfl, bodyVelB := ?_, bodyVelW := ?_ }
    · simp only [fvPost]
      apply List.map_congr_left
      intro i hi
      exact velRec_eq_velAt wf hr hq _ (List.mem_range.1 hi)
    · simp only [fvPost]
      apply List.map_congr_left
      intro i hi
      rw [velRec_eq_velAt wf hr hq _ (List.mem_range.1 hi), ofRot_invMul]
      rfl

theorem MBC.Sized.fa (wf : mb.WF) (hr : mb.Rigid) {mbc : MBC K} (sz : mbc.Sized mb) (hq : ValidQ mb mbc.q)
    (hv : mbc.VelReady mb) (a0 : MotionVec K) :
    forwardAcceleration mb mbc a0 = .ok { mbc with
      bodyAccB := (List.range mb.bodies.length).map (mb.accAt mbc.q mbc.alpha mbc.alphaD a0) } := by
  have hX : Filled mbc.parentToSon (fun i => some (mb.ptsAt mbc.q i)) mb.bodies.length mb.bodies.length := by
    rw [hv.parentToSon]; exact .of_range_map
  have hb : Filled mbc.bodyVelB (fun i => some (mb.velAt mbc.q mbc.alpha i)) mb.bodies.length mb.bodies.length := by
    rw [hv.bodyVelB]; exact .of_range_map
  have hj : Filled mbc.jointVelocity (fun i => some (mb.jointMotion mbc.alpha i)) mb.bodies.length mb.bodies.length := by
    rw [hv.jointVelocity]; exact .of_range_map
  rw [fa_eq wf a0 sz.alphaD hX hb hj sz.bodyAccB]
  unfold faPost
  congr 2
  apply List.map_congr_left
  intro i hi
  exact accRec_closed wf hr hq _ _ (List.mem_range.1 hi)

end RBDyn
