import Verif.Props.Floating
import Verif.Props.GraphMake

/-! Property C72: dynamics does not depend on where the robot stands in the world. -/

namespace RBDyn
variable {K : Type} [Scalar K] {mb mb' : MultiBody K} {q q' : List (List K)} {D : PTransform K}
open scoped Mat3
open Graph

/-- Two robots made of the same bodies and joints, whose relative poses agree, the second one displaced as a whole by `D`: only the
transforms from the world to the root bodies differ. -/
structure Displaced (D : PTransform K) (mb mb' : MultiBody K) (q q' : List (List K)) : Prop where
  bodies : mb'.bodies = mb.bodies
  joints : mb'.joints = mb.joints
  pred : mb'.pred = mb.pred
  rigid : IsRigid D
  inner : ∀ i j, mb.par i = some j → mb'.ptsAt q' i = mb.ptsAt q i
  root : ∀ i, i < mb.bodies.length → mb.par i = none → mb'.ptsAt q' i = mb.ptsAt q i * D

namespace Displaced
variable (h : Displaced D mb mb' q q')
include h

theorem par : mb'.par = mb.par := by
  funext i
  unfold MultiBody.par
  rw [h.pred]

theorem SAt (i : Nat) : mb'.SAt i = mb.SAt i := by unfold MultiBody.SAt; rw [h.joints]
theorem dofAt (i : Nat) : mb'.dofAt i = mb.dofAt i := by unfold MultiBody.dofAt; rw [h.joints]
theorem dofPosAt (i : Nat) : mb'.dofPosAt i = mb.dofPosAt i := by unfold MultiBody.dofPosAt; rw [h.joints]
theorem inertiaAt (i : Nat) : mb'.inertiaAt i = mb.inertiaAt i := by unfold MultiBody.inertiaAt; rw [h.bodies]
theorem path (i : Nat) : mb'.path i = mb.path i := by unfold MultiBody.path; rw [h.bodies, h.par]
theorem subtree (i : Nat) : mb'.subtree i = mb.subtree i := by unfold MultiBody.subtree; rw [h.bodies, h.par]
theorem jointMotion (a : List (List K)) (i : Nat) : mb'.jointMotion a i = mb.jointMotion a i := by unfold MultiBody.jointMotion; rw [h.SAt]

theorem posAt (wf : mb.WF) (wf' : mb'.WF) {i : Nat} (hi : i < mb.bodies.length) : mb'.posAt q' i = mb.posAt q i * D := by
  induction i using Nat.strong_induction_on with
  | _ i ih =>
    cases hp : mb.par i with
    | none => rw [wf.posAt_none _ hp, wf'.posAt_none _ (h.par ▸ hp), h.root i hi hp]
    | some j =>
      have hj := wf.par_lt _ _ hp
      rw [wf.posAt_some _ hp, wf'.posAt_some _ (h.par ▸ hp), h.inner i j hp, ih j hj (by omega), PTransform.mul_assoc']

theorem relAt (wf : mb.WF) (wf' : mb'.WF) {k i : Nat} (hk : k < mb.bodies.length) (hi : i < mb.bodies.length) :
    mb'.relAt q' k i = mb.relAt q k i := by
  unfold MultiBody.relAt
  rw [h.posAt wf wf' hk, h.posAt wf wf' hi]
  have e : (mb.posAt q k * D).inv = D.inv * (mb.posAt q k).inv := by
    have hr := h.rigid
    ext1
    · simp [PTransform.inv, Mat3.tr_mul]
    · simp only [PTransform.inv, PTransform.mul_E, PTransform.mul_r, Mat3.mul_mulVec, Mat3.mulVec_add, Mat3.tr_tr, Mat3.mulVec_neg]
      rw [hr.mulVec_tr]
      abel
  rw [e, PTransform.mul_assoc', ← PTransform.mul_assoc' D, PTransform.mul_inv h.rigid]
  congr 1
  exact one_mul _

theorem velAt (wf : mb.WF) (wf' : mb'.WF) (alpha : List (List K)) {i : Nat} (hi : i < mb.bodies.length) :
    mb'.velAt q' alpha i = mb.velAt q alpha i := by
  unfold MultiBody.velAt
  rw [h.path]
  refine Finset.sum_congr rfl fun k hk => ?_
  rw [h.relAt wf wf' (MultiBody.mem_path.1 hk).1 hi, h.jointMotion]

theorem accAt (wf : mb.WF) (wf' : mb'.WF) (alpha alphaD : List (List K)) {a0 a0' : MotionVec K} (ha : a0 = D.mulMotion a0') {i : Nat}
    (hi : i < mb.bodies.length) : mb'.accAt q' alpha alphaD a0' i = mb.accAt q alpha alphaD a0 i := by
  unfold MultiBody.accAt
  rw [h.path, h.posAt wf wf' hi, PTransform.mul_mulMotion _ _ _ h.rigid, ← ha]
  congr 1
  refine Finset.sum_congr rfl fun k hk => ?_
  have hk := (MultiBody.mem_path.1 hk).1
  rw [h.relAt wf wf' hk hi, h.jointMotion, h.jointMotion, h.velAt wf wf' _ hk]

theorem netForceAt (wf : mb.WF) (wf' : mb'.WF) (hr : mb.Rigid) (hq : ValidQ mb q) (alpha alphaD : List (List K)) {a0 a0' : MotionVec K}
    (ha : a0 = D.mulMotion a0') {f f' : Nat → ForceVec K} (hf : ∀ k, k < mb.bodies.length → f k = D.dualMul (f' k)) {i : Nat}
    (hi : i < mb.bodies.length) : mb'.netForceAt q' alpha alphaD a0' f' i = mb.netForceAt q alpha alphaD a0 f i := by
  unfold MultiBody.netForceAt
  rw [h.inertiaAt, h.accAt wf wf' alpha alphaD ha hi, h.velAt wf wf' _ hi, h.posAt wf wf' hi, hf i hi]
  congr 1
  have hW := mb.posAt_rigid hr hq i
  have e : (mb.posAt q i * D).dualMul (f' i) = (mb.posAt q i).dualMul (D.dualMul (f' i)) := by
    have hD := h.rigid
    ext1
    · simp only [PTransform.dualMul, PTransform.mul_E, PTransform.mul_r, Mat3.mul_mulVec]
      rw [Vec3.add_cross, ← sub_sub, Mat3.mulVec_sub _ _ ((D.E.tr *ᵥ (mb.posAt q i).r).cross (f' i).force), hD.mulVec_cross, hD.mulVec_tr]
    · simp only [PTransform.dualMul, PTransform.mul_E, Mat3.mul_mulVec]
  exact e

theorem wrenchAt (wf : mb.WF) (wf' : mb'.WF) {f f' : Nat → ForceVec K} (hf : ∀ k, k < mb.bodies.length → f' k = f k) {i : Nat}
    (hi : i < mb.bodies.length) : mb'.wrenchAt q' f' i = mb.wrenchAt q f i := by
  unfold MultiBody.wrenchAt
  rw [h.subtree]
  refine Finset.sum_congr rfl fun k hk => ?_
  have hk := (MultiBody.mem_subtree.1 hk).1
  rw [h.relAt wf wf' hi hk, hf k hk]

theorem project (i : Nat) (f : ForceVec K) : mb'.project i f = mb.project i f := by unfold MultiBody.project; rw [h.SAt]

end Displaced

/-- The states belong together: same velocities, accelerations and torques; gravity and external forces are displaced with the robot. -/
structure SameState (D : PTransform K) (mb : MultiBody K) (m m' : MBC K) : Prop where
  alpha : m'.alpha = m.alpha
  alphaD : m'.alphaD = m.alphaD
  jointTorque : m'.jointTorque = m.jointTorque
  gravity : m.gravity = D.E *ᵥ m'.gravity
  force : ∀ k, k < mb.bodies.length → (m.force[k]?).getD 0 = D.dualMul ((m'.force[k]?).getD 0)

/-- C72: all bodies are displaced, with the same velocities in their own frames. -/
theorem C72_poses (wf : mb.WF) (wf' : mb'.WF) {m m' : MBC K} (h : Displaced D mb mb' m.q m'.q) (ha : m'.alpha = m.alpha)
    (hv : m.VelReady mb) (hv' : m'.VelReady mb') :
    m'.bodyPosW = m.bodyPosW.map (· * D) ∧ m'.bodyVelB = m.bodyVelB := by
  constructor
  · rw [hv.bodyPosW, hv'.bodyPosW, h.bodies, List.map_map]
    exact List.map_congr_left fun i hi => h.posAt wf wf' (List.mem_range.1 hi)
  · rw [hv.bodyVelB, hv'.bodyVelB, h.bodies, ha]
    exact List.map_congr_left fun i hi => h.velAt wf wf' _ (List.mem_range.1 hi)

theorem hUp_displaced (hj : mb'.joints = mb.joints) (hp : mb'.pred = mb.pred) {m m' : MBC K}
    (hX : ∀ (i : Nat) (p : Int), mb.pred[i]? = some p → p ≠ -1 → rd m'.parentToSon i = rd m.parentToSon i)
    (hS : m'.motionSubspace = m.motionSubspace) (i : Nat) : ∀ n j (d : FD K), hUp mb' m' i n j d = hUp mb m i n j d := by
  intro n
  induction n with
  | zero => intro j d; rfl
  | succ n ih =>
    intro j d
    simp only [hUp, hS, hj, hp, ih]
    cases hpj : rd mb.pred j with
    | error e => rfl
    | ok p =>
      simp only [Res.bind_ok]
      by_cases h1 : p ≠ -1
      · rw [if_pos h1, if_pos h1, hX j p (rd_eq_ok_iff.1 hpj) h1]
      · rw [if_neg h1, if_neg h1]

/-- C72: the mass matrix does not depend on where the robot stands. (The whole working memory is the same.) -/
theorem C72_mass_matrix {m m' : MBC K} (h : Displaced D mb mb' m.q m'.q) (wf : mb.WF) (hv : m.PosReady mb) (hv' : m'.PosReady mb') (fd : FD K) :
    fd.computeH mb' m' = fd.computeH mb m := by
  have hX : ∀ (i : Nat) (p : Int), mb.pred[i]? = some p → p ≠ -1 → rd m'.parentToSon i = rd m.parentToSon i := by
    intro i p hp hne
    have hi : i < mb.bodies.length := by rw [← wf.npred]; exact (List.getElem?_eq_some_iff.1 hp).1
    have hpar : ∃ j, mb.par i = some j := by
      have := wf.pred i p hp
      unfold MultiBody.par
      rw [hp]
      exact ⟨p.toNat, by simp; omega⟩
    obtain ⟨j, hj⟩ := hpar
    rw [hv.parentToSon, hv'.parentToSon, h.bodies, rd_of_getElem? (range_map_getElem? hi), rd_of_getElem? (range_map_getElem? hi),
      h.inner i j hj]
  have hS : m'.motionSubspace = m.motionSubspace := by
    rw [hv.motionSubspace, hv'.motionSubspace, h.bodies]
    exact List.map_congr_left fun i _ => h.SAt i
  have e : hStep mb' m' = hStep mb m := by
    funext d i
    simp only [hStep, hS, h.joints, h.pred, h.bodies, hUp_displaced h.joints h.pred hX hS]
    cases hpj : rd mb.pred i with
    | error e => rfl
    | ok p =>
      simp only [Res.bind_ok]
      by_cases h1 : p ≠ -1
      · simp only [if_pos h1, hX i p (rd_eq_ok_iff.1 hpj) h1]
      · simp only [if_neg h1]
  unfold FD.computeH
  rw [e, h.bodies]

theorem SameState.a0 {m m' : MBC K} (hs : SameState D mb m m') : (⟨0, m.gravity⟩ : MotionVec K) = D.mulMotion ⟨0, m'.gravity⟩ := by
  rw [hs.gravity]
  ext1
  · simp [PTransform.mulMotion]
  · simp [PTransform.mulMotion]

/-- C72: the torques found by inverse dynamics do not depend on where the robot stands. -/
theorem C72_torques (wf : mb.WF) (wf' : mb'.WF) (hr : mb.Rigid) (hr' : mb'.Rigid) {m m' : MBC K} (h : Displaced D mb mb' m.q m'.q)
    (hs : SameState D mb m m') (sz : m.Sized mb) (sz' : m'.Sized mb') (hq : ValidQ mb m.q) (hq' : ValidQ mb' m'.q) (hv : m.VelReady mb)
    (hv' : m'.VelReady mb') {d d' : ID K} (hd : d.f.length = mb.nrBodies) (hd' : d'.f.length = mb.nrBodies) :
    ∃ d₁ m₁ d₁' m₁', d.inverseDynamics mb m = .ok (d₁, m₁) ∧ d'.inverseDynamics mb' m' = .ok (d₁', m₁') ∧
      m₁'.jointTorque = m₁.jointTorque ∧ m₁'.bodyAccB = m₁.bodyAccB := by
  refine ⟨_, _, _, _, id_eq wf hr sz hq hv hd rfl, id_eq wf' hr' sz' hq' hv' (by rw [h.bodies]; exact hd') rfl, ?_, ?_⟩
  · simp only [h.bodies]
    refine List.map_congr_left fun i hi => ?_
    rw [h.project, hs.alpha, hs.alphaD]
    congr 1
    exact h.wrenchAt wf wf' (fun k hk => h.netForceAt wf wf' hr hq _ _ hs.a0 hs.force hk) (List.mem_range.1 hi)
  · simp only [h.bodies]
    refine List.map_congr_left fun i hi => ?_
    rw [hs.alpha, hs.alphaD, h.accAt wf wf' _ _ hs.a0 (List.mem_range.1 hi)]

/-- C72: the vector of velocity, gravity and external forces does not depend on where the robot stands. -/
theorem C72_bias (wf : mb.WF) (wf' : mb'.WF) (hr : mb.Rigid) (hr' : mb'.Rigid) {m m' : MBC K} (h : Displaced D mb mb' m.q m'.q)
    (hs : SameState D mb m m') (sz : m.Sized mb) (sz' : m'.Sized mb') (hq : ValidQ mb m.q) (hq' : ValidQ mb' m'.q) (hv : m.VelReady mb)
    (hv' : m'.VelReady mb') {fd : FD K} (hf : fd.Fits mb) (hf' : fd.Fits mb') :
    ∃ fd₁ fd₁', fd.computeC mb m = .ok fd₁ ∧ fd.computeC mb' m' = .ok fd₁' ∧ fd₁'.C = fd₁.C ∧ fd₁'.H = fd₁.H ∧ fd₁'.tmpFd = fd₁.tmpFd := by
  obtain ⟨fd₁, e1, c1, f1, g1⟩ := computeC_eq wf hr sz.force hq hv hf
  obtain ⟨fd₁', e2, c2, f2, g2⟩ := computeC_eq wf' hr' sz'.force hq' hv' hf'
  refine ⟨fd₁, fd₁', e1, e2, ?_, by rw [g1, g2], by rw [g1, g2]⟩
  have hn : mb'.nrDof = mb.nrDof := by rw [wf.nDof, wf'.nDof, h.joints]
  refine List.ext_getElem? fun r => ?_
  by_cases hr0 : r < mb.nrDof
  · obtain ⟨i, a, hi, ha, rfl⟩ := wf.exists_segment hr0
    have k2 := c2 i a (by rw [h.bodies]; exact hi) (by rw [h.dofAt]; exact ha)
    rw [h.dofPosAt] at k2
    rw [k2, c1 i a hi ha, h.SAt, hs.alpha]
    congr 2
    exact h.wrenchAt wf wf' (fun k hk => h.netForceAt wf wf' hr hq _ _ hs.a0 hs.force hk) hi
  · rw [List.getElem?_eq_none (by rw [f2.C, hn]; omega), List.getElem?_eq_none (by rw [f1.C]; omega)]

/-- C72: forward dynamics finds the same accelerations wherever the robot stands, whatever the linear solver does. -/
theorem C72_accelerations (wf : mb.WF) (wf' : mb'.WF) (hr : mb.Rigid) (hr' : mb'.Rigid) {m m' : MBC K} (h : Displaced D mb mb' m.q m'.q)
    (hs : SameState D mb m m') (sz : m.Sized mb) (sz' : m'.Sized mb') (hq : ValidQ mb m.q) (hq' : ValidQ mb' m'.q) (hv : m.VelReady mb)
    (hv' : m'.VelReady mb') {fd : FD K} (hf : fd.Fits mb) (solve : DMat K → List K → List K) :
    (fd.forwardDynamics solve mb' m').map (fun r => (r.2.alphaD, r.1.H, r.1.C)) =
      (fd.forwardDynamics solve mb m).map (fun r => (r.2.alphaD, r.1.H, r.1.C)) := by
  obtain ⟨fd₁, e1, -, f1, g1⟩ := computeH_eq wf hr hq hv.toPosReady hf
  have hn : mb'.nrDof = mb.nrDof := by rw [wf.nDof, wf'.nDof, h.joints]
  have f1' : fd₁.Fits mb' := ⟨by rw [hn]; exact f1.Hrows, by rw [hn]; exact f1.Hcols, by rw [hn]; exact f1.C, by rw [h.bodies]; exact f1.Ist,
    by rw [h.joints]; exact f1.F, by rw [h.bodies]; exact f1.acc, by rw [h.bodies]; exact f1.f, by rw [hn]; exact f1.tmpFd,
    by rw [h.bodies, f1.dofPos]; exact List.map_congr_left fun i _ => (h.dofPosAt i).symm⟩
  obtain ⟨fd₂, fd₂', e2, e3, k1, k2, k3⟩ := C72_bias wf wf' hr hr' h hs sz sz' hq hq' hv hv' f1 f1'
  simp only [FD.forwardDynamics, C72_mass_matrix h wf hv.toPosReady hv'.toPosReady, e1, Res.bind_ok, e2, e3, k1, k2, k3, hs.jointTorque, hs.alphaD]
  cases paramToVectorInto m.jointTorque fd₂.tmpFd with
  | error e => rfl
  | ok t =>
    simp only [Res.bind_ok]
    cases vecSub t fd₂.C with
    | error e => rfl
    | ok r =>
      simp only [Res.bind_ok]
      cases vectorToParamInto (solve fd₂.H r) m.alphaD with
      | error e => rfl
      | ok a => simp [Except.map, Res.pure_eq, k1, k2]

theorem worldPoint_mul (W D : PTransform K) (p : Vec3 K) : worldPoint (W * D) p = worldPoint D (worldPoint W p) := by
  unfold worldPoint
  rw [PTransform.mul_r, PTransform.mul_E, Mat3.tr_mul, Mat3.mul_mulVec, Mat3.mulVec_add]
  abel

theorem mulVec_sum (A : Mat3 K) (n : Nat) (f : Nat → Vec3 K) : ∑ k ∈ Finset.range n, A *ᵥ f k = A *ᵥ ∑ k ∈ Finset.range n, f k := by
  induction n with
  | zero => ext <;> simp [Mat3.mulVec]
  | succ n ih => rw [Finset.sum_range_succ, Finset.sum_range_succ, ih, Mat3.mulVec_add]

/-- C72: the centre of mass is displaced with the robot, and the momentum about a displaced point is the rotated momentum. -/
theorem C72_momentum (wf : mb.WF) (wf' : mb'.WF) (hm : mb.MassOK) (hM : 0 < mb.totalMass) {m m' : MBC K} (h : Displaced D mb mb' m.q m'.q)
    (ha : m'.alpha = m.alpha) (hv : m.VelReady mb) (hv' : m'.VelReady mb') (p : Vec3 K) :
    ∃ c P, computeCoM mb m = .ok c ∧ computeCoM mb' m' = .ok (D.r + D.E.tr *ᵥ c) ∧ computeCentroidalMomentum mb m p = .ok P ∧
      computeCentroidalMomentum mb' m' (D.r + D.E.tr *ᵥ p) = .ok ⟨D.E.tr *ᵥ P.couple, D.E.tr *ᵥ P.force⟩ := by
  have hm' : mb'.MassOK := by unfold MultiBody.MassOK; rw [h.bodies]; exact hm
  have hMe : mb'.totalMass = mb.totalMass := by
    unfold MultiBody.totalMass
    rw [h.bodies]
    exact Finset.sum_congr rfl fun k _ => by rw [h.inertiaAt]
  refine ⟨_, _, computeCoM_eq hm hM hv.toPosReady, ?_, computeCentroidalMomentum_eq hv p, ?_⟩
  · rw [computeCoM_eq hm' (hMe ▸ hM) hv'.toPosReady]
    congr 1
    unfold MultiBody.comAt
    rw [hMe, h.bodies]
    have e : ∀ k ∈ Finset.range mb.bodies.length, (mb'.inertiaAt k).m • worldPoint (mb'.posAt m'.q k) (mb'.corComAt k) =
        (mb.inertiaAt k).m • D.r + D.E.tr *ᵥ ((mb.inertiaAt k).m • worldPoint (mb.posAt m.q k) (mb.corComAt k)) := by
      intro k hk
      have hc : mb'.corComAt k = mb.corComAt k := by unfold MultiBody.corComAt; rw [h.bodies]
      rw [h.inertiaAt, h.posAt wf wf' (Finset.mem_range.1 hk), hc, worldPoint_mul, worldPoint, smul_add, Mat3.mulVec_smul]
    rw [Finset.sum_congr rfl e, Finset.sum_add_distrib, ← Finset.sum_smul, smul_add, smul_smul]
    show (1 / mb.totalMass * mb.totalMass) • D.r + _ = _
    rw [one_div_mul_cancel (ne_of_gt hM), one_smul]
    congr 1
    rw [Mat3.mulVec_smul]
    congr 1
    exact mulVec_sum _ _ _
  · rw [computeCentroidalMomentum_eq hv']
    congr 1
    have e : ∀ n, n ≤ mb.bodies.length → ∑ k ∈ Finset.range n, (1 : K) • momHom (mb'.posAt m'.q k) (D.r + D.E.tr *ᵥ p) (mb'.inertiaAt k)
          (mb'.velAt m'.q m'.alpha k) =
        ⟨D.E.tr *ᵥ (∑ k ∈ Finset.range n, (1 : K) • momHom (mb.posAt m.q k) p (mb.inertiaAt k) (mb.velAt m.q m.alpha k)).couple,
          D.E.tr *ᵥ (∑ k ∈ Finset.range n, (1 : K) • momHom (mb.posAt m.q k) p (mb.inertiaAt k) (mb.velAt m.q m.alpha k)).force⟩ := by
      intro n hn
      induction n with
      | zero => ext <;> simp
      | succ n ih =>
        rw [Finset.sum_range_succ, Finset.sum_range_succ, ih (by omega), one_smul, one_smul, momHom_apply, momHom_apply, h.inertiaAt, ha,
          h.velAt wf wf' _ (by omega), h.posAt wf wf' (by omega), transMul_about, transMul_about, PTransform.mul_transMul _ _ _ h.rigid]
        generalize (mb.posAt m.q n).transMul _ = f
        have hD : IsRot D.E.tr := IsRigid.inv h.rigid
        have hx : D.E.tr *ᵥ p.cross f.force = (D.E.tr *ᵥ p).cross (D.E.tr *ᵥ f.force) := hD.mulVec_cross _ _
        ext1
        · simp only [ForceVec.add_couple, Mat3.mulVec_add, ForceVec.about, PTransform.transMul, Mat3.mulVec_sub, hx, Vec3.add_cross]
          abel
        · simp only [ForceVec.add_force, Mat3.mulVec_add, ForceVec.about, PTransform.transMul]
    have := e _ (le_refl _)
    unfold MultiBody.momentumAt
    rw [h.bodies]
    exact this

/-! ### Where robots are displaced -/

/-- The robot `mb` mounted at another place: the transforms from the world to its roots are multiplied by `D`. -/
def MultiBody.placed (mb : MultiBody K) (D : PTransform K) : MultiBody K :=
  { mb with Xt := List.zipWith (fun p X => if p = -1 then X * D else X) mb.pred mb.Xt }

theorem MultiBody.placed_wf (wf : mb.WF) (D : PTransform K) : (mb.placed D).WF :=
  ⟨wf.njoints, wf.npred, by simp [MultiBody.placed, wf.npred, wf.nXt], wf.succ, wf.pred, wf.parent, wf.built, wf.posParam, wf.posDof, wf.nParams,
    wf.nDof⟩

theorem MultiBody.placed_rigid (hr : mb.Rigid) (hD : IsRigid D) : (mb.placed D).Rigid := by
  refine ⟨hr.joints, fun X hX => ?_⟩
  obtain ⟨i, hi, rfl⟩ := List.mem_iff_getElem.1 hX
  simp only [MultiBody.placed, List.getElem_zipWith]
  split
  · exact (hr.Xt _ (List.getElem_mem _)).mul hD
  · exact hr.Xt _ (List.getElem_mem _)

/-- C72: mounting a robot at another place displaces it. -/
theorem C72_placed (wf : mb.WF) (hD : IsRigid D) (q : List (List K)) :
    (mb.placed D).WF ∧ (mb.Rigid → (mb.placed D).Rigid) ∧ Displaced D mb (mb.placed D) q q := by
  refine ⟨mb.placed_wf wf D, fun hr => mb.placed_rigid hr hD, rfl, rfl, rfl, hD, ?_, ?_⟩
  · intro i j hp
    unfold MultiBody.ptsAt
    congr 1
    unfold MultiBody.XtAt MultiBody.placed
    rw [List.getElem?_zipWith]
    unfold MultiBody.par at hp
    cases hx : mb.pred[i]? with
    | none => rw [hx] at hp; simp at hp
    | some p =>
      cases hX : mb.Xt[i]? with
      | none => rfl
      | some X =>
        have : p ≠ -1 := by
          rintro rfl
          rw [hx] at hp
          simp at hp
        simp [this]
  · intro i hi hp
    unfold MultiBody.ptsAt
    rw [PTransform.mul_assoc']
    congr 1
    unfold MultiBody.XtAt MultiBody.placed
    rw [List.getElem?_zipWith, List.getElem?_eq_getElem (by rw [wf.npred]; exact hi), List.getElem?_eq_getElem (by rw [wf.nXt]; exact hi)]
    have hx : mb.pred[i]? = some (mb.pred[i]'(by rw [wf.npred]; exact hi)) := List.getElem?_eq_getElem _
    have h1 := wf.pred i _ hx
    unfold MultiBody.par at hp
    rw [hx] at hp
    have h2 : mb.pred[i]'(by rw [wf.npred]; exact hi) = -1 := by
      by_contra hne
      have : ¬ mb.pred[i]'(by rw [wf.npred]; exact hi) < 0 := by omega
      simp [this] at hp
    simp [h2]

/-- C72: changing the configuration of the root joint, whatever its type, displaces the robot. -/
theorem C72_root_joint (wf : mb.WF) (hr : mb.Rigid) (ho : mb.OneRoot) (hq : ValidQ mb q) (hq' : ValidQ mb q')
    (h : ∀ i, i ≠ 0 → q'[i]? = q[i]?) : Displaced ((mb.ptsAt q 0).inv * mb.ptsAt q' 0) mb mb q q' := by
  have h0 := mb.ptsAt_rigid hr hq 0
  have h0' := mb.ptsAt_rigid hr hq' 0
  refine ⟨rfl, rfl, rfl, h0.inv.mul h0', fun i j hp => ?_, fun i hi hp => ?_⟩
  · have : i ≠ 0 := by
      rintro rfl
      exact absurd (wf.par_lt _ _ hp) (by omega)
    unfold MultiBody.ptsAt MultiBody.poseAt
    rw [h i this]
  · have hx : mb.pred[i]? = some (mb.pred[i]'(by rw [wf.npred]; exact hi)) := List.getElem?_eq_getElem _
    have h1 := wf.pred i _ hx
    unfold MultiBody.par at hp
    rw [hx] at hp
    have h2 : mb.pred[i]'(by rw [wf.npred]; exact hi) = -1 := by
      by_contra hne
      have : ¬ mb.pred[i]'(by rw [wf.npred]; exact hi) < 0 := by omega
      simp [this] at hp
    rw [h2] at hx
    obtain rfl := ho i hx
    rw [← PTransform.mul_assoc', PTransform.mul_inv h0]
    exact (one_mul _).symm

/-- C72: the mass matrix does not depend on the configuration of the root joint, whatever its type. -/
theorem C72_mass_matrix_root (wf : mb.WF) (hr : mb.Rigid) (ho : mb.OneRoot) {m m' : MBC K} (hq : ValidQ mb m.q) (hq' : ValidQ mb m'.q)
    (h : ∀ i, i ≠ 0 → m'.q[i]? = m.q[i]?) (hv : m.PosReady mb) (hv' : m'.PosReady mb) (fd : FD K) : fd.computeH mb m' = fd.computeH mb m :=
  C72_mass_matrix (C72_root_joint wf hr ho hq hq' h) wf hv hv' fd

/-! ### The argument `X_0_j0` of `makeMultiBody` -/

/-- Appending transforms in front of a list that `makeTree` only extends. -/
def Graph.TreeSt.front (P : List (PTransform K)) (r : TreeSt K) : TreeSt K := { r with Xt := P ++ r.Xt }

theorem arcs_prefix {P : List (PTransform K)} {step : TreeSt K → Arc K → Res (TreeSt K)}
    (hs : ∀ s a, step (s.front P) a = (step s a).map (TreeSt.front P)) (as : List (Arc K)) (s0 : TreeSt K) :
    as.foldlM step (s0.front P) = (as.foldlM step s0).map (TreeSt.front P) := by
  induction as generalizing s0 with
  | nil => rfl
  | cons a as ih =>
    rw [List.foldlM_cons, List.foldlM_cons, hs]
    cases step s0 a with
    | error e => rfl
    | ok s1 => exact ih s1

theorem makeTree_prefix (h : Heap K) (P : List (PTransform K)) (f : Nat) :
    ∀ (u : Nat) (src : Option Nat) (j : Joint K) (p s par : Int) (X Xb : PTransform K) (st : TreeSt K),
      makeTree h f u src j p s par X Xb (st.front P) = (makeTree h f u src j p s par X Xb st).map (TreeSt.front P) := by
  induction f with
  | zero => intros; rfl
  | succ f ih =>
    intro u src j p s par X Xb st
    rw [makeTree, makeTree]
    cases rd h.nodes u with
    | error e => rfl
    | ok n =>
      simp only [Res.bind_ok]
      rw [← arcs_prefix]
      · simp [TreeSt.front]
      · intro s a
        split
        · rw [← ih]
          rfl
        · rfl

/-- The transform of the first body does not change the rest of the tree. -/
theorem makeTree_root (h : Heap K) (f : Nat) (u : Nat) (src : Option Nat) (j : Joint K) (p s par : Int) (Xb : PTransform K) :
    ∃ res : Res (TreeSt K), ∀ Y, makeTree h f u src j p s par Y Xb ⟨[], [], [], [], [], []⟩ = res.map (TreeSt.front [Y]) := by
  cases f with
  | zero => exact ⟨.error .diverges, fun _ => rfl⟩
  | succ f =>
    cases hn : rd h.nodes u with
    | error e => exact ⟨.error e, fun Y => by rw [makeTree, hn]; rfl⟩
    | ok n =>
      refine ⟨n.arcs.foldlM (fun (st : TreeSt K) a =>
        if some a.next ≠ src then makeTree h f a.next (some u) a.joint 0 (st.bodies.length : Int) 0 (a.X * (xFrom n src Xb).inv) 1 st
        else pure st) ⟨[⟨(xFrom n src Xb).dualMulI n.body.inertia, n.body.name⟩], [j], [p], [s], [par], []⟩, fun Y => ?_⟩
      rw [makeTree, hn, Res.bind_ok, ← arcs_prefix]
      · simp [TreeSt.front]
      · intro s a
        split
        · rw [← makeTree_prefix]
          rfl
        · rfl

omit [Scalar K] in
theorem MultiBody.ctorStep_Xt (Y : List (PTransform K)) (mb : MultiBody K) (i : Nat) :
    MultiBody.ctorStep { mb with Xt := Y } i = (MultiBody.ctorStep mb i).map fun r => { r with Xt := Y } := by
  unfold MultiBody.ctorStep
  dsimp only
  cases rd mb.bodies i with
  | error e => rfl
  | ok b =>
    simp only [Res.bind_ok]
    cases rd mb.joints i with
    | error e => rfl
    | ok j =>
      simp only [Res.bind_ok]
      cases wr mb.jointPosInParam i mb.nrParams with
      | error e => rfl
      | ok p =>
        simp only [Res.bind_ok]
        cases wr mb.jointPosInDof i mb.nrDof with
        | error e => rfl
        | ok d => rfl

theorem MultiBody.mk'_Xt (b : List (Body K)) (j : List (Joint K)) (p s pa : List Int) (X Y : List (PTransform K)) :
    MultiBody.mk' b j p s pa Y = (MultiBody.mk' b j p s pa X).map fun r => { r with Xt := Y } := by
  unfold MultiBody.mk'
  generalize hs : (MultiBody.mk b j p s pa X [] [] (List.replicate j.length 0) (List.replicate j.length 0) 0 0 : MultiBody K) = s0
  have : (MultiBody.mk b j p s pa Y [] [] (List.replicate j.length 0) (List.replicate j.length 0) 0 0 : MultiBody K) = { s0 with Xt := Y } := by
    rw [← hs]
  rw [this]
  clear this hs
  generalize List.range b.length = l
  induction l generalizing s0 with
  | nil => rfl
  | cons a as ih =>
    rw [List.foldlM_cons, List.foldlM_cons, MultiBody.ctorStep_Xt]
    cases MultiBody.ctorStep s0 a with
    | error e => rfl
    | ok s1 => exact ih s1

theorem makeMultiBody_placed {h : Heap K} {g : Graph} {root : String} {t : JointType} {axis : Vec3 K} {X0 Xb D : PTransform K} {mb : MultiBody K}
    (wf : mb.WF) (ho : mb.OneRoot) (e : makeMultiBody h g root t axis X0 Xb = .ok mb) :
    makeMultiBody h g root t axis (X0 * D) Xb = .ok (mb.placed D) := by
  unfold makeMultiBody at e ⊢
  obtain ⟨r, hr, e⟩ := Res.bind_eq_ok.1 e
  obtain ⟨st, hst, e⟩ := Res.bind_eq_ok.1 e
  rw [hr, Res.bind_ok]
  obtain ⟨res, key⟩ := makeTree_root h h.fuel r none (Joint.mk' t axis true g.rootName) (-1) 0 (-1) Xb
  rw [key] at hst
  show (makeTree h h.fuel r none (Joint.mk' t axis true g.rootName) (-1) 0 (-1) (X0 * D) Xb ⟨[], [], [], [], [], []⟩ >>= _) = _
  rw [key]
  cases res with
  | error e => simp [Except.map] at hst
  | ok s1 =>
    cases hst
    show MultiBody.mk' s1.bodies s1.joints s1.pred s1.succ s1.parent ((X0 * D) :: s1.Xt) = _
    have e : MultiBody.mk' s1.bodies s1.joints s1.pred s1.succ s1.parent (X0 :: s1.Xt) = .ok mb := e
    rw [MultiBody.mk'_Xt _ _ _ _ _ (X0 :: s1.Xt), e]
    show Except.ok _ = Except.ok _
    congr 1
    unfold MultiBody.placed
    have hX : mb.Xt = X0 :: s1.Xt := by
      have := MultiBody.mk'_Xt s1.bodies s1.joints s1.pred s1.succ s1.parent (X0 :: s1.Xt) (X0 :: s1.Xt)
      rw [e] at this
      exact congrArg MultiBody.Xt (Except.ok.inj this)
    have h1 := wf.npred.trans wf.nXt.symm
    have h2 := wf.pred
    unfold MultiBody.OneRoot at ho
    rw [hX] at h1
    have hz : List.zipWith (fun p X => if p = -1 then X * D else X) mb.pred (X0 :: s1.Xt) = (X0 * D) :: s1.Xt := by
      clear e key hX
      generalize mb.pred = ps at h1 h2 ho
      cases ps with
      | nil => simp at h1
      | cons p ps =>
        have h0 := h2 0 p rfl
        obtain rfl : p = -1 := by have := h0.2; simp at this; omega
        rw [List.zipWith_cons_cons, if_pos rfl]
        congr 1
        refine List.ext_getElem? fun i => ?_
        rw [List.getElem?_zipWith]
        have hl : ps.length = s1.Xt.length := by simpa using h1
        by_cases hi : i < ps.length
        · rw [List.getElem?_eq_getElem hi, List.getElem?_eq_getElem (hl ▸ hi)]
          have : ps[i] ≠ -1 := by
            intro hc
            have := ho (i + 1) (by rw [List.getElem?_cons_succ, List.getElem?_eq_getElem hi, hc])
            omega
          simp [this]
        · rw [List.getElem?_eq_none (by omega), List.getElem?_eq_none (by omega)]
    rw [hX, hz]

/-- C72: the argument `X_0_j0` of `makeMultiBody` mounts the robot: with `X_0_j0 * D` in place of `X_0_j0`, the result is the same robot
displaced by `D`. -/
theorem C72_makeMultiBody {h : Heap K} {g : Graph} (T : Tree h g) (hB : BuiltArcs h g) {root : String} {r : Nat}
    (hr : g.nodeByName root = .ok r) (t : JointType) (axis : Vec3 K) (X0 Xb D : PTransform K) :
    ∃ mb, makeMultiBody h g root t axis X0 Xb = .ok mb ∧ makeMultiBody h g root t axis (X0 * D) Xb = .ok (mb.placed D) ∧ mb.WF ∧ mb.OneRoot := by
  obtain ⟨mb, N, e, wf, hp, -, hn, -, h⟩ := C15_makeMultiBody T hB hr t axis X0 Xb
  have ho : mb.OneRoot := by
    intro i hi
    by_contra hne
    have hl : i < N.length := by
      have := (List.getElem?_eq_some_iff.1 hi).1
      rw [wf.npred] at this
      rw [hp.length_eq]
      have hn : mb.bodies.length = g.nodes.length := hn
      omega
    obtain ⟨_, _, _, _, _, _, _, _, _, _, h2⟩ := h i _ (List.getElem?_eq_getElem hl)
    obtain ⟨k, _, _, _, _, _, _, _, _, _, _, hk, _⟩ := h2 hne
    rw [hi] at hk
    have := Option.some.inj hk
    omega
  exact ⟨mb, e, makeMultiBody_placed wf ho e, wf, ho⟩

/-! ### Hypotheses can be met -/

/-- A quarter turn about the `x` axis and a translation. -/
def Sample.shift : PTransform ℚ := ⟨⟨1, 0, 0, 0, 0, 1, 0, -1, 0⟩, ⟨1, 2, 3⟩⟩

theorem Sample.shift_rigid : IsRigid Sample.shift := ⟨by decide +kernel, by decide +kernel⟩

/-- The sample robot, with gravity and external forces, mounted at another place. -/
example : ∃ m m' : MBC ℚ, (Sample.mb.placed Sample.shift).WF ∧ (Sample.mb.placed Sample.shift).Rigid ∧
    Displaced Sample.shift Sample.mb (Sample.mb.placed Sample.shift) m.q m'.q ∧ SameState Sample.shift Sample.mb m m' ∧ m.Sized Sample.mb ∧
    m'.Sized (Sample.mb.placed Sample.shift) ∧ ValidQ Sample.mb m.q ∧ ValidQ (Sample.mb.placed Sample.shift) m'.q ∧ m.VelReady Sample.mb ∧
    m'.VelReady (Sample.mb.placed Sample.shift) ∧ m'.gravity = ⟨0, 0, 10⟩ ∧ m'.force = [0, ⟨⟨1, 2, 3⟩, ⟨4, 5, 6⟩⟩, 0, ⟨0, ⟨1, 0, 0⟩⟩] := by
  obtain ⟨h1, h2, h3⟩ := Sample.ready
  obtain ⟨wf', hr', hd⟩ := C72_placed Sample.wf Sample.shift_rigid Sample.mbcV.q
  have sz' : MBC.Sized (Sample.mb.placed Sample.shift) { Sample.mbcV with
      gravity := ⟨0, 0, 10⟩, force := [0, ⟨⟨1, 2, 3⟩, ⟨4, 5, 6⟩⟩, 0, ⟨0, ⟨1, 0, 0⟩⟩] } :=
    ⟨h2.q, h2.alpha, h2.alphaD, h2.jointTorque, by decide +kernel, h2.jointConfig, h2.jointVelocity, h2.motionSubspace,
      h2.bodyPosW, h2.parentToSon, h2.bodyVelW, h2.bodyVelB, h2.bodyAccB⟩
  obtain ⟨-, m', -, -, v', s', q', a', aD', f', g', t'⟩ := C24_velReady wf' (hr' Sample.rigid) sz' h3
  refine ⟨{ Sample.mbcV with
      gravity := ⟨0, 10, 0⟩, force := [0, Sample.shift.dualMul ⟨⟨1, 2, 3⟩, ⟨4, 5, 6⟩⟩, 0, Sample.shift.dualMul ⟨0, ⟨1, 0, 0⟩⟩] }, m', wf',
    hr' Sample.rigid, ?_, ⟨a', aD', t', ?_, ?_⟩,
    ⟨h2.q, h2.alpha, h2.alphaD, h2.jointTorque, by decide +kernel, h2.jointConfig, h2.jointVelocity, h2.motionSubspace,
      h2.bodyPosW, h2.parentToSon, h2.bodyVelW, h2.bodyVelB, h2.bodyAccB⟩, s', h3, ?_,
    ⟨⟨h1.parentToSon, h1.bodyPosW, h1.motionSubspace⟩, h1.jointVelocity, h1.bodyVelB, h1.bodyVelW⟩, v', g', f'⟩
  · rw [q']; exact hd
  · rw [g']; decide +kernel
  · rw [f']
    intro k hk
    have hk : k < 4 := hk
    obtain rfl | rfl | rfl | rfl : k = 0 ∨ k = 1 ∨ k = 2 ∨ k = 3 := by omega
    all_goals decide +kernel
  · rw [q']; exact h3

/-- Two configurations of the free root joint of the sample robot. -/
example : Sample.mb.OneRoot ∧ ValidQ Sample.mb Sample.q ∧ ValidQ Sample.mb (Sample.q.set 0 [0, 3 / 5, 0, 4 / 5, 7, 8, 9]) ∧
    ∀ i, i ≠ 0 → (Sample.q.set 0 [0, 3 / 5, 0, 4 / 5, 7, 8, 9])[i]? = Sample.q[i]? := by
  refine ⟨Sample.oneRoot, Sample.validQ, ?_, fun i hi => by rw [List.getElem?_set_ne (Ne.symm hi)]⟩
  have hj : Sample.mb.joints = Sample.joints := by decide +kernel
  unfold ValidQ
  rw [hj]
  refine .cons ⟨rfl, ?_⟩ (.cons ⟨rfl, trivial⟩ (.cons ⟨rfl, ?_⟩ (.cons ⟨rfl, trivial⟩ .nil)))
  · show (0 : ℚ) * 0 + 3 / 5 * (3 / 5) + 0 * 0 + 4 / 5 * (4 / 5) = 1
    norm_num
  · show (3 / 5 : ℚ) * (3 / 5) + 0 * 0 + 4 / 5 * (4 / 5) + 0 * 0 = 1
    norm_num

/-- The sample graph, mounted at two places. -/
example : ∃ mb, makeMultiBody Sample.gs.1 Sample.gs.2 "hand" .Fixed Vec3.unitZ Sample.gX 1 = .ok mb ∧
    makeMultiBody Sample.gs.1 Sample.gs.2 "hand" .Fixed Vec3.unitZ (Sample.gX * Sample.shift) 1 = .ok (mb.placed Sample.shift) ∧ mb.WF ∧
    mb.OneRoot :=
  C72_makeMultiBody Sample.gs_tree Sample.gs_built Sample.gs_hand .Fixed Vec3.unitZ Sample.gX 1 Sample.shift

end RBDyn
