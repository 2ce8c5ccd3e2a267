import Verif.Lemmas.SafeMore
import Verif.Props.Checked
import Verif.Props.CoM
import Verif.Props.Momentum
import Verif.Props.IDIM
import Verif.Props.Integration

/-!
C51 for the checked entry points of `CoM.cpp`, `Momentum.cpp`, `IDIM.cpp`, `IS.cpp` and `NumericalIntegration.cpp`. `Decides m P` says that `m`
returns if `P` holds and throws `std::domain_error` if not.
-/

namespace RBDyn
open Res
variable {K : Type} [Scalar K] {mb : MultiBody K}

/-- C51 for `sComputeCoM`, `sComputeCoMVelocity` and `sComputeCoMAcceleration` of a robot with mass. -/
theorem C51_com (hM : 0 < mb.totalMass) (mbc : MBC K) :
    Decides (sComputeCoM mb mbc) (mbc.bodyPosW.length = mb.nrBodies) ∧
    Decides (sComputeCoMVelocity mb mbc) (mbc.bodyPosW.length = mb.nrBodies ∧ mbc.bodyVelW.length = mb.nrBodies ∧
      mbc.bodyVelB.length = mb.nrBodies) ∧
    Decides (sComputeCoMAcceleration mb mbc) (mbc.bodyPosW.length = mb.nrBodies ∧ (mbc.bodyVelW.length = mb.nrBodies ∧
      mbc.bodyVelB.length = mb.nrBodies) ∧ mbc.bodyAccB.length = mb.nrBodies) := by
  refine ⟨((checkMatchBodyPos_decides mbc).seq fun hW => .done (computeCoM_safe hM hW)).congr ?_,
    ((checkMatchBodyPos_decides mbc).seq fun hW => (checkMatchBodyVel_decides mbc).seq fun hV =>
      .done (computeCoMVelocity_safe hM hW hV.2)).congr ?_,
    ((checkMatchBodyPos_decides mbc).seq fun hW => (checkMatchBodyVel_decides mbc).seq fun hV => (checkMatchBodyAcc_decides mbc).seq fun hA =>
      .done (computeCoMAcceleration_safe hM hW hV.1 hV.2 hA)).congr ?_⟩ <;> (unfold MultiBody.nrBodies; simp only [and_true])

/-- C51 for `CoMJacobianDummy`, whose object belongs to the robot. -/
theorem C51_com_jacobian_dummy (wf : mb.WF) (hM : 0 < mb.totalMass) (mbc : MBC K) {w : List K} {c : CoMDummy K} (hc : c.For mb w) :
    Decides (c.sJacobian mb mbc) (mbc.bodyPosW.length = mb.nrBodies ∧ mbc.motionSubspace.map List.length = mb.joints.map (·.dof)) ∧
    Decides (c.sJacobianDot mb mbc) (mbc.bodyPosW.length = mb.nrBodies ∧ (mbc.bodyVelW.length = mb.nrBodies ∧
      mbc.bodyVelB.length = mb.nrBodies) ∧ mbc.motionSubspace.map List.length = mb.joints.map (·.dof)) := by
  refine ⟨((checkMatchBodyPos_decides mbc).seq fun hW => (checkMatchMotionSubspace_decides wf mbc).seq fun hS =>
      .done (CoMDummy.jacobian_safe wf hW hS hM hc).exists_ok).congr ?_,
    ((checkMatchBodyPos_decides mbc).seq fun hW => (checkMatchBodyVel_decides mbc).seq fun hV =>
      (checkMatchMotionSubspace_decides wf mbc).seq fun hS =>
      .done (CoMDummy.jacobianDot_safe wf hW hS hV.2 hV.1 hM hc).exists_ok).congr ?_⟩ <;> (unfold MultiBody.nrBodies; simp only [and_true])

/-- C51 for `CoMJacobian`, whose object belongs to the robot: `sUpdateInertialParameters`, `sJacobian`, `sJacobianDot`, `sVelocity` and
`sNormalAcceleration` with given accelerations. -/
theorem C51_com_jacobian (wf : mb.WF) (mbc : MBC K) {w : List K} {c : CoMJac K} (hc : c.For mb w) (acc : List (MotionVec K)) :
    (∃ r, c.sUpdate mb = .ok r) ∧
    Decides (c.sJacobian mb mbc) (mbc.bodyPosW.length = mb.nrBodies ∧ mbc.motionSubspace.map List.length = mb.joints.map (·.dof)) ∧
    Decides (c.sJacobianDot mb mbc) (mbc.bodyPosW.length = mb.nrBodies ∧ (mbc.bodyVelW.length = mb.nrBodies ∧
      mbc.bodyVelB.length = mb.nrBodies) ∧ mbc.motionSubspace.map List.length = mb.joints.map (·.dof)) ∧
    Decides (c.sVelocity mb mbc) (mbc.bodyPosW.length = mb.nrBodies ∧ mbc.bodyVelW.length = mb.nrBodies ∧
      mbc.bodyVelB.length = mb.nrBodies) ∧
    Decides (c.sNormalAccelerationOf mb mbc acc) (mbc.bodyPosW.length = mb.nrBodies ∧ (mbc.bodyVelW.length = mb.nrBodies ∧
      mbc.bodyVelB.length = mb.nrBodies) ∧ acc.length = mb.nrBodies) := by
  refine ⟨?_, ((checkMatchBodyPos_decides mbc).seq fun hW => (checkMatchMotionSubspace_decides wf mbc).seq fun hS =>
      .done (CoMJac.jacobian_safe wf hW hS hc).exists_ok).congr ?_,
    ((checkMatchBodyPos_decides mbc).seq fun hW => (checkMatchBodyVel_decides mbc).seq fun hV =>
      (checkMatchMotionSubspace_decides wf mbc).seq fun hS =>
      .done (CoMJac.jacobianDot_safe wf hW hS hc hV.2 hV.1).exists_ok).congr ?_,
    ((checkMatchBodyPos_decides mbc).seq fun hW => (checkMatchBodyVel_decides mbc).seq fun hV =>
      .done (CoMJac.velocity_safe hW hV.2 hc).exists_ok).congr ?_,
    ((checkMatchBodyPos_decides mbc).seq fun hW => (checkMatchBodyVel_decides mbc).seq fun hV =>
      (checkMatchBodiesVector_decides acc).seq fun hA =>
      .done (CoMJac.normalAccelerationOf_safe hW hV.2 hV.1 hA hc).exists_ok).congr ?_⟩
  · unfold CoMJac.sUpdate MultiBody.nrBodies
    rw [if_neg (by rw [hc.coeff_length]; simp)]
    exact CoMJac.update_safe hc.coeff_length hc.com_length (by rw [hc.weight, hc.weights])
  all_goals unfold MultiBody.nrBodies; simp only [and_true]

/-- C51 for `sUpdateInertialParameters` and `sWeight` of an object of another robot with a different number of bodies. -/
theorem C51_com_jacobian_foreign {c : CoMJac K} (h : c.coeff.length ≠ mb.nrBodies) (w : List K) :
    c.sUpdate mb = .error .domainError ∧ c.sWeight mb w = .error .domainError := by
  unfold CoMJac.sUpdate CoMJac.sWeight
  rw [if_pos h, if_pos h]
  exact ⟨rfl, rfl⟩

/-- C51 for `CoMJacobian::sNormalAcceleration`, except that the size of `jointVelocity`, which is read, is not checked and has to be assumed (see
`C51_not_com_normal_acceleration`). -/
theorem C51_com_normal_acceleration_partial (wf : mb.WF) (mbc : MBC K) (hvj : mbc.jointVelocity.length = mb.nrJoints) {w : List K}
    {c : CoMJac K} (hc : c.For mb w) :
    Decides (c.sNormalAcceleration mb mbc) (mbc.bodyPosW.length = mb.nrBodies ∧ (mbc.bodyVelW.length = mb.nrBodies ∧
      mbc.bodyVelB.length = mb.nrBodies) ∧ mbc.jointConfig.length = mb.nrJoints ∧ mbc.parentToSon.length = mb.nrJoints) := by
  unfold MultiBody.nrJoints at *
  rw [wf.njoints] at *
  refine ((checkMatchBodyPos_decides mbc).seq fun hW => (checkMatchBodyVel_decides mbc).seq fun hV =>
    (checkMatchJointConf_decides wf mbc).seq fun _ => (checkMatchParentToSon_decides wf mbc).seq fun hX =>
    .done (CoMJac.normalAcceleration_safe wf hW hV.2 hV.1 hX hvj hc).exists_ok).congr ?_
  unfold MultiBody.nrBodies
  simp only [and_true]

/-- C51 for `sComputeCentroidalMomentum` and `sComputeCentroidalMomentumDot`. -/
theorem C51_momentum (mbc : MBC K) (com comDot : Vec3 K) :
    Decides (sComputeCentroidalMomentum mb mbc com) (mbc.bodyPosW.length = mb.nrBodies ∧ mbc.bodyVelW.length = mb.nrBodies ∧
      mbc.bodyVelB.length = mb.nrBodies) ∧
    Decides (sComputeCentroidalMomentumDot mb mbc com comDot) (mbc.bodyPosW.length = mb.nrBodies ∧ (mbc.bodyVelW.length = mb.nrBodies ∧
      mbc.bodyVelB.length = mb.nrBodies) ∧ mbc.bodyAccB.length = mb.nrBodies) := by
  refine ⟨((checkMatchBodyPos_decides mbc).seq fun hW => (checkMatchBodyVel_decides mbc).seq fun hV =>
      .done (momentum_safe hW hV.2 com).exists_ok).congr ?_,
    ((checkMatchBodyPos_decides mbc).seq fun hW => (checkMatchBodyVel_decides mbc).seq fun hV => (checkMatchBodyAcc_decides mbc).seq fun hA =>
      .done (momentumDot_safe hW hV.2 hA com comDot).exists_ok).congr ?_⟩ <;> (unfold MultiBody.nrBodies; simp only [and_true])

/-- C51 for `CentroidalMomentumMatrix`, whose object belongs to the robot: `sComputeMatrix`, `sComputeMatrixDot`, `sComputeMatrixAndMatrixDot`,
`sMomentum` and `sNormalMomentumDot` with given accelerations. -/
theorem C51_momentum_matrix (wf : mb.WF) (mbc : MBC K) {w : List K} {c : CMM K} (hc : c.For mb w) (com comDot : Vec3 K)
    (acc : List (MotionVec K)) :
    Decides (c.sComputeMatrix mb mbc com) (mbc.bodyPosW.length = mb.nrBodies ∧
      mbc.motionSubspace.map List.length = mb.joints.map (·.dof)) ∧
    Decides (c.sComputeMatrixDot mb mbc com comDot) (mbc.bodyPosW.length = mb.nrBodies ∧ (mbc.bodyVelW.length = mb.nrBodies ∧
      mbc.bodyVelB.length = mb.nrBodies) ∧ mbc.motionSubspace.map List.length = mb.joints.map (·.dof)) ∧
    Decides (c.sComputeMatrixAndMatrixDot mb mbc com comDot) (mbc.bodyPosW.length = mb.nrBodies ∧ (mbc.bodyVelW.length = mb.nrBodies ∧
      mbc.bodyVelB.length = mb.nrBodies) ∧ mbc.motionSubspace.map List.length = mb.joints.map (·.dof)) ∧
    Decides (c.sMomentum mb mbc com) (mbc.bodyPosW.length = mb.nrBodies ∧ mbc.bodyVelW.length = mb.nrBodies ∧
      mbc.bodyVelB.length = mb.nrBodies) ∧
    Decides (c.sNormalMomentumDotOf mb mbc com comDot acc) (mbc.bodyPosW.length = mb.nrBodies ∧ (mbc.bodyVelW.length = mb.nrBodies ∧
      mbc.bodyVelB.length = mb.nrBodies) ∧ acc.length = mb.nrBodies) := by
  refine ⟨((checkMatchBodyPos_decides mbc).seq fun hW => (checkMatchMotionSubspace_decides wf mbc).seq fun hS =>
      .done (CMM.computeMatrix_safe wf hW hS com hc).exists_ok).congr ?_,
    ((checkMatchBodyPos_decides mbc).seq fun hW => (checkMatchBodyVel_decides mbc).seq fun hV =>
      (checkMatchMotionSubspace_decides wf mbc).seq fun hS =>
      .done (CMM.computeMatrixDot_safe wf hW hS hV.2 com comDot hc).exists_ok).congr ?_,
    ((checkMatchBodyPos_decides mbc).seq fun hW => (checkMatchBodyVel_decides mbc).seq fun hV =>
      (checkMatchMotionSubspace_decides wf mbc).seq fun hS =>
      .done (CMM.computeMatrixAndMatrixDot_safe wf hW hS hV.2 com comDot hc).exists_ok).congr ?_,
    ((checkMatchBodyPos_decides mbc).seq fun hW => (checkMatchBodyVel_decides mbc).seq fun hV =>
      .done (CMM.momentum_safe hW hV.2 hc com).exists_ok).congr ?_,
    ((checkMatchBodyPos_decides mbc).seq fun hW => (checkMatchBodyVel_decides mbc).seq fun hV =>
      (checkMatchBodiesVector_decides acc).seq fun hA =>
      .done (CMM.normalMomentumDotOf_safe hW hV.2 hA (w := w) hc.weight_length com comDot).exists_ok).congr ?_⟩ <;>
    (unfold MultiBody.nrBodies; simp only [and_true])

/-- C51 for `CentroidalMomentumMatrix::sNormalMomentumDot`, except that the size of `jointVelocity`, which is read, is not checked and has to be
assumed (see `C51_not_normal_momentum`). -/
theorem C51_normal_momentum_partial (wf : mb.WF) (mbc : MBC K) (hvj : mbc.jointVelocity.length = mb.nrJoints) {w : List K}
    {c : CMM K} (hc : c.For mb w) (com comDot : Vec3 K) :
    Decides (c.sNormalMomentumDot mb mbc com comDot) (mbc.bodyPosW.length = mb.nrBodies ∧ (mbc.bodyVelW.length = mb.nrBodies ∧
      mbc.bodyVelB.length = mb.nrBodies) ∧ mbc.jointConfig.length = mb.nrJoints ∧ mbc.parentToSon.length = mb.nrJoints) := by
  unfold MultiBody.nrJoints at *
  rw [wf.njoints] at *
  refine ((checkMatchBodyPos_decides mbc).seq fun hW => (checkMatchBodyVel_decides mbc).seq fun hV =>
    (checkMatchJointConf_decides wf mbc).seq fun _ => (checkMatchParentToSon_decides wf mbc).seq fun hX =>
    .done (CMM.normalMomentumDot_safe wf hW hV.2 hX hvj hc com comDot).exists_ok).congr ?_
  unfold MultiBody.nrBodies
  simp only [and_true]

/-- C51 for `IDIM::sComputeY`, whose matrix has the size of the robot. -/
theorem C51_regressor (wf : mb.WF) (mbc : MBC K) {d : IDIM K} (hd : d.Y.rows = mb.nrDof ∧ d.Y.cols = mb.nrBodies * 10) :
    Decides (d.sComputeY mb mbc) (mbc.parentToSon.length = mb.nrBodies ∧ (mbc.bodyVelW.length = mb.nrBodies ∧
      mbc.bodyVelB.length = mb.nrBodies) ∧ mbc.motionSubspace.map List.length = mb.joints.map (·.dof) ∧
      mbc.bodyAccB.length = mb.nrBodies) := by
  refine ((checkMatchParentToSon_decides wf mbc).seq fun hX => (checkMatchBodyVel_decides mbc).seq fun hV =>
    (checkMatchMotionSubspace_decides wf mbc).seq fun hS => (checkMatchBodyAcc_decides mbc).seq fun hA =>
    .done (computeY_safe wf hX hS hV.2 hA hd).exists_ok).congr ?_
  unfold MultiBody.nrBodies
  simp only [and_true]

/-- C51 for `sInverseStatics`, whose work space has the size of the robot. -/
theorem C51_inverse_statics (wf : mb.WF) (mbc : MBC K) {d : ID K} (hd : d.f.length = mb.nrBodies) :
    Decides (sInverseStatics d mb mbc) (mbc.IDShape mb) := by
  refine ((idChecks_decides wf mbc).seq fun h => .done ?_).congr (by simp)
  obtain ⟨ha, hf, hC, hvj, hW, hX, hV, hS, hA, ht⟩ := h
  exact (inverseStatics_safe wf hX hW hf hA hS ht hd).exists_ok

/-- C51 for `sTranslateJacobian` and `sFullJacobian`. -/
theorem C51_translate (wf : mb.WF) (mbc : MBC K) {J : Jac K} (hJ : J.Fits mb) (hne : J.path ≠ []) {N : Nat} (hN : J.back = .ok N)
    (jac res : List (MotionVec K)) (point : Vec3 K) (A B : DMat K) :
    Decides (J.sTranslateJacobian jac mbc point res) (N < mbc.bodyPosW.length ∧ jac.length = J.jac.length ∧ res.length = J.jac.length) ∧
    Decides (J.sFullJacobian mb A B) ((A.cols = J.jac.length ∧ A.rows = 6) ∧ B.cols = mb.nrDof ∧ B.rows = 6) := by
  constructor
  · unfold Jac.sTranslateJacobian
    rw [hN, Res.bind_ok]
    constructor
    · rintro ⟨h1, h2, h3⟩
      rw [if_neg (by omega), if_neg (by omega), if_neg (by omega)]
      unfold Jac.translateJacobian translateCols
      rw [hN, Res.bind_ok]
      refine Safe.exists_ok (P := fun _ => True) ((Safe.rd h1).bind fun W _ => ?_)
      exact (Safe.range (fun r : List (MotionVec K) => r.length = jac.length) (by omega) fun i s hi hs =>
        (Safe.rd hi).bind fun _ _ => safe_wr hs hi _).mono fun _ _ => trivial
    · intro h
      split
      · rfl
      · split
        · rfl
        · split
          · rfl
          · exact absurd ⟨by omega, by omega, by omega⟩ h
  · unfold Jac.sFullJacobian
    refine ((checkPath_decides wf hne).seq (Q := (A.cols = J.jac.length ∧ A.rows = 6) ∧ B.cols = mb.nrDof ∧ B.rows = 6) fun _ => ?_).congr ?_
    · constructor
      · rintro ⟨⟨h1, h2⟩, h3, h4⟩
        rw [if_neg (by omega), if_neg (by omega)]
        exact (safe_fullJacobian wf hJ h2 (h1.trans hJ.jac) ⟨h4, h3⟩).exists_ok
      · intro h
        split
        · rfl
        · split
          · rfl
          · exact absurd ⟨⟨by omega, by omega⟩, by omega, by omega⟩ h
    · exact ⟨fun h => h.2, fun h => ⟨fun i hi => hJ.path i hi, h⟩⟩

/-- C51 for `sNormalAcceleration` and `sBodyNormalAcceleration` of the class `Jacobian` with given accelerations of the bodies. -/
theorem C51_jacobian_normal_acceleration_of (mbc : MBC K) {J : Jac K} (hJ : J.Fits mb) (hne : J.path ≠ []) (acc : List (MotionVec K))
    (Xbp : PTransform K) (Vbp : MotionVec K) :
    Decides (J.sNormalAccelerationV mb mbc acc) (mbc.bodyPosW.length = mb.nrBodies ∧ (mbc.bodyVelW.length = mb.nrBodies ∧
      mbc.bodyVelB.length = mb.nrBodies) ∧ acc.length = mb.nrBodies) ∧
    Decides (J.sNormalAccelerationVX mb mbc acc Xbp Vbp) (mbc.bodyPosW.length = mb.nrBodies ∧ (mbc.bodyVelW.length = mb.nrBodies ∧
      mbc.bodyVelB.length = mb.nrBodies) ∧ acc.length = mb.nrBodies) ∧
    Decides (J.sBodyNormalAccelerationV mb acc) (acc.length = mb.nrBodies) := by
  refine ⟨((checkMatchBodyPos_decides mbc).seq fun hW => (checkMatchBodyVel_decides mbc).seq fun hV =>
      (checkMatchBodiesVector_decides acc).seq fun hA => .done (m := J.normalAccelerationV mbc acc) ?_).congr ?_,
    ((checkMatchBodyPos_decides mbc).seq fun hW => (checkMatchBodyVel_decides mbc).seq fun hV =>
      (checkMatchBodiesVector_decides acc).seq fun hA => .done (m := J.normalAccelerationVX mbc acc Xbp Vbp) ?_).congr ?_,
    ((checkMatchBodiesVector_decides acc).seq fun hA => .done (m := J.bodyNormalAccelerationV acc) ?_).congr ?_⟩
  · exact Safe.exists_ok (P := fun _ => True) <| (back_safe hJ hne).bind fun N hN => (safe_len hA hN).bind fun _ _ =>
      (back_safe hJ hne).bind fun N hN => (safe_len hW hN).bind fun _ _ => (safe_len hV.1 hN).bind fun _ _ =>
      (safe_len hV.2 hN).bind fun _ _ => Safe.pure trivial
  · unfold MultiBody.nrBodies; simp only [and_true]
  · exact Safe.exists_ok (P := fun _ => True) <| (back_safe hJ hne).bind fun N hN => (safe_len hA hN).bind fun _ _ =>
      (back_safe hJ hne).bind fun N hN => (safe_len hV.2 hN).bind fun _ _ => Safe.pure trivial
  · unfold MultiBody.nrBodies; simp only [and_true]
  · exact Safe.exists_ok (P := fun _ => True) <| (back_safe hJ hne).bind fun N hN => (safe_len hA hN).bind fun _ _ => Safe.pure trivial
  · unfold MultiBody.nrBodies; simp only [and_true]

theorem normalAccB_safe {mbc : MBC K} {J : Jac K} (hJ : J.Fits mb) (hX : mbc.parentToSon.length = mb.bodies.length)
    (hvj : mbc.jointVelocity.length = mb.bodies.length) (hV : mbc.bodyVelB.length = mb.bodies.length) :
    Safe (normalAccB mbc J.path) fun _ => True :=
  Safe.range (fun _ => True) trivial fun k _ hk _ => (Safe.rd hk).bind fun i hi =>
    have hi := hJ.path i (List.mem_of_getElem? hi)
    (safe_len hX hi).bind fun _ _ => (safe_len hvj hi).bind fun _ _ => (safe_len hV hi).bind fun _ _ => Safe.pure trivial

/-- C51 for `sNormalAcceleration` and `sBodyNormalAcceleration` of the class `Jacobian`, except that the size of `jointVelocity` is not checked by
any of them, and the sizes of the velocities not by `sBodyNormalAcceleration`, and have to be assumed (see `C51_not_normal_acceleration`). -/
theorem C51_jacobian_normal_acceleration_partial (wf : mb.WF) (mbc : MBC K) (hvj : mbc.jointVelocity.length = mb.nrJoints) {J : Jac K}
    (hJ : J.Fits mb) (hne : J.path ≠ []) (Xbp : PTransform K) (Vbp : MotionVec K) :
    Decides (J.sNormalAcceleration mb mbc) (mbc.bodyPosW.length = mb.nrBodies ∧ (mbc.bodyVelW.length = mb.nrBodies ∧
      mbc.bodyVelB.length = mb.nrBodies) ∧ mbc.jointConfig.length = mb.nrJoints ∧ mbc.parentToSon.length = mb.nrJoints) ∧
    Decides (J.sNormalAccelerationX mb mbc Xbp Vbp) (mbc.bodyPosW.length = mb.nrBodies ∧ (mbc.bodyVelW.length = mb.nrBodies ∧
      mbc.bodyVelB.length = mb.nrBodies) ∧ mbc.jointConfig.length = mb.nrJoints ∧ mbc.parentToSon.length = mb.nrJoints) ∧
    (mbc.bodyVelB.length = mb.nrBodies →
      Decides (J.sBodyNormalAcceleration mb mbc) (mbc.jointConfig.length = mb.nrJoints ∧ mbc.parentToSon.length = mb.nrJoints)) := by
  unfold MultiBody.nrJoints at *
  rw [wf.njoints] at *
  refine ⟨((checkMatchBodyPos_decides mbc).seq fun hW => (checkMatchBodyVel_decides mbc).seq fun hV =>
      (checkMatchJointConf_decides wf mbc).seq fun _ => (checkMatchParentToSon_decides wf mbc).seq fun hX =>
      .done (m := J.normalAcceleration mbc) ?_).congr ?_,
    ((checkMatchBodyPos_decides mbc).seq fun hW => (checkMatchBodyVel_decides mbc).seq fun hV =>
      (checkMatchJointConf_decides wf mbc).seq fun _ => (checkMatchParentToSon_decides wf mbc).seq fun hX =>
      .done (m := J.normalAccelerationX mbc Xbp Vbp) ?_).congr ?_,
    fun hV => ((checkMatchJointConf_decides wf mbc).seq fun _ => (checkMatchParentToSon_decides wf mbc).seq fun hX =>
      .done (m := J.bodyNormalAcceleration mbc) ?_).congr ?_⟩
  · exact Safe.exists_ok (P := fun _ => True) <| (normalAccB_safe hJ hX hvj hV.2).bind fun _ _ =>
      (back_safe hJ hne).bind fun N hN => (safe_len hW hN).bind fun _ _ => (safe_len hV.1 hN).bind fun _ _ =>
      (safe_len hV.2 hN).bind fun _ _ => Safe.pure trivial
  · unfold MultiBody.nrBodies; simp only [and_true]
  · exact Safe.exists_ok (P := fun _ => True) <| (normalAccB_safe hJ hX hvj hV.2).bind fun _ _ =>
      (back_safe hJ hne).bind fun N hN => (safe_len hV.2 hN).bind fun _ _ => Safe.pure trivial
  · unfold MultiBody.nrBodies; simp only [and_true]
  · exact Safe.exists_ok (P := fun _ => True) <| (normalAccB_safe hJ hX hvj hV).bind fun _ _ => Safe.pure trivial
  · simp only [and_true]

/-- C51 for `sIntegration` and `sEulerIntegration`: with matching sizes, a positive precision and a step that is not negative they return for every
sufficient depth of the recursion; with other sizes they throw, whatever step and precision are. -/
theorem C51_integration {mb : MultiBody ℝ} (wf : mb.WF) (hb : ∀ j ∈ mb.joints, j.Built) (mbc : MBC ℝ) (step : ℝ) :
    (SizedQ mb mbc.q ∧ SizedDof mb mbc.alpha ∧ SizedDof mb mbc.alphaD → 0 ≤ step →
      (∃ N, ∀ fuel, N ≤ fuel → ∃ r, sEulerIntegration fuel mb mbc step = .ok r) ∧
      ∀ prec : ℝ, 0 < prec → ∃ N, ∀ fuel, N ≤ fuel → ∃ r, sIntegration fuel mb mbc step prec = .ok r) ∧
    (¬ (SizedQ mb mbc.q ∧ SizedDof mb mbc.alpha ∧ SizedDof mb mbc.alphaD) → ∀ fuel,
      sEulerIntegration fuel mb mbc step = .error .domainError ∧ ∀ prec, sIntegration fuel mb mbc step prec = .error .domainError) := by
  have key : ∀ (fuel : Nat) (prec : ℝ), (∀ h : SizedQ mb mbc.q ∧ SizedDof mb mbc.alpha ∧ SizedDof mb mbc.alphaD,
      sIntegration fuel mb mbc step prec = integration fuel mb mbc step prec) ∧
      (¬ (SizedQ mb mbc.q ∧ SizedDof mb mbc.alpha ∧ SizedDof mb mbc.alphaD) →
        sIntegration fuel mb mbc step prec = .error .domainError) := by
    intro fuel prec
    unfold sIntegration
    constructor
    · rintro ⟨h1, h2, h3⟩
      obtain ⟨⟨⟩, e1⟩ := (checkMatchQ_decides wf mbc).1 h1
      obtain ⟨⟨⟩, e2⟩ := (checkMatchAlpha_decides wf mbc).1 h2
      obtain ⟨⟨⟩, e3⟩ := (checkMatchAlphaD_decides wf mbc).1 h3
      rw [e1, Res.bind_ok, e2, Res.bind_ok, e3, Res.bind_ok]
    · intro h
      by_cases h1 : SizedQ mb mbc.q
      · obtain ⟨⟨⟩, e1⟩ := (checkMatchQ_decides wf mbc).1 h1
        rw [e1, Res.bind_ok]
        by_cases h2 : SizedDof mb mbc.alpha
        · obtain ⟨⟨⟩, e2⟩ := (checkMatchAlpha_decides wf mbc).1 h2
          rw [e2, Res.bind_ok, (checkMatchAlphaD_decides wf mbc).2 fun h3 => h ⟨h1, h2, h3⟩]
          rfl
        · rw [(checkMatchAlpha_decides wf mbc).2 h2]; rfl
      · rw [(checkMatchQ_decides wf mbc).2 h1]; rfl
  have ok : ∀ prec : ℝ, 0 < prec → SizedQ mb mbc.q ∧ SizedDof mb mbc.alpha ∧ SizedDof mb mbc.alphaD → 0 ≤ step →
      ∃ N, ∀ fuel, N ≤ fuel → ∃ r, sIntegration fuel mb mbc step prec = .ok r := by
    intro prec hp h hs
    obtain ⟨N, mbc', hN, -⟩ := C41_integration hb h.1 h.2.1 h.2.2 hp (.inl hs)
    exact ⟨N, fun fuel hf => ⟨mbc', ((key fuel prec).1 h).trans (hN fuel hf)⟩⟩
  exact ⟨fun h hs => ⟨ok _ (by norm_num) h hs, fun prec hp => ok prec hp h hs⟩,
    fun h fuel => ⟨(key fuel _).2 h, fun prec => (key fuel prec).2 h⟩⟩

/-! ### Checks that are missing -/

/-- C51 does not extend to `CentroidalMomentumMatrix::sNormalMomentumDot`, which does not check `jointVelocity`. -/
theorem C51_not_normal_momentum : ∃ (c : CMM ℚ) (mbc : MBC ℚ),
    CMM.mkOnes (fun _ => 0) (fun _ => 0) (fun _ _ => 0) Sample.mb = .ok c ∧ mbc.jointVelocity.length ≠ Sample.mb.nrJoints ∧
    c.sNormalMomentumDot Sample.mb mbc 0 0 = .error .ub := by
  obtain ⟨c, h1, h2⟩ := ok_and (m := CMM.mkOnes (fun _ => 0) (fun _ => 0) (fun _ _ => 0) Sample.mb)
    (fun c => isUb (c.sNormalMomentumDot Sample.mb { Sample.mbcV with jointVelocity := [] } 0 0)) (by decide +kernel)
  exact ⟨c, _, h1, by decide +kernel, of_isUb h2⟩

/-- The checked functions of `CoMJacobian` and `CentroidalMomentumMatrix` check the configuration but not the object: one built for a robot
without bodies is accepted for the sample robot, and read out of bounds. -/
theorem C51_not_foreign_object : ∃ (mb : MultiBody ℚ) (c : CoMJac ℚ) (d : CMM ℚ),
    CoMJac.mkOnes (fun _ => 0) (fun _ => 0) (fun _ => 1) (fun _ => 0) mb = .ok c ∧
    CMM.mkOnes (fun _ => 0) (fun _ => 0) (fun _ _ => 0) mb = .ok d ∧ Sample.mbcV.IDShape Sample.mb ∧
    c.sJacobian Sample.mb Sample.mbcV = .error .ub ∧ d.sComputeMatrix Sample.mb Sample.mbcV 0 = .error .ub := by
  obtain ⟨mb, h0, h0'⟩ := ok_and (m := MultiBody.mk' ([] : List (Body ℚ)) [] [] [] [] [])
    (fun mb => ((CoMJac.mkOnes (fun _ => 0) (fun _ => 0) (fun _ => 1) (fun _ => 0) mb).toOption.map
      fun c => isUb (c.sJacobian Sample.mb Sample.mbcV)).getD false &&
      ((CMM.mkOnes (fun _ => 0) (fun _ => 0) (fun _ _ => 0) mb).toOption.map
      fun c => isUb (c.sComputeMatrix Sample.mb Sample.mbcV 0)).getD false) (by decide +kernel)
  rw [Bool.and_eq_true] at h0'
  obtain ⟨c, h1, h2⟩ := ok_and _ h0'.1
  obtain ⟨d, h3, h4⟩ := ok_and _ h0'.2
  exact ⟨mb, c, d, h1, h3, Sample.id_shape, of_isUb h2, of_isUb h4⟩

/-! ### The hypotheses can be met -/

theorem Sample.massive : 0 < Sample.mb.totalMass := by decide +kernel

example : (∃ r, sComputeCoM Sample.mb Sample.mbcV = .ok r) ∧ (∃ r, sComputeCoMAcceleration Sample.mb Sample.mbcV = .ok r) ∧
    sComputeCoMVelocity Sample.mb { Sample.mbcV with bodyVelB := [0] } = .error .domainError := by
  obtain ⟨ha, hf, hC, hvj, hW, hX, hV, hS, hA, ht⟩ := Sample.id_shape
  exact ⟨(C51_com Sample.massive _).1.1 hW, (C51_com Sample.massive _).2.2.1 ⟨hW, hV, hA⟩, (C51_com Sample.massive _).2.1.2 (by decide +kernel)⟩

example : ∃ c d e, CoMDummy.mk' (fun _ => 0) (fun _ _ => 3) Sample.mb [1, 2, 0, 1] = .ok c ∧
    (∃ r, c.sJacobianDot Sample.mb Sample.mbcV = .ok r) ∧
    CoMJac.mk' (fun _ => 0) (fun _ => 7) (fun _ => 1) (fun _ => ⟨1, 2, 3⟩) Sample.mb [1, 2, 0, 1] = .ok d ∧
    (∃ r, d.sJacobian Sample.mb Sample.mbcV = .ok r) ∧ (∃ r, d.sNormalAcceleration Sample.mb Sample.mbcV = .ok r) ∧
    d.sVelocity Sample.mb { Sample.mbcV with bodyVelW := [] } = .error .domainError ∧
    CMM.mk' (fun _ => 0) (fun _ => 0) (fun _ _ => 3) Sample.mb [1, 2, 0, 1] = .ok e ∧
    (∃ r, e.sComputeMatrixAndMatrixDot Sample.mb Sample.mbcV ⟨1, 2, 3⟩ ⟨4, 5, 6⟩ = .ok r) ∧
    (∃ r, e.sNormalMomentumDot Sample.mb Sample.mbcV ⟨1, 2, 3⟩ ⟨4, 5, 6⟩ = .ok r) ∧
    e.sNormalMomentumDotOf Sample.mb Sample.mbcV ⟨1, 2, 3⟩ ⟨4, 5, 6⟩ [0] = .error .domainError := by
  obtain ⟨ha, hf, hC, hvj, hW, hX, hV, hS, hA, ht⟩ := Sample.id_shape
  obtain ⟨c, ec, hc⟩ := CoMDummy.mk'_for Sample.wf Sample.names (fun _ => 0) (fun _ _ => 3) (w := [1, 2, 0, 1]) rfl
  obtain ⟨d, ed, hd⟩ := CoMJac.mk'_for Sample.wf (fun _ => 0) (fun _ => 7) (fun _ => 1) (fun _ => ⟨1, 2, 3⟩) (w := [1, 2, 0, 1]) rfl
  obtain ⟨e, ee, he⟩ := (C40_constructor Sample.wf Sample.names (fun _ => 0) (fun _ => 0) (fun _ _ => 3) [1, 2, 0, 1]).1 rfl
  exact ⟨c, d, e, ec, (C51_com_jacobian_dummy Sample.wf Sample.massive _ hc).2.1 ⟨hW, hV, hS⟩, ed,
    (C51_com_jacobian Sample.wf _ hd []).2.1.1 ⟨hW, hS⟩, (C51_com_normal_acceleration_partial Sample.wf _ hvj hd).1 ⟨hW, hV, hC, hX⟩,
    (C51_com_jacobian Sample.wf _ hd []).2.2.2.1.2 (by decide +kernel), ee,
    (C51_momentum_matrix Sample.wf _ he _ _ []).2.2.1.1 ⟨hW, hV, hS⟩, (C51_normal_momentum_partial Sample.wf _ hvj he _ _).1 ⟨hW, hV, hC, hX⟩,
    (C51_momentum_matrix Sample.wf _ he _ _ [0]).2.2.2.2.2 (by decide +kernel)⟩

example : (∃ r, (IDIM.mk' Sample.mb).sComputeY Sample.mb Sample.mbcV = .ok r) ∧
    (IDIM.mk' Sample.mb).sComputeY Sample.mb { Sample.mbcV with bodyAccB := [0] } = .error .domainError ∧
    (∃ r, sInverseStatics Sample.id Sample.mb Sample.mbcV = .ok r) := by
  obtain ⟨ha, hf, hC, hvj, hW, hX, hV, hS, hA, ht⟩ := Sample.id_shape
  exact ⟨(C51_regressor Sample.wf _ ⟨rfl, rfl⟩).1 ⟨hX, hV, hS, hA⟩, (C51_regressor Sample.wf _ ⟨rfl, rfl⟩).2 (by decide +kernel),
    (C51_inverse_statics Sample.wf _ (by decide +kernel)).1 Sample.id_shape⟩

example : ∃ N, Sample.handJac.back = .ok N ∧ ∃ r, Sample.handJac.sTranslateJacobian Sample.handJac.jac Sample.mbcV ⟨1, 2, 3⟩ Sample.handJac.jac = .ok r := by
  obtain ⟨J, hJ, hof⟩ := C34_constructor Sample.wf (fun _ => 0) (N := 2) (name := "hand") (by decide +kernel) (by decide +kernel) ⟨1, 2, 3⟩
  have e : Sample.handJac = J := by unfold Sample.handJac; rw [hJ]; rfl
  rw [e]
  have hb : J.back = .ok 2 := by rw [← e]; decide +kernel
  exact ⟨2, hb, (C51_translate Sample.wf _ hof.toFits hof.path_ne hb _ _ _ ⟨0, 0, fun _ _ => 0⟩ ⟨0, 0, fun _ _ => 0⟩).1.1
    ⟨by decide +kernel, rfl, rfl⟩⟩

example : ∃ J, Jac.mk' (fun _ => 0) Sample.mb "hand" (⟨1, 2, 3⟩ : Vec3 ℚ) = .ok J ∧ (∃ r, J.sNormalAcceleration Sample.mb Sample.mbcV = .ok r) ∧
    (∃ r, J.sBodyNormalAcceleration Sample.mb Sample.mbcV = .ok r) ∧ J.sBodyNormalAccelerationV Sample.mb [0] = .error .domainError := by
  obtain ⟨J, hJ, hof⟩ := C34_constructor Sample.wf (fun _ => 0) (N := 2) (name := "hand") (by decide +kernel) (by decide +kernel) ⟨1, 2, 3⟩
  obtain ⟨ha, hf, hC, hvj, hW, hX, hV, hS, hA, ht⟩ := Sample.id_shape
  exact ⟨J, hJ, (C51_jacobian_normal_acceleration_partial Sample.wf _ hvj hof.toFits hof.path_ne 1 0).1.1 ⟨hW, hV, hC, hX⟩,
    ((C51_jacobian_normal_acceleration_partial Sample.wf _ hvj hof.toFits hof.path_ne 1 0).2.2 hV.2).1 ⟨hC, hX⟩,
    (C51_jacobian_normal_acceleration_of Sample.mbcV hof.toFits hof.path_ne [0] 1 0).2.2.2 (by decide +kernel)⟩

end RBDyn
