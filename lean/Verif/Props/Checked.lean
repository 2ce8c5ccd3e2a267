import Verif.Lemmas.Safe
import Verif.Lemmas.JacFull
import Verif.Model.IK
import Verif.Model.CoM
import Verif.Model.Momentum
import Verif.Props.Dynamics
import Verif.Props.Jacobian

/-!
C51: the checked entry points throw `std::domain_error` exactly on the configurations whose sizes do not fit, and otherwise run without any
access out of bounds. Nothing is assumed about the values in the configuration: the matrices need not be rotations, the quaternions need not
be normalised and the fields need not belong together.
-/

namespace RBDyn
open Res
variable {K : Type} [Scalar K] {mb : MultiBody K}

private instance : Inhabited (PTransform K) := ⟨1⟩
private instance : Inhabited (MotionVec K) := ⟨0⟩

/-- C51 for `sForwardKinematics`, without one field: the size of `motionSubspace`, which `forwardKinematics` writes, is not checked, so that it has to
be assumed (see `C51_not_kinematics`). -/
theorem C51_kinematics_partial (wf : mb.WF) (mbc : MBC K) (hS : mbc.motionSubspace.length = mb.nrJoints) :
    (SizedQ mb mbc.q ∧ mbc.bodyPosW.length = mb.nrBodies ∧ mbc.jointConfig.length = mb.nrJoints ∧
        mbc.parentToSon.length = mb.nrJoints → ∃ r, sForwardKinematics mb mbc = .ok r) ∧
      (¬ (SizedQ mb mbc.q ∧ mbc.bodyPosW.length = mb.nrBodies ∧ mbc.jointConfig.length = mb.nrJoints ∧
        mbc.parentToSon.length = mb.nrJoints) → sForwardKinematics mb mbc = .error .domainError) := by
  unfold MultiBody.nrJoints at *
  rw [wf.njoints] at *
  refine ((checkMatchQ_decides wf mbc).seq fun hq => (checkMatchBodyPos_decides mbc).seq fun hW =>
    (checkMatchJointConf_decides wf mbc).seq fun hC => (checkMatchParentToSon_decides wf mbc).seq fun hX =>
    .done ⟨_, fk_eq wf hq hC hX hS hW⟩).congr ?_
  unfold MultiBody.nrBodies
  simp only [and_true]

/-- C51 for `sForwardVelocity`. -/
theorem C51_velocity (wf : mb.WF) (mbc : MBC K) :
    (SizedDof mb mbc.alpha ∧ mbc.bodyPosW.length = mb.nrBodies ∧ mbc.jointConfig.length = mb.nrBodies ∧
        mbc.parentToSon.length = mb.nrBodies ∧ (mbc.bodyVelW.length = mb.nrBodies ∧ mbc.bodyVelB.length = mb.nrBodies) ∧
        mbc.jointVelocity.length = mb.nrBodies ∧ mbc.motionSubspace.map List.length = mb.joints.map (·.dof) →
        ∃ r, sForwardVelocity mb mbc = .ok r) ∧
      (¬ (SizedDof mb mbc.alpha ∧ mbc.bodyPosW.length = mb.nrBodies ∧ mbc.jointConfig.length = mb.nrBodies ∧
        mbc.parentToSon.length = mb.nrBodies ∧ (mbc.bodyVelW.length = mb.nrBodies ∧ mbc.bodyVelB.length = mb.nrBodies) ∧
        mbc.jointVelocity.length = mb.nrBodies ∧ mbc.motionSubspace.map List.length = mb.joints.map (·.dof)) →
        sForwardVelocity mb mbc = .error .domainError) := by
  refine ((checkMatchAlpha_decides wf mbc).seq fun ha => (checkMatchBodyPos_decides mbc).seq fun hW =>
    (checkMatchJointConf_decides wf mbc).seq fun hC => (checkMatchParentToSon_decides wf mbc).seq fun hX =>
    (checkMatchBodyVel_decides mbc).seq fun hV => (checkMatchJointVelocity_decides wf mbc).seq fun hvj =>
    (checkMatchMotionSubspace_decides wf mbc).seq fun _ =>
    .done ⟨_, fv_eq wf ha (filled_of_length hX) (filled_of_length hW) hvj hV.2 hV.1⟩).congr ?_
  unfold MultiBody.nrBodies
  simp only [and_true]

/-- C51 for `sForwardAcceleration`. -/
theorem C51_acceleration (wf : mb.WF) (mbc : MBC K) (A0 : MotionVec K) :
    (SizedDof mb mbc.alphaD ∧ mbc.parentToSon.length = mb.nrBodies ∧ mbc.jointVelocity.length = mb.nrBodies ∧
        (mbc.bodyVelW.length = mb.nrBodies ∧ mbc.bodyVelB.length = mb.nrBodies) ∧ mbc.bodyAccB.length = mb.nrBodies →
        ∃ r, sForwardAcceleration mb mbc A0 = .ok r) ∧
      (¬ (SizedDof mb mbc.alphaD ∧ mbc.parentToSon.length = mb.nrBodies ∧ mbc.jointVelocity.length = mb.nrBodies ∧
        (mbc.bodyVelW.length = mb.nrBodies ∧ mbc.bodyVelB.length = mb.nrBodies) ∧ mbc.bodyAccB.length = mb.nrBodies) →
        sForwardAcceleration mb mbc A0 = .error .domainError) := by
  refine ((checkMatchAlphaD_decides wf mbc).seq fun ha => (checkMatchParentToSon_decides wf mbc).seq fun hX =>
    (checkMatchJointVelocity_decides wf mbc).seq fun hvj => (checkMatchBodyVel_decides mbc).seq fun hV =>
    (checkMatchBodyAcc_decides mbc).seq fun hA =>
    .done ⟨_, fa_eq wf A0 ha (filled_of_length hX) (filled_of_length hV.2) (filled_of_length hvj) hA⟩).congr ?_
  unfold MultiBody.nrBodies
  simp only [and_true]

/-- The sizes that `sInverseDynamics` asks for. -/
def MBC.IDShape (mb : MultiBody K) (mbc : MBC K) : Prop :=
  SizedDof mb mbc.alphaD ∧ mbc.force.length = mb.nrBodies ∧ mbc.jointConfig.length = mb.nrBodies ∧
    mbc.jointVelocity.length = mb.nrBodies ∧ mbc.bodyPosW.length = mb.nrBodies ∧ mbc.parentToSon.length = mb.nrBodies ∧
    (mbc.bodyVelW.length = mb.nrBodies ∧ mbc.bodyVelB.length = mb.nrBodies) ∧
    mbc.motionSubspace.map List.length = mb.joints.map (·.dof) ∧ mbc.bodyAccB.length = mb.nrBodies ∧ SizedDof mb mbc.jointTorque

theorem idChecks_decides (wf : mb.WF) (mbc : MBC K) : Decides (idChecks mb mbc) (mbc.IDShape mb) :=
  (checkMatchAlphaD_decides wf mbc).seq fun _ => (checkMatchForce_decides mbc).seq fun _ =>
    (checkMatchJointConf_decides wf mbc).seq fun _ => (checkMatchJointVelocity_decides wf mbc).seq fun _ =>
    (checkMatchBodyPos_decides mbc).seq fun _ => (checkMatchParentToSon_decides wf mbc).seq fun _ =>
    (checkMatchBodyVel_decides mbc).seq fun _ => (checkMatchMotionSubspace_decides wf mbc).seq fun _ =>
    (checkMatchBodyAcc_decides mbc).seq fun _ => checkMatchJointTorque_decides wf mbc

/-- C51 for `sInverseDynamics`, for an object of the class made for a robot with as many bodies. -/
theorem C51_inverse_dynamics (wf : mb.WF) (mbc : MBC K) {d : ID K} (hd : d.f.length = mb.nrBodies) :
    (mbc.IDShape mb → ∃ r, d.sInverseDynamics mb mbc = .ok r) ∧
      (¬ mbc.IDShape mb → d.sInverseDynamics mb mbc = .error .domainError) :=
  ((idChecks_decides wf mbc).seq fun ⟨ha, hf, _, hvj, hW, hX, hV, hS, hA, ht⟩ =>
    .done (inverseDynamics_safe wf hX hvj ha hV.2 hW hf hA hS ht hd).exists_ok).congr (by simp)

/-- C51 for `sInverseDynamicsNoInertia`. -/
theorem C51_inverse_dynamics_no_inertia (wf : mb.WF) (mbc : MBC K) {d : ID K} (hd : d.f.length = mb.nrBodies) :
    (mbc.IDShape mb → ∃ r, d.sInverseDynamicsNoInertia mb mbc = .ok r) ∧
      (¬ mbc.IDShape mb → d.sInverseDynamicsNoInertia mb mbc = .error .domainError) :=
  ((idChecks_decides wf mbc).seq fun ⟨_, hf, _, _, hW, hX, _, hS, _, ht⟩ =>
    .done (inverseDynamicsNoInertia_safe wf hX hW hf hS ht hd).exists_ok).congr (by simp)

/-- The sizes that `sComputeC` asks for. -/
def MBC.CShape (mb : MultiBody K) (mbc : MBC K) : Prop :=
  mbc.parentToSon.length = mb.nrBodies ∧ mbc.motionSubspace.map List.length = mb.joints.map (·.dof) ∧
    mbc.jointVelocity.length = mb.nrBodies ∧ (mbc.bodyVelW.length = mb.nrBodies ∧ mbc.bodyVelB.length = mb.nrBodies) ∧
    mbc.bodyPosW.length = mb.nrBodies ∧ mbc.force.length = mb.nrBodies

/-- C51 for `sForwardDynamics`, for an object of the class made for this robot (`C27_constructor`) and a linear solver that returns as many
entries as the matrix has columns. -/
theorem C51_forward_dynamics (wf : mb.WF) (mbc : MBC K) {d : FD K} (hd : d.Fits mb) {solve : DMat K → List K → List K}
    (hsolve : ∀ m v, (solve m v).length = m.cols) :
    (mbc.CShape mb ∧ SizedDof mb mbc.jointTorque ∧ SizedDof mb mbc.alphaD → ∃ r, d.sForwardDynamics solve mb mbc = .ok r) ∧
      (¬ (mbc.CShape mb ∧ SizedDof mb mbc.jointTorque ∧ SizedDof mb mbc.alphaD) →
        d.sForwardDynamics solve mb mbc = .error .domainError) := by
  refine ((checkMatchParentToSon_decides wf mbc).seq fun hX => (checkMatchMotionSubspace_decides wf mbc).seq fun hS =>
    (checkMatchJointVelocity_decides wf mbc).seq fun hvj => (checkMatchBodyVel_decides mbc).seq fun hV =>
    (checkMatchBodyPos_decides mbc).seq fun hW => (checkMatchForce_decides mbc).seq fun hf =>
    (checkMatchJointTorque_decides wf mbc).seq fun ht => (checkMatchAlphaD_decides wf mbc).seq fun ha =>
    .done (forwardDynamics_safe wf hsolve hX hS hvj hV.2 hW hf ht ha hd).exists_ok).congr ?_
  unfold MBC.CShape MultiBody.nrBodies
  simp only [and_true, and_assoc]

/-- C51 for `sComputeH`. -/
theorem C51_compute_H (wf : mb.WF) (mbc : MBC K) {d : FD K} (hd : d.Fits mb) :
    (mbc.parentToSon.length = mb.nrBodies ∧ mbc.motionSubspace.map List.length = mb.joints.map (·.dof) →
        ∃ r, d.sComputeH mb mbc = .ok r) ∧
      (¬ (mbc.parentToSon.length = mb.nrBodies ∧ mbc.motionSubspace.map List.length = mb.joints.map (·.dof)) →
        d.sComputeH mb mbc = .error .domainError) :=
  ((checkMatchParentToSon_decides wf mbc).seq fun hX => (checkMatchMotionSubspace_decides wf mbc).seq fun hS =>
    .done (computeH_safe wf hX hS hd).exists_ok).congr (by unfold MultiBody.nrBodies; simp)

/-- C51 for `sComputeC`. -/
theorem C51_compute_C (wf : mb.WF) (mbc : MBC K) {d : FD K} (hd : d.Fits mb) :
    (mbc.CShape mb → ∃ r, d.sComputeC mb mbc = .ok r) ∧ (¬ mbc.CShape mb → d.sComputeC mb mbc = .error .domainError) := by
  refine ((checkMatchParentToSon_decides wf mbc).seq fun hX => (checkMatchMotionSubspace_decides wf mbc).seq fun hS =>
    (checkMatchJointVelocity_decides wf mbc).seq fun hvj => (checkMatchBodyVel_decides mbc).seq fun hV =>
    (checkMatchBodyPos_decides mbc).seq fun hW => (checkMatchForce_decides mbc).seq fun hf =>
    .done (computeC_safe wf hX hS hvj hV.2 hW hf hd).exists_ok).congr ?_
  unfold MBC.CShape MultiBody.nrBodies
  simp only [and_true, and_assoc]

/-- C51 for `sJacobian`, both forms, `sBodyJacobian`, `sVectorJacobian` and `sVectorBodyJacobian`, for a `Jacobian` object with a non-empty path
whose buffers have the right size for this robot (`C34_constructor`). -/
theorem C51_jacobian (wf : mb.WF) (mbc : MBC K) {J : Jac K} (hJ : J.Fits mb) (hne : J.path ≠ [])
    (href : J.refBodyIndex < mb.nrBodies) (X0p : PTransform K) (v : Vec3 K) :
    (mbc.bodyPosW.length = mb.nrBodies ∧ mbc.motionSubspace.map List.length = mb.joints.map (·.dof) →
        (∃ r, J.sJacobian mb mbc = .ok r) ∧ (∃ r, J.sJacobianX mb mbc X0p = .ok r) ∧ (∃ r, J.sBodyJacobian mb mbc = .ok r) ∧
        (∃ r, J.sVectorJacobian mb mbc v = .ok r) ∧ ∃ r, J.sVectorBodyJacobian mb mbc v = .ok r) ∧
      (¬ (mbc.bodyPosW.length = mb.nrBodies ∧ mbc.motionSubspace.map List.length = mb.joints.map (·.dof)) →
        J.sJacobian mb mbc = .error .domainError ∧ J.sJacobianX mb mbc X0p = .error .domainError ∧
        J.sBodyJacobian mb mbc = .error .domainError ∧ J.sVectorJacobian mb mbc v = .error .domainError ∧
        J.sVectorBodyJacobian mb mbc v = .error .domainError) := by
  have key : ∀ {k : Res (Jac K)}, (mbc.bodyPosW.length = mb.bodies.length → mbc.motionSubspace.map List.length = mb.joints.map (·.dof) →
      ∃ r, k = .ok r) → Decides (do checkMatchBodyPos mb mbc; checkMatchMotionSubspace mb mbc; J.checkPath mb; k)
        (mbc.bodyPosW.length = mb.nrBodies ∧ mbc.motionSubspace.map List.length = mb.joints.map (·.dof)) := fun hk =>
    ((checkMatchBodyPos_decides mbc).seq fun hW => (checkMatchMotionSubspace_decides wf mbc).seq fun hS =>
      (checkPath_decides wf hne).seq fun _ => .done (hk hW hS)).congr (by
        unfold MultiBody.nrBodies
        have : (∀ i ∈ J.path, i < mb.bodies.length) := hJ.path
        exact ⟨fun h => ⟨h.1, h.2.1⟩, fun h => ⟨h.1, h.2, this, trivial⟩⟩)
  have k1 := key fun hW hS => (jacobian_safe wf hW hS hJ hne href).exists_ok
  have k2 := key fun hW hS => (jacobianX_safe wf hW hS hJ href X0p).exists_ok
  have k3 := key fun hW hS => (bodyJacobian_safe wf hW hS hJ hne).exists_ok
  have k4 := key fun hW hS => (vectorJacobian_safe wf hW hS hJ hne v).exists_ok
  have k5 := key fun hW hS => (vectorBodyJacobian_safe wf hW hS hJ hne v).exists_ok
  exact ⟨fun h => ⟨k1.1 h, k2.1 h, k3.1 h, k4.1 h, k5.1 h⟩, fun h => ⟨k1.2 h, k2.2 h, k3.2 h, k4.2 h, k5.2 h⟩⟩

/-- C51 for `sJacobianDot` and `sBodyJacobianDot`. -/
theorem C51_jacobian_dot (wf : mb.WF) (mbc : MBC K) {J : Jac K} (hJ : J.Fits mb) (hne : J.path ≠ []) :
    (mbc.bodyPosW.length = mb.nrBodies ∧ (mbc.bodyVelW.length = mb.nrBodies ∧ mbc.bodyVelB.length = mb.nrBodies) ∧
        mbc.motionSubspace.map List.length = mb.joints.map (·.dof) →
        (∃ r, J.sJacobianDot mb mbc = .ok r) ∧ ∃ r, J.sBodyJacobianDot mb mbc = .ok r) ∧
      (¬ (mbc.bodyPosW.length = mb.nrBodies ∧ (mbc.bodyVelW.length = mb.nrBodies ∧ mbc.bodyVelB.length = mb.nrBodies) ∧
        mbc.motionSubspace.map List.length = mb.joints.map (·.dof)) →
        J.sJacobianDot mb mbc = .error .domainError ∧ J.sBodyJacobianDot mb mbc = .error .domainError) := by
  have hp : (∀ i ∈ J.path, i < mb.bodies.length) := hJ.path
  have k1 := ((checkMatchBodyPos_decides mbc).seq fun hW => (checkMatchBodyVel_decides mbc).seq fun hV =>
    (checkMatchMotionSubspace_decides wf mbc).seq fun hS => (checkPath_decides wf hne).seq fun _ =>
      .done (jacobianDot_safe wf hW hV.2 hV.1 hS hJ hne).exists_ok)
  have k2 := ((checkMatchBodyPos_decides mbc).seq fun hW => (checkMatchBodyVel_decides mbc).seq fun hV =>
    (checkMatchMotionSubspace_decides wf mbc).seq fun hS => (checkPath_decides wf hne).seq fun _ =>
      .done (bodyJacobianDot_safe wf hW hV.2 hS hJ hne).exists_ok)
  unfold MultiBody.nrBodies
  refine ⟨fun h => ⟨k1.1 ⟨h.1, h.2.1, h.2.2, hp, trivial⟩, k2.1 ⟨h.1, h.2.1, h.2.2, hp, trivial⟩⟩, fun h => ⟨k1.2 ?_, k2.2 ?_⟩⟩ <;>
    exact fun h' => h ⟨h'.1, h'.2.1, h'.2.2.1⟩

/-- C51: a `Jacobian` object whose path leads outside of the robot is refused whatever the configuration is. -/
theorem C51_jacobian_foreign (wf : mb.WF) (mbc : MBC K) {J : Jac K} {i : Nat} (hi : i ∈ J.path) (hlt : mb.nrBodies ≤ i)
    (X0p : PTransform K) (v : Vec3 K) :
    J.sJacobian mb mbc = .error .domainError ∧ J.sJacobianX mb mbc X0p = .error .domainError ∧
      J.sBodyJacobian mb mbc = .error .domainError ∧ J.sVectorJacobian mb mbc v = .error .domainError ∧
      J.sVectorBodyJacobian mb mbc v = .error .domainError ∧ J.sJacobianDot mb mbc = .error .domainError ∧
      J.sBodyJacobianDot mb mbc = .error .domainError ∧ J.sSubMultiBody mb = .error .domainError := by
  have hne : J.path ≠ [] := List.ne_nil_of_mem hi
  have hbad : ¬ ∀ i ∈ J.path, i < mb.bodies.length := fun h => absurd (h i hi) (not_lt.2 hlt)
  have key : ∀ {α : Type} {k : Res α}, Decides (do J.checkPath mb; k) False := fun {α k} =>
    ⟨False.elim, fun _ => by rw [(checkPath_decides wf hne).2 hbad]; rfl⟩
  have k1 : ∀ {k : Res (Jac K)}, (do checkMatchBodyPos mb mbc; checkMatchMotionSubspace mb mbc; J.checkPath mb; k) = .error .domainError :=
    fun {k} => ((checkMatchBodyPos_decides mbc).seq fun _ => (checkMatchMotionSubspace_decides wf mbc).seq fun _ => key).2 fun h => h.2.2
  have k2 : ∀ {k : Res (Jac K)}, (do checkMatchBodyPos mb mbc; checkMatchBodyVel mb mbc; checkMatchMotionSubspace mb mbc
                                     J.checkPath mb; k) = .error .domainError :=
    fun {k} => ((checkMatchBodyPos_decides mbc).seq fun _ => (checkMatchBodyVel_decides mbc).seq fun _ =>
      (checkMatchMotionSubspace_decides wf mbc).seq fun _ => key).2 fun h => h.2.2.2
  exact ⟨k1, k1, k1, k1, k1, k2, k2, key.2 id⟩

/-- C51 for `sVelocity`, both forms, and `sBodyVelocity`. -/
theorem C51_jacobian_velocity (mbc : MBC K) {J : Jac K} (hJ : J.Fits mb) (hne : J.path ≠ []) (Xbp : PTransform K) :
    ((mbc.bodyPosW.length = mb.nrBodies ∧ mbc.bodyVelW.length = mb.nrBodies ∧ mbc.bodyVelB.length = mb.nrBodies →
        (∃ r, J.sVelocity mb mbc = .ok r) ∧ ∃ r, J.sVelocityX mb mbc Xbp = .ok r) ∧
      (¬ (mbc.bodyPosW.length = mb.nrBodies ∧ mbc.bodyVelW.length = mb.nrBodies ∧ mbc.bodyVelB.length = mb.nrBodies) →
        J.sVelocity mb mbc = .error .domainError ∧ J.sVelocityX mb mbc Xbp = .error .domainError)) ∧
    ((mbc.bodyVelW.length = mb.nrBodies ∧ mbc.bodyVelB.length = mb.nrBodies → ∃ r, J.sBodyVelocity mb mbc = .ok r) ∧
      (¬ (mbc.bodyVelW.length = mb.nrBodies ∧ mbc.bodyVelB.length = mb.nrBodies) →
        J.sBodyVelocity mb mbc = .error .domainError)) := by
  have k1 := ((checkMatchBodyPos_decides (mb := mb) mbc).seq fun hW => (checkMatchBodyVel_decides (mb := mb) mbc).seq fun hV =>
    .done (m := J.velocity mbc) <| Safe.exists_ok (P := fun _ => True) <| (back_safe hJ hne).bind fun N hN =>
      (safe_len hW hN).bind fun _ _ => (safe_len hV.2 hN).bind fun _ _ => Safe.pure trivial)
  have k2 := ((checkMatchBodyPos_decides (mb := mb) mbc).seq fun hW => (checkMatchBodyVel_decides (mb := mb) mbc).seq fun hV =>
    .done (m := J.velocityX mbc Xbp) <| Safe.exists_ok (P := fun _ => True) <| (back_safe hJ hne).bind fun N hN =>
      (safe_len hV.2 hN).bind fun _ _ => Safe.pure trivial)
  have k3 := ((checkMatchBodyVel_decides (mb := mb) mbc).seq fun hV =>
    .done (m := J.bodyVelocity mbc) <| Safe.exists_ok (P := fun _ => True) <| (back_safe hJ hne).bind fun N hN =>
      (safe_len hV.2 hN).bind fun _ _ => Safe.pure trivial)
  unfold MultiBody.nrBodies
  exact ⟨⟨fun h => ⟨k1.1 ⟨h.1, h.2, trivial⟩, k2.1 ⟨h.1, h.2, trivial⟩⟩,
    fun h => ⟨k1.2 fun h' => h ⟨h'.1, h'.2.1⟩, k2.2 fun h' => h ⟨h'.1, h'.2.1⟩⟩⟩,
    fun h => k3.1 ⟨h, trivial⟩, fun h => k3.2 fun h' => h h'.1⟩

/-! ### Checks that are missing -/

/-- Whether a result is undefined behaviour. -/
def isUb {α : Type} (m : Res α) : Bool := match m with | .error e => decide (e = .ub) | .ok _ => false

theorem of_isUb {α : Type} {m : Res α} (h : isUb m = true) : m = .error .ub := by
  unfold isUb at h
  split at h
  · simpa using h
  · cases h

theorem ok_and {α : Type} {m : Res α} (p : α → Bool) (h : (m.toOption.map p).getD false = true) : ∃ a, m = .ok a ∧ p a = true := by
  cases m with
  | error e => simp [Except.toOption] at h
  | ok a => exact ⟨a, rfl, by simpa [Except.toOption] using h⟩

/-- The sample configuration meets all size requirements. -/
theorem Sample.id_shape : Sample.mbcV.IDShape Sample.mb := by
  unfold MBC.IDShape SizedDof
  decide +kernel

/-- C51 fails for `sForwardKinematics`: a configuration without `motionSubspace`, all other sizes right, is accepted and then written out of
bounds. -/
theorem C51_not_kinematics : ∃ mbc : MBC ℚ, SizedQ Sample.mb mbc.q ∧ mbc.bodyPosW.length = Sample.mb.nrBodies ∧
    mbc.jointConfig.length = Sample.mb.nrJoints ∧ mbc.parentToSon.length = Sample.mb.nrJoints ∧
    mbc.motionSubspace.map List.length ≠ Sample.mb.joints.map (·.dof) ∧ sForwardKinematics Sample.mb mbc = .error .ub := by
  refine ⟨{ Sample.mbc with motionSubspace := [] }, ?_⟩
  unfold SizedQ
  exact ⟨by decide +kernel, by decide +kernel, by decide +kernel, by decide +kernel, by decide +kernel, of_isUb (by decide +kernel)⟩

example : (∃ r, sForwardKinematics Sample.mb Sample.mbc = .ok r) ∧
    sForwardKinematics Sample.mb { Sample.mbc with q := [[1]] } = .error .domainError := by
  refine ⟨(C51_kinematics_partial Sample.wf Sample.mbc (by decide +kernel)).1 ?_,
    (C51_kinematics_partial Sample.wf { Sample.mbc with q := [[1]] } (by decide +kernel)).2 ?_⟩ <;> (unfold SizedQ; decide +kernel)

example : (∃ r, sForwardVelocity Sample.mb Sample.mbcV = .ok r) ∧
    sForwardVelocity Sample.mb { Sample.mbcV with bodyVelW := [] } = .error .domainError := by
  refine ⟨(C51_velocity Sample.wf _).1 ?_, (C51_velocity Sample.wf _).2 ?_⟩ <;> (unfold SizedDof; decide +kernel)

example : (∃ r, sForwardAcceleration Sample.mb Sample.mbcV 0 = .ok r) ∧
    sForwardAcceleration Sample.mb { Sample.mbcV with alphaD := [[], [], [], []] } 0 = .error .domainError := by
  refine ⟨(C51_acceleration Sample.wf _ 0).1 ?_, (C51_acceleration Sample.wf _ 0).2 ?_⟩ <;> (unfold SizedDof; decide +kernel)

example : (∃ r, Sample.id.sInverseDynamics Sample.mb Sample.mbcV = .ok r) ∧
    Sample.id.sInverseDynamics Sample.mb { Sample.mbcV with force := [] } = .error .domainError ∧
    (∃ r, Sample.id.sInverseDynamicsNoInertia Sample.mb Sample.mbcV = .ok r) := by
  have hd : Sample.id.f.length = Sample.mb.nrBodies := by decide +kernel
  refine ⟨(C51_inverse_dynamics Sample.wf _ hd).1 Sample.id_shape, (C51_inverse_dynamics Sample.wf _ hd).2 ?_,
    (C51_inverse_dynamics_no_inertia Sample.wf _ hd).1 Sample.id_shape⟩
  unfold MBC.IDShape SizedDof
  decide +kernel

example : (∃ r, Sample.fd.sForwardDynamics (fun m _ => List.replicate m.cols 0) Sample.mb Sample.mbcV = .ok r) ∧
    (∃ r, Sample.fd.sComputeH Sample.mb Sample.mbcV = .ok r) ∧ (∃ r, Sample.fd.sComputeC Sample.mb Sample.mbcV = .ok r) ∧
    Sample.fd.sComputeC Sample.mb { Sample.mbcV with jointVelocity := [0] } = .error .domainError := by
  obtain ⟨ha, hf, hC, hvj, hW, hX, hV, hS, hA, ht⟩ := Sample.id_shape
  refine ⟨(C51_forward_dynamics Sample.wf _ Sample.fd_fits (by simp)).1 ⟨⟨hX, hS, hvj, hV, hW, hf⟩, ht, ha⟩,
    (C51_compute_H Sample.wf _ Sample.fd_fits).1 ⟨hX, hS⟩, (C51_compute_C Sample.wf _ Sample.fd_fits).1 ⟨hX, hS, hvj, hV, hW, hf⟩,
    (C51_compute_C Sample.wf _ Sample.fd_fits).2 ?_⟩
  unfold MBC.CShape
  decide +kernel

example : ∃ J, Jac.mk' (fun _ => 0) Sample.mb "hand" (⟨1, 2, 3⟩ : Vec3 ℚ) = .ok J ∧ (∃ r, J.sJacobian Sample.mb Sample.mbcV = .ok r) ∧
    J.sJacobian Sample.mb { Sample.mbcV with motionSubspace := [] } = .error .domainError ∧
    (∃ r, J.sJacobianDot Sample.mb Sample.mbcV = .ok r) ∧ (∃ r, J.sBodyVelocity Sample.mb Sample.mbcV = .ok r) ∧
    ({ J with path := [0, 9] } : Jac ℚ).sJacobian Sample.mb Sample.mbcV = .error .domainError := by
  obtain ⟨J, hJ, hof⟩ := C34_constructor Sample.wf (fun _ => 0) (N := 2) (name := "hand") (by decide +kernel) (by decide +kernel) ⟨1, 2, 3⟩
  obtain ⟨ha, hf, hC, hvj, hW, hX, hV, hS, hA, ht⟩ := Sample.id_shape
  have hne : J.path ≠ [] := by rw [hof.path_eq]; decide +kernel
  have href : J.refBodyIndex < Sample.mb.nrBodies := by rw [hof.ref]; decide +kernel
  refine ⟨J, hJ, ((C51_jacobian Sample.wf _ hof.toFits hne href 1 0).1 ⟨hW, hS⟩).1,
    ((C51_jacobian Sample.wf _ hof.toFits hne href 1 0).2 (by decide +kernel)).1,
    ((C51_jacobian_dot Sample.wf _ hof.toFits hne).1 ⟨hW, hV, hS⟩).1, (C51_jacobian_velocity _ hof.toFits hne 1).2.1 hV,
    (C51_jacobian_foreign Sample.wf _ (i := 9) (by simp) (by decide +kernel) 1 0).1⟩

/-- The Jacobian of the sample robot at its hand. -/
def Sample.handJac : Jac ℚ := ((Jac.mk' (fun _ => 0) Sample.mb "hand" (⟨1, 2, 3⟩ : Vec3 ℚ)).toOption).getD ⟨[], [], 1, [], [], 0, 0⟩

/-- C51 does not extend to `sNormalAcceleration` and `sBodyNormalAcceleration` of the class `Jacobian`: they do not check `jointVelocity`, and the
second not `bodyVelB`, which they read. -/
theorem C51_not_normal_acceleration : ∃ (J : Jac ℚ) (mbc mbc' : MBC ℚ), Jac.mk' (fun _ => 0) Sample.mb "hand" (⟨1, 2, 3⟩ : Vec3 ℚ) = .ok J ∧
    mbc.jointVelocity.length ≠ Sample.mb.nrJoints ∧ J.sNormalAcceleration Sample.mb mbc = .error .ub ∧
    J.sBodyNormalAcceleration Sample.mb mbc = .error .ub ∧
    mbc'.bodyVelB.length ≠ Sample.mb.nrBodies ∧ J.sBodyNormalAcceleration Sample.mb mbc' = .error .ub := by
  exact ⟨Sample.handJac, { Sample.mbcV with jointVelocity := [] }, { Sample.mbcV with bodyVelB := [] }, by decide +kernel,
    by decide +kernel, by decide +kernel, by decide +kernel, by decide +kernel, by decide +kernel⟩

/-- C51 does not extend to `sInverseKinematics`: the velocities, which it reads and writes, are not checked. -/
theorem C51_not_inverse_kinematics : ∃ (ik : IK ℚ) (mbc : MBC ℚ), IK.mk' (fun _ => 0) Sample.mb 2 = .ok ik ∧
    ¬ SizedDof Sample.mb mbc.alpha ∧
    sInverseKinematics (fun J _ => List.replicate J.length 0) (fun _ _ => 0) ik Sample.mb mbc 1 = .error .ub := by
  obtain ⟨ik, h1, h2⟩ := ok_and (m := IK.mk' (fun _ => 0) Sample.mb 2) (fun ik => isUb (sInverseKinematics
    (fun J _ => List.replicate J.length 0) (fun _ _ => 0) ik Sample.mb { Sample.mbc with alpha := [] } 1)) (by decide +kernel)
  refine ⟨ik, _, h1, ?_, of_isUb h2⟩
  unfold SizedDof
  decide +kernel

/-- C51 does not extend to `CoMJacobian::sWeight`: the size of the old weights is checked instead of the size of the new ones. -/
theorem C51_not_weight : ∃ c : CoMJac ℚ, CoMJac.mkOnes (fun _ => 0) (fun _ => 0) (fun _ => 1) (fun _ => 0) Sample.mb = .ok c ∧
    c.sWeight Sample.mb [1] = .error .ub := by
  obtain ⟨c, h1, h2⟩ := ok_and (m := CoMJac.mkOnes (fun _ => 0) (fun _ => 0) (fun _ => 1) (fun _ => 0) Sample.mb)
    (fun c => isUb (c.sWeight Sample.mb [1])) (by decide +kernel)
  exact ⟨c, h1, of_isUb h2⟩

/-- C51 does not extend to `CoMJacobian::sNormalAcceleration`, which does not check `jointVelocity`. -/
theorem C51_not_com_normal_acceleration : ∃ (c : CoMJac ℚ) (mbc : MBC ℚ),
    CoMJac.mkOnes (fun _ => 0) (fun _ => 0) (fun _ => 1) (fun _ => 0) Sample.mb = .ok c ∧ mbc.jointVelocity.length ≠ Sample.mb.nrJoints ∧
    c.sNormalAcceleration Sample.mb mbc = .error .ub := by
  obtain ⟨c, h1, h2⟩ := ok_and (m := CoMJac.mkOnes (fun _ => 0) (fun _ => 0) (fun _ => 1) (fun _ => 0) Sample.mb)
    (fun c => isUb (c.sNormalAcceleration Sample.mb { Sample.mbcV with jointVelocity := [] })) (by decide +kernel)
  exact ⟨c, _, h1, by decide +kernel, of_isUb h2⟩

end RBDyn
