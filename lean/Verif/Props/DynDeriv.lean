import Verif.Lemmas.DynDeriv
import Verif.Props.Dynamics

/-! Properties C26 (Newton-Euler with true time derivatives) and C33. -/

namespace RBDyn
open scoped Mat3

/-- C26: along every trajectory, the torque of every joint is the projection on its motion subspace, at the joint, of the sum over the
bodies `k` it carries of (time derivative of the world momentum of `k` - external force on `k` - weight of `k`). -/
theorem C26_newton_euler {mb : MultiBody ℝ} (wf : mb.WF) (hr : mb.Rigid) (hd : mb.DirOK) {mbc : ℝ → MBC ℝ} {t : ℝ}
    (sz : ∀ s, (mbc s).Sized mb) (hv : ∀ s, (mbc s).VelReady mb) (h : Trajectory mb (fun s => (mbc s).q) (mbc t).alpha t)
    (ha : HasDerivDof mb (fun s => (mbc s).alpha) (mbc t).alphaD t) {d : ID ℝ} (hf : d.f.length = mb.nrBodies) :
    ∃ (d' : ID ℝ) (m : MBC ℝ) (hdot : Nat → ForceVec ℝ), d.inverseDynamics mb (mbc t) = .ok (d', m) ∧
      (∀ k, k < mb.nrBodies → HasDerivForce (fun s => (((mbc s).bodyPosW[k]?).getD 1).transMul
        ((mb.inertiaAt k).mulMotion (((mbc s).bodyVelB[k]?).getD 0))) (hdot k) t) ∧
      ∀ (i : Nat) (j : Joint ℝ) (Wi : PTransform ℝ), mb.joints[i]? = some j → (mbc t).bodyPosW[i]? = some Wi →
        m.jointTorque[i]? = some (j.S.map fun c => c.dot (Wi.dualMul
          (∑ k ∈ (Finset.range mb.nrBodies).filter (fun k => i ∈ pathUp mb.par k),
            (hdot k - ((mbc t).force[k]?).getD 0 -
              weight (((mbc t).bodyPosW[k]?).getD 1) (mb.inertiaAt k) (mbc t).gravity)))) := by
  refine ⟨_, _, fun k => (mb.posAt (mbc t).q k).transMul ((mb.inertiaAt k).mulMotion (mb.accAt (mbc t).q (mbc t).alpha (mbc t).alphaD 0 k) +
        (mb.velAt (mbc t).q (mbc t).alpha k).crossDual ((mb.inertiaAt k).mulMotion (mb.velAt (mbc t).q (mbc t).alpha k))),
      id_eq wf hr (sz t) (h.valid t) (hv t) hf rfl, fun k hk => ?_, fun i j Wi hj hW => ?_⟩
  · have hk : k < mb.bodies.length := hk
    have := mb.momentum_hasDeriv (α := fun s => (mbc s).alpha) wf hr hd h ha hk
    have e : (fun s => (((mbc s).bodyPosW[k]?).getD 1).transMul ((mb.inertiaAt k).mulMotion (((mbc s).bodyVelB[k]?).getD 0))) =
      fun s => (mb.posAt (mbc s).q k).transMul ((mb.inertiaAt k).mulMotion (mb.velAt (mbc s).q (mbc s).alpha k)) := by
      funext s
      rw [(hv s).bodyPosW, (hv s).bodyVelB, range_map_getElem? hk, range_map_getElem? hk]
      rfl
    rw [e]
    exact this
  · have hi : i < mb.bodies.length := by rw [← wf.njoints]; exact (List.getElem?_eq_some_iff.1 hj).1
    rw [(hv t).bodyPosW, range_map_getElem? hi] at hW
    cases hW
    simp only [range_map_getElem? hi, Option.some.injEq, MultiBody.project, MultiBody.SAt, hj, Option.map_some, Option.getD_some]
    congr 1
    funext c
    congr 1
    unfold MultiBody.wrenchAt
    rw [← PTransform.dualHom_apply, map_sum]
    refine Finset.sum_congr rfl fun k hk => ?_
    have hk : k < mb.bodies.length := (MultiBody.mem_subtree.1 hk).1
    have hW := mb.posAt_rigid hr (h.valid t) k
    have hWi := mb.posAt_rigid hr (h.valid t) i
    rw [(hv t).bodyPosW, range_map_getElem? hk, MultiBody.relAt, PTransform.mul_transMul _ _ _ hWi.inv, PTransform.dualHom_apply,
      PTransform.dualMul_eq _ hWi, Option.getD_some]
    congr 1
    rw [MultiBody.netForceAt, mb.accAt_base]
    have e1 := PTransform.transMul_dualMul hW (weight (mb.posAt (mbc t).q k) (mb.inertiaAt k) (mbc t).gravity)
    rw [dualMul_weight hW] at e1
    have e2 := PTransform.transMul_dualMul hW ((mbc t).forceAt k)
    rw [← e1, RBInertia.mulMotion_add, PTransform.transMul_sub, e2, PTransform.transMul_add, PTransform.transMul_add,
      PTransform.transMul_add, PTransform.transMul_neg]
    show _ = _ - (mbc t).forceAt k - _
    abel

/-- C33: along every trajectory the power of the joint torques of inverse dynamics is the rate of change of the total (kinetic plus
potential) energy minus the power of the external forces. Both the kinetic energy and the potential energy are those of the stored
body velocities and poses. -/
theorem C33_power_balance {mb : MultiBody ℝ} (wf : mb.WF) (hr : mb.Rigid) (hd : mb.DirOK) {mbc : ℝ → MBC ℝ} {t : ℝ}
    (sz : ∀ s, (mbc s).Sized mb) (hv : ∀ s, (mbc s).VelReady mb) (h : Trajectory mb (fun s => (mbc s).q) (mbc t).alpha t)
    (ha : HasDerivDof mb (fun s => (mbc s).alpha) (mbc t).alphaD t) {d : ID ℝ} (hf : d.f.length = mb.nrBodies) :
    ∃ d' m T' U', d.inverseDynamics mb (mbc t) = .ok (d', m) ∧
      HasDerivAt (fun s => (1 / 2) * ∑ k ∈ Finset.range mb.nrBodies, (((mbc s).bodyVelB[k]?).getD 0).dot
        ((mb.inertiaAt k).mulMotion (((mbc s).bodyVelB[k]?).getD 0))) T' t ∧
      HasDerivAt (fun s => ∑ k ∈ Finset.range mb.nrBodies,
        (mbc t).gravity.dot (massPos (((mbc s).bodyPosW[k]?).getD 1) (mb.inertiaAt k))) U' t ∧
      (∑ r ∈ Finset.range mb.nrDof, m.jointTorque.flatten.getD r 0 * (mbc t).alpha.flatten.getD r 0) =
        T' + U' - ∑ k ∈ Finset.range mb.nrBodies,
          (((mbc t).bodyVelB[k]?).getD 0).dot ((((mbc t).bodyPosW[k]?).getD 1).dualMul (((mbc t).force[k]?).getD 0)) := by
  obtain ⟨d', m, e, -, -, -, -, szm⟩ := C26_inverse_dynamics wf hr (sz t) (h.valid t) (hv t) hf
  have hT : HasDerivAt (fun s => (1 / 2) * ∑ k ∈ Finset.range mb.nrBodies, (((mbc s).bodyVelB[k]?).getD 0).dot
        ((mb.inertiaAt k).mulMotion (((mbc s).bodyVelB[k]?).getD 0)))
      ((1 / 2) * ∑ k ∈ Finset.range mb.nrBodies,
        (2 * (mb.velAt (mbc t).q (mbc t).alpha k).dot ((mb.inertiaAt k).mulMotion (mb.accAt (mbc t).q (mbc t).alpha (mbc t).alphaD 0 k) +
          (mb.velAt (mbc t).q (mbc t).alpha k).crossDual ((mb.inertiaAt k).mulMotion (mb.velAt (mbc t).q (mbc t).alpha k))))) t := by
    refine HasDerivAt.const_mul _ (HasDerivAt.finset_sum fun k hk => ?_)
    have hk : k < mb.bodies.length := Finset.mem_range.1 hk
    have h1 := mb.kinetic_hasDeriv (α := fun s => (mbc s).alpha) wf hr hd h ha hk
    refine h1.congr_of_eventuallyEq (Filter.Eventually.of_forall fun s => ?_)
    simp only [(hv s).bodyVelB, range_map_getElem? hk, Option.getD_some]
  have hU : HasDerivAt (fun s => ∑ k ∈ Finset.range mb.nrBodies,
        (mbc t).gravity.dot (massPos (((mbc s).bodyPosW[k]?).getD 1) (mb.inertiaAt k)))
      (∑ k ∈ Finset.range mb.nrBodies, (mb.velAt (mbc t).q (mbc t).alpha k).dot
        ((mb.inertiaAt k).mulMotion ((mb.posAt (mbc t).q k).mulMotion ⟨0, (mbc t).gravity⟩))) t := by
    refine HasDerivAt.finset_sum fun k hk => ?_
    have hk : k < mb.bodies.length := Finset.mem_range.1 hk
    have h1 := (HasDerivVec.const (mbc t).gravity t).dot (massPos_hasDeriv (mb.posAt_hasVelocity wf hr hd h hk) (mb.inertiaAt k))
    have h2 : (0 : Vec3 ℝ).dot (massPos (mb.posAt (mbc t).q k) (mb.inertiaAt k)) + (mbc t).gravity.dot ((mb.posAt (mbc t).q k).E.tr *ᵥ
        ((mb.inertiaAt k).mulMotion (mb.velAt (mbc t).q (mbc t).alpha k)).force) =
        (mb.velAt (mbc t).q (mbc t).alpha k).dot
          ((mb.inertiaAt k).mulMotion ((mb.posAt (mbc t).q k).mulMotion ⟨0, (mbc t).gravity⟩)) := by
      rw [RBInertia.dot_mulMotion_comm, Vec3.zero_dot, zero_add, Mat3.dot_mulVec, Mat3.tr_tr]
      simp [MotionVec.dot, PTransform.mulMotion]
    refine (h1.congr_deriv h2).congr_of_eventuallyEq (Filter.Eventually.of_forall fun s => ?_)
    simp only [(hv s).bodyPosW, range_map_getElem? hk, Option.getD_some]
  refine ⟨d', m, _, _, e, hT, hU, ?_⟩
  rw [id_eq wf hr (sz t) (h.valid t) (hv t) hf rfl] at e
  cases e
  have e1 : (∑ r ∈ Finset.range mb.nrDof, ((List.range mb.bodies.length).map fun i => mb.project i (mb.wrenchAt (mbc t).q
        (mb.netForceAt (mbc t).q (mbc t).alpha (mbc t).alphaD ⟨0, (mbc t).gravity⟩ (mbc t).forceAt) i)).flatten.getD r 0 *
          (mbc t).alpha.flatten.getD r 0) =
      ∑ k ∈ Finset.range mb.bodies.length, (mb.velAt (mbc t).q (mbc t).alpha k).dot
        (mb.netForceAt (mbc t).q (mbc t).alpha (mbc t).alphaD ⟨0, (mbc t).gravity⟩ (mbc t).forceAt k) := by
    rw [← wf.power, wf.sum_range_dof]
    refine dofSum_congr fun i a hi ha => ?_
    rw [List.getD_eq_getElem?_getD, szm.jointTorque.flatten_getD wf hi ha, entry_torque wf hi ha,
      List.getD_eq_getElem?_getD (l := (mbc t).alpha.flatten),
      (sz t).alpha.flatten_getD wf hi ha, mul_comm]
    rfl
  rw [e1, Finset.mul_sum, ← Finset.sum_add_distrib, ← Finset.sum_sub_distrib]
  refine Finset.sum_congr rfl fun k hk => ?_
  have hk : k < mb.bodies.length := Finset.mem_range.1 hk
  rw [(hv t).bodyVelB, (hv t).bodyPosW, range_map_getElem? hk, range_map_getElem? hk, MultiBody.netForceAt, mb.accAt_base,
    RBInertia.mulMotion_add, MotionVec.dot_sub, MotionVec.dot_add, MotionVec.dot_add, MotionVec.dot_add]
  show _ = _ + _ - (mb.velAt (mbc t).q (mbc t).alpha k).dot ((mb.posAt (mbc t).q k).dualMul ((mbc t).forceAt k))
  ring

/-- The hypotheses of `C26_newton_euler` and `C33_power_balance` are met by a two-joint arm with heavy links under gravity. -/
example : ∃ (mb : MultiBody ℝ) (mbc : ℝ → MBC ℝ) (d : ID ℝ), mb.WF ∧ mb.Rigid ∧ mb.DirOK ∧ (∀ s, (mbc s).Sized mb) ∧
    (∀ s, (mbc s).VelReady mb) ∧ d.f.length = mb.nrBodies ∧
    ∀ t, Trajectory mb (fun s => (mbc s).q) (mbc t).alpha t ∧ HasDerivDof mb (fun s => (mbc s).alpha) (mbc t).alphaD t ∧
      (mbc t).alpha = [[2 * t], [3]] ∧ (mb.inertiaAt 1).m = 3 ∧ (mbc t).gravity = ⟨0, 9, 0⟩ := by
  obtain ⟨mb, mbc, wf, hr, hd, hb, hs, hv, h⟩ := Sample.real_arm
  refine ⟨mb, mbc, ⟨[0, 0]⟩, wf, hr, hd, hs, hv, by simp [MultiBody.nrBodies, hb], fun t => ?_⟩
  obtain ⟨h1, h2, h3, h4⟩ := h t
  exact ⟨h1, h2, h3, by simp [MultiBody.inertiaAt, hb], h4⟩

end RBDyn
