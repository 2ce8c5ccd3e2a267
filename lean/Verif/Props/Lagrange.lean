import Verif.Lemmas.LagrangeMore
import Verif.Lemmas.IDIM
import Verif.Props.Dynamics
import Verif.Props.Kinematics
import Verif.Props.Through

/-! Property C77: inverse dynamics satisfies Lagrange's equations. -/

namespace RBDyn
open scoped Mat3
variable {mb : MultiBody ℝ}

/-- `T` and `U` are the kinetic and the potential energy that the poses and velocities computed by `forwardKinematics` and
`forwardVelocity` from joint positions `q` and velocities `α` give (`gravity` points upwards in `MultiBodyConfig`); `c` provides the
gravity and the storage. -/
def Energies (mb : MultiBody ℝ) (c : MBC ℝ) (T : List (List ℝ) → List (List ℝ) → ℝ) (U : List (List ℝ) → ℝ) : Prop :=
  ∀ q α, ValidQ mb q → SizedDof mb α → ∃ m₁ m₂, forwardKinematics mb { c with q := q, alpha := α } = .ok m₁ ∧
    forwardVelocity mb m₁ = .ok m₂ ∧
    T q α = (1 / 2) * ∑ k ∈ Finset.range mb.nrBodies, ((m₂.bodyVelB[k]?).getD 0).dot
      ((mb.inertiaAt k).mulMotion ((m₂.bodyVelB[k]?).getD 0)) ∧
    U q = ∑ k ∈ Finset.range mb.nrBodies, c.gravity.dot (massPos ((m₂.bodyPosW[k]?).getD 1) (mb.inertiaAt k))

/-- `F` is the power of the external forces of `c` when the joints of `c` move with the generalized velocity `β`. -/
def ForcePower (mb : MultiBody ℝ) (c : MBC ℝ) (β : List (List ℝ)) (F : ℝ) : Prop :=
  ∃ m₁ m₂, forwardKinematics mb { c with alpha := β } = .ok m₁ ∧ forwardVelocity mb m₁ = .ok m₂ ∧
    F = ∑ k ∈ Finset.range mb.nrBodies, ((m₂.bodyVelB[k]?).getD 0).dot (((m₂.bodyPosW[k]?).getD 1).dualMul ((c.force[k]?).getD 0))

theorem bump_zero (v : List (List ℝ)) (i a : Nat) : bump v i a 0 = v := by
  have e : ∀ l : List ℝ, (l.modify a fun x => x) = l := fun l => List.modify_id a l
  unfold bump
  simp only [add_zero]
  refine List.ext_getElem? fun l => ?_
  rw [List.getElem?_modify]
  cases v[l]? <;> simp [e]

theorem energies (wf : mb.WF) (hr : mb.Rigid) {c : MBC ℝ} (sz : c.Sized mb) : Energies mb c mb.kinE (mb.potE c.gravity) := by
  intro q α hq hα
  obtain ⟨m₁, m, e1, e2, hv, -, e3, e4, -⟩ := C24_velReady wf hr (mbc := { c with q := q, alpha := α })
    ⟨hq.sizedQ hr, hα, sz.alphaD, sz.jointTorque, sz.force, sz.jointConfig, sz.jointVelocity, sz.motionSubspace, sz.bodyPosW, sz.parentToSon,
      sz.bodyVelW, sz.bodyVelB, sz.bodyAccB⟩ hq
  refine ⟨m₁, m, e1, e2, ?_, ?_⟩
  · unfold MultiBody.kinE
    congr 1
    refine Finset.sum_congr rfl fun k hk => ?_
    have hk : k < mb.bodies.length := Finset.mem_range.1 hk
    rw [hv.bodyVelB, range_map_getElem? hk, e3, e4, Option.getD_some]
  · refine Finset.sum_congr rfl fun k hk => ?_
    have hk : k < mb.bodies.length := Finset.mem_range.1 hk
    rw [hv.bodyPosW, range_map_getElem? hk, e3, Option.getD_some]

theorem forcePower (wf : mb.WF) (hr : mb.Rigid) {c : MBC ℝ} (sz : c.Sized mb) (hq : ValidQ mb c.q) {i a : Nat} (hi : i < mb.bodies.length)
    (ha : a < mb.dofAt i) : ForcePower mb c (mb.unitDof i a)
      (∑ k ∈ Finset.range mb.nrBodies, (mb.colAt c.q k i a).dot ((mb.posAt c.q k).dualMul (c.forceAt k))) := by
  obtain ⟨m₁, m, e1, e2, hv, -, e3, e4, -⟩ := C24_velReady wf hr (mbc := { c with alpha := mb.unitDof i a })
    ⟨hq.sizedQ hr, unitDof_sized mb i a, sz.alphaD, sz.jointTorque, sz.force, sz.jointConfig, sz.jointVelocity, sz.motionSubspace, sz.bodyPosW,
      sz.parentToSon, sz.bodyVelW, sz.bodyVelB, sz.bodyAccB⟩ hq
  refine ⟨m₁, m, e1, e2, Finset.sum_congr rfl fun k hk => ?_⟩
  have hk : k < mb.bodies.length := Finset.mem_range.1 hk
  rw [hv.bodyVelB, hv.bodyPosW, range_map_getElem? hk, range_map_getElem? hk, e3, e4,
    Option.getD_some, Option.getD_some, wf.velAt_unit hi ha]
  rfl

/-- C77: inverse dynamics satisfies Lagrange's equations. Along every trajectory, for every degree of freedom of a `Rev`, `Prism` or
`Cylindrical` joint, the torque is `d/dt (∂T/∂α) - ∂T/∂q + ∂U/∂q - F`, with the kinetic energy `T`, the potential energy `U` and the
generalized external force `F` as forward kinematics and forward velocity give them. The other joints may be of any type. -/
theorem C77_lagrange (wf : mb.WF) (hr : mb.Rigid) (hd : mb.DirOK) {mbc : ℝ → MBC ℝ} {t : ℝ} (sz : ∀ s, (mbc s).Sized mb)
    (hv : ∀ s, (mbc s).VelReady mb) (h : Trajectory mb (fun s => (mbc s).q) (mbc t).alpha t)
    (had : HasDerivDof mb (fun s => (mbc s).alpha) (mbc t).alphaD t) {d : ID ℝ} (hf : d.f.length = mb.nrBodies) :
    ∃ d' m T U, d.inverseDynamics mb (mbc t) = .ok (d', m) ∧ Energies mb (mbc t) T U ∧
      ∀ i j a, mb.joints[i]? = some j → j.type = .Rev ∨ j.type = .Prism ∨ j.type = .Cylindrical → a < j.dof →
        ∃ (p : ℝ → ℝ) (p' Tq Uq F : ℝ),
          (∀ s, HasDerivAt (fun x => T (mbc s).q (bump (mbc s).alpha i a x)) (p s) 0) ∧ HasDerivAt p p' t ∧
          HasDerivAt (fun x => T (bump (mbc t).q i a x) (mbc t).alpha) Tq 0 ∧
          HasDerivAt (fun x => U (bump (mbc t).q i a x)) Uq 0 ∧ ForcePower mb (mbc t) (mb.unitDof i a) F ∧
          ((m.jointTorque[i]?).getD []).getD a 0 = p' - Tq + Uq - F := by
  refine ⟨_, _, _, _, id_eq wf hr (sz t) (h.valid t) (hv t) hf rfl, energies wf hr (sz t), fun i j a hj ht ha => ?_⟩
  have hi : i < mb.bodies.length := by rw [← wf.njoints]; exact (List.getElem?_eq_some_iff.1 hj).1
  have ha' : a < mb.dofAt i := by simpa [MultiBody.dofAt, hj] using ha
  have hb := bump_trajectory hr (h.valid t) hj ht ha
  obtain ⟨p', Tq, Uq, h1, h2, h3, h4⟩ := mb.hamel (α := fun s => (mbc s).alpha) wf hr hd h had hi ha' hb (bump_zero _ i a) (mbc t).gravity (mbc t).forceAt
  refine ⟨_, p', Tq, Uq, _, fun s => wf.kinE_bump (sz s).alpha hi ha' (mbc s).q, h1, h2, h3, forcePower wf hr (sz t) (h.valid t) hi ha', ?_⟩
  have e := entry_torque wf (w := mb.wrenchAt (mbc t).q (mb.netForceAt (mbc t).q (mbc t).alpha (mbc t).alphaD ⟨0, (mbc t).gravity⟩
    (mbc t).forceAt)) hi ha'
  rw [wf.jointMotion_commutes hr hj ht hi, MotionVec.zero_dot, add_zero] at h4
  exact e.trans h4

/-- C77 for the joints of any type: the torque of degree of freedom `a` of joint `i` satisfies Hamel's form of Lagrange's equations.
`Q` is any displacement of the robot that starts in its configuration and moves with unit speed along this degree of freedom only;
there is always one. The last term is the bracket of the column of the motion subspace with the joint velocity, applied to the momentum of the bodies the joint
carries; it vanishes for the joints of `C77_lagrange`. -/
theorem C77_hamel (wf : mb.WF) (hr : mb.Rigid) (hd : mb.DirOK) {mbc : ℝ → MBC ℝ} {t : ℝ} (sz : ∀ s, (mbc s).Sized mb)
    (hv : ∀ s, (mbc s).VelReady mb) (h : Trajectory mb (fun s => (mbc s).q) (mbc t).alpha t)
    (had : HasDerivDof mb (fun s => (mbc s).alpha) (mbc t).alphaD t) {d : ID ℝ} (hf : d.f.length = mb.nrBodies) :
    ∃ d' m T U, d.inverseDynamics mb (mbc t) = .ok (d', m) ∧ Energies mb (mbc t) T U ∧
      (∀ i a, ∃ Q : ℝ → List (List ℝ), Trajectory mb Q (mb.unitDof i a) 0 ∧ Q 0 = (mbc t).q) ∧
      ∀ i j a (Q : ℝ → List (List ℝ)), mb.joints[i]? = some j → a < j.dof → Trajectory mb Q (mb.unitDof i a) 0 → Q 0 = (mbc t).q →
        ∃ (p : ℝ → ℝ) (p' Tq Uq F : ℝ),
          (∀ s, HasDerivAt (fun x => T (mbc s).q (bump (mbc s).alpha i a x)) (p s) 0) ∧ HasDerivAt p p' t ∧
          HasDerivAt (fun x => T (Q x) (mbc t).alpha) Tq 0 ∧ HasDerivAt (fun x => U (Q x)) Uq 0 ∧
          ForcePower mb (mbc t) (mb.unitDof i a) F ∧
          ((m.jointTorque[i]?).getD []).getD a 0 = p' - Tq + Uq - F +
            ((j.S.getD a 0).cross (((mbc t).jointVelocity[i]?).getD 0)).dot ((((mbc t).bodyPosW[i]?).getD 1).dualMul
              (∑ k ∈ (Finset.range mb.nrBodies).filter (fun k => i ∈ pathUp mb.par k),
                (((mbc t).bodyPosW[k]?).getD 1).transMul ((mb.inertiaAt k).mulMotion (((mbc t).bodyVelB[k]?).getD 0)))) := by
  refine ⟨_, _, _, _, id_eq wf hr (sz t) (h.valid t) (hv t) hf rfl, energies wf hr (sz t), fun i a => ?_,
    fun i j a Q hj ha hQ hQ0 => ?_⟩
  · obtain ⟨Q, h1, h2⟩ := trajectory_through wf (h.valid t) (unitDof_sized mb i a)
    exact ⟨Q, h2, h1⟩
  have hi : i < mb.bodies.length := by rw [← wf.njoints]; exact (List.getElem?_eq_some_iff.1 hj).1
  have ha' : a < mb.dofAt i := by simpa [MultiBody.dofAt, hj] using ha
  obtain ⟨p', Tq, Uq, h1, h2, h3, h4⟩ := mb.hamel (α := fun s => (mbc s).alpha) wf hr hd h had hi ha' hQ hQ0 (mbc t).gravity (mbc t).forceAt
  refine ⟨_, p', Tq, Uq, _, fun s => wf.kinE_bump (sz s).alpha hi ha' (mbc s).q, h1, h2, h3, forcePower wf hr (sz t) (h.valid t) hi ha', ?_⟩
  have e := entry_torque wf (w := mb.wrenchAt (mbc t).q (mb.netForceAt (mbc t).q (mbc t).alpha (mbc t).alphaD ⟨0, (mbc t).gravity⟩
    (mbc t).forceAt)) hi ha'
  have e1 : (((mbc t).bodyPosW[i]?).getD 1).dualMul (∑ k ∈ (Finset.range mb.nrBodies).filter (fun k => i ∈ pathUp mb.par k),
      (((mbc t).bodyPosW[k]?).getD 1).transMul ((mb.inertiaAt k).mulMotion (((mbc t).bodyVelB[k]?).getD 0))) =
      mb.wrenchAt (mbc t).q (fun k => (mb.inertiaAt k).mulMotion (mb.velAt (mbc t).q (mbc t).alpha k)) i := by
    unfold MultiBody.wrenchAt
    rw [← PTransform.dualHom_apply, map_sum]
    refine Finset.sum_congr rfl fun k hk => ?_
    have hk : k < mb.bodies.length := (MultiBody.mem_subtree.1 hk).1
    have hWi := mb.posAt_rigid hr (h.valid t) i
    rw [(hv t).bodyPosW, (hv t).bodyVelB, range_map_getElem? hk, range_map_getElem? hk, range_map_getElem? hi, MultiBody.relAt,
      PTransform.mul_transMul _ _ _ hWi.inv, PTransform.dualHom_apply, Option.getD_some, Option.getD_some, Option.getD_some,
      PTransform.dualMul_eq _ hWi]
  have hS : mb.SAt i = j.S := by simp [MultiBody.SAt, hj]
  have e2 : ((mbc t).jointVelocity[i]?).getD 0 = mb.jointMotion (mbc t).alpha i := by
    rw [(hv t).jointVelocity, range_map_getElem? hi, Option.getD_some]
  rw [e1, e2, ← hS]
  exact e.trans h4

/-- C77 for inverse statics: without external forces the torque of every degree of freedom is the derivative of the potential energy. -/
theorem C77_statics (wf : mb.WF) (hr : mb.Rigid) (hd : mb.DirOK) {mbc : MBC ℝ} (sz : mbc.Sized mb) (hv : mbc.PosReady mb)
    (hq : ValidQ mb mbc.q) (hforce : ∀ f ∈ mbc.force, f = 0) {d : ID ℝ} (hf : d.f.length = mb.nrBodies) :
    ∃ d' m T U, inverseStatics d mb mbc = .ok (d', m) ∧ Energies mb mbc T U ∧
      (∀ i j a, mb.joints[i]? = some j → j.type = .Rev ∨ j.type = .Prism ∨ j.type = .Cylindrical → a < j.dof →
        HasDerivAt (fun x => U (bump mbc.q i a x)) (((m.jointTorque[i]?).getD []).getD a 0) 0) ∧
      ∀ i j a (Q : ℝ → List (List ℝ)), mb.joints[i]? = some j → a < j.dof → Trajectory mb Q (mb.unitDof i a) 0 → Q 0 = mbc.q →
        HasDerivAt (fun x => U (Q x)) (((m.jointTorque[i]?).getD []).getD a 0) 0 := by
  have key : ∀ i j a (Q : ℝ → List (List ℝ)), mb.joints[i]? = some j → a < j.dof → Trajectory mb Q (mb.unitDof i a) 0 → Q 0 = mbc.q →
      HasDerivAt (fun x => mb.potE mbc.gravity (Q x)) (entry ((List.range mb.bodies.length).map fun i => mb.project i (mb.wrenchAt mbc.q
        (fun k => (mb.inertiaAt k).mulMotion ((mb.posAt mbc.q k).mulMotion ⟨0, mbc.gravity⟩) -
          (mb.posAt mbc.q k).dualMul (mbc.forceAt k)) i)) i a) 0 := by
    intro i j a Q hj ha hQ hQ0
    have hi : i < mb.bodies.length := by rw [← wf.njoints]; exact (List.getElem?_eq_some_iff.1 hj).1
    have ha' : a < mb.dofAt i := by simpa [MultiBody.dofAt, hj] using ha
    refine (mb.potE_hasDeriv wf hr hd hi ha' hQ mbc.gravity).congr_deriv ?_
    rw [entry_torque wf hi ha', mb.dot_wrenchAt, hQ0]
    refine Finset.sum_congr rfl fun k _ => ?_
    have h0 : mbc.forceAt k = 0 := by
      unfold MBC.forceAt
      cases e : mbc.force[k]? with
      | none => rfl
      | some f => exact hforce f (List.mem_of_getElem? e)
    rw [h0]
    have : (mb.posAt mbc.q k).dualMul 0 = 0 := by ext <;> simp [PTransform.dualMul]
    rw [this, sub_zero]
  refine ⟨_, _, _, _, is_eq wf hr sz hq hv hf rfl, energies wf hr sz, fun i j a hj ht ha => ?_, key⟩
  exact key i j a _ hj ha (bump_trajectory hr hq hj ht ha) (bump_zero _ i a)

/-- C77: the hypotheses of `C77_lagrange` and `C77_hamel` do not restrict the state: through every state with up to date poses and
velocities passes a curve that meets them. -/
theorem C77_every_state (wf : mb.WF) (hr : mb.Rigid) {c : MBC ℝ} (sz : c.Sized mb) (hv : c.VelReady mb) (hq : ValidQ mb c.q) :
    ∃ mbc : ℝ → MBC ℝ, mbc 0 = c ∧ (∀ s, (mbc s).Sized mb) ∧ (∀ s, (mbc s).VelReady mb) ∧
      Trajectory mb (fun s => (mbc s).q) (mbc 0).alpha 0 ∧ HasDerivDof mb (fun s => (mbc s).alpha) (mbc 0).alphaD 0 := by
  obtain ⟨mbc, h1, h2, h3, h4, h5, -⟩ := state_through wf hr sz hv hq
  exact ⟨mbc, h1, h2, h3, h4, h5⟩

/-- The hypotheses of `C77_lagrange` are met by a moving two-joint arm with heavy links under gravity. -/
example : ∃ (mb : MultiBody ℝ) (mbc : ℝ → MBC ℝ) (d : ID ℝ), mb.WF ∧ mb.Rigid ∧ mb.DirOK ∧ (∀ s, (mbc s).Sized mb) ∧
    (∀ s, (mbc s).VelReady mb) ∧ d.f.length = mb.nrBodies ∧
    ∀ t, Trajectory mb (fun s => (mbc s).q) (mbc t).alpha t ∧ HasDerivDof mb (fun s => (mbc s).alpha) (mbc t).alphaD t ∧
      (mbc t).alpha = [[2 * t], [3]] ∧ (mb.inertiaAt 1).m = 3 ∧ (mbc t).gravity = ⟨0, 9, 0⟩ := by
  obtain ⟨mb, mbc, wf, hr, hd, hb, hs, hv, h⟩ := Sample.real_arm
  refine ⟨mb, mbc, ⟨[0, 0]⟩, wf, hr, hd, hs, hv, by simp [MultiBody.nrBodies, hb], fun t => ?_⟩
  obtain ⟨h1, h2, h3, h4⟩ := h t
  exact ⟨h1, h2, h3, by simp [MultiBody.inertiaAt, hb], h4⟩

/-- The hypotheses of `C77_hamel`, `C77_statics` and `C77_every_state` are met by a robot with a free base and a spherical joint. -/
example : ∃ (mb : MultiBody ℝ) (c : MBC ℝ) (d : ID ℝ), mb.WF ∧ mb.Rigid ∧ mb.DirOK ∧ c.Sized mb ∧ c.VelReady mb ∧ ValidQ mb c.q ∧
    (∀ f ∈ c.force, f = 0) ∧ d.f.length = mb.nrBodies ∧ mb.joints.map (·.type) = [.Free, .Spherical] ∧
    c.alpha = [[1, 2, 3, 4, 5, 6], [7, 8, 9]] := by
  let J : List (Joint ℝ) := [Joint.mk' .Free ⟨0, 0, 1⟩ true "a", Joint.mk' .Spherical ⟨0, 0, 1⟩ true "b"]
  have hu : ∀ j ∈ J, j.BuiltUnit := by
    intro j hj
    simp only [J, List.mem_cons, List.not_mem_nil, or_false] at hj
    rcases hj with rfl | rfl
    · exact .mk _ _ _ _ trivial
    · exact .mk _ _ _ _ trivial
  obtain ⟨mb, -, wf, hb, hj, hp, -, -, hX⟩ := MultiBody.mk'_wf
    [⟨⟨2, ⟨2, 0, 0⟩, ⟨1, 0, 3, 0, 0, 3⟩⟩, "x"⟩, ⟨⟨3, 0, ⟨2, 0, 2, 0, 0, 2⟩⟩, "y"⟩] J [-1, 0] [0, 1] [-1, 0] [1, 1] rfl rfl rfl
    (by intro i hi
        have : i < 2 := hi
        obtain rfl | rfl : i = 0 ∨ i = 1 := by omega
        all_goals rfl)
    (by intro i p hp
        obtain ⟨hi, -⟩ := List.getElem?_eq_some_iff.1 hp
        have : i < 2 := hi
        obtain rfl | rfl : i = 0 ∨ i = 1 := by omega
        all_goals (cases hp; decide))
    rfl (fun j hj => (hu j hj).built)
  have hr : mb.Rigid := by
    refine ⟨hj ▸ hu, ?_⟩
    rw [hX]; intro X h
    simp only [List.mem_cons, List.not_mem_nil, or_false, or_self] at h
    subst h; exact IsRigid.one
  let c : MBC ℝ :=
    { q := [[1, 0, 0, 0, 1, 2, 3], [0, 1, 0, 0]], alpha := [[1, 2, 3, 4, 5, 6], [7, 8, 9]], alphaD := [[0, 0, 0, 0, 0, -10], [0, 1, 2]],
      force := [0, 0], jointConfig := [1, 1], jointVelocity := [0, 0], jointTorque := [[0, 0, 0, 0, 0, 0], [0, 0, 0]],
      motionSubspace := [[0, 0, 0, 0, 0, 0], [0, 0, 0]], bodyPosW := [1, 1], parentToSon := [1, 1], bodyVelW := [0, 0], bodyVelB := [0, 0],
      bodyAccB := [0, 0], gravity := ⟨0, 0, 10⟩ }
  have sz : c.Sized mb := by constructor <;> simp [c, SizedQ, SizedDof, hb, hj, J] <;> exact ⟨rfl, rfl⟩
  have hq : ValidQ mb c.q := by
    unfold ValidQ
    rw [hj]
    refine .cons ⟨rfl, ?_⟩ (.cons ⟨rfl, ?_⟩ .nil)
    · show (1 : ℝ) * 1 + 0 * 0 + 0 * 0 + 0 * 0 = 1
      norm_num
    · show (0 : ℝ) * 0 + 1 * 1 + 0 * 0 + 0 * 0 = 1
      norm_num
  obtain ⟨m₁, m, -, -, h3, h4, h5, h6, -, h8, -⟩ := C24_velReady wf hr sz hq
  refine ⟨mb, m, ⟨[0, 0]⟩, wf, hr, ?_, h4, h3, by rw [h5]; exact hq, ?_, by simp [MultiBody.nrBodies, hb], by rw [hj]; rfl, by rw [h6]⟩
  · intro j h
    rw [hj] at h
    simp only [J, List.mem_cons, List.not_mem_nil, or_false] at h
    rcases h with rfl | rfl <;> exact .inl (Joint.isForward_mk' ..)
  · rw [h8]
    intro f hf
    simpa [c] using hf

end RBDyn
