import Verif.Lemmas.KinDeriv
import Verif.Lemmas.Sample

/-! Properties C23, C24, C25. -/

namespace RBDyn
open scoped Mat3
variable {K : Type} [Scalar K] {mb : MultiBody K}

/-! ### C23 -/

/-- C23: forward kinematics terminates without out-of-bounds access; it stores the pose of every joint, the parent-to-son
transform `pose * Xt`, the motion subspace, and as world pose of body `i` the product of the parent-to-son transforms of the
bodies from `i` up to its root; nothing else changes. -/
theorem C23_forward_kinematics (wf : mb.WF) {mbc : MBC K} (sz : mbc.Sized mb) :
    ∃ m, forwardKinematics mb mbc = .ok m ∧
      (∀ i, i < mb.nrBodies → ∃ j x X Xt, mb.joints[i]? = some j ∧ mbc.q[i]? = some x ∧ j.pose x = .ok X ∧
        mb.Xt[i]? = some Xt ∧ m.jointConfig[i]? = some X ∧ m.parentToSon[i]? = some (X * Xt) ∧
        m.motionSubspace[i]? = some j.S ∧
        m.bodyPosW[i]? = some ((pathUp mb.par i).map fun k => (m.parentToSon[k]?).getD 1).prod) ∧
      { m with jointConfig := mbc.jointConfig, parentToSon := mbc.parentToSon, motionSubspace := mbc.motionSubspace,
               bodyPosW := mbc.bodyPosW } = mbc ∧
      m.Sized mb := by
  obtain ⟨h1, h2, h3⟩ := sz.fk wf
  refine ⟨_, h1, ?_, rfl, h2⟩
  intro i hi
  have hi : i < mb.bodies.length := hi
  obtain ⟨j, x, hj, hx, hX, hS⟩ := wf.rd_pose sz.q hi
  have hXt := wf.rd_Xt hi
  refine ⟨j, x, _, _, rd_eq_ok_iff.1 hj, rd_eq_ok_iff.1 hx, hX, rd_eq_ok_iff.1 hXt, ?_, ?_, ?_, ?_⟩
  · simp [fkPost, hi]
  · simp [fkPost, hi, MultiBody.ptsAt]
  · simp [fkPost, hi, hS]
  · simp only [fkPost, range_map_getElem? hi]
    rw [MultiBody.posAt]
    congr 2
    refine List.map_congr_left fun k hk => ?_
    have := le_of_mem_pathUp hk
    rw [range_map_getElem? (by omega)]
    rfl

/-- C23, recursive form in terms of the stored predecessors: the world pose of a body is its parent-to-son transform
composed with the world pose of its predecessor. -/
theorem C23_recursive (wf : mb.WF) {mbc : MBC K} (sz : mbc.Sized mb) :
    ∃ m, forwardKinematics mb mbc = .ok m ∧
      ∀ i, i < mb.nrBodies → ∃ p X W, mb.pred[i]? = some p ∧ m.parentToSon[i]? = some X ∧ m.bodyPosW[i]? = some W ∧
        ((p = -1 ∧ W = X) ∨ ∃ k : Nat, p = k ∧ k < i ∧ ∃ W', m.bodyPosW[k]? = some W' ∧ W = X * W') := by
  obtain ⟨h1, -, -⟩ := sz.fk wf
  refine ⟨_, h1, fun i hi => ?_⟩
  have hi : i < mb.bodies.length := hi
  obtain ⟨p, hp, h⟩ := wf.pos_cases mbc.q hi
  refine ⟨p, mb.ptsAt mbc.q i, mb.posAt mbc.q i, rd_eq_ok_iff.1 hp, by simp [fkPost, hi], by simp [fkPost, hi], ?_⟩
  obtain ⟨h1, h2, -⟩ | ⟨k, h1, h2, -, h3⟩ := h
  · exact .inl ⟨h1, h2⟩
  · exact .inr ⟨k, h1, h2, mb.posAt mbc.q k, by simp [fkPost, (by omega : k < mb.bodies.length)], h3⟩

/-- C23: with unit axes, proper static rotations and unit quaternions all computed poses are rigid. -/
theorem C23_rigid (wf : mb.WF) (hr : mb.Rigid) {mbc : MBC K} (sz : mbc.Sized mb) (hq : ValidQ mb mbc.q) :
    ∃ m, forwardKinematics mb mbc = .ok m ∧ (∀ X ∈ m.bodyPosW, IsRigid X) ∧ ∀ X ∈ m.parentToSon, IsRigid X := by
  obtain ⟨h1, -, -⟩ := sz.fk wf
  refine ⟨_, h1, ?_, ?_⟩
  · intro X hX
    obtain ⟨i, -, rfl⟩ := List.mem_map.1 hX
    exact mb.posAt_rigid hr hq i
  · intro X hX
    obtain ⟨i, -, rfl⟩ := List.mem_map.1 hX
    exact mb.ptsAt_rigid hr hq i

/-- C23: after forward kinematics the stored poses are those of the specification. -/
theorem C23_posReady (wf : mb.WF) {mbc : MBC K} (sz : mbc.Sized mb) :
    ∃ m, forwardKinematics mb mbc = .ok m ∧ m.PosReady mb ∧ m.Sized mb ∧ m.q = mbc.q ∧ m.alpha = mbc.alpha ∧
      m.alphaD = mbc.alphaD ∧ m.force = mbc.force ∧ m.gravity = mbc.gravity ∧ m.jointTorque = mbc.jointTorque := by
  obtain ⟨h1, h2, h3⟩ := sz.fk wf
  exact ⟨_, h1, h3, h2, rfl, rfl, rfl, rfl, rfl, rfl⟩

/-- The sample configuration has the right sizes. -/
theorem Sample.sized : Sample.mbc.Sized Sample.mb := by
  constructor
  · exact Sample.sizedQ
  · exact Sample.sizedAlpha
  · exact Sample.sizedAlphaD
  · show Sample.mbc.jointTorque.map List.length = Sample.mb.joints.map (·.dof); decide +kernel
  all_goals decide +kernel

/-- C23 applies to a robot with four bodies, and the result is not trivial. -/
example : ∃ m, forwardKinematics Sample.mb Sample.mbc = .ok m ∧ m.PosReady Sample.mb ∧
    m.bodyPosW[2]? ≠ m.bodyPosW[1]? ∧ m.bodyPosW[2]? ≠ m.bodyPosW[3]? := by
  obtain ⟨m, h, hp, -⟩ := C23_posReady Sample.wf Sample.sized
  refine ⟨m, h, hp, ?_⟩
  have : forwardKinematics Sample.mb Sample.mbc = .ok ((forwardKinematics Sample.mb Sample.mbc).toOption.getD Sample.mbc) := by
    decide +kernel
  rw [this] at h
  cases h
  decide +kernel

/-! ### C24 -/

/-- C24: after forward kinematics and forward velocity, without any out-of-bounds access,
* the stored joint velocity is the motion subspace applied to the generalized velocity,
* the body velocity of body `i` is the sum over the bodies `k` from `i` up to its root of the joint velocity of `k`
  transported from `k` to `i`,
* `bodyVelW` is the body velocity rotated to the orientation of the world,
and nothing else changes. -/
theorem C24_forward_velocity (wf : mb.WF) (hr : mb.Rigid) {mbc : MBC K} (sz : mbc.Sized mb) (hq : ValidQ mb mbc.q) :
    ∃ m₁ m, forwardKinematics mb mbc = .ok m₁ ∧ forwardVelocity mb m₁ = .ok m ∧
      (∀ i, i < mb.nrBodies →
        (∃ j a, mb.joints[i]? = some j ∧ mbc.alpha[i]? = some a ∧ m.jointVelocity[i]? = some (applyCols j.S a)) ∧
        ∃ W V, m.bodyPosW[i]? = some W ∧ m.bodyVelB[i]? = some V ∧
          V = ∑ k ∈ (Finset.range mb.nrBodies).filter (· ∈ pathUp mb.par i),
            (W * ((m.bodyPosW[k]?).getD 1).inv).mulMotion ((m.jointVelocity[k]?).getD 0) ∧
          m.bodyVelW[i]? = some ⟨W.E.tr *ᵥ V.ang, W.E.tr *ᵥ V.lin⟩) ∧
      { m with jointVelocity := m₁.jointVelocity, bodyVelB := m₁.bodyVelB, bodyVelW := m₁.bodyVelW } = m₁ := by
  obtain ⟨h1, h2, h3⟩ := sz.fk wf
  obtain ⟨m, h4, h5, h6, h7⟩ := h2.fv wf hr hq h3
  have hq' : m.q = mbc.q := by
    have : m.q = (fkPost mb mbc).q := by rw [← h7]
    exact this
  have ha' : m.alpha = mbc.alpha := by
    have : m.alpha = (fkPost mb mbc).alpha := by rw [← h7]
    exact this
  refine ⟨_, m, h1, h4, ?_, h7⟩
  intro i hi
  have hi : i < mb.bodies.length := hi
  constructor
  · obtain ⟨j, a, hj, ha, -, -⟩ := wf.rd_motion sz.alpha hi
    refine ⟨j, a, rd_eq_ok_iff.1 hj, rd_eq_ok_iff.1 ha, ?_⟩
    rw [h6.jointVelocity, range_map_getElem? hi, ha']
    simp [MultiBody.jointMotion, MultiBody.SAt, rd_eq_ok_iff.1 hj, rd_eq_ok_iff.1 ha]
  · refine ⟨mb.posAt mbc.q i, mb.velAt mbc.q mbc.alpha i, ?_, ?_, ?_, ?_⟩
    · rw [h6.bodyPosW, range_map_getElem? hi, hq']
    · rw [h6.bodyVelB, range_map_getElem? hi, hq', ha']
    · unfold MultiBody.velAt
      refine Finset.sum_congr rfl fun k hk => ?_
      have hk : k < mb.bodies.length := (MultiBody.mem_path.1 hk).1
      rw [h6.bodyPosW, range_map_getElem? hk, h6.jointVelocity, range_map_getElem? hk, hq', ha']
      rfl
    · rw [h6.bodyVelW, range_map_getElem? hi, hq', ha']
      rfl

/-- C24: after forward kinematics and forward velocity the stored poses and velocities are those of the specification. -/
theorem C24_velReady (wf : mb.WF) (hr : mb.Rigid) {mbc : MBC K} (sz : mbc.Sized mb) (hq : ValidQ mb mbc.q) :
    ∃ m₁ m, forwardKinematics mb mbc = .ok m₁ ∧ forwardVelocity mb m₁ = .ok m ∧ m.VelReady mb ∧ m.Sized mb ∧
      m.q = mbc.q ∧ m.alpha = mbc.alpha ∧ m.alphaD = mbc.alphaD ∧ m.force = mbc.force ∧ m.gravity = mbc.gravity ∧
      m.jointTorque = mbc.jointTorque := by
  obtain ⟨h1, h2, h3⟩ := sz.fk wf
  obtain ⟨m, h4, h5, h6, h7⟩ := h2.fv wf hr hq h3
  refine ⟨_, m, h1, h4, h6, h5, ?_, ?_, ?_, ?_, ?_, ?_⟩
  · have : m.q = (fkPost mb mbc).q := by rw [← h7]
    exact this
  · have : m.alpha = (fkPost mb mbc).alpha := by rw [← h7]
    exact this
  · have : m.alphaD = (fkPost mb mbc).alphaD := by rw [← h7]
    exact this
  · have : m.force = (fkPost mb mbc).force := by rw [← h7]
    exact this
  · have : m.gravity = (fkPost mb mbc).gravity := by rw [← h7]
    exact this
  · have : m.jointTorque = (fkPost mb mbc).jointTorque := by rw [← h7]
    exact this

/-- A sample configuration with poses and velocities computed. -/
def Sample.mbcV : MBC ℚ :=
  ((forwardKinematics Sample.mb Sample.mbc).bind (forwardVelocity Sample.mb)).toOption.getD Sample.mbc

theorem Sample.ready : Sample.mbcV.VelReady Sample.mb ∧ Sample.mbcV.Sized Sample.mb ∧ ValidQ Sample.mb Sample.mbcV.q := by
  obtain ⟨m₁, m, h1, h2, h3, h4, h5, -⟩ := C24_velReady Sample.wf Sample.rigid Sample.sized (Sample.validQ)
  have : Sample.mbcV = m := by
    unfold Sample.mbcV
    rw [h1]
    show (forwardVelocity Sample.mb m₁).toOption.getD Sample.mbc = m
    rw [h2]; rfl
  rw [this]
  refine ⟨h3, h4, ?_⟩
  rw [h5]; exact Sample.validQ

/-- The body velocities of the sample are not trivial. -/
example : Sample.mbcV.bodyVelB[2]? ≠ some 0 ∧ Sample.mbcV.bodyVelB[2]? ≠ Sample.mbcV.bodyVelB[1]? := by decide +kernel

/-- C24: the computed body velocity is the velocity of the body. Along every trajectory of the joint positions whose
generalized velocity at time `t` is `α`, the world pose computed by forward kinematics moves at time `t` with the body velocity
computed by forward velocity. -/
theorem C24_velocity_is_derivative {mb : MultiBody ℝ} (wf : mb.WF) (hr : mb.Rigid) (hd : mb.DirOK)
    {mbc : ℝ → MBC ℝ} {t : ℝ} (sz : ∀ s, (mbc s).Sized mb)
    (h : Trajectory mb (fun s => (mbc s).q) (mbc t).alpha t) :
    ∃ m₁ m₂ : ℝ → MBC ℝ, (∀ s, forwardKinematics mb (mbc s) = .ok (m₁ s) ∧ forwardVelocity mb (m₁ s) = .ok (m₂ s)) ∧
      ∀ i, i < mb.nrBodies → ∃ (W : ℝ → PTransform ℝ) (V : MotionVec ℝ), (∀ s, (m₁ s).bodyPosW[i]? = some (W s)) ∧
        (m₂ t).bodyVelB[i]? = some V ∧ HasSpatialVelocity W V t := by
  have hk : ∀ s, ∃ m, forwardVelocity mb (fkPost mb (mbc s)) = .ok m ∧ m.VelReady mb ∧ m.q = (mbc s).q ∧
      m.alpha = (mbc s).alpha := fun s => by
    obtain ⟨-, h2, h3⟩ := (sz s).fk wf
    obtain ⟨m, h4, h5, h6, h7⟩ := h2.fv wf hr (h.valid s) h3
    refine ⟨m, h4, h6, ?_, ?_⟩
    · have : m.q = (fkPost mb (mbc s)).q := by rw [← h7]
      exact this
    · have : m.alpha = (fkPost mb (mbc s)).alpha := by rw [← h7]
      exact this
  choose m hm hv hq ha using hk
  refine ⟨fun s => fkPost mb (mbc s), m, fun s => ⟨((sz s).fk wf).1, hm s⟩, fun i hi => ?_⟩
  have hi : i < mb.bodies.length := hi
  refine ⟨fun s => mb.posAt (mbc s).q i, mb.velAt (mbc t).q (mbc t).alpha i, fun s => by simp [fkPost, hi], ?_,
    mb.posAt_hasVelocity wf hr hd h hi⟩
  rw [(hv t).bodyVelB, range_map_getElem? hi, hq, ha]

/-! ### C25 -/

/-- C25: after forward kinematics and forward velocity, forward acceleration stores for body `i` the transported base
acceleration plus the sum over the bodies `k` from `i` up to its root of `S αD + v × S α` of joint `k` transported from `k`
to `i`; nothing else changes. -/
theorem C25_forward_acceleration (wf : mb.WF) (hr : mb.Rigid) {mbc : MBC K} (sz : mbc.Sized mb) (hq : ValidQ mb mbc.q)
    (hv : mbc.VelReady mb) (a0 : MotionVec K) :
    ∃ m, forwardAcceleration mb mbc a0 = .ok m ∧
      (∀ i, i < mb.nrBodies → ∃ W, m.bodyPosW[i]? = some W ∧ m.bodyAccB[i]? = some
        (W.mulMotion a0 + ∑ k ∈ (Finset.range mb.nrBodies).filter (· ∈ pathUp mb.par i),
            (W * ((m.bodyPosW[k]?).getD 1).inv).mulMotion
              (applyCols (((mb.joints[k]?).map (·.S)).getD []) ((mbc.alphaD[k]?).getD []) +
                ((m.bodyVelB[k]?).getD 0).cross ((m.jointVelocity[k]?).getD 0)))) ∧
      { m with bodyAccB := mbc.bodyAccB } = mbc := by
  refine ⟨_, sz.fa wf hr hq hv a0, fun i hi => ?_, rfl⟩
  have hi : i < mb.bodies.length := hi
  refine ⟨mb.posAt mbc.q i, by simp only [hv.bodyPosW, range_map_getElem? hi], ?_⟩
  simp only [range_map_getElem? hi, Option.some.injEq, MultiBody.accAt]
  congr 1
  refine Finset.sum_congr rfl fun k hk => ?_
  have hk : k < mb.bodies.length := (MultiBody.mem_path.1 hk).1
  rw [hv.bodyPosW, range_map_getElem? hk, hv.jointVelocity, range_map_getElem? hk, hv.bodyVelB, range_map_getElem? hk]
  rfl

/-- C25 applies to the sample robot and gives non-trivial accelerations. -/
example : ∃ m, forwardAcceleration Sample.mb Sample.mbcV ⟨0, ⟨0, 0, 1⟩⟩ = .ok m ∧ m.bodyAccB[2]? ≠ m.bodyAccB[1]? := by
  obtain ⟨h1, h2, h3⟩ := Sample.ready
  obtain ⟨m, h, -, -⟩ := C25_forward_acceleration Sample.wf Sample.rigid h2 h3 h1 ⟨0, ⟨0, 0, 1⟩⟩
  refine ⟨m, h, ?_⟩
  have : m = (forwardAcceleration Sample.mb Sample.mbcV ⟨0, ⟨0, 0, 1⟩⟩).toOption.getD Sample.mbcV := by rw [h]; rfl
  rw [this]
  decide +kernel

/-- C25: the computed body acceleration is the time derivative of the computed body velocity (for a non accelerating base).
Along every trajectory of joint positions and velocities, where the coordinate rates at `t` correspond to `α t` and `αD` is the
derivative of `α` at `t`. -/
theorem C25_acceleration_is_derivative {mb : MultiBody ℝ} (wf : mb.WF) (hr : mb.Rigid) (hd : mb.DirOK)
    {mbc : ℝ → MBC ℝ} {t : ℝ} (sz : ∀ s, (mbc s).Sized mb) (hv : ∀ s, (mbc s).VelReady mb)
    (h : Trajectory mb (fun s => (mbc s).q) (mbc t).alpha t)
    (ha : HasDerivDof mb (fun s => (mbc s).alpha) (mbc t).alphaD t) :
    ∃ m, forwardAcceleration mb (mbc t) 0 = .ok m ∧
      ∀ i, i < mb.nrBodies → ∃ (V : ℝ → MotionVec ℝ) (A : MotionVec ℝ), (∀ s, (mbc s).bodyVelB[i]? = some (V s)) ∧
        m.bodyAccB[i]? = some A ∧ HasDerivMotion V A t := by
  refine ⟨_, (sz t).fa wf hr (h.valid t) (hv t) 0, fun i hi => ?_⟩
  have hi : i < mb.bodies.length := hi
  exact ⟨fun s => mb.velAt (mbc s).q (mbc s).alpha i, _, fun s => by rw [(hv s).bodyVelB, range_map_getElem? hi],
    range_map_getElem? hi, mb.velAt_hasDeriv (α := fun s => (mbc s).alpha) wf hr hd h ha hi⟩

/-- The hypotheses of `C24_velocity_is_derivative` and `C25_acceleration_is_derivative` are met by a two-joint arm whose first
joint accelerates and whose second (reversed, prismatic) joint moves at constant speed. -/
theorem Sample.real_arm_made : ∃ (mb : MultiBody ℝ) (mbc : ℝ → MBC ℝ), mb.Made ∧ mb.pred = [-1, 0] ∧ mb.WF ∧ mb.Rigid ∧ mb.DirOK ∧
    mb.bodies = [⟨⟨2, ⟨1, 0, 0⟩, ⟨1, 0, 1, 0, 0, 1⟩⟩, "x"⟩, ⟨⟨3, 0, ⟨2, 0, 2, 0, 0, 2⟩⟩, "y"⟩] ∧ (∀ s, (mbc s).Sized mb) ∧
    (∀ s, (mbc s).VelReady mb) ∧
    ∀ t, Trajectory mb (fun s => (mbc s).q) (mbc t).alpha t ∧
      HasDerivDof mb (fun s => (mbc s).alpha) (mbc t).alphaD t ∧ (mbc t).alpha = [[2 * t], [3]] ∧ (mbc t).gravity = ⟨0, 9, 0⟩ := by
  let J : List (Joint ℝ) := [Joint.mk' .Rev ⟨0, 0, 1⟩ true "a", Joint.mk' .Prism ⟨1, 0, 0⟩ false "b"]
  have hu : ∀ j ∈ J, j.BuiltUnit := by
    intro j hj
    simp only [J, List.mem_cons, List.not_mem_nil, or_false] at hj
    rcases hj with rfl | rfl
    · exact .mk _ _ _ _ (by simp [ValidAxis, IsUnit3])
    · exact .mk _ _ _ _ trivial
  obtain ⟨mb, hmk, wf, hb, hj, hpr, -, -, hX⟩ := MultiBody.mk'_wf
    [⟨⟨2, ⟨1, 0, 0⟩, ⟨1, 0, 1, 0, 0, 1⟩⟩, "x"⟩, ⟨⟨3, 0, ⟨2, 0, 2, 0, 0, 2⟩⟩, "y"⟩] J [-1, 0] [0, 1] [-1, 0] [1, 1] rfl rfl rfl
    (by intro i hi
        have : i < 2 := hi
        obtain rfl | rfl : i = 0 ∨ i = 1 := by omega
        all_goals rfl)
    (by intro i p hp
        obtain ⟨hi, -⟩ := List.getElem?_eq_some_iff.1 hp
        have : i < 2 := hi
        obtain rfl | rfl : i = 0 ∨ i = 1 := by omega
        all_goals (cases hp; decide))
    rfl (fun j hj => (hu j hj).built)
  have hr : mb.Rigid := by
    refine ⟨hj ▸ hu, ?_⟩
    rw [hX]; intro X h
    simp only [List.mem_cons, List.not_mem_nil, or_false, or_self] at h
    subst h; exact IsRigid.one
  let q : ℝ → List (List ℝ) := fun s => [[s * s], [3 * s]]
  let c : ℝ → MBC ℝ := fun s =>
    { q := q s, alpha := [[2 * s], [3]], alphaD := [[2], [0]], force := [0, 0], jointConfig := [1, 1], jointVelocity := [0, 0],
      jointTorque := [[0], [0]], motionSubspace := [[0], [0]], bodyPosW := [1, 1], parentToSon := [1, 1], bodyVelW := [0, 0],
      bodyVelB := [0, 0], bodyAccB := [0, 0], gravity := ⟨0, 9, 0⟩ }
  have sz : ∀ s, (c s).Sized mb := by
    intro s
    constructor <;> simp [c, q, SizedQ, SizedDof, hb, hj, J] <;> exact ⟨rfl, rfl⟩
  have hq : ∀ s, ValidQ mb (q s) := by
    intro s
    unfold ValidQ
    rw [hj]
    exact .cons ⟨rfl, trivial⟩ (.cons ⟨rfl, trivial⟩ .nil)
  choose m₁ m h1 h2 h3 h4 h5 h6 h7 _ h8 _ using fun s => C24_velReady wf hr (sz s) (hq s)
  refine ⟨mb, m, ⟨_, _, _, _, _, _, rfl, fun j hj => (hu j hj).built, hmk⟩, hpr, wf, hr, ?_, hb, h4, h3,
    fun t => ⟨⟨?_, ?_, ?_⟩, ?_, h6 t, h8 t⟩⟩
  · intro j h
    rw [hj] at h
    simp only [J, List.mem_cons, List.not_mem_nil, or_false] at h
    rcases h with rfl | rfl
    · exact .inl (by simp [Joint.mk', Joint.isForward])
    · exact .inr (.inr (.inl rfl))
  · intro s; show ValidQ mb (m s).q; rw [h5]; exact hq s
  · rw [h6]; exact (sz t).alpha
  · intro i j hij
    simp only [h5, h6]
    rw [hj] at hij
    obtain ⟨hi, -⟩ := List.getElem?_eq_some_iff.1 hij
    have : i < 2 := hi
    obtain rfl | rfl : i = 0 ∨ i = 1 := by omega
    · cases hij
      refine ⟨fun s => rfl, fun k => ?_⟩
      match k with
      | 0 => exact ((hasDerivAt_id t).mul (hasDerivAt_id t)).congr_deriv (by simp [c, coordRate, Joint.mk']; ring)
      | n + 1 => exact (hasDerivAt_const _ _).congr_deriv (by simp [c, coordRate, Joint.mk'])
    · cases hij
      refine ⟨fun s => rfl, fun k => ?_⟩
      match k with
      | 0 => exact ((hasDerivAt_id t).const_mul 3).congr_deriv (by simp [c, coordRate, Joint.mk'])
      | n + 1 => exact (hasDerivAt_const _ _).congr_deriv (by simp [c, coordRate, Joint.mk'])
  · intro i hi
    simp only [h6, h7]
    have : i < 2 := by rw [hb] at hi; exact hi
    obtain rfl | rfl : i = 0 ∨ i = 1 := by omega
    · refine ⟨fun s => rfl, fun k => ?_⟩
      match k with
      | 0 => exact ((hasDerivAt_id t).const_mul 2).congr_deriv (by simp [c])
      | n + 1 => exact (hasDerivAt_const _ _).congr_deriv (by simp [c])
    · refine ⟨fun s => rfl, fun k => ?_⟩
      match k with
      | 0 => exact (hasDerivAt_const _ _).congr_deriv (by simp [c])
      | n + 1 => exact (hasDerivAt_const _ _).congr_deriv (by simp [c])

theorem Sample.real_arm : ∃ (mb : MultiBody ℝ) (mbc : ℝ → MBC ℝ), mb.WF ∧ mb.Rigid ∧ mb.DirOK ∧
    mb.bodies = [⟨⟨2, ⟨1, 0, 0⟩, ⟨1, 0, 1, 0, 0, 1⟩⟩, "x"⟩, ⟨⟨3, 0, ⟨2, 0, 2, 0, 0, 2⟩⟩, "y"⟩] ∧ (∀ s, (mbc s).Sized mb) ∧
    (∀ s, (mbc s).VelReady mb) ∧
    ∀ t, Trajectory mb (fun s => (mbc s).q) (mbc t).alpha t ∧
      HasDerivDof mb (fun s => (mbc s).alpha) (mbc t).alphaD t ∧ (mbc t).alpha = [[2 * t], [3]] ∧ (mbc t).gravity = ⟨0, 9, 0⟩ := by
  obtain ⟨mb, mbc, -, -, h⟩ := Sample.real_arm_made
  exact ⟨mb, mbc, h⟩

end RBDyn
