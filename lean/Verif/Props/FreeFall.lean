import Verif.Props.Floating
import Verif.Props.Units
import Verif.Lemmas.Integration

/-! Property C83: a robot with a free root joint notices neither a uniform motion nor a uniform acceleration of the frame it is seen from, nor
gravity. -/

namespace RBDyn
open scoped Mat3

variable {K : Type} [Scalar K] {mb : MultiBody K}

/-- Add a linear part to the six entries of the first joint. -/
def addLin (w : Vec3 K) : List (List K) → List (List K)
  | [a, b, c, x, y, z] :: l => [a, b, c, x + w.x, y + w.y, z + w.z] :: l
  | l => l

theorem addLin_succ (w : Vec3 K) (a : List (List K)) (i : Nat) : (addLin w a)[i + 1]? = a[i + 1]? := by
  unfold addLin
  split <;> rfl

theorem addLin_length (w : Vec3 K) (a : List (List K)) : (addLin w a).map List.length = a.map List.length := by
  unfold addLin
  split <;> rfl

theorem addLin_jointMotion (hr : mb.Rigid) {j : Joint K} (hj : mb.joints[0]? = some j) (hfree : j.type = .Free) {a : List (List K)}
    (ha : SizedDof mb a) (w : Vec3 K) : mb.jointMotion (addLin (j.dir • w) a) 0 = mb.jointMotion a 0 + ⟨0, w⟩ := by
  obtain ⟨t, ax, fw, n, hax, e⟩ := (hr.joints j (List.mem_of_getElem? hj)).exists_mk
  have hS : j.S = Joint.mkS (if fw then 1 else -1) t ax ∧ j.type = t ∧ j.dof = Joint.nDof t ∧ j.dir = (if fw then 1 else -1) := by
    rcases e with rfl | ⟨_, _, _, rfl⟩ <;> exact ⟨rfl, rfl, rfl, rfl⟩
  obtain ⟨h1, h2, h3, h4⟩ := hS
  obtain rfl : t = .Free := h2.symm.trans hfree
  unfold SizedDof at ha
  obtain ⟨l, ls, rfl, hl⟩ : ∃ l ls, a = l :: ls ∧ l.length = 6 := by
    cases a with
    | nil =>
      have := congrArg (·[0]?) ha
      simp [hj] at this
    | cons l ls =>
      refine ⟨l, ls, rfl, ?_⟩
      have := congrArg (·[0]?) ha
      simpa [hj, h3, Joint.nDof] using this
  obtain ⟨a1, a2, a3, a4, a5, a6, rfl⟩ := list6 hl
  unfold MultiBody.jointMotion MultiBody.SAt
  simp only [hj, Option.map_some, Option.getD_some, h1, h4, addLin, List.getElem?_cons_zero]
  cases fw <;> ext <;> simp [Joint.mkS, applyCols] <;> ring

/-- Two states in the same posture, of which the second moves with the additional velocity `u` and the additional acceleration `b`, both
given in the world, while gravity is diminished by `b`. The accelerations in `alphaD` are those of the coordinates of the velocity in the frame of
the root body, which turns: hence `-ω × u`. `W` is the pose of the root body and `ω` its angular velocity in its own frame. -/
structure Boosted (j : Joint K) (W : PTransform K) (ω u b : Vec3 K) (m m' : MBC K) : Prop where
  q : m'.q = m.q
  alpha : m'.alpha = addLin (j.dir • (W.E *ᵥ u)) m.alpha
  alphaD : m'.alphaD = addLin (j.dir • (W.E *ᵥ b - ω.cross (W.E *ᵥ u))) m.alphaD
  gravity : m'.gravity = m.gravity - b
  force : m'.force = m.force

section
variable {j : Joint K} {m m' : MBC K} {W : PTransform K} {v : MotionVec K} {u b : Vec3 K}

theorem MotionVec.lin_cross (v : MotionVec K) (w : Vec3 K) : v.cross ⟨0, w⟩ = ⟨0, v.ang.cross w⟩ := by
  ext <;> simp [MotionVec.cross]

theorem MultiBody.OneRoot.par_none (ho : mb.OneRoot) (wf : mb.WF) {i : Nat} (hi : i < mb.bodies.length) (h : mb.par i = none) : i = 0 := by
  have hi' : i < mb.pred.length := by rw [wf.npred]; exact hi
  refine ho i ?_
  unfold MultiBody.par at h
  have hp := wf.pred i _ (List.getElem?_eq_getElem hi')
  rw [List.getElem?_eq_getElem hi'] at h ⊢
  simp at h
  rw [Option.some_inj]
  omega

theorem Boosted.velAt (wf : mb.WF) (hr : mb.Rigid) (ho : mb.OneRoot) (hj : mb.joints[0]? = some j) (hfree : j.type = .Free) (sz : m.Sized mb)
    (hq : ValidQ mb m.q) (hW : W = mb.posAt m.q 0) {ω : Vec3 K} (hb : Boosted j W ω u b m m') :
    ∀ i, i < mb.bodies.length → mb.velAt m.q m'.alpha i = mb.velAt m.q m.alpha i + (mb.posAt m.q i).mulMotion ⟨0, u⟩ := by
  intro i
  induction i using Nat.strong_induction_on with
  | _ i ih =>
    intro hi
    cases hp : mb.par i with
    | none =>
      obtain rfl := ho.par_none wf hi hp
      rw [wf.velAt_none hr hq _ hi hp, wf.velAt_none hr hq _ hi hp, hb.alpha, addLin_jointMotion hr hj hfree sz.alpha, hW]
      congr 1
      ext <;> simp [PTransform.mulMotion]
    | some p =>
      have hlt := wf.par_lt _ _ hp
      have e : mb.jointMotion m'.alpha i = mb.jointMotion m.alpha i := by
        obtain ⟨k, rfl⟩ : ∃ k, i = k + 1 := ⟨i - 1, by omega⟩
        rw [hb.alpha, MultiBody.jointMotion, addLin_succ]
        rfl
      rw [wf.velAt_some hr hq _ hi hp, wf.velAt_some hr hq _ hi hp, ih p hlt (by omega), e, wf.posAt_some m.q hp,
        PTransform.mulMotion_add, PTransform.mul_mulMotion _ _ _ (mb.posAt_rigid hr hq p)]
      abel

theorem Boosted.accAt (wf : mb.WF) (hr : mb.Rigid) (ho : mb.OneRoot) (hj : mb.joints[0]? = some j) (hfree : j.type = .Free) (sz : m.Sized mb)
    (hq : ValidQ mb m.q) (hW : W = mb.posAt m.q 0) {ω : Vec3 K} (hω : ω = (mb.velAt m.q m.alpha 0).ang) (hb : Boosted j W ω u b m m') :
    ∀ i, i < mb.bodies.length → mb.accAt m.q m'.alpha m'.alphaD ⟨0, m'.gravity⟩ i =
      mb.accAt m.q m.alpha m.alphaD ⟨0, m.gravity⟩ i - (mb.velAt m.q m.alpha i).cross ((mb.posAt m.q i).mulMotion ⟨0, u⟩) := by
  intro i
  induction i using Nat.strong_induction_on with
  | _ i ih =>
    intro hi
    cases hp : mb.par i with
    | none =>
      obtain rfl := ho.par_none wf hi hp
      have k1 : mb.velAt m.q m'.alpha 0 = mb.jointMotion m'.alpha 0 := wf.velAt_none hr hq _ hi hp
      have k2 : mb.velAt m.q m.alpha 0 = mb.jointMotion m.alpha 0 := wf.velAt_none hr hq _ hi hp
      rw [wf.accAt_none hr hq _ _ _ hi hp, wf.accAt_none hr hq _ _ _ hi hp, k1, k2, hb.gravity, hb.alphaD,
        addLin_jointMotion hr hj hfree sz.alphaD, hW, wf.posAt_none m.q hp, hω, k2]
      generalize mb.jointMotion m'.alpha 0 = s'
      generalize mb.jointMotion m.alpha 0 = s
      generalize mb.jointMotion m.alphaD 0 = s2
      generalize mb.ptsAt m.q 0 = X
      ext <;> simp [PTransform.mulMotion, MotionVec.cross, Mat3.mulVec] <;> ring
    | some p =>
      have hlt := wf.par_lt _ _ hp
      obtain ⟨k, rfl⟩ : ∃ k, i = k + 1 := ⟨i - 1, by omega⟩
      have e : mb.jointMotion m'.alpha (k + 1) = mb.jointMotion m.alpha (k + 1) := by
        rw [hb.alpha, MultiBody.jointMotion, addLin_succ]
        rfl
      have e2 : mb.jointMotion m'.alphaD (k + 1) = mb.jointMotion m.alphaD (k + 1) := by
        rw [hb.alphaD, MultiBody.jointMotion, addLin_succ]
        rfl
      have hX := mb.ptsAt_rigid hr hq (k + 1)
      rw [wf.accAt_some hr hq _ _ _ hi hp, wf.accAt_some hr hq _ _ _ hi hp, ih p hlt (by omega), e, e2,
        hb.velAt wf hr ho hj hfree sz hq hW _ hi, wf.velAt_some hr hq _ hi hp, wf.posAt_some m.q hp, PTransform.mulMotion_sub,
        PTransform.mulMotion_cross hX, PTransform.mul_mulMotion _ _ _ (mb.posAt_rigid hr hq p)]
      generalize (mb.ptsAt m.q (k + 1)).mulMotion (mb.velAt m.q m.alpha p) = x
      generalize (mb.ptsAt m.q (k + 1)).mulMotion ((mb.posAt m.q p).mulMotion ⟨0, u⟩) = w
      generalize mb.jointMotion m.alpha (k + 1) = s
      ext <;> simp [MotionVec.cross] <;> ring

/-- Newton's law does not notice a uniform motion. -/
theorem newton_boost (I : RBInertia K) (a v : MotionVec K) (w : Vec3 K) :
    I.mulMotion (a - v.cross ⟨0, w⟩) + (v + ⟨0, w⟩).crossDual (I.mulMotion (v + ⟨0, w⟩)) = I.mulMotion a + v.crossDual (I.mulMotion v) := by
  ext <;> simp [RBInertia.mulMotion, MotionVec.cross, MotionVec.crossDual, Mat3.mulVec] <;> ring

theorem Boosted.netForceAt (wf : mb.WF) (hr : mb.Rigid) (ho : mb.OneRoot) (hj : mb.joints[0]? = some j) (hfree : j.type = .Free) (sz : m.Sized mb)
    (hq : ValidQ mb m.q) (hW : W = mb.posAt m.q 0) {ω : Vec3 K} (hω : ω = (mb.velAt m.q m.alpha 0).ang) (hb : Boosted j W ω u b m m')
    {i : Nat} (hi : i < mb.bodies.length) :
    mb.netForceAt m'.q m'.alpha m'.alphaD ⟨0, m'.gravity⟩ m'.forceAt i = mb.netForceAt m.q m.alpha m.alphaD ⟨0, m.gravity⟩ m.forceAt i := by
  have e : (mb.posAt m.q i).mulMotion ⟨0, u⟩ = ⟨0, (mb.posAt m.q i).E *ᵥ u⟩ := by
    ext <;> simp [PTransform.mulMotion]
  have ef : m'.forceAt = m.forceAt := by
    unfold MBC.forceAt
    rw [hb.force]
  rw [MultiBody.netForceAt, MultiBody.netForceAt, hb.q, hb.accAt wf hr ho hj hfree sz hq hW hω i hi, hb.velAt wf hr ho hj hfree sz hq hW i hi, e,
    newton_boost, ef]

theorem wrenchAt_congr {q : List (List K)} {f f' : Nat → ForceVec K} (h : ∀ k, k < mb.bodies.length → f' k = f k) (i : Nat) :
    mb.wrenchAt q f' i = mb.wrenchAt q f i := by
  unfold MultiBody.wrenchAt
  refine Finset.sum_congr rfl fun k hk => ?_
  rw [h k]
  have := (Finset.mem_filter.1 hk).1
  exact Finset.mem_range.1 this

/-- C83: the torques of inverse dynamics of a robot on a free joint do not change when the whole robot moves with an additional uniform
velocity `u` and is accelerated by `b` while gravity is diminished by `b`. -/
theorem C83_torques (wf : mb.WF) (hr : mb.Rigid) (ho : mb.OneRoot) (hj : mb.joints[0]? = some j) (hfree : j.type = .Free) (sz : m.Sized mb)
    (sz' : m'.Sized mb) (hq : ValidQ mb m.q) (hv : m.VelReady mb) (hv' : m'.VelReady mb) (hW : m.bodyPosW[0]? = some W)
    (hV : m.bodyVelB[0]? = some v) (hb : Boosted j W v.ang u b m m') {d d' : ID K} (hd : d.f.length = mb.nrBodies)
    (hd' : d'.f.length = mb.nrBodies) :
    ∃ d₁ m₁ d₁' m₁', d.inverseDynamics mb m = .ok (d₁, m₁) ∧ d'.inverseDynamics mb m' = .ok (d₁', m₁') ∧ m₁'.jointTorque = m₁.jointTorque := by
  have h0 : 0 < mb.bodies.length := by rw [← wf.njoints]; exact (List.getElem?_eq_some_iff.1 hj).1
  rw [hv.bodyPosW, range_map_getElem? h0, Option.some_inj] at hW
  rw [hv.bodyVelB, range_map_getElem? h0, Option.some_inj] at hV
  refine ⟨_, _, _, _, id_eq wf hr sz hq hv hd rfl, id_eq wf hr sz' (hb.q ▸ hq) hv' hd' rfl, ?_⟩
  refine List.map_congr_left fun i _ => ?_
  rw [hb.q]
  congr 1
  refine wrenchAt_congr (fun k hk => ?_) i
  rw [← hb.netForceAt wf hr ho hj hfree sz hq hW.symm (by rw [hV]) hk, hb.q]

theorem computeH_of_same {m m' : MBC K} (h1 : m'.parentToSon = m.parentToSon) (h2 : m'.motionSubspace = m.motionSubspace) (fd : FD K) :
    fd.computeH mb m' = fd.computeH mb m := by
  have hu : ∀ i n j (d : FD K), hUp mb m' i n j d = hUp mb m i n j d := by
    intro i n
    induction n with
    | zero => intro j d; rfl
    | succ n ih =>
      intro j d
      simp only [hUp, ih, h1, h2]
  have e : hStep mb m' = hStep mb m := by
    funext d i
    simp only [hStep, hu, h1, h2]
  unfold FD.computeH
  rw [e]

/-- C83: forward dynamics of a robot on a free joint: an additional uniform velocity `u` and a gravity diminished by `b` change the
acceleration of the free joint by that of the frame, and no acceleration of any other joint. -/
theorem C83_accelerations (wf : mb.WF) (hr : mb.Rigid) (ho : mb.OneRoot) (hj : mb.joints[0]? = some j) (hfree : j.type = .Free) (sz : m.Sized mb)
    (sz' : m'.Sized mb) (hq : ValidQ mb m.q) (hv : m.VelReady mb) (hv' : m'.VelReady mb) (hW : m.bodyPosW[0]? = some W)
    (hV : m.bodyVelB[0]? = some v) (eq : m'.q = m.q) (ea : m'.alpha = addLin (j.dir • (W.E *ᵥ u)) m.alpha) (eg : m'.gravity = m.gravity - b)
    (ef : m'.force = m.force) (et : m'.jointTorque = m.jointTorque) {fd : FD K} (hf : fd.Fits mb)
    (hI : ∀ b ∈ mb.bodies, ∀ v : MotionVec K, v ≠ 0 → 0 < v.dot (b.inertia.mulMotion v)) (hS : ∀ j ∈ mb.joints, ∀ c ∈ j.S, c ≠ 0)
    {solve : DMat K → List K → List K} (hs : ∀ fd₁, fd.computeH mb m = .ok fd₁ → ExactSolve solve fd₁.H) :
    ∃ fd₁ fd₁' r, fd.forwardDynamics solve mb m = .ok (fd₁, { m with alphaD := r }) ∧ SizedDof mb r ∧
      fd.forwardDynamics solve mb m' = .ok (fd₁', { m' with alphaD := addLin (j.dir • (W.E *ᵥ b - v.ang.cross (W.E *ᵥ u))) r }) := by
  have hl : (⟨List.replicate mb.nrBodies 0⟩ : ID K).f.length = mb.nrBodies := by simp
  obtain ⟨fd₁, m₁, d₁, m₂, e1, hm, -, szm, e2, ht⟩ := C27_forward_then_inverse wf hr sz hq hv hl hf hs
  have hm' : m₁ = { m with alphaD := m₁.alphaD } := by rw [← hm]
  have hsr : SizedDof mb m₁.alphaD := szm.alphaD
  rw [hm'] at e1 e2
  have hsr' : SizedDof mb (addLin (j.dir • (W.E *ᵥ b - v.ang.cross (W.E *ᵥ u))) m₁.alphaD) := by
    unfold SizedDof
    rw [addLin_length]
    exact hsr
  have hsp : SamePosVel { m with alphaD := m₁.alphaD } m := rfl
  have hsp' : SamePosVel { m' with alphaD := addLin (j.dir • (W.E *ᵥ b - v.ang.cross (W.E *ᵥ u))) m₁.alphaD } m' := rfl
  have hq' : ValidQ mb m'.q := eq ▸ hq
  have hs' : ∀ fd₁, fd.computeH mb m' = .ok fd₁ → ExactSolve solve fd₁.H := fun fd₁ e => hs fd₁ (by
    rwa [computeH_of_same (m := m) (by rw [hv'.parentToSon, hv.parentToSon, eq]) (by rw [hv'.motionSubspace, hv.motionSubspace])] at e)
  obtain ⟨hv1, hq1⟩ := hsp.ready hv hq
  obtain ⟨hv1', hq1'⟩ := hsp'.ready hv' hq'
  obtain ⟨d₂, m₃, d₃, m₄, e3, e4, ht'⟩ := C83_torques (m := { m with alphaD := m₁.alphaD })
    (m' := { m' with alphaD := addLin (j.dir • (W.E *ᵥ b - v.ang.cross (W.E *ᵥ u))) m₁.alphaD }) wf hr ho hj hfree { sz with alphaD := hsr }
    { sz' with alphaD := hsr' } hq1 hv1 hv1' hW hV ⟨eq, ea, rfl, eg, ef⟩ hl hl
  rw [e2] at e3
  cases e3
  obtain ⟨fd₂, e5⟩ := fd_unique wf hr sz' hq' hv' hl hf hI hS hs' hsr' e4 (by rw [ht', ht, et])
  exact ⟨fd₁, fd₂, _, e1, hsr, e5⟩

theorem addLin_zero (a : List (List K)) : addLin 0 a = a := by
  unfold addLin
  split <;> simp

theorem addLin_tail (w : Vec3 K) (a : List (List K)) : (addLin w a).tail = a.tail := by
  unfold addLin
  split <;> rfl

/-- C83: gravity does not move the joints of a robot on a free joint: with the same torques, forces and velocities all accelerations but that of the
free joint are the same under any gravity. -/
theorem C83_gravity (wf : mb.WF) (hr : mb.Rigid) (ho : mb.OneRoot) (hj : mb.joints[0]? = some j) (hfree : j.type = .Free) (sz : m.Sized mb)
    (hq : ValidQ mb m.q) (hv : m.VelReady mb) (g' : Vec3 K) {fd : FD K} (hf : fd.Fits mb)
    (hI : ∀ b ∈ mb.bodies, ∀ v : MotionVec K, v ≠ 0 → 0 < v.dot (b.inertia.mulMotion v)) (hS : ∀ j ∈ mb.joints, ∀ c ∈ j.S, c ≠ 0)
    {solve : DMat K → List K → List K} (hs : ∀ fd₁, fd.computeH mb m = .ok fd₁ → ExactSolve solve fd₁.H) :
    ∃ fd₁ fd₁' m₁ m₁' W, fd.forwardDynamics solve mb m = .ok (fd₁, m₁) ∧ fd.forwardDynamics solve mb { m with gravity := g' } = .ok (fd₁', m₁') ∧
      m.bodyPosW[0]? = some W ∧ m₁'.alphaD.tail = m₁.alphaD.tail ∧ m₁'.alphaD = addLin (j.dir • (W.E *ᵥ (m.gravity - g'))) m₁.alphaD := by
  have h0 : 0 < mb.bodies.length := by rw [← wf.njoints]; exact (List.getElem?_eq_some_iff.1 hj).1
  have hW : m.bodyPosW[0]? = some (mb.posAt m.q 0) := by rw [hv.bodyPosW, range_map_getElem? h0]
  have hV : m.bodyVelB[0]? = some (mb.velAt m.q m.alpha 0) := by rw [hv.bodyVelB, range_map_getElem? h0]
  have z : (mb.posAt m.q 0).E *ᵥ (0 : Vec3 K) = 0 := by ext <;> simp [Mat3.mulVec]
  have sz' : MBC.Sized mb { m with gravity := g' } := ⟨sz.q, sz.alpha, sz.alphaD, sz.jointTorque, sz.force, sz.jointConfig, sz.jointVelocity,
    sz.motionSubspace, sz.bodyPosW, sz.parentToSon, sz.bodyVelW, sz.bodyVelB, sz.bodyAccB⟩
  have hv' : MBC.VelReady mb { m with gravity := g' } := ⟨⟨hv.parentToSon, hv.bodyPosW, hv.motionSubspace⟩, hv.jointVelocity, hv.bodyVelB, hv.bodyVelW⟩
  have hsub : g' = m.gravity - (m.gravity - g') := by ext <;> simp
  obtain ⟨fd₁, fd₁', r, e1, -, e2⟩ := C83_accelerations (m' := { m with gravity := g' }) (u := 0) (b := m.gravity - g') wf hr ho hj hfree sz
    sz' hq hv hv' hW hV rfl (by rw [z, smul_zero, addLin_zero]) hsub rfl rfl hf hI hS hs
  rw [z, Vec3.cross_zero, sub_zero] at e2
  exact ⟨fd₁, fd₁', _, _, _, e1, e2, hW, addLin_tail _ _, rfl⟩

end

/-- The sample robot, seen from a frame that moves and accelerates in any direction. -/
example (u b : Vec3 ℚ) : ∃ (m' : MBC ℚ) (j : Joint ℚ) (W : PTransform ℚ) (v : MotionVec ℚ) (d₁ : ID ℚ) (m₁ : MBC ℚ) (d₁' : ID ℚ) (m₁' : MBC ℚ),
    Boosted j W v.ang u b Sample.mbcV m' ∧ v.ang ≠ 0 ∧ m'.VelReady Sample.mb ∧ Sample.id.inverseDynamics Sample.mb Sample.mbcV = .ok (d₁, m₁) ∧
      Sample.id.inverseDynamics Sample.mb m' = .ok (d₁', m₁') ∧ m₁'.jointTorque = m₁.jointTorque := by
  obtain ⟨h1, h2, h3⟩ := Sample.ready
  let j : Joint ℚ := Joint.mk' .Free ⟨0, 0, 1⟩ true "root"
  have hj : Sample.mb.joints[0]? = some j := by decide +kernel
  have h0 : 0 < Sample.mb.bodies.length := by decide +kernel
  obtain ⟨W, hW⟩ : ∃ W, Sample.mbcV.bodyPosW[0]? = some W := ⟨_, by rw [h1.bodyPosW]; exact range_map_getElem? h0⟩
  have hv0 : ((Sample.mbcV.bodyVelB[0]?).getD 0).ang ≠ 0 := by decide +kernel
  obtain ⟨v, hV⟩ : ∃ v, Sample.mbcV.bodyVelB[0]? = some v := ⟨_, by rw [h1.bodyVelB]; exact range_map_getElem? h0⟩
  rw [hV] at hv0
  let c : MBC ℚ := { Sample.mbcV with
    alpha := addLin (j.dir • (W.E *ᵥ u)) Sample.mbcV.alpha
    alphaD := addLin (j.dir • (W.E *ᵥ b - v.ang.cross (W.E *ᵥ u))) Sample.mbcV.alphaD
    gravity := Sample.mbcV.gravity - b }
  have szc : c.Sized Sample.mb := { h2 with
    alpha := by show SizedDof _ _; unfold SizedDof; rw [addLin_length]; exact h2.alpha
    alphaD := by show SizedDof _ _; unfold SizedDof; rw [addLin_length]; exact h2.alphaD }
  obtain ⟨_, m', -, -, hv', sz', kq, ka, kd, kf, kg, -⟩ := C24_velReady Sample.wf Sample.rigid szc h3
  have hb : Boosted j W v.ang u b Sample.mbcV m' := ⟨kq, ka, kd, kg, kf⟩
  have hl : Sample.id.f.length = Sample.mb.nrBodies := by decide +kernel
  obtain ⟨d₁, m₁, d₁', m₁', e1, e2, e3⟩ := C83_torques Sample.wf Sample.rigid Sample.oneRoot hj rfl h2 sz' h3 h1 hv' hW hV hb hl hl
  exact ⟨m', j, W, v, d₁, m₁, d₁', m₁', hb, hv0, hv', e1, e2, e3⟩

/-- The sample robot without gravity moves its joints as it does under gravity. -/
example : ∃ (fd₁ fd₁' : FD ℚ) (m₁ m₁' : MBC ℚ) (solve : DMat ℚ → List ℚ → List ℚ), Sample.mbcV.gravity ≠ 0 ∧
    Sample.fd.forwardDynamics solve Sample.mb Sample.mbcV = .ok (fd₁, m₁) ∧
    Sample.fd.forwardDynamics solve Sample.mb { Sample.mbcV with gravity := 0 } = .ok (fd₁', m₁') ∧ m₁'.alphaD.tail = m₁.alphaD.tail := by
  obtain ⟨h1, h2, h3⟩ := Sample.ready
  have hj : Sample.mb.joints[0]? = some (Joint.mk' .Free ⟨0, 0, 1⟩ true "root") := by decide +kernel
  obtain ⟨solve, hs⟩ := ExactSolve.exists_physical Sample.wf Sample.rigid h3 h1.toPosReady Sample.fd_fits Sample.inertia_pos Sample.subspace_ne
  obtain ⟨fd₁, fd₁', m₁, m₁', W, e1, e2, -, e3, -⟩ := C83_gravity Sample.wf Sample.rigid Sample.oneRoot hj rfl h2 h3 h1 0 Sample.fd_fits
    Sample.inertia_pos Sample.subspace_ne hs
  exact ⟨fd₁, fd₁', m₁, m₁', solve, by decide +kernel, e1, e2, e3⟩

end RBDyn
