import Verif.Props.DynDeriv
import Verif.Props.Units
import Verif.Props.MotionExist
import Verif.Lemmas.LagrangeMore
import Mathlib.Analysis.Calculus.Deriv.MeanValue

/-! Property C82: what the motions that forward dynamics prescribes conserve, where they rest, and that they run backwards as well. -/

namespace RBDyn
open scoped Mat3

/-- Kinetic plus potential energy of a state: half of `v · I v` over the bodies, and the mass of the bodies times the height of their centres
of mass against gravity. -/
noncomputable def MBC.energy (mb : MultiBody ℝ) (m : MBC ℝ) : ℝ :=
  (1 / 2) * ∑ k ∈ Finset.range mb.nrBodies, ((m.bodyVelB[k]?).getD 0).dot ((mb.inertiaAt k).mulMotion ((m.bodyVelB[k]?).getD 0)) +
    ∑ k ∈ Finset.range mb.nrBodies, m.gravity.dot (massPos ((m.bodyPosW[k]?).getD 1) (mb.inertiaAt k))

/-- The power that the joint torques stored in a state put into the robot. -/
noncomputable def MBC.torquePower (mb : MultiBody ℝ) (m : MBC ℝ) : ℝ :=
  ∑ r ∈ Finset.range mb.nrDof, m.jointTorque.flatten.getD r 0 * m.alpha.flatten.getD r 0

/-- The power that the external forces stored in a state put into the robot. -/
noncomputable def MBC.forcePower (mb : MultiBody ℝ) (m : MBC ℝ) : ℝ :=
  ∑ k ∈ Finset.range mb.nrBodies, ((m.bodyVelB[k]?).getD 0).dot (((m.bodyPosW[k]?).getD 1).dualMul ((m.force[k]?).getD 0))

/-- A motion of the robot that obeys forward dynamics: the positions move with the velocities, the velocities change with the accelerations,
and at each time the accelerations are those that `forwardDynamics` computes from the stored torques and forces. The stored poses and body
velocities are up to date, as `forwardKinematics` and `forwardVelocity` leave them. -/
structure Simulated (mb : MultiBody ℝ) (fd : FD ℝ) (solve : DMat ℝ → List ℝ → List ℝ) (mbc : ℝ → MBC ℝ) : Prop where
  sized : ∀ t, (mbc t).Sized mb
  ready : ∀ t, (mbc t).VelReady mb
  moves : ∀ t, Trajectory mb (fun s => (mbc s).q) (mbc t).alpha t
  rate : ∀ t, HasDerivDof mb (fun s => (mbc s).alpha) (mbc t).alphaD t
  exact : ∀ t fd₁, fd.computeH mb (mbc t) = .ok fd₁ → ExactSolve solve fd₁.H
  dynamics : ∀ t, ∃ fd' m, fd.forwardDynamics solve mb (mbc t) = .ok (fd', m) ∧ m.alphaD = (mbc t).alphaD

variable {mb : MultiBody ℝ} {fd : FD ℝ} {solve : DMat ℝ → List ℝ → List ℝ} {mbc : ℝ → MBC ℝ}

theorem MBC.torquePower_zero {m : MBC ℝ} (h : ∀ l ∈ m.jointTorque, ∀ x ∈ l, x = 0) : m.torquePower mb = 0 := by
  refine Finset.sum_eq_zero fun r _ => ?_
  have : m.jointTorque.flatten.getD r 0 = 0 := by
    rw [List.getD_eq_getElem?_getD]
    cases e : m.jointTorque.flatten[r]? with
    | none => rfl
    | some x =>
      obtain ⟨l, hl, hx⟩ := List.mem_flatten.1 (List.mem_of_getElem? e)
      exact h l hl x hx
  rw [this, zero_mul]

theorem MBC.forcePower_zero {m : MBC ℝ} (h : ∀ f ∈ m.force, f = 0) : m.forcePower mb = 0 := by
  refine Finset.sum_eq_zero fun k _ => ?_
  have : (m.force[k]?).getD 0 = 0 := by
    cases e : m.force[k]? with
    | none => rfl
    | some f => exact h f (List.mem_of_getElem? e)
  rw [this]
  simp [PTransform.dualMul, MotionVec.dot]

/-- The torques of inverse dynamics along the motion are the stored ones. -/
theorem Simulated.torques (wf : mb.WF) (hr : mb.Rigid) (hf : fd.Fits mb) (h : Simulated mb fd solve mbc) (t : ℝ) {d : ID ℝ}
    (hd : d.f.length = mb.nrBodies) : ∃ d' m, d.inverseDynamics mb (mbc t) = .ok (d', m) ∧ m.jointTorque = (mbc t).jointTorque := by
  obtain ⟨fd', m, d', m', e1, hm, -, -, e2, ht⟩ := C27_forward_then_inverse wf hr (h.sized t) ((h.moves t).valid t) (h.ready t) hd hf (h.exact t)
  obtain ⟨fd₂, m₂, e3, ha⟩ := h.dynamics t
  rw [e1] at e3
  cases e3
  have : m = mbc t := by rw [← hm, ← ha]
  exact ⟨d', m', this ▸ e2, ht⟩

/-- C82: when the robot moves as forward dynamics prescribes, its energy changes with the power of the torques and of the external forces. -/
theorem C82_energy_rate (wf : mb.WF) (hr : mb.Rigid) (hd : mb.DirOK) (hf : fd.Fits mb) (h : Simulated mb fd solve mbc) {γ : Vec3 ℝ}
    (hg : ∀ t, (mbc t).gravity = γ) (t : ℝ) :
    HasDerivAt (fun s => (mbc s).energy mb) ((mbc t).torquePower mb + (mbc t).forcePower mb) t := by
  have hl : (⟨List.replicate mb.nrBodies 0⟩ : ID ℝ).f.length = mb.nrBodies := by simp
  obtain ⟨d', m, T', U', e, hT, hU, hp⟩ := C33_power_balance wf hr hd h.sized h.ready (h.moves t) (h.rate t) hl
  obtain ⟨d₂, m₂, e2, ht⟩ := h.torques wf hr hf t hl
  rw [e] at e2
  cases e2
  rw [ht] at hp
  refine ((hT.add hU).congr_of_eventuallyEq (Filter.Eventually.of_forall fun s => ?_)).congr_deriv ?_
  · show (mbc s).energy mb = _
    unfold MBC.energy
    simp only [Pi.add_apply, hg]
  · unfold MBC.torquePower MBC.forcePower
    rw [hp]
    ring

/-- C82: without torques and external forces the energy never changes. -/
theorem C82_energy_conserved (wf : mb.WF) (hr : mb.Rigid) (hd : mb.DirOK) (hf : fd.Fits mb) (h : Simulated mb fd solve mbc) {γ : Vec3 ℝ}
    (hg : ∀ t, (mbc t).gravity = γ) (ht : ∀ t, ∀ l ∈ (mbc t).jointTorque, ∀ x ∈ l, x = 0) (hF : ∀ t, ∀ f ∈ (mbc t).force, f = 0) (s t : ℝ) :
    (mbc t).energy mb = (mbc s).energy mb := by
  have key : ∀ t, HasDerivAt (fun s => (mbc s).energy mb) 0 t := fun t => by
    have := C82_energy_rate wf hr hd hf h hg t
    rwa [MBC.torquePower_zero (ht t), MBC.forcePower_zero (hF t), add_zero] at this
  exact is_const_of_deriv_eq_zero (fun t => (key t).differentiableAt) (fun t => (key t).deriv) t s

/-- C82: with torques that never drive the robot (friction, damping) and no external forces the energy never grows. -/
theorem C82_energy_dissipated (wf : mb.WF) (hr : mb.Rigid) (hd : mb.DirOK) (hf : fd.Fits mb) (h : Simulated mb fd solve mbc) {γ : Vec3 ℝ}
    (hg : ∀ t, (mbc t).gravity = γ) (ht : ∀ t, (mbc t).torquePower mb ≤ 0) (hF : ∀ t, ∀ f ∈ (mbc t).force, f = 0) {s t : ℝ} (hst : s ≤ t) :
    (mbc t).energy mb ≤ (mbc s).energy mb := by
  have key := fun t => C82_energy_rate wf hr hd hf h hg t
  refine antitone_of_deriv_nonpos (fun t => (key t).differentiableAt) (fun t => ?_) hst
  rw [(key t).deriv, MBC.forcePower_zero (hF t), add_zero]
  exact ht t

/-! ### Rest -/

/-- C82: a robot at rest that is held by the torques of inverse statics stays at rest: forward dynamics finds no acceleration. -/
theorem C82_equilibrium {K : Type} [Scalar K] {mb : MultiBody K} {m : MBC K} (wf : mb.WF) (hr : mb.Rigid) (sz : m.Sized mb)
    (hq : ValidQ mb m.q) (hv : m.VelReady mb) (hrest : ∀ l ∈ m.alpha, ∀ x ∈ l, x = 0) {d : ID K} (hd : d.f.length = mb.nrBodies) {fd : FD K}
    (hf : fd.Fits mb) (hI : ∀ b ∈ mb.bodies, ∀ v : MotionVec K, v ≠ 0 → 0 < v.dot (b.inertia.mulMotion v))
    (hS : ∀ j ∈ mb.joints, ∀ c ∈ j.S, c ≠ 0) {solve : DMat K → List K → List K}
    (hs : ∀ fd₁, fd.computeH mb m = .ok fd₁ → ExactSolve solve fd₁.H) :
    ∃ d' m' fd' m'', inverseStatics d mb m = .ok (d', m') ∧ fd.forwardDynamics solve mb { m with jointTorque := m'.jointTorque } = .ok (fd', m'') ∧
      m''.alphaD.map List.length = mb.joints.map (·.dof) ∧ ∀ l ∈ m''.alphaD, ∀ x ∈ l, x = 0 := by
  have e1 := is_eq wf hr sz hq hv.toPosReady hd rfl
  set τ := (List.range mb.bodies.length).map fun i => mb.project i (mb.wrenchAt m.q (fun k =>
      (mb.inertiaAt k).mulMotion ((mb.posAt m.q k).mulMotion ⟨0, m.gravity⟩) - (mb.posAt m.q k).dualMul (m.forceAt k)) i) with hτ
  have hsp : SamePosVel { m with jointTorque := τ } m := rfl
  have hz : ∀ l ∈ mb.joints.map (fun j => List.replicate j.dof (0 : K)), ∀ x ∈ l, x = 0 := by
    intro l hl x hx
    obtain ⟨j, -, rfl⟩ := List.mem_map.1 hl
    exact (List.mem_replicate.1 hx).2
  have hzs : SizedDof mb (mb.joints.map fun j => List.replicate j.dof (0 : K)) := by
    unfold SizedDof
    rw [List.map_map]
    exact List.map_congr_left fun j _ => by simp
  have sz1 : MBC.Sized mb { m with alphaD := mb.joints.map fun j => List.replicate j.dof (0 : K) } := { sz with alphaD := hzs }
  have hsp1 : SamePosVel { m with alphaD := mb.joints.map fun j => List.replicate j.dof (0 : K) } m := rfl
  obtain ⟨hv1, hq1⟩ := hsp1.ready hv hq
  have i1 := id_eq wf hr sz1 hq1 hv1 hd rfl
  have hnet : mb.netForceAt m.q m.alpha (mb.joints.map fun j => List.replicate j.dof (0 : K)) ⟨0, m.gravity⟩ m.forceAt = fun k =>
      (mb.inertiaAt k).mulMotion ((mb.posAt m.q k).mulMotion ⟨0, m.gravity⟩) - (mb.posAt m.q k).dualMul (m.forceAt k) := by
    funext k
    rw [MultiBody.netForceAt, mb.accAt_rest _ hrest hz, mb.velAt_rest _ hrest]
    simp
  have szI : SizedDof mb τ := by
    obtain ⟨_, _, i2, -, -, -, -, h⟩ := C26_inverse_dynamics wf hr sz1 hq1 hv1 hd
    rw [i1] at i2
    cases i2
    have := h.jointTorque
    have e : τ = (List.range mb.bodies.length).map fun i => mb.project i (mb.wrenchAt m.q (mb.netForceAt m.q m.alpha
        (mb.joints.map fun j => List.replicate j.dof (0 : K)) ⟨0, m.gravity⟩ m.forceAt) i) := by rw [hnet]
    exact e ▸ this
  have sz2 : MBC.Sized mb { m with jointTorque := τ } := { sz with jointTorque := szI }
  obtain ⟨hv2, hq2⟩ := hsp.ready hv hq
  have sz3 : MBC.Sized mb { m with jointTorque := τ, alphaD := mb.joints.map fun j => List.replicate j.dof (0 : K) } := { sz2 with alphaD := hzs }
  have hsp3 : SamePosVel { m with jointTorque := τ, alphaD := mb.joints.map fun j => List.replicate j.dof (0 : K) } m := rfl
  obtain ⟨hv3, hq3⟩ := hsp3.ready hv hq
  have i3 := id_eq wf hr sz3 hq3 hv3 hd rfl
  obtain ⟨fd', e2⟩ := fd_unique wf hr sz2 hq2 hv2 hd hf hI hS (fun fd₁ e => hs fd₁ (by rw [← e]; exact (computeH_congr hsp fd).symm)) hzs i3 (by
    show List.map _ _ = τ
    rw [hτ]
    refine List.map_congr_left fun i _ => ?_
    show mb.project i (mb.wrenchAt m.q (mb.netForceAt m.q m.alpha (mb.joints.map fun j => List.replicate j.dof (0 : K)) ⟨0, m.gravity⟩ m.forceAt) i) = _
    rw [hnet])
  exact ⟨_, _, fd', _, e1, e2, hzs, hz⟩

/-- C82, the converse: the torques under which a robot at rest stays at rest are those of inverse statics. -/
theorem C82_equilibrium_only {K : Type} [Scalar K] {mb : MultiBody K} {m m' : MBC K} (wf : mb.WF) (hr : mb.Rigid) (sz : m.Sized mb)
    (hq : ValidQ mb m.q) (hv : m.VelReady mb) (hrest : ∀ l ∈ m.alpha, ∀ x ∈ l, x = 0) {d : ID K} (hd : d.f.length = mb.nrBodies) {fd fd' : FD K}
    (hf : fd.Fits mb) {solve : DMat K → List K → List K} (hs : ∀ fd₁, fd.computeH mb m = .ok fd₁ → ExactSolve solve fd₁.H)
    (he : fd.forwardDynamics solve mb m = .ok (fd', m')) (h0 : ∀ l ∈ m'.alphaD, ∀ x ∈ l, x = 0) :
    ∃ d' m'', inverseStatics d mb m = .ok (d', m'') ∧ m''.jointTorque = m.jointTorque := by
  obtain ⟨fd₁, m₁, d', m₂, e1, hm, -, szm, e2, ht⟩ := C27_forward_then_inverse wf hr sz hq hv hd hf hs
  rw [he] at e1
  cases e1
  have hm' : m' = { m with alphaD := m'.alphaD } := by rw [← hm]
  rw [hm'] at e2 szm
  have hsp : SamePosVel { m with alphaD := m'.alphaD } m := rfl
  obtain ⟨hv1, hq1⟩ := hsp.ready hv hq
  rw [id_eq wf hr szm hq1 hv1 hd rfl] at e2
  cases e2
  refine ⟨_, _, is_eq wf hr sz hq hv.toPosReady hd rfl, ht ▸ ?_⟩
  refine List.map_congr_left fun i _ => ?_
  show _ = mb.project i (mb.wrenchAt m.q (mb.netForceAt m.q m.alpha m'.alphaD ⟨0, m.gravity⟩ m.forceAt) i)
  congr 2
  funext k
  rw [MultiBody.netForceAt, mb.accAt_rest _ hrest h0, mb.velAt_rest _ hrest]
  simp

/-! ### Running backwards -/

/-- All entries with the opposite sign. -/
def negAll {K : Type} [Scalar K] (a : List (List K)) : List (List K) := a.map fun l => l.map (-·)

/-- The same state, moving the other way. -/
def MBC.backwards {K : Type} [Scalar K] (m : MBC K) : MBC K :=
  { m with
    alpha := negAll m.alpha
    jointVelocity := m.jointVelocity.map (-·)
    bodyVelB := m.bodyVelB.map (-·)
    bodyVelW := m.bodyVelW.map (-·) }

section
variable {K : Type} [Scalar K] {mb : MultiBody K} {m : MBC K}

theorem applyCols_map_neg (S : List (MotionVec K)) (a : List K) : applyCols S (a.map (-·)) = -applyCols S a := by
  unfold applyCols
  induction S generalizing a with
  | nil => simp
  | cons c S ih =>
    cases a with
    | nil => simp
    | cons x a =>
      simp only [List.map_cons, List.zipWith_cons_cons, List.sum_cons, ih, neg_add]
      congr 1
      ext <;> simp

theorem MultiBody.jointMotion_negAll (mb : MultiBody K) (a : List (List K)) (i : Nat) : mb.jointMotion (negAll a) i = -mb.jointMotion a i := by
  unfold MultiBody.jointMotion negAll
  rw [List.getElem?_map]
  cases a[i]? with
  | none => simp [applyCols]
  | some l => exact applyCols_map_neg _ _

theorem MultiBody.velAt_negAll (mb : MultiBody K) (q a : List (List K)) (i : Nat) : mb.velAt q (negAll a) i = -mb.velAt q a i := by
  unfold MultiBody.velAt
  simp only [mb.jointMotion_negAll, PTransform.mulMotion_neg, Finset.sum_neg_distrib]

theorem MultiBody.accAt_negAll (mb : MultiBody K) (q a b : List (List K)) (a0 : MotionVec K) (i : Nat) :
    mb.accAt q (negAll a) b a0 i = mb.accAt q a b a0 i := by
  unfold MultiBody.accAt
  refine congrArg _ (Finset.sum_congr rfl fun k _ => ?_)
  rw [mb.jointMotion_negAll, mb.velAt_negAll]
  congr 2
  ext <;> simp [MotionVec.cross, Vec3.cross]

theorem MultiBody.netForceAt_negAll (mb : MultiBody K) (q a b : List (List K)) (a0 : MotionVec K) (f : Nat → ForceVec K) :
    mb.netForceAt q (negAll a) b a0 f = mb.netForceAt q a b a0 f := by
  funext k
  unfold MultiBody.netForceAt
  rw [mb.accAt_negAll, mb.velAt_negAll, RBInertia.mulMotion_neg]
  congr 2
  ext <;> simp [MotionVec.crossDual, Vec3.cross]

theorem SizedDof.negAll {a : List (List K)} (h : SizedDof mb a) : SizedDof mb (negAll a) := by
  unfold SizedDof RBDyn.negAll at *
  rw [← h, List.map_map]
  exact List.map_congr_left fun l _ => by simp

theorem MBC.Sized.backwards (h : m.Sized mb) : m.backwards.Sized mb :=
  { h with
    alpha := h.alpha.negAll
    jointVelocity := by simpa [MBC.backwards] using h.jointVelocity
    bodyVelB := by simpa [MBC.backwards] using h.bodyVelB
    bodyVelW := by simpa [MBC.backwards] using h.bodyVelW }

theorem MBC.VelReady.backwards (h : m.VelReady mb) : m.backwards.VelReady mb :=
  { h with
    jointVelocity := by
      show m.jointVelocity.map _ = _
      rw [h.jointVelocity, List.map_map]
      exact List.map_congr_left fun i _ => (mb.jointMotion_negAll _ i).symm
    bodyVelB := by
      show m.bodyVelB.map _ = _
      rw [h.bodyVelB, List.map_map]
      exact List.map_congr_left fun i _ => (mb.velAt_negAll _ _ i).symm
    bodyVelW := by
      show m.bodyVelW.map _ = _
      rw [h.bodyVelW, List.map_map]
      refine List.map_congr_left fun i _ => ?_
      show -mb.velWAt m.q m.alpha i = mb.velWAt m.q (negAll m.alpha) i
      unfold MultiBody.velWAt
      rw [mb.velAt_negAll]
      ext1
      · exact (Mat3.mulVec_neg _ _).symm
      · exact (Mat3.mulVec_neg _ _).symm }

theorem computeH_backwards (fd : FD K) : fd.computeH mb m.backwards = fd.computeH mb m := by
  have hu : ∀ i n j (d : FD K), hUp mb m.backwards i n j d = hUp mb m i n j d := by
    intro i n
    induction n with
    | zero => intro j d; rfl
    | succ n ih =>
      intro j d
      simp only [hUp, ih]
      rfl
  have e : hStep mb m.backwards = hStep mb m := by
    funext d i
    simp only [hStep, hu]
    rfl
  unfold FD.computeH
  rw [e]

/-- C82: inverse dynamics finds the same torques and accelerations for a state that moves the other way (with the same accelerations of the
joints). -/
theorem C82_torques_backwards {m' : MBC K} (wf : mb.WF) (hr : mb.Rigid) (sz : m.Sized mb) (sz' : m'.Sized mb) (hq : ValidQ mb m.q)
    (hv : m.VelReady mb) (hv' : m'.VelReady mb) (h1 : m'.q = m.q) (h2 : m'.alpha = negAll m.alpha) (h3 : m'.alphaD = m.alphaD)
    (h4 : m'.force = m.force) (h5 : m'.gravity = m.gravity) {d : ID K} (hd : d.f.length = mb.nrBodies) :
    ∃ d₁ m₁ m₂, d.inverseDynamics mb m = .ok (d₁, m₁) ∧ d.inverseDynamics mb m' = .ok (d₁, m₂) ∧ m₂.jointTorque = m₁.jointTorque ∧
      m₂.bodyAccB = m₁.bodyAccB := by
  have hf : m'.forceAt = m.forceAt := by funext k; unfold MBC.forceAt; rw [h4]
  have e := id_eq wf hr sz' (h1 ▸ hq) hv' hd rfl
  have hn : mb.netForceAt m'.q m'.alpha m'.alphaD ⟨0, m'.gravity⟩ m'.forceAt = mb.netForceAt m.q m.alpha m.alphaD ⟨0, m.gravity⟩ m.forceAt := by
    rw [h1, h2, h3, h5, hf, mb.netForceAt_negAll]
  rw [hn, h1] at e
  refine ⟨_, _, _, id_eq wf hr sz hq hv hd rfl, e, rfl, ?_⟩
  refine List.map_congr_left fun i _ => ?_
  rw [h2, h3, h5, mb.accAt_negAll]

/-- C82: forward dynamics finds the same accelerations for a state that moves the other way. -/
theorem C82_accelerations_backwards (wf : mb.WF) (hr : mb.Rigid) (sz : m.Sized mb) (hq : ValidQ mb m.q) (hv : m.VelReady mb) {fd : FD K}
    (hf : fd.Fits mb) (hI : ∀ b ∈ mb.bodies, ∀ v : MotionVec K, v ≠ 0 → 0 < v.dot (b.inertia.mulMotion v))
    (hS : ∀ j ∈ mb.joints, ∀ c ∈ j.S, c ≠ 0) {solve : DMat K → List K → List K}
    (hs : ∀ fd₁, fd.computeH mb m = .ok fd₁ → ExactSolve solve fd₁.H) :
    ∃ fd₁ m₁ fd₂, fd.forwardDynamics solve mb m = .ok (fd₁, m₁) ∧ fd.forwardDynamics solve mb m.backwards = .ok (fd₂, m₁.backwards) := by
  have hd : (⟨List.replicate mb.nrBodies 0⟩ : ID K).f.length = mb.nrBodies := by simp
  obtain ⟨fd₁, m₁, d', m₂, e1, hm, -, sz₁, e2, ht⟩ := C27_forward_then_inverse wf hr sz hq hv hd hf hs
  have hm1 : m₁ = { m with alphaD := m₁.alphaD } := by rw [← hm]
  obtain ⟨r, hr'⟩ : ∃ r, r = m₁.alphaD := ⟨_, rfl⟩
  rw [← hr'] at hm1
  subst hm1
  have hsp : SamePosVel { m with alphaD := r } m := rfl
  obtain ⟨hv₁, hq₁⟩ := hsp.ready hv hq
  obtain ⟨d₃, m₃, m₄, i1, i2, i3, -⟩ := C82_torques_backwards wf hr sz₁ sz₁.backwards hq₁ hv₁ hv₁.backwards rfl rfl rfl rfl rfl hd
  rw [e2] at i1
  cases i1
  obtain ⟨fd₂, e3⟩ := fd_unique (m := m.backwards) wf hr sz.backwards hq hv.backwards hd hf hI hS
    (fun fd₁ e => hs fd₁ (by rw [← e, computeH_backwards])) sz₁.alphaD i2 (i3.trans ht)
  exact ⟨fd₁, _, fd₂, e1, e3⟩

end

theorem coordRate_neg (ty : JointType) {x a : List ℝ} (hx : x.length = Joint.nParams ty) (ha : a.length = Joint.nDof ty) :
    coordRate ty x (a.map (-·)) = (coordRate ty x a).map (-·) := by
  cases ty
  case Spherical =>
    obtain ⟨w, i, j, k, rfl⟩ := list4 hx
    obtain ⟨a0, a1, a2, rfl⟩ := list3 ha
    simp only [coordRate, List.map_cons, List.map_nil, List.cons.injEq, and_true]
    refine ⟨?_, ?_, ?_, ?_⟩ <;> ring
  case Planar =>
    obtain ⟨x0, x1, x2, rfl⟩ := list3 hx
    obtain ⟨a0, a1, a2, rfl⟩ := list3 ha
    simp only [coordRate, List.map_cons, List.map_nil, List.cons.injEq, and_true]
    refine ⟨trivial, ?_, ?_⟩ <;> ring
  case Free =>
    obtain ⟨w, i, j, k, x0, x1, x2, rfl⟩ := list7 hx
    obtain ⟨a0, a1, a2, a3, a4, a5, rfl⟩ := list6 ha
    simp only [coordRate, List.map_cons, List.map_nil, List.cons_append, List.nil_append, List.cons.injEq, and_true]
    refine ⟨?_, ?_, ?_, ?_, ?_, ?_, ?_⟩
    · ring
    · ring
    · ring
    · ring
    all_goals simp only [Mat3.mulVec]; ring
  all_goals simp [coordRate]

theorem HasDerivList.comp_neg {q : ℝ → List ℝ} {qd : List ℝ} {t : ℝ} (h : HasDerivList q qd (-t)) :
    HasDerivList (fun s => q (-s)) (qd.map (-·)) t := by
  refine ⟨fun s => by rw [List.length_map]; exact h.1 _, fun i => ?_⟩
  have := (h.2 i).comp t (hasDerivAt_neg t)
  refine this.congr_deriv ?_
  rw [List.getD_eq_getElem?_getD, List.getD_eq_getElem?_getD, List.getElem?_map]
  cases qd[i]? <;> simp

/-- C82: a motion that obeys forward dynamics, run backwards, obeys forward dynamics as well. -/
theorem C82_backwards (wf : mb.WF) (hr : mb.Rigid) (hf : fd.Fits mb)
    (hI : ∀ b ∈ mb.bodies, ∀ v : MotionVec ℝ, v ≠ 0 → 0 < v.dot (b.inertia.mulMotion v)) (hS : ∀ j ∈ mb.joints, ∀ c ∈ j.S, c ≠ 0)
    (h : Simulated mb fd solve mbc) : Simulated mb fd solve fun t => (mbc (-t)).backwards := by
  have hsz : ∀ t, SizedDof mb (mbc t).alpha := fun t => (h.sized t).alpha
  refine ⟨fun t => (h.sized _).backwards, fun t => (h.ready _).backwards, fun t => ⟨fun s => (h.moves (-s)).valid (-s), (hsz _).negAll,
    fun i j hj => ?_⟩, fun t i hi => ?_, fun t fd₁ e => h.exact (-t) fd₁ (by rw [← e, computeH_backwards]), fun t => ?_⟩
  · have hd := ((h.moves (-t)).rate i j hj).comp_neg
    obtain ⟨x, hx, hvx⟩ := ValidQ.param ((h.moves (-t)).valid (-t)) hj
    have hl : i < (mbc (-t)).alpha.length := by
      have := congrArg List.length (hsz (-t))
      simp only [List.length_map] at this
      rw [this]; exact (List.getElem?_eq_some_iff.1 hj).1
    have ha := List.getElem?_eq_getElem hl
    have hla := (hsz (-t)).get ha hj
    have hb := wf.built j (List.mem_of_getElem? hj)
    have e : coordRate j.type ((((mbc (-t)).backwards.q)[i]?).getD []) ((((mbc (-t)).backwards.alpha)[i]?).getD []) =
        (coordRate j.type ((((mbc (-t)).q)[i]?).getD []) ((((mbc (-t)).alpha)[i]?).getD [])).map (-·) := by
      show coordRate j.type ((((mbc (-t)).q)[i]?).getD []) ((((negAll (mbc (-t)).alpha))[i]?).getD []) = _
      unfold negAll
      rw [List.getElem?_map, ha]
      simp only [Option.map_some, Option.getD_some]
      have hx' : (mbc (-t)).q[i]? = some x := hx
      rw [hx']
      exact coordRate_neg _ hvx.1 (hla.trans hb.sizes.2)
    rw [e]
    exact hd
  · have hd := (h.rate (-t) i hi).comp_neg
    refine ⟨fun s => ?_, fun k => ?_⟩
    · have := (h.rate (-t) i hi).1 (-s)
      show ((negAll (mbc (-s)).alpha)[i]?.getD []).length = _
      unfold negAll
      rw [List.getElem?_map]
      rw [show ((mbc (-t)).backwards.alphaD) = (mbc (-t)).alphaD from rfl, ← this]
      cases e : (mbc (-s)).alpha[i]? <;> simp [e]
    · have := (hd.2 k).neg
      refine (this.congr_of_eventuallyEq (Filter.Eventually.of_forall fun s => ?_)).congr_deriv ?_
      · show ((negAll (mbc (-s)).alpha)[i]?.getD []).getD k 0 = -_
        unfold negAll
        rw [List.getElem?_map]
        cases e : (mbc (-s)).alpha[i]? with
        | none => simp [e]
        | some l =>
          simp only [e, Option.map_some, Option.getD_some, List.getD_eq_getElem?_getD, List.getElem?_map]
          cases l[k]? <;> simp
      · show -(List.getD (List.map _ _) k 0) = (((mbc (-t)).alphaD[i]?).getD []).getD k 0
        simp only [List.getD_eq_getElem?_getD, List.getElem?_map]
        cases (((mbc (-t)).alphaD[i]?).getD [])[k]? <;> simp
  · obtain ⟨fd₁, m₁, fd₂, e1, e2⟩ := C82_accelerations_backwards wf hr (h.sized (-t)) ((h.moves (-t)).valid (-t)) (h.ready (-t)) hf hI hS (h.exact (-t))
    obtain ⟨fd', m, e3, ha⟩ := h.dynamics (-t)
    rw [e1] at e3
    cases e3
    exact ⟨fd₂, _, e2, ha⟩

/-! ### A robot that falls and spins -/

/-- A slider that falls freely, with a wheel that turns about the vertical. No torques act, and the motion is the one of forward dynamics. -/
theorem Sample.falling : ∃ (mb : MultiBody ℝ) (fd : FD ℝ) (solve : DMat ℝ → List ℝ → List ℝ) (mbc : ℝ → MBC ℝ), mb.WF ∧ mb.Rigid ∧ mb.DirOK ∧
    fd.Fits mb ∧ (∀ b ∈ mb.bodies, ∀ v : MotionVec ℝ, v ≠ 0 → 0 < v.dot (b.inertia.mulMotion v)) ∧ (∀ j ∈ mb.joints, ∀ c ∈ j.S, c ≠ 0) ∧
    Simulated mb fd solve mbc ∧ mb.joints.map (·.type) = [.Prism, .Rev] ∧ ∀ t, (mbc t).q = [[-(9 / 2) * t ^ 2], [3 * t]] ∧
      (mbc t).alpha = [[-9 * t], [3]] ∧ (mbc t).alphaD = [[-9], [0]] ∧ (mbc t).gravity = ⟨0, 0, 9⟩ ∧ (mbc t).force = [0, 0] ∧
      (mbc t).jointTorque = [[0], [0]] := by
  let J : List (Joint ℝ) := [Joint.mk' .Prism ⟨0, 0, 1⟩ true "a", Joint.mk' .Rev ⟨0, 0, 1⟩ true "b"]
  have hu : ∀ j ∈ J, j.BuiltUnit := by
    intro j hj
    simp only [J, List.mem_cons, List.not_mem_nil, or_false] at hj
    rcases hj with rfl | rfl
    · exact .mk _ _ _ _ trivial
    · exact .mk _ _ _ _ (by simp [ValidAxis, IsUnit3])
  obtain ⟨mb, hmk, wf, hb, hj, hpr, -, hpa, hX⟩ := MultiBody.mk'_wf
    [⟨⟨2, ⟨1, 0, 0⟩, ⟨1, 0, 1, 0, 0, 1⟩⟩, "x"⟩, ⟨⟨3, 0, ⟨2, 0, 2, 0, 0, 2⟩⟩, "y"⟩] J [-1, 0] [0, 1] [-1, 0] [1, 1] rfl rfl rfl
    (by intro i hi
        have : i < 2 := hi
        obtain rfl | rfl : i = 0 ∨ i = 1 := by omega
        all_goals rfl)
    (by intro i p hp
        obtain ⟨hi, -⟩ := List.getElem?_eq_some_iff.1 hp
        have : i < 2 := hi
        obtain rfl | rfl : i = 0 ∨ i = 1 := by omega
        all_goals (cases hp; decide))
    rfl (fun j hj => (hu j hj).built)
  have hr : mb.Rigid := by
    refine ⟨hj ▸ hu, ?_⟩
    rw [hX]; intro X h
    simp only [List.mem_cons, List.not_mem_nil, or_false, or_self] at h
    subst h; exact IsRigid.one
  have hI : ∀ b ∈ mb.bodies, ∀ v : MotionVec ℝ, v ≠ 0 → 0 < v.dot (b.inertia.mulMotion v) := by
    rw [hb]
    intro b hb
    have key : ∀ w : Vec3 ℝ, w ≠ 0 → 0 < w.x ^ 2 + w.y ^ 2 + w.z ^ 2 := by
      intro w hw
      by_contra hcon
      push Not at hcon
      apply hw
      ext
      · simp only [Vec3.zero_x]; nlinarith [sq_nonneg w.x, sq_nonneg w.y, sq_nonneg w.z]
      · simp only [Vec3.zero_y]; nlinarith [sq_nonneg w.x, sq_nonneg w.y, sq_nonneg w.z]
      · simp only [Vec3.zero_z]; nlinarith [sq_nonneg w.x, sq_nonneg w.y, sq_nonneg w.z]
    simp only [List.mem_cons, List.not_mem_nil, or_false] at hb
    rcases hb with rfl | rfl <;> refine RBInertia.pos_of (by norm_num) fun w hw => ?_ <;> have := key w hw <;>
      simp [Vec3.dot, Vec3.cross, Sym3.toMat] <;>
      nlinarith [sq_nonneg w.x, sq_nonneg w.y, sq_nonneg w.z]
  have hS : ∀ j ∈ mb.joints, ∀ c ∈ j.S, c ≠ 0 := by
    rw [hj]
    intro j hj c hc h0
    simp only [J, List.mem_cons, List.not_mem_nil, or_false] at hj
    rcases hj with rfl | rfl
    · simp only [Joint.mk', Joint.mkS, List.mem_cons, List.not_mem_nil, or_false] at hc
      rw [h0] at hc
      simpa using (congrArg (fun v => v.lin.z) hc)
    · simp only [Joint.mk', Joint.mkS, List.mem_cons, List.not_mem_nil, or_false] at hc
      rw [h0] at hc
      simpa using (congrArg (fun v => v.ang.z) hc)
  let q : ℝ → List (List ℝ) := fun s => [[-(9 / 2) * s ^ 2], [3 * s]]
  let c : ℝ → MBC ℝ := fun s =>
    { q := q s, alpha := [[-9 * s], [3]], alphaD := [[-9], [0]], force := [0, 0], jointConfig := [1, 1], jointVelocity := [0, 0],
      jointTorque := [[0], [0]], motionSubspace := [[0], [0]], bodyPosW := [1, 1], parentToSon := [1, 1], bodyVelW := [0, 0],
      bodyVelB := [0, 0], bodyAccB := [0, 0], gravity := ⟨0, 0, 9⟩ }
  have sz : ∀ s, (c s).Sized mb := by
    intro s
    constructor <;> simp [c, q, SizedQ, SizedDof, hb, hj, J] <;> exact ⟨rfl, rfl⟩
  have hq : ∀ s, ValidQ mb (q s) := by
    intro s
    unfold ValidQ
    rw [hj]
    exact .cons ⟨rfl, trivial⟩ (.cons ⟨rfl, trivial⟩ .nil)
  choose m₁ m h1 h2 h3 h4 h5 h6 h7 h8 h9 h10 using fun s => C24_velReady wf hr (sz s) (hq s)
  obtain ⟨fd, -, hfd⟩ := FD.mk'_fits wf (⟨⟨0, 0, fun _ _ => 0⟩, [], [], [], [], [], [], []⟩ : FD ℝ)
  obtain ⟨solve, hs⟩ := ExactSolve.exists_of_regular (K := ℝ) mb.nrDof
  have hp0 : mb.par 0 = none := by simp [MultiBody.par, hpr]
  have hp1 : mb.par 1 = some 0 := by simp [MultiBody.par, hpr]
  have hn : mb.bodies.length = 2 := by rw [hb]; rfl
  have hj0 : mb.joints[0]? = some (Joint.mk' .Prism ⟨0, 0, 1⟩ true "a") := by rw [hj]; rfl
  have hj1 : mb.joints[1]? = some (Joint.mk' .Rev ⟨0, 0, 1⟩ true "b") := by rw [hj]; rfl
  have hX0 : ∀ i, mb.XtAt i = 1 := by
    intro i
    unfold MultiBody.XtAt
    rw [hX]
    match i with
    | 0 => rfl
    | 1 => rfl
    | n + 2 => rfl
  have hz : ∀ (θ x : ℝ), angleAxis θ (⟨0, 0, 1⟩ : Vec3 ℝ) *ᵥ ⟨0, 0, x⟩ = ⟨0, 0, x⟩ := by
    intro θ x
    ext <;> simp [angleAxis, Mat3.mulVec]
  have e0 : ∀ s, mb.ptsAt (q s) 0 = ⟨1, (-(9 / 2) * s ^ 2) • ⟨0, 0, 1⟩⟩ := by
    intro s
    unfold MultiBody.ptsAt MultiBody.poseAt
    rw [hX0, hj0, mul_one]
    simp [q, Joint.pose, Joint.mk', Joint.mkS, rd, PTransform.ofTrans, Res.pure_eq, Except.toOption]
  have e1 : ∀ s, mb.ptsAt (q s) 1 = ⟨angleAxis (-(3 * s)) ⟨0, 0, 1⟩, 0⟩ := by
    intro s
    unfold MultiBody.ptsAt MultiBody.poseAt
    rw [hX0, hj1, mul_one]
    simp [q, Joint.pose, Joint.mk', Joint.mkS, rd, PTransform.ofRot, Res.pure_eq, Except.toOption]
  have j0 : ∀ (x : ℝ) l, mb.jointMotion ([x] :: l) 0 = ⟨0, ⟨0, 0, x⟩⟩ := by
    intro x l
    ext <;> simp [MultiBody.jointMotion, MultiBody.SAt, hj0, Joint.mk', Joint.mkS, applyCols]
  have j1 : ∀ (y : List ℝ) (x : ℝ) l, mb.jointMotion (y :: [x] :: l) 1 = ⟨⟨0, 0, x⟩, 0⟩ := by
    intro y x l
    ext <;> simp [MultiBody.jointMotion, MultiBody.SAt, hj1, Joint.mk', Joint.mkS, applyCols]
  have v0 : ∀ s, mb.velAt (q s) [[-9 * s], [3]] 0 = ⟨0, ⟨0, 0, -9 * s⟩⟩ := by
    intro s
    rw [wf.velAt_none hr (hq s) _ (by omega) hp0, j0]
  have v1 : ∀ s, mb.velAt (q s) [[-9 * s], [3]] 1 = ⟨⟨0, 0, 3⟩, ⟨0, 0, -9 * s⟩⟩ := by
    intro s
    rw [wf.velAt_some hr (hq s) _ (by omega) hp1, v0, e1, j1]
    ext <;> simp [PTransform.mulMotion, hz]
  have a0 : ∀ s, mb.accAt (q s) [[-9 * s], [3]] [[-9], [0]] ⟨0, ⟨0, 0, 9⟩⟩ 0 = 0 := by
    intro s
    rw [wf.accAt_none hr (hq s) _ _ _ (by omega) hp0, v0, e0, j0, j0]
    ext <;> simp [PTransform.mulMotion, MotionVec.cross, Vec3.cross]
  have a1 : ∀ s, mb.accAt (q s) [[-9 * s], [3]] [[-9], [0]] ⟨0, ⟨0, 0, 9⟩⟩ 1 = 0 := by
    intro s
    rw [wf.accAt_some hr (hq s) _ _ _ (by omega) hp1, v1, a0, j1, j1]
    ext <;> simp [PTransform.mulMotion, MotionVec.cross, Vec3.cross]
  have i0 : mb.inertiaAt 0 = ⟨2, ⟨1, 0, 0⟩, ⟨1, 0, 1, 0, 0, 1⟩⟩ := by simp [MultiBody.inertiaAt, hb]
  have i1 : mb.inertiaAt 1 = ⟨3, 0, ⟨2, 0, 2, 0, 0, 2⟩⟩ := by simp [MultiBody.inertiaAt, hb]
  have net : ∀ s k, k < 2 → mb.netForceAt (q s) [[-9 * s], [3]] [[-9], [0]] ⟨0, ⟨0, 0, 9⟩⟩ (fun _ => 0) k = 0 := by
    intro s k hk
    unfold MultiBody.netForceAt
    obtain rfl | rfl : k = 0 ∨ k = 1 := by omega
    · rw [v0, a0, i0]
      ext <;> simp [RBInertia.mulMotion, MotionVec.crossDual, Vec3.cross, Sym3.toMat, Mat3.mulVec, PTransform.dualMul]
    · rw [v1, a1, i1]
      ext <;> simp [RBInertia.mulMotion, MotionVec.crossDual, Vec3.cross, Sym3.toMat, Mat3.mulVec, PTransform.dualMul]
  have hsol : ∀ t fd₁, fd.computeH mb (m t) = .ok fd₁ → ExactSolve solve fd₁.H := by
    intro t fd₁ e
    have hqt : ValidQ mb (m t).q := by rw [h5]; exact hq t
    obtain ⟨d', e', h⟩ := C29_positive_definite wf hr hqt (h3 t).toPosReady hfd hI hS
    obtain ⟨d'', e'', hr, hc, -⟩ := C28_symmetric wf hr hqt (h3 t).toPosReady hfd
    rw [e] at e' e''
    cases e'
    cases e''
    refine hs _ hr hc fun x hx hne => ?_
    by_contra hcon
    push Not at hcon
    have := h x hx hne
    rw [Finset.sum_eq_zero fun r hr => by rw [hcon r (Finset.mem_range.1 hr), mul_zero]] at this
    exact lt_irrefl _ this
  refine ⟨mb, fd, solve, m, wf, hr, ?_, hfd, hI, hS, ⟨h4, h3, fun t => ⟨?_, ?_, ?_⟩, fun t => ?_, fun t fd₁ e => ?_, fun t => ?_⟩, by rw [hj]; rfl,
    fun t => ⟨h5 t, h6 t, h7 t, h9 t, h8 t, h10 t⟩⟩
  · intro j h
    rw [hj] at h
    simp only [J, List.mem_cons, List.not_mem_nil, or_false] at h
    rcases h with rfl | rfl
    all_goals exact .inl (by simp [Joint.mk', Joint.isForward])
  · intro s; show ValidQ mb (m s).q; rw [h5]; exact hq s
  · rw [h6]; exact (sz t).alpha
  · intro i j hij
    simp only [h5, h6]
    rw [hj] at hij
    obtain ⟨hi, -⟩ := List.getElem?_eq_some_iff.1 hij
    have : i < 2 := hi
    obtain rfl | rfl : i = 0 ∨ i = 1 := by omega
    · cases hij
      refine ⟨fun s => rfl, fun k => ?_⟩
      match k with
      | 0 => exact (((hasDerivAt_pow 2 t)).const_mul (-(9 / 2 : ℝ))).congr_deriv (by simp [c, coordRate, Joint.mk']; ring)
      | n + 1 => exact (hasDerivAt_const _ _).congr_deriv (by simp [c, coordRate, Joint.mk'])
    · cases hij
      refine ⟨fun s => rfl, fun k => ?_⟩
      match k with
      | 0 => exact ((hasDerivAt_id t).const_mul 3).congr_deriv (by simp [c, coordRate, Joint.mk'])
      | n + 1 => exact (hasDerivAt_const _ _).congr_deriv (by simp [c, coordRate, Joint.mk'])
  · intro i hi
    simp only [h6, h7]
    have : i < 2 := by rw [hb] at hi; exact hi
    obtain rfl | rfl : i = 0 ∨ i = 1 := by omega
    · refine ⟨fun s => rfl, fun k => ?_⟩
      match k with
      | 0 => exact ((hasDerivAt_id t).const_mul (-9)).congr_deriv (by simp [c])
      | n + 1 => exact (hasDerivAt_const _ _).congr_deriv (by simp [c])
    · refine ⟨fun s => rfl, fun k => ?_⟩
      match k with
      | 0 => exact (hasDerivAt_const _ _).congr_deriv (by simp [c])
      | n + 1 => exact (hasDerivAt_const _ _).congr_deriv (by simp [c])
  · exact hsol t fd₁ e
  · have hd : (⟨List.replicate mb.nrBodies 0⟩ : ID ℝ).f.length = mb.nrBodies := by simp
    have hqt : ValidQ mb (m t).q := by rw [h5]; exact hq t
    have hff : (m t).forceAt = fun _ => 0 := by
      funext k
      unfold MBC.forceAt
      rw [h8]
      match k with
      | 0 => rfl
      | 1 => rfl
      | n + 2 => rfl
    have hi := id_eq wf hr (h4 t) hqt (h3 t) hd rfl
    obtain ⟨fd', e⟩ := fd_unique wf hr (h4 t) hqt (h3 t) hd hfd hI hS (hsol t) (h4 t).alphaD hi (by
      show List.map _ _ = _
      rw [h10, hn, h5, h6, h7, h9, hff]
      show [mb.project 0 _, mb.project 1 _] = [[0], [0]]
      have hw : ∀ i, mb.wrenchAt (c t).q (mb.netForceAt (c t).q (c t).alpha (c t).alphaD ⟨0, (c t).gravity⟩ fun _ => 0) i = 0 := by
        intro i
        refine Finset.sum_eq_zero fun k hk => ?_
        rw [show mb.netForceAt (c t).q (c t).alpha (c t).alphaD ⟨0, (c t).gravity⟩ (fun _ => 0) k = 0 from
          net t k (by rw [← hn]; exact (MultiBody.mem_subtree.1 hk).1)]
        exact PTransform.transMul_zero _ 
      rw [hw, hw]
      simp [MultiBody.project, MultiBody.SAt, hj0, hj1, Joint.mk', Joint.mkS])
    exact ⟨fd', _, e, rfl⟩

/-- The hypotheses of the theorems about simulated motions are met by the robot of `Sample.falling`: it falls, its energy stays, and it could
have risen instead. -/
example : ∃ (mb : MultiBody ℝ) (fd : FD ℝ) (solve : DMat ℝ → List ℝ → List ℝ) (mbc : ℝ → MBC ℝ), Simulated mb fd solve mbc ∧
    (∀ t, (mbc t).alpha = [[-9 * t], [3]]) ∧ (∀ t, HasDerivAt (fun s => (mbc s).energy mb) 0 t) ∧
    (∀ s t, (mbc t).energy mb = (mbc s).energy mb) ∧ Simulated mb fd solve (fun t => (mbc (-t)).backwards) ∧
    ∀ s t, s ≤ t → ((mbc (-t)).backwards).energy mb ≤ ((mbc (-s)).backwards).energy mb := by
  obtain ⟨mb, fd, solve, mbc, wf, hr, hd, hf, hI, hS, h, -, hm⟩ := Sample.falling
  have ht : ∀ t, ∀ l ∈ (mbc t).jointTorque, ∀ x ∈ l, x = 0 := by
    intro t
    rw [(hm t).2.2.2.2.2]
    simp
  have hF : ∀ t, ∀ f ∈ (mbc t).force, f = 0 := by
    intro t
    rw [(hm t).2.2.2.2.1]
    simp
  have hb := C82_backwards wf hr hf hI hS h
  refine ⟨mb, fd, solve, mbc, h, fun t => (hm t).2.1, fun t => ?_, C82_energy_conserved wf hr hd hf h (fun t => (hm t).2.2.2.1) ht hF, hb,
    fun s t hst => C82_energy_dissipated wf hr hd hf hb (fun t => (hm (-t)).2.2.2.1) (fun t => (MBC.torquePower_zero (m := (mbc (-t)).backwards) (ht (-t))).le)
      (fun t => hF (-t)) hst⟩
  have := C82_energy_rate wf hr hd hf h (fun t => (hm t).2.2.2.1) t
  rwa [MBC.torquePower_zero (ht t), MBC.forcePower_zero (hF t), add_zero] at this

/-- The sample robot at rest, held against gravity and an external force: the hypotheses of `C82_equilibrium` and `C82_equilibrium_only` are met,
and some of the torques that hold it are not zero. -/
example : ∃ (m : MBC ℚ) (solve : DMat ℚ → List ℚ → List ℚ) (d' : ID ℚ) (m' : MBC ℚ) (fd' : FD ℚ) (m'' : MBC ℚ), m.VelReady Sample.mb ∧
    m.q = Sample.mbcV.q ∧ inverseStatics Sample.id Sample.mb m = .ok (d', m') ∧ (∃ x ∈ m'.jointTorque.flatten, x ≠ 0) ∧
    Sample.fd.forwardDynamics solve Sample.mb { m with jointTorque := m'.jointTorque } = .ok (fd', m'') ∧ (∀ l ∈ m''.alphaD, ∀ x ∈ l, x = 0) ∧
    ∃ d₂ m₂, inverseStatics Sample.id Sample.mb { m with jointTorque := m'.jointTorque } = .ok (d₂, m₂) ∧ m₂.jointTorque = m'.jointTorque := by
  obtain ⟨h1, h2, h3⟩ := Sample.ready
  have hz : SizedDof Sample.mb (Sample.mb.joints.map fun j => List.replicate j.dof (0 : ℚ)) := by
    unfold SizedDof
    rw [List.map_map]
    exact List.map_congr_left fun j _ => by simp
  obtain ⟨_, m, k1, k2, hv, sz, kq, ka, -, kf, kg, -⟩ := C24_velReady Sample.wf Sample.rigid
    (mbc := { Sample.mbcV with alpha := Sample.mb.joints.map fun j => List.replicate j.dof (0 : ℚ) }) { h2 with alpha := hz } h3
  have hq : ValidQ Sample.mb m.q := by rw [kq]; exact h3
  have hrest : ∀ l ∈ m.alpha, ∀ x ∈ l, x = 0 := by
    rw [ka]
    intro l hl x hx
    obtain ⟨j, -, rfl⟩ := List.mem_map.1 hl
    exact (List.mem_replicate.1 hx).2
  obtain ⟨solve, hs⟩ := ExactSolve.exists_physical Sample.wf Sample.rigid hq hv.toPosReady Sample.fd_fits Sample.inertia_pos Sample.subspace_ne
  obtain ⟨d', m', fd', m'', e1, e2, -, e3⟩ := C82_equilibrium Sample.wf Sample.rigid sz hq hv hrest (d := Sample.id) (by decide +kernel) Sample.fd_fits
    Sample.inertia_pos Sample.subspace_ne hs
  have eT : m'.jointTorque = ((inverseStatics Sample.id Sample.mb Sample.mbcV).toOption.map (·.2.jointTorque)).getD [] := by
    rw [is_eq Sample.wf Sample.rigid h2 h3 h1.toPosReady (d := Sample.id) (by decide +kernel) rfl]
    rw [is_eq Sample.wf Sample.rigid sz hq hv.toPosReady (d := Sample.id) (by decide +kernel) rfl] at e1
    cases e1
    have hf : m.forceAt = Sample.mbcV.forceAt := by funext k; unfold MBC.forceAt; rw [kf]
    simp only [Except.toOption, Option.map_some, Option.getD_some, kq, kg, hf]
  have sT : SizedDof Sample.mb m'.jointTorque := by
    rw [eT]
    unfold SizedDof
    decide +kernel
  have hsp : SamePosVel { m with jointTorque := m'.jointTorque } m := rfl
  obtain ⟨hv2, hq2⟩ := hsp.ready hv hq
  obtain ⟨d₂, m₂, e4, e5⟩ := C82_equilibrium_only Sample.wf Sample.rigid (m := { m with jointTorque := m'.jointTorque }) { sz with jointTorque := sT }
    hq2 hv2 hrest (d := Sample.id) (by decide +kernel) Sample.fd_fits
    (fun fd₁ e => hs fd₁ (by rw [← e]; exact (computeH_congr hsp _).symm)) e2 e3
  refine ⟨m, solve, d', m', fd', m'', hv, kq, e1, ?_, e2, e3, d₂, m₂, e4, e5⟩
  rw [eT]
  decide +kernel

/-- The sample robot moving the other way needs the same torques, and they are not those at rest. -/
example : ∃ (d₁ : ID ℚ) (m₁ m₂ : MBC ℚ), Sample.id.inverseDynamics Sample.mb Sample.mbcV = .ok (d₁, m₁) ∧
    Sample.id.inverseDynamics Sample.mb Sample.mbcV.backwards = .ok (d₁, m₂) ∧ m₂.jointTorque = m₁.jointTorque ∧
    (∃ x ∈ Sample.mbcV.alpha.flatten, x ≠ 0) ∧ (∃ fd₁ m₃ fd₂ solve, Sample.fd.forwardDynamics solve Sample.mb Sample.mbcV = .ok (fd₁, m₃) ∧
      Sample.fd.forwardDynamics solve Sample.mb Sample.mbcV.backwards = .ok (fd₂, m₃.backwards)) := by
  obtain ⟨h1, h2, h3⟩ := Sample.ready
  obtain ⟨d₁, m₁, m₂, e1, e2, e3, -⟩ := C82_torques_backwards Sample.wf Sample.rigid h2 h2.backwards h3 h1 h1.backwards rfl rfl rfl rfl rfl
    (d := Sample.id) (by decide +kernel)
  obtain ⟨solve, hs⟩ := ExactSolve.exists_physical Sample.wf Sample.rigid h3 h1.toPosReady Sample.fd_fits Sample.inertia_pos Sample.subspace_ne
  obtain ⟨fd₁, m₃, fd₂, f1, f2⟩ := C82_accelerations_backwards Sample.wf Sample.rigid h2 h3 h1 Sample.fd_fits Sample.inertia_pos Sample.subspace_ne hs
  exact ⟨d₁, m₁, m₂, e1, e2, e3, by decide +kernel, fd₁, m₃, fd₂, solve, f1, f2⟩

end RBDyn
