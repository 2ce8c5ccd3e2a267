import Verif.Lemmas.OdeEuler
import Verif.Lemmas.StateDiff
import Verif.Lemmas.ReachNewton
import Verif.Props.Simulate

/-! Property C88: forward dynamics defines one motion from every state, and the simulator converges to it when its period goes to zero. -/

namespace RBDyn
open scoped Mat3

/-- A robot made of massive bodies with revolute, prismatic, cylindrical and fixed joints, and a linear solver. -/
structure Machine (mb : MultiBody ℝ) (solve : DMat ℝ → List ℝ → List ℝ) : Prop where
  wf : mb.WF
  rigid : mb.Rigid
  inertia : ∀ b ∈ mb.bodies, ∀ v : MotionVec ℝ, v ≠ 0 → 0 < v.dot (b.inertia.mulMotion v)
  subspace : ∀ j ∈ mb.joints, ∀ c ∈ j.S, c ≠ 0
  solves : SolvesPositive solve mb.nrDof
  simple : SimpleJoints mb

/-- Time, joint positions and joint velocities as numbers. -/
abbrev MultiBody.Space (mb : MultiBody ℝ) : Type := ℝ × (mb.Ix → ℝ) × (mb.Ix → ℝ)

/-- A control law gives torques of the right sizes, which are continuously differentiable functions of time and state. -/
def SmoothLaw (mb : MultiBody ℝ) (law : ℝ → List (List ℝ) → List (List ℝ) → List (List ℝ)) : Prop :=
  DiffDof mb fun w : mb.Space => law w.1 (mb.unflat w.2.1) (mb.unflat w.2.2)

/-- The environment gives one force per body, which are continuously differentiable functions of time and state. -/
structure SmoothForces (mb : MultiBody ℝ) (env : ℝ → List (List ℝ) → List (List ℝ) → List (ForceVec ℝ)) : Prop where
  length : ∀ t q α, (env t q α).length = mb.bodies.length
  smooth : ∀ k, k < mb.bodies.length → DiffForce fun w : mb.Space => ((env w.1 (mb.unflat w.2.1) (mb.unflat w.2.2))[k]?).getD 0

/-- The times `I` of a motion of the robot under the control law, the forces of the environment and gravity: the positions move with the
velocities, the velocities change with the accelerations, and the accelerations are those that `forwardDynamics` computes from the torques and
forces of the law and the environment. The stored poses and body velocities are up to date. -/
structure Motion (mb : MultiBody ℝ) (solve : DMat ℝ → List ℝ → List ℝ) (law : ℝ → List (List ℝ) → List (List ℝ) → List (List ℝ))
    (env : ℝ → List (List ℝ) → List (List ℝ) → List (ForceVec ℝ)) (γ : Vec3 ℝ) (I : Set ℝ) (mbc : ℝ → MBC ℝ) : Prop where
  sized : ∀ t ∈ I, (mbc t).Sized mb
  ready : ∀ t ∈ I, (mbc t).VelReady mb
  moves : ∀ t ∈ I, Trajectory mb (fun s => (mbc s).q) (mbc t).alpha t
  rate : ∀ t ∈ I, HasDerivDof mb (fun s => (mbc s).alpha) (mbc t).alphaD t
  gravity : ∀ t ∈ I, (mbc t).gravity = γ
  torque : ∀ t ∈ I, (mbc t).jointTorque = law t (mbc t).q (mbc t).alpha
  force : ∀ t ∈ I, (mbc t).force = env t (mbc t).q (mbc t).alpha
  dynamics : ∀ t ∈ I, ∃ fd fd' m, FD.Fits mb fd ∧ fd.forwardDynamics solve mb (mbc t) = .ok (fd', m) ∧ m.alphaD = (mbc t).alphaD

/-- The controller that applies the torques of the law at the beginning of every period. -/
def sampled (law : ℝ → List (List ℝ) → List (List ℝ) → List (List ℝ)) (step : ℝ) (k : Nat) (m : MBC ℝ) : Res (List (List ℝ)) :=
  .ok (law (k * step) m.q m.alpha)

/-- The forces of the environment at the beginning of every period. -/
def sampledForces (env : ℝ → List (List ℝ) → List (List ℝ) → List (ForceVec ℝ)) (step : ℝ) (k : Nat) (m : MBC ℝ) : List (ForceVec ℝ) :=
  env (k * step) m.q m.alpha

variable {mb : MultiBody ℝ} {solve : DMat ℝ → List ℝ → List ℝ} {law : ℝ → List (List ℝ) → List (List ℝ) → List (List ℝ)}
  {env : ℝ → List (List ℝ) → List (List ℝ) → List (ForceVec ℝ)} {γ : Vec3 ℝ}

theorem Machine.plant (M : Machine mb solve) {step prec : ℝ} (h1 : 0 ≤ step) (h2 : 0 < prec) : Plant mb solve step prec :=
  ⟨M.wf, M.rigid, M.inertia, M.subspace, M.solves, h1, h2⟩

theorem Machine.valid (M : Machine mb solve) {q : List (List ℝ)} (hq : SizedDof mb q) : ValidQ mb q := by
  have hl := hq.length
  refine List.forall₂_iff_get.2 ⟨hl.symm, fun i h1 h2 => ?_⟩
  simp only [List.get_eq_getElem]
  have hm := List.getElem_mem h1
  have ht : mb.joints[i].type ≠ .Spherical ∧ mb.joints[i].type ≠ .Free := by
    rcases M.simple _ hm with e | e | e | e <;> rw [e] <;> exact ⟨by simp, by simp⟩
  have hb := (M.wf.built _ hm).plain ht.2 ht.1
  exact hb.2 _ ((hq.get (List.getElem?_eq_getElem h2) (List.getElem?_eq_getElem h1)).trans hb.1.symm)

theorem Machine.sizedQ (M : Machine mb solve) {q : List (List ℝ)} : SizedQ mb q ↔ SizedDof mb q := M.simple.sizedQ M.wf

/-- The accelerations at a time and a state. -/
noncomputable def accelAt (mb : MultiBody ℝ) (law : ℝ → List (List ℝ) → List (List ℝ) → List (List ℝ))
    (env : ℝ → List (List ℝ) → List (List ℝ) → List (ForceVec ℝ)) (γ : Vec3 ℝ) (w : mb.Space) : mb.Ix → ℝ :=
  mb.accOf (mb.unflat w.2.1) (mb.unflat w.2.2) (law w.1 (mb.unflat w.2.1) (mb.unflat w.2.2)) ⟨0, γ⟩
    fun k => ((env w.1 (mb.unflat w.2.1) (mb.unflat w.2.2))[k]?).getD 0

/-- The state of a configuration as numbers. -/
noncomputable def MBC.coords (mb : MultiBody ℝ) (t : ℝ) (m : MBC ℝ) : mb.Space := (t, mb.flat m.q, mb.flat m.alpha)

theorem accelAt_diff (M : Machine mb solve) (hl : SmoothLaw mb law) (he : SmoothForces mb env) (γ : Vec3 ℝ) : ContDiff ℝ 1 (accelAt mb law env γ) :=
  DiffDof.accOf M.wf M.rigid M.simple (fun _ => M.valid (mb.unflat_sized M.wf _)) M.inertia M.subspace
    (.unflat M.wf (contDiff_fst.comp contDiff_snd)) (.unflat M.wf (contDiff_snd.comp contDiff_snd)) hl _ he.smooth

/-- Forward dynamics computes `accelAt`. -/
theorem Machine.acc (M : Machine mb solve) {m : MBC ℝ} (sz : m.Sized mb) (hv : m.VelReady mb) {t : ℝ} (hg : m.gravity = γ)
    (ht : m.jointTorque = law t m.q m.alpha) (hf : m.force = env t m.q m.alpha) {fd : FD ℝ} (hfit : fd.Fits mb) :
    ∃ fd' r, fd.forwardDynamics solve mb m = .ok (fd', { m with alphaD := r }) ∧ SizedDof mb r ∧ mb.flat r = accelAt mb law env γ (m.coords mb t) := by
  have hq := M.valid (M.sizedQ.1 sz.q)
  have H : FDCase mb m fd solve := ⟨M.wf, M.rigid, sz, hq, hv, hfit, M.inertia, M.subspace,
    (M.plant le_rfl one_pos).exact hfit hq hv.toPosReady⟩
  obtain ⟨fd', r, e, hs, h⟩ := H.torque
  refine ⟨fd', r, e, hs, ?_⟩
  have := (accOf_iff M.wf M.rigid hq M.inertia M.subspace m.alpha m.jointTorque ⟨0, m.gravity⟩ m.forceAt r).1 h
  rw [this]
  unfold accelAt MBC.coords
  dsimp only
  rw [MultiBody.unflat_flat M.wf (M.sizedQ.1 sz.q), MultiBody.unflat_flat M.wf sz.alpha, ← ht, ← hf, ← hg]
  rfl

/-- C88: for a control law and an environment which are continuously differentiable functions of time, joint positions and joint velocities, the
accelerations of `forwardDynamics` are one continuously differentiable function of time, joint positions and velocities, whatever is left in the
buffers of the `ForwardDynamics` object. -/
theorem C88_smooth (M : Machine mb solve) (hl : SmoothLaw mb law) (he : SmoothForces mb env) (γ : Vec3 ℝ) :
    ∃ A : mb.Space → mb.Ix → ℝ, ContDiff ℝ 1 A ∧ ∀ (t : ℝ) (m : MBC ℝ) (fd : FD ℝ), m.Sized mb → m.VelReady mb → m.gravity = γ →
      m.jointTorque = law t m.q m.alpha → m.force = env t m.q m.alpha → fd.Fits mb →
      ∃ fd' r, fd.forwardDynamics solve mb m = .ok (fd', { m with alphaD := r }) ∧ SizedDof mb r ∧
        ∀ i a (hi : i < mb.bodies.length) (ha : a < mb.dofAt i), entry r i a =
          A (t, fun x => entry m.q x.1 x.2, fun x => entry m.alpha x.1 x.2) ⟨⟨i, hi⟩, ⟨a, ha⟩⟩ := by
  refine ⟨accelAt mb law env γ, accelAt_diff M hl he γ, fun t m fd sz hv hg ht hf hfit => ?_⟩
  obtain ⟨fd', r, e, hs, h⟩ := M.acc sz hv hg ht hf hfit
  exact ⟨fd', r, e, hs, fun i a hi ha => congrFun h ⟨⟨i, hi⟩, ⟨a, ha⟩⟩⟩

/-! ### The differential equation -/

/-- The right-hand side of the differential equation of the robot. -/
noncomputable def flow (mb : MultiBody ℝ) (law : ℝ → List (List ℝ) → List (List ℝ) → List (List ℝ))
    (env : ℝ → List (List ℝ) → List (List ℝ) → List (ForceVec ℝ)) (γ : Vec3 ℝ) (w : mb.Space) : mb.Space :=
  (1, w.2.2, accelAt mb law env γ w)

theorem flow_diff (M : Machine mb solve) (hl : SmoothLaw mb law) (he : SmoothForces mb env) (γ : Vec3 ℝ) : ContDiff ℝ 1 (flow mb law env γ) :=
  contDiff_const.prodMk ((contDiff_snd.comp contDiff_snd).prodMk (accelAt_diff M hl he γ))

theorem Motion.flow (M : Machine mb solve) {I : Set ℝ} {mbc : ℝ → MBC ℝ} (h : Motion mb solve law env γ I mbc) {t : ℝ} (ht : t ∈ I) :
    HasDerivAt (fun s => (mbc s).coords mb s) (flow mb law env γ ((mbc t).coords mb t)) t := by
  refine (hasDerivAt_id t).prodMk (HasDerivAt.prodMk ?_ ?_)
  · refine hasDerivAt_pi.2 fun x => ?_
    obtain ⟨j, e, -⟩ := M.wf.joint_get x.1.2
    have hp : j.type.Plain := M.simple j (List.mem_of_getElem? e)
    have := ((h.moves t ht).rate x.1 j e).2 x.2
    rw [coordRate_plain hp] at this
    exact this
  · obtain ⟨fd, fd', m, hfit, e, hm⟩ := h.dynamics t ht
    obtain ⟨fd₁, r, e1, -, hr⟩ := M.acc (h.sized t ht) (h.ready t ht) (h.gravity t ht) (h.torque t ht) (h.force t ht) hfit
    rw [e] at e1
    have : (mbc t).alphaD = r := by rw [← hm, (Prod.mk.inj (Except.ok.inj e1)).2]
    rw [← hr, ← this]
    exact hasDerivAt_pi.2 fun x => (h.rate t ht x.1 x.1.2).2 x.2

theorem flat_inj (wf : mb.WF) {v w : List (List ℝ)} (hv : SizedDof mb v) (hw : SizedDof mb w) (h : mb.flat v = mb.flat w) : v = w :=
  SizedDof.ext_entry wf hv hw fun i a hi ha => congrFun h ⟨⟨i, hi⟩, ⟨a, ha⟩⟩

/-- C88: two motions under the same control law, forces and gravity which have the same joint positions and velocities at one time have them at all
times, before and after. -/
theorem C88_unique (M : Machine mb solve) (hl : SmoothLaw mb law) (he : SmoothForces mb env) {a b t₀ : ℝ} (h0 : t₀ ∈ Set.Icc a b)
    {mbc mbc' : ℝ → MBC ℝ} (h : Motion mb solve law env γ (Set.Icc a b) mbc) (h' : Motion mb solve law env γ (Set.Icc a b) mbc')
    (hq : (mbc t₀).q = (mbc' t₀).q) (ha : (mbc t₀).alpha = (mbc' t₀).alpha) {t : ℝ} (ht : t ∈ Set.Icc a b) :
    (mbc t).q = (mbc' t).q ∧ (mbc t).alpha = (mbc' t).alpha ∧ (mbc t).bodyPosW = (mbc' t).bodyPosW ∧ (mbc t).bodyVelB = (mbc' t).bodyVelB ∧
      (mbc t).alphaD = (mbc' t).alphaD := by
  have hG := flow_diff M hl he γ
  have e0 : (mbc t₀).coords mb t₀ = (mbc' t₀).coords mb t₀ := by unfold MBC.coords; rw [hq, ha]
  have e : (mbc t).coords mb t = (mbc' t).coords mb t := by
    rcases le_total t₀ t with hc | hc
    · exact solution_unique hG (x := fun s => (mbc s).coords mb s) (y := fun s => (mbc' s).coords mb s) (a := t₀) (b := b)
        (fun s hs => h.flow M ⟨h0.1.trans hs.1, hs.2⟩) (fun s hs => h'.flow M ⟨h0.1.trans hs.1, hs.2⟩) e0 ⟨hc, ht.2⟩
    · exact solution_unique_back hG (x := fun s => (mbc s).coords mb s) (y := fun s => (mbc' s).coords mb s) (a := a) (b := t₀)
        (fun s hs => h.flow M ⟨hs.1, hs.2.trans h0.2⟩) (fun s hs => h'.flow M ⟨hs.1, hs.2.trans h0.2⟩) e0 ⟨ht.1, hc⟩
  have eq := flat_inj M.wf (M.sizedQ.1 (h.sized t ht).q) (M.sizedQ.1 (h'.sized t ht).q) (Prod.mk.inj (Prod.mk.inj e).2).1
  have ea := flat_inj M.wf (h.sized t ht).alpha (h'.sized t ht).alpha (Prod.mk.inj (Prod.mk.inj e).2).2
  refine ⟨eq, ea, ?_, ?_, ?_⟩
  · rw [(h.ready t ht).bodyPosW, (h'.ready t ht).bodyPosW, eq]
  · rw [(h.ready t ht).bodyVelB, (h'.ready t ht).bodyVelB, eq, ea]
  · have key : ∀ {c : ℝ → MBC ℝ}, Motion mb solve law env γ (Set.Icc a b) c → mb.flat (c t).alphaD = accelAt mb law env γ ((c t).coords mb t) := by
      intro c hc
      obtain ⟨fd, fd', m, hfit, e, hm⟩ := hc.dynamics t ht
      obtain ⟨fd₁, r, e1, -, hr⟩ := M.acc (hc.sized t ht) (hc.ready t ht) (hc.gravity t ht) (hc.torque t ht) (hc.force t ht) hfit
      rw [e] at e1
      rw [← hm, (Prod.mk.inj (Except.ok.inj e1)).2]
      exact hr
    exact flat_inj M.wf (h.sized t ht).alphaD (h'.sized t ht).alphaD (by rw [key h, key h', e])

/-! ### Existence -/

/-- A configuration with the given vectors, on which forward kinematics and velocity have been called. -/
theorem config_exists (M : Machine mb solve) {q α r τ : List (List ℝ)} {f : List (ForceVec ℝ)} (hq : SizedDof mb q) (ha : SizedDof mb α)
    (hr : SizedDof mb r) (ht : SizedDof mb τ) (hf : f.length = mb.bodies.length) (γ : Vec3 ℝ) :
    ∃ m : MBC ℝ, m.Sized mb ∧ m.VelReady mb ∧ m.q = q ∧ m.alpha = α ∧ m.alphaD = r ∧ m.force = f ∧ m.gravity = γ ∧ m.jointTorque = τ := by
  have sz : MBC.Sized mb ⟨q, α, r, f, List.replicate mb.bodies.length 1, List.replicate mb.bodies.length 0, τ,
      mb.joints.map (fun j => List.replicate j.dof 0), List.replicate mb.bodies.length 1, List.replicate mb.bodies.length 1,
      List.replicate mb.bodies.length 0, List.replicate mb.bodies.length 0, List.replicate mb.bodies.length 0, γ⟩ :=
    ⟨M.sizedQ.2 hq, ha, hr, ht, hf, by simp, by simp, by simp [Function.comp_def], by simp, by simp, by simp, by simp, by simp⟩
  obtain ⟨m₁, m, -, -, hv, hs, h1, h2, h3, h4, h5, h6⟩ := C24_velReady M.wf M.rigid sz (M.valid hq)
  exact ⟨m, hs, hv, h1, h2, h3, h4, h5, h6⟩

theorem unflat_entry (M : Machine mb solve) {y : ℝ → mb.Ix → ℝ} {v : mb.Ix → ℝ} {t : ℝ} (h : HasDerivAt y v t) {i : Nat} (hi : i < mb.bodies.length)
    (a : Nat) : HasDerivAt (fun s => (((mb.unflat (y s))[i]?).getD []).getD a 0) ((((mb.unflat v)[i]?).getD []).getD a 0) t := by
  by_cases hal : a < mb.dofAt i
  · have e1 : (fun s => (((mb.unflat (y s))[i]?).getD []).getD a 0) = fun s => y s ⟨⟨i, hi⟩, ⟨a, hal⟩⟩ :=
      funext fun s => MultiBody.entry_unflat _ hi hal
    have e2 : (((mb.unflat v)[i]?).getD []).getD a 0 = v ⟨⟨i, hi⟩, ⟨a, hal⟩⟩ := MultiBody.entry_unflat _ hi hal
    rw [e1, e2]
    exact hasDerivAt_pi.1 h _
  · have e1 : (fun s => (((mb.unflat (y s))[i]?).getD []).getD a 0) = fun _ => 0 :=
      funext fun s => entry_beyond M.wf (mb.unflat_sized M.wf _) (by omega)
    have e2 : (((mb.unflat v)[i]?).getD []).getD a 0 = 0 := entry_beyond M.wf (mb.unflat_sized M.wf _) (by omega)
    rw [e1, e2]
    exact hasDerivAt_const _ _

/-- Numbers that change at some rates are joint positions that move with these velocities. -/
theorem unflat_moves (M : Machine mb solve) {y : ℝ → mb.Ix → ℝ} {v : mb.Ix → ℝ} {t : ℝ} (h : HasDerivAt y v t) :
    Trajectory mb (fun s => mb.unflat (y s)) (mb.unflat v) t := by
  have hsz := fun v : mb.Ix → ℝ => mb.unflat_sized M.wf v
  refine ⟨fun s => M.valid (hsz _), hsz _, fun i j e => ?_⟩
  have hi : i < mb.bodies.length := by rw [← M.wf.njoints]; exact (List.getElem?_eq_some_iff.1 e).1
  rw [coordRate_plain (show j.type.Plain from M.simple j (List.mem_of_getElem? e))]
  exact ⟨fun s => by rw [(hsz _).getD_length M.wf hi, (hsz _).getD_length M.wf hi], unflat_entry M h hi⟩

theorem unflat_rate (M : Machine mb solve) {y : ℝ → mb.Ix → ℝ} {v : mb.Ix → ℝ} {t : ℝ} (h : HasDerivAt y v t) :
    HasDerivDof mb (fun s => mb.unflat (y s)) (mb.unflat v) t := fun i hi =>
  have hsz := fun v : mb.Ix → ℝ => mb.unflat_sized M.wf v
  ⟨fun s => by rw [(hsz _).getD_length M.wf hi, (hsz _).getD_length M.wf hi], unflat_entry M h hi⟩

/-- The time of a solution of the differential equation is the time. -/
theorem flow_time {I : Set ℝ} (ho : IsOpen I) (hc : Convex ℝ I) {x : ℝ → mb.Space} (hx : ∀ t ∈ I, HasDerivAt x (flow mb law env γ (x t)) t) {t₀ : ℝ}
    (h0 : t₀ ∈ I) (hx0 : (x t₀).1 = t₀) {t : ℝ} (ht : t ∈ I) : (x t).1 = t := by
  have hd : ∀ t ∈ I, HasDerivAt (fun s => (x s).1 - s) 0 t := fun t ht => by
    have h1 : HasDerivAt (fun s => (x s).1) 1 t :=
      (ContinuousLinearMap.fst ℝ ℝ ((mb.Ix → ℝ) × (mb.Ix → ℝ))).hasFDerivAt.comp_hasDerivAt t (hx t ht)
    have h2 := h1.sub (hasDerivAt_id t)
    rw [sub_self] at h2
    exact h2
  have hc := hc.is_const_of_fderivWithin_eq_zero (𝕜 := ℝ) (f := fun s => (x s).1 - s)
    (fun s hs => (hd s hs).differentiableAt.differentiableWithinAt)
    (fun s hs => by
      rw [fderivWithin_of_isOpen ho hs, (hd s hs).hasFDerivAt.fderiv]
      ext
      simp) ht h0
  simp only [hx0] at hc
  linarith

/-- A solution of the differential equation is a motion of the robot. -/
theorem Motion.of_flow (M : Machine mb solve) (hl : SmoothLaw mb law) (he : SmoothForces mb env) {I : Set ℝ} {x : ℝ → mb.Space}
    (hx : ∀ t ∈ I, HasDerivAt x (RBDyn.flow mb law env γ (x t)) t) (htime : ∀ t ∈ I, (x t).1 = t) :
    ∃ mbc : ℝ → MBC ℝ, (∀ t, (mbc t).q = mb.unflat (x t).2.1 ∧ (mbc t).alpha = mb.unflat (x t).2.2) ∧ Motion mb solve law env γ I mbc := by
  have hsz := fun v : mb.Ix → ℝ => mb.unflat_sized M.wf v
  have key : ∀ t, ∃ m : MBC ℝ, m.Sized mb ∧ m.VelReady mb ∧ m.q = mb.unflat (x t).2.1 ∧ m.alpha = mb.unflat (x t).2.2 ∧
      m.alphaD = mb.unflat (accelAt mb law env γ (x t)) ∧ m.force = env (x t).1 (mb.unflat (x t).2.1) (mb.unflat (x t).2.2) ∧ m.gravity = γ ∧
      m.jointTorque = law (x t).1 (mb.unflat (x t).2.1) (mb.unflat (x t).2.2) := fun t =>
    config_exists M (hsz _) (hsz _) (hsz _) (hl.sized (x t)) (he.length _ _ _) γ
  choose mbc k1 k2 k3 k4 k5 k6 k7 k8 using key
  obtain ⟨fd₀, -, hfd⟩ := FD.mk'_fits M.wf (⟨⟨0, 0, fun _ _ => 0⟩, [], [], [], [], [], [], []⟩ : FD ℝ)
  refine ⟨mbc, fun t => ⟨k3 t, k4 t⟩, fun t _ => k1 t, fun t _ => k2 t, fun t ht => ?_, fun t ht => ?_,
    fun t _ => k7 t, fun t ht => by rw [k8, k3, k4, htime t ht], fun t ht => by rw [k6, k3, k4, htime t ht], fun t ht => ?_⟩
  · simp only [k3, k4]
    exact unflat_moves M (((ContinuousLinearMap.fst ℝ (mb.Ix → ℝ) (mb.Ix → ℝ)).comp
      (ContinuousLinearMap.snd ℝ ℝ ((mb.Ix → ℝ) × (mb.Ix → ℝ)))).hasFDerivAt.comp_hasDerivAt t (hx t ht))
  · simp only [k4, k5]
    exact unflat_rate M (((ContinuousLinearMap.snd ℝ (mb.Ix → ℝ) (mb.Ix → ℝ)).comp
      (ContinuousLinearMap.snd ℝ ℝ ((mb.Ix → ℝ) × (mb.Ix → ℝ)))).hasFDerivAt.comp_hasDerivAt t (hx t ht))
  · obtain ⟨fd', r, e1, hs, hr⟩ := M.acc (t := t) (k1 t) (k2 t) (k7 t) (by rw [k8, k3, k4, htime t ht]) (by rw [k6, k3, k4, htime t ht]) hfd
    refine ⟨fd₀, fd', _, hfd, e1, flat_inj M.wf hs (k1 t).alphaD ?_⟩
    rw [hr, k5, MultiBody.flat_unflat]
    unfold MBC.coords
    rw [k3, k4, MultiBody.flat_unflat, MultiBody.flat_unflat]
    congr 1
    exact Prod.ext (htime t ht).symm rfl

/-- C88: from all joint positions and velocities and at every time there is a motion of the robot under the control law, the forces and gravity,
for some time before and after. -/
theorem C88_exists (M : Machine mb solve) (hl : SmoothLaw mb law) (he : SmoothForces mb env) (γ : Vec3 ℝ) {q₀ α₀ : List (List ℝ)}
    (hq : SizedDof mb q₀) (ha : SizedDof mb α₀) (t₀ : ℝ) :
    ∃ ε > 0, ∃ mbc : ℝ → MBC ℝ, (mbc t₀).q = q₀ ∧ (mbc t₀).alpha = α₀ ∧ Motion mb solve law env γ (Set.Ioo (t₀ - ε) (t₀ + ε)) mbc := by
  obtain ⟨x, hx0, ε, hε, hx⟩ := (flow_diff M hl he γ).contDiffAt.exists_forall_mem_closedBall_exists_eq_forall_mem_Ioo_hasDerivAt₀
    (x₀ := (t₀, mb.flat q₀, mb.flat α₀)) t₀
  obtain ⟨mbc, h1, h2⟩ := Motion.of_flow M hl he hx fun t ht => flow_time isOpen_Ioo (convex_Ioo _ _) hx (t₀ := t₀) ⟨by linarith, by linarith⟩
    (by rw [hx0]) ht
  refine ⟨ε, hε, mbc, ?_, ?_, h2⟩
  · rw [(h1 t₀).1, hx0, MultiBody.unflat_flat M.wf hq]
  · rw [(h1 t₀).2, hx0, MultiBody.unflat_flat M.wf ha]

/-! ### Convergence of the simulator -/

theorem sampled_answers (M : Machine mb solve) (hl : SmoothLaw mb law) (step : ℝ) : Answers mb (sampled law step) := by
  intro k m sz _ _
  refine ⟨_, rfl, ?_⟩
  have := hl.sized (m.coords mb (k * step))
  unfold MBC.coords at this
  dsimp only at this
  rwa [MultiBody.unflat_flat M.wf (M.sizedQ.1 sz.q), MultiBody.unflat_flat M.wf sz.alpha] at this

/-- One period is an Euler step with a correction of second order. -/
theorem PeriodOf.euler (M : Machine mb solve) {step prec : ℝ} {s s' : FD ℝ × MBC ℝ} {k N : Nat} {m : MBC ℝ}
    {τ r : List (List ℝ)} (h : PeriodOf mb solve (sampledForces env step) (sampled law step) step prec s k m τ r N s') (S : SimState mb s)
    (hg : s.2.gravity = γ) :
    s'.2.coords mb ((k + 1 : ℕ) * step) = s.2.coords mb (k * step) + step • flow mb law env γ (s.2.coords mb (k * step)) +
      step ^ 2 • (0, (1 / 2 : ℝ) • accelAt mb law env γ (s.2.coords mb (k * step)), 0) := by
  have hm : m.force = env (k * step) m.q m.alpha := by
    obtain ⟨m₁, m₂, -, -, e⟩ := h.measured
    rw [e]
    rfl
  have ht : τ = law (k * step) m.q m.alpha := (Except.ok.inj h.torque).symm
  obtain ⟨fd', r', e1, -, hr⟩ := M.acc (m := { m with jointTorque := τ }) (t := k * step) (law := law) (env := env) (γ := γ)
    { h.sized with jointTorque := h.sizedTorque }
    ⟨⟨h.ready.parentToSon, h.ready.bodyPosW, h.ready.motionSubspace⟩, h.ready.jointVelocity, h.ready.bodyVelB, h.ready.bodyVelW⟩
    (h.gravity.trans hg) ht hm S.fits
  have hrr : r' = r := by
    have := h.acc
    rw [e1] at this
    exact congrArg MBC.alphaD (Prod.mk.inj (Except.ok.inj this)).2
  rw [hrr] at hr
  have hco : MBC.coords mb (k * step) { m with jointTorque := τ } = s.2.coords mb (k * step) := by
    unfold MBC.coords
    dsimp only
    rw [h.q, h.alpha]
  rw [hco] at hr
  unfold flow
  rw [← hr]
  unfold MBC.coords
  refine Prod.ext ?_ (Prod.ext ?_ ?_)
  · simp; ring
  · funext x
    have := h.entry_q M.wf M.simple S x.1.2 x.2.2
    simp only [MultiBody.flat, Prod.snd_add, Prod.fst_add, Prod.smul_snd, Prod.smul_fst, Pi.add_apply, Pi.smul_apply, smul_eq_mul]
    rw [this]
    ring
  · funext x
    have := h.entry_alpha M.wf S x.1.2 x.2.2
    simp only [MultiBody.flat, Prod.snd_add, Prod.smul_snd, Pi.add_apply, Pi.smul_apply, smul_eq_mul, Pi.zero_apply, mul_zero, add_zero]
    rw [this]
    ring

theorem coords_le {t δ : ℝ} {m m' : MBC ℝ} (h0 : 0 ≤ δ) (h : ∀ i a, i < mb.bodies.length → a < mb.dofAt i →
    |entry m.q i a - entry m'.q i a| ≤ δ ∧ |entry m.alpha i a - entry m'.alpha i a| ≤ δ) : ‖m.coords mb t - m'.coords mb t‖ ≤ δ := by
  unfold MBC.coords
  rw [Prod.mk_sub_mk, Prod.mk_sub_mk, Prod.norm_mk, Prod.norm_mk, sub_self, norm_zero]
  refine max_le h0 (max_le ?_ ?_)
  · exact (pi_norm_le_iff_of_nonneg h0).2 fun x => (h _ _ x.1.2 x.2.2).1
  · exact (pi_norm_le_iff_of_nonneg h0).2 fun x => (h _ _ x.1.2 x.2.2).2

theorem le_coords {t δ : ℝ} {m m' : MBC ℝ} (h : ‖m.coords mb t - m'.coords mb t‖ ≤ δ) {i a : Nat} (hi : i < mb.bodies.length)
    (ha : a < mb.dofAt i) : |entry m.q i a - entry m'.q i a| ≤ δ ∧ |entry m.alpha i a - entry m'.alpha i a| ≤ δ := by
  have h1 := (norm_snd_le (m.coords mb t - m'.coords mb t)).trans h
  refine ⟨?_, ?_⟩
  · exact (norm_le_pi_norm _ (⟨⟨i, hi⟩, ⟨a, ha⟩⟩ : mb.Ix)).trans ((norm_fst_le _).trans h1)
  · exact (norm_le_pi_norm _ (⟨⟨i, hi⟩, ⟨a, ha⟩⟩ : mb.Ix)).trans ((norm_snd_le _).trans h1)

/-- C88: the simulator (forward kinematics, forward velocity, forward dynamics and `integration` in every period) converges to the motion of the robot:
for every motion on the times from 0 to `T` there are a constant `C` and a bound for the period such that the simulation with any smaller period
`step`, started with an error of at most `δ`, never fails and is after `n` periods within `C (δ + step)` of the motion at the time `n step`, in all joint
positions and velocities, until `T`. -/
theorem C88_converges (M : Machine mb solve) (hl : SmoothLaw mb law) (he : SmoothForces mb env) {T : ℝ} (hT : 0 ≤ T) {mbc : ℝ → MBC ℝ}
    (h : Motion mb solve law env γ (Set.Icc 0 T) mbc) :
    ∃ C h₀ : ℝ, 0 < C ∧ 0 < h₀ ∧ ∀ (step prec δ : ℝ) (s₀ : FD ℝ × MBC ℝ), 0 < step → step ≤ h₀ → 0 < prec → 0 ≤ δ → δ ≤ h₀ → SimState mb s₀ →
      s₀.2.gravity = γ → (∀ i a, i < mb.bodies.length → a < mb.dofAt i →
        |entry s₀.2.q i a - entry (mbc 0).q i a| ≤ δ ∧ |entry s₀.2.alpha i a - entry (mbc 0).alpha i a| ≤ δ) →
      ∀ n : ℕ, n * step ≤ T → ∃ N s',
        (∀ fuel, N ≤ fuel → simulate fuel mb solve (sampledForces env step) (sampled law step) step prec n s₀ = .ok s') ∧
        ∀ i a, i < mb.bodies.length → a < mb.dofAt i → |entry s'.2.q i a - entry (mbc (n * step)).q i a| ≤ C * (δ + step) ∧
          |entry s'.2.alpha i a - entry (mbc (n * step)).alpha i a| ≤ C * (δ + step) := by
  have hG := flow_diff M hl he γ
  have hA : Continuous fun w : mb.Space => (1 / 2 : ℝ) • accelAt mb law env γ w := by
    have := (accelAt_diff M hl he γ).continuous
    fun_prop
  obtain ⟨C, h₀, hC, hh, key⟩ := euler_converges hG
    (B := fun w : mb.Space => (0, (1 / 2 : ℝ) • accelAt mb law env γ w, 0))
    (continuous_const.prodMk (hA.prodMk continuous_const)) hT
    (x := fun s => (mbc s).coords mb s) (fun t ht => h.flow M ht)
  refine ⟨C, h₀, hC, hh, fun step prec δ s₀ h1 h2 h3 h4 h5 S hg hs n hn => ?_⟩
  obtain ⟨s, m, τ, r, R⟩ := run_exists (M.plant h1.le h3) (sampled_answers M hl step) (ext := sampledForces env step)
    (fun k m => he.length _ _ _) S
  obtain ⟨N, hN⟩ := R.runs n
  refine ⟨N, s n, hN, fun i a hi ha => ?_⟩
  have hgr : ∀ k, (s k).2.gravity = γ := fun k => by
    induction k with
    | zero => rw [R.start]; exact hg
    | succ k ih =>
      obtain ⟨_, hp⟩ := R.period k
      rw [hp.rest, ← ih]
      exact hp.gravity
  have := key step δ (fun k => (s k).2.coords mb (k * step)) h1 h2 h5
    (by simpa [R.start] using coords_le (t := 0) h4 hs)
    (fun k _ => by
      obtain ⟨_, hp⟩ := R.period k
      exact hp.euler M (R.state k) (hgr k)) n hn
  exact le_coords this hi ha

/-- C88: with more and more periods of length `t / n` the state after `n` periods tends to that of the motion at the time `t`. -/
theorem C88_limit (M : Machine mb solve) (hl : SmoothLaw mb law) (he : SmoothForces mb env) {T : ℝ} {mbc : ℝ → MBC ℝ}
    (h : Motion mb solve law env γ (Set.Icc 0 T) mbc) {t : ℝ} (ht : 0 < t) (htT : t ≤ T) {ε : ℝ} (hε : 0 < ε) :
    ∃ n₀ : ℕ, ∀ (n : ℕ) (prec : ℝ) (s₀ : FD ℝ × MBC ℝ), n₀ ≤ n → 0 < prec → SimState mb s₀ → s₀.2.gravity = γ → s₀.2.q = (mbc 0).q →
      s₀.2.alpha = (mbc 0).alpha → ∃ N s',
        (∀ fuel, N ≤ fuel → simulate fuel mb solve (sampledForces env (t / n)) (sampled law (t / n)) (t / n) prec n s₀ = .ok s') ∧
        ∀ i a, i < mb.bodies.length → a < mb.dofAt i → |entry s'.2.q i a - entry (mbc t).q i a| < ε ∧
          |entry s'.2.alpha i a - entry (mbc t).alpha i a| < ε := by
  obtain ⟨C, h₀, hC, hh, key⟩ := C88_converges M hl he (ht.le.trans htT) h
  obtain ⟨n₀, hn₀⟩ := exists_nat_gt (max (t / h₀) (C * t / ε))
  refine ⟨max n₀ 1, fun n prec s₀ hn hp S hg hq ha => ?_⟩
  have hn1 : (1 : ℝ) ≤ n := by exact_mod_cast (le_max_right _ _).trans hn
  have hn0 : (0 : ℝ) < n := by linarith
  have hn2 : max (t / h₀) (C * t / ε) < n := hn₀.trans_le (by exact_mod_cast (le_max_left _ _).trans hn)
  have b1 : t / n ≤ h₀ := by
    have := (le_max_left _ _).trans_lt hn2
    rw [div_lt_iff₀ hh] at this
    rw [div_le_iff₀ hn0]
    linarith
  have b2 : C * (t / n) < ε := by
    have := (le_max_right _ _).trans_lt hn2
    rw [div_lt_iff₀ hε] at this
    rw [← mul_div_assoc, div_lt_iff₀ hn0]
    linarith
  have e : (n : ℝ) * (t / n) = t := by field_simp
  obtain ⟨N, s', h1, h2⟩ := key (t / n) prec 0 s₀ (by positivity) b1 hp le_rfl hh.le S hg (fun i a _ _ => by rw [hq, ha]; simp) n (by rw [e]; exact htT)
  refine ⟨N, s', h1, fun i a hi hal => ?_⟩
  have := h2 i a hi hal
  rw [e, zero_add] at this
  exact ⟨this.1.trans_lt b2, this.2.trans_lt b2⟩

theorem Motion.mono {I I' : Set ℝ} {mbc : ℝ → MBC ℝ} (h : Motion mb solve law env γ I mbc) (hI : I' ⊆ I) : Motion mb solve law env γ I' mbc :=
  ⟨fun t ht => h.sized t (hI ht), fun t ht => h.ready t (hI ht), fun t ht => h.moves t (hI ht), fun t ht => h.rate t (hI ht),
    fun t ht => h.gravity t (hI ht), fun t ht => h.torque t (hI ht), fun t ht => h.force t (hI ht), fun t ht => h.dynamics t (hI ht)⟩

/-! ### Examples -/

/-- Springs, dampers and a drive that changes with time. -/
noncomputable def springs (mb : MultiBody ℝ) (t : ℝ) (q α : List (List ℝ)) : List (List ℝ) :=
  mb.ofEntries fun i a => -2 * entry q i a - entry α i a + t ^ 2

theorem springs_smooth (wf : mb.WF) : SmoothLaw mb (springs mb) := by
  refine ⟨fun w => mb.ofEntries_sized wf _, fun i a hi ha => ?_⟩
  unfold springs
  simp only [mb.entry_ofEntries _ hi ha, MultiBody.entry_unflat _ hi ha]
  fun_prop

/-- A force on every body that grows with the first joint position. -/
noncomputable def wind (mb : MultiBody ℝ) (_ : ℝ) (q _ : List (List ℝ)) : List (ForceVec ℝ) :=
  List.replicate mb.bodies.length ⟨0, ⟨1, entry q 0 0, 0⟩⟩

theorem wind_smooth (wf : mb.WF) : SmoothForces mb (wind mb) := by
  refine ⟨fun t q α => by simp [wind], fun k hk => ?_⟩
  have e : ∀ w : mb.Space, ((wind mb w.1 (mb.unflat w.2.1) (mb.unflat w.2.2))[k]?).getD 0 = ⟨0, ⟨1, entry (mb.unflat w.2.1) 0 0, 0⟩⟩ := fun w => by
    simp [wind, hk]
  simp only [e]
  exact ⟨.const _, contDiff_const, (DiffDof.unflat wf (contDiff_fst.comp contDiff_snd)).entry wf 0 0, contDiff_const⟩

/-- The robot of `Sample.falling` is a machine. -/
theorem Sample.machine : ∃ (mb : MultiBody ℝ) (solve : DMat ℝ → List ℝ → List ℝ) (mbc : ℝ → MBC ℝ), Machine mb solve ∧
    mb.joints.map (·.type) = [.Prism, .Rev] ∧ (∀ t, (mbc t).q = [[-(9 / 2) * t ^ 2], [3 * t]]) ∧ (∀ t, (mbc t).alpha = [[-9 * t], [3]]) ∧
    Motion mb solve (fun _ _ _ => [[0], [0]]) (fun _ _ _ => [0, 0]) ⟨0, 0, 9⟩ Set.univ mbc := by
  obtain ⟨mb, fd, solve', mbc, wf, hr, -, hf, hI, hS, h, ht, hm⟩ := Sample.falling
  obtain ⟨solve, hs⟩ := SolvesPositive.exists mb.nrDof
  have hsim : SimpleJoints mb := by
    intro j hj
    have : j.type ∈ mb.joints.map (·.type) := List.mem_map_of_mem hj
    rw [ht] at this
    simp only [List.mem_cons, List.not_mem_nil, or_false] at this
    rcases this with e | e
    · exact .inr (.inl e)
    · exact .inl e
  have M : Machine mb solve := ⟨wf, hr, hI, hS, hs, hsim⟩
  refine ⟨mb, solve, mbc, M, ht, fun t => (hm t).1, fun t => (hm t).2.1, fun t _ => h.sized t, fun t _ => h.ready t, fun t _ => h.moves t, fun t _ => h.rate t,
    fun t _ => (hm t).2.2.2.1, fun t _ => (hm t).2.2.2.2.2, fun t _ => (hm t).2.2.2.2.1, fun t _ => ?_⟩
  obtain ⟨fd', m, e1, e2⟩ := h.dynamics t
  have hd : (⟨List.replicate mb.nrBodies 0⟩ : ID ℝ).f.length = mb.nrBodies := by simp
  have hq := (h.moves t).valid t
  have hi := id_eq wf hr (h.sized t) hq (h.ready t) hd rfl
  obtain ⟨d', m', i1, i2⟩ := Simulated.torques wf hr hf h t hd
  rw [hi] at i1
  obtain ⟨fd₁, e⟩ := fd_unique wf hr (h.sized t) hq (h.ready t) hd hf hI hS ((M.plant le_rfl one_pos).exact hf hq (h.ready t).toPosReady)
    (h.sized t).alphaD hi (by rw [(Prod.mk.inj (Except.ok.inj i1)).2]; exact i2)
  exact ⟨fd, fd₁, _, hf, e, rfl⟩

/-- With springs, dampers, a drive and wind there is a motion from every state, another motion with the same start is the same, and simulations
converge to it. -/
example : ∃ (mb : MultiBody ℝ) (solve : DMat ℝ → List ℝ → List ℝ), mb.joints.map (·.type) = [.Prism, .Rev] ∧ ∃ (T : ℝ) (mbc : ℝ → MBC ℝ), 0 < T ∧
    (mbc 0).q = [[2], [1]] ∧ (mbc 0).alpha = [[-1], [3]] ∧ Motion mb solve (springs mb) (wind mb) ⟨0, 0, 9⟩ (Set.Icc 0 T) mbc ∧
    (∀ mbc', (mbc' 0).q = [[2], [1]] → (mbc' 0).alpha = [[-1], [3]] → Motion mb solve (springs mb) (wind mb) ⟨0, 0, 9⟩ (Set.Icc 0 T) mbc' →
      ∀ t ∈ Set.Icc 0 T, (mbc t).q = (mbc' t).q) ∧
    ∀ ε > 0, ∃ n₀ : ℕ, ∀ (n : ℕ) (s₀ : FD ℝ × MBC ℝ), n₀ ≤ n → SimState mb s₀ → s₀.2.gravity = ⟨0, 0, 9⟩ → s₀.2.q = [[2], [1]] →
      s₀.2.alpha = [[-1], [3]] → ∃ N s',
        (∀ fuel, N ≤ fuel → simulate fuel mb solve (sampledForces (wind mb) (T / n)) (sampled (springs mb) (T / n)) (T / n) 1 n s₀ = .ok s') ∧
        |entry s'.2.q 1 0 - entry (mbc T).q 1 0| < ε := by
  obtain ⟨mb, solve, c, M, ht, hcq, -, hc⟩ := Sample.machine
  have hz : ∀ x y : ℝ, SizedDof mb [[x], [y]] := fun x y => by
    have := M.sizedQ.1 (hc.sized 0 trivial).q
    rw [hcq] at this
    unfold SizedDof at this ⊢
    rw [← this]
    rfl
  obtain ⟨ε, hε, mbc, h1, h2, h⟩ := C88_exists M (springs_smooth M.wf) (wind_smooth M.wf) ⟨0, 0, 9⟩ (hz 2 1) (hz (-1) 3) 0
  have h := h.mono (I' := Set.Icc 0 (ε / 2)) fun t ht => ⟨by linarith [ht.1], by linarith [ht.2]⟩
  have hT : 0 < ε / 2 := by linarith
  refine ⟨mb, solve, ht, ε / 2, mbc, hT, h1, h2, h, fun mbc' e1 e2 h' t ht => ?_, fun δ hδ => ?_⟩
  · exact (C88_unique M (springs_smooth M.wf) (wind_smooth M.wf) (t₀ := 0) ⟨le_rfl, hT.le⟩ h h' (by rw [h1, e1]) (by rw [h2, e2]) ht).1
  · obtain ⟨n₀, key⟩ := C88_limit M (springs_smooth M.wf) (wind_smooth M.wf) h hT le_rfl hδ
    refine ⟨n₀, fun n s₀ hn S hg hq ha => ?_⟩
    obtain ⟨N, s', k1, k2⟩ := key n 1 s₀ hn one_pos S hg (by rw [hq, h1]) (by rw [ha, h2])
    have hl : mb.joints.length = 2 := by have := congrArg List.length ht; simpa using this
    have hb : 1 < mb.bodies.length := by rw [← M.wf.njoints, hl]; decide
    refine ⟨N, s', k1, (k2 1 0 hb ?_).1⟩
    have := (hz 2 1).getD_length M.wf hb
    rw [← this]
    decide

/-- Simulations of the robot that falls and spins converge to its motion for any length of time. -/
example (T : ℝ) (hT : 0 < T) : ∃ (mb : MultiBody ℝ) (solve : DMat ℝ → List ℝ → List ℝ), mb.joints.map (·.type) = [.Prism, .Rev] ∧
    ∃ C h₀ : ℝ, 0 < C ∧ 0 < h₀ ∧ ∀ (step : ℝ) (s₀ : FD ℝ × MBC ℝ), 0 < step → step ≤ h₀ → SimState mb s₀ → s₀.2.gravity = ⟨0, 0, 9⟩ →
      s₀.2.q = [[0], [0]] → s₀.2.alpha = [[0], [3]] → ∀ n : ℕ, n * step ≤ T → ∃ N s',
        (∀ fuel, N ≤ fuel → simulate fuel mb solve (sampledForces (fun _ _ _ => [0, 0]) step) (sampled (fun _ _ _ => [[0], [0]]) step) step 1 n s₀ = .ok s') ∧
        |entry s'.2.q 0 0 + 9 / 2 * (n * step) ^ 2| ≤ C * step := by
  obtain ⟨mb, solve, c, M, ht, hcq, hca, h⟩ := Sample.machine
  have hl : SmoothLaw mb fun _ _ _ => [[0], [0]] := ⟨fun _ => by
    have := (h.sized 0 trivial).jointTorque
    rwa [h.torque 0 trivial] at this, fun _ _ _ _ => contDiff_const⟩
  have he : SmoothForces mb fun _ _ _ => [0, 0] := ⟨fun _ _ _ => by
    have := (h.sized 0 trivial).force
    rwa [h.force 0 trivial] at this, fun _ _ => .const _⟩
  obtain ⟨C, h₀, hC, hh, key⟩ := C88_converges M hl he hT.le (h.mono (Set.subset_univ (Set.Icc 0 T)))
  refine ⟨mb, solve, ht, C, h₀, hC, hh, fun step s₀ h1 h2 S hg hq ha n hn => ?_⟩
  obtain ⟨N, s', k1, k2⟩ := key step 1 0 s₀ h1 h2 one_pos le_rfl hh.le S hg (fun i a _ _ => by
    rw [hq, ha, hcq, hca]
    simp) n hn
  have hlj : mb.joints.length = 2 := by have := congrArg List.length ht; simpa using this
  have hb : 0 < mb.bodies.length := by rw [← M.wf.njoints, hlj]; decide
  refine ⟨N, s', k1, ?_⟩
  have := (k2 0 0 hb (by
    have := (M.sizedQ.1 (h.sized 0 trivial).q).getD_length M.wf hb
    rw [hcq] at this
    rw [← this]
    simp)).1
  rw [hcq, zero_add] at this
  have e : entry [[-(9 / 2) * (n * step) ^ 2], [3 * (n * step)]] 0 0 = -(9 / 2) * (n * step) ^ 2 := rfl
  rw [e] at this
  have e2 : entry s'.2.q 0 0 + 9 / 2 * (n * step) ^ 2 = entry s'.2.q 0 0 - -(9 / 2) * (n * step) ^ 2 := by ring
  rw [e2]
  exact this

end RBDyn
