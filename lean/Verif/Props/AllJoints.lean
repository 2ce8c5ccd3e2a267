import Verif.Lemmas.FullFlow

/-! Property C91: forward dynamics defines one motion from every state of robots with joints of all types, in particular with a floating base. -/

namespace RBDyn
open scoped Mat3 Topology

variable {mb : MultiBody ℝ} {solve : DMat ℝ → List ℝ → List ℝ} {law : ℝ → List (List ℝ) → List (List ℝ) → List (List ℝ)}
  {env : ℝ → List (List ℝ) → List (List ℝ) → List (ForceVec ℝ)} {γ : Vec3 ℝ}

/-- The state of a configuration as numbers. -/
noncomputable def MBC.fullCoords (mb : MultiBody ℝ) (t : ℝ) (m : MBC ℝ) : mb.FullSpace := (t, mb.flatQ m.q, mb.flat m.alpha)

theorem MBC.fullCoords_unit (wf : mb.WF) {m : MBC ℝ} (hq : ValidQ mb m.q) (t : ℝ) : m.fullCoords mb t ∈ mb.UnitSpace := by
  show ValidQ mb (mb.unflatQ (mb.flatQ m.q))
  rw [unflatQ_flatQ wf (hq.sizes wf)]
  exact hq

theorem Robot.plant (R : Robot mb solve) {step prec : ℝ} (h1 : 0 ≤ step) (h2 : 0 < prec) : Plant mb solve step prec :=
  ⟨R.wf, R.rigid, R.inertia, R.subspace, R.solves, h1, h2⟩

/-- Forward dynamics computes `accelUnit`. -/
theorem Robot.acc (R : Robot mb solve) {m : MBC ℝ} (sz : m.Sized mb) (hq : ValidQ mb m.q) (hv : m.VelReady mb) {t : ℝ} (hg : m.gravity = γ)
    (ht : m.jointTorque = law t m.q m.alpha) (hf : m.force = env t m.q m.alpha) {fd : FD ℝ} (hfit : fd.Fits mb) :
    ∃ fd' r, fd.forwardDynamics solve mb m = .ok (fd', { m with alphaD := r }) ∧ SizedDof mb r ∧ mb.flat r = accelUnit mb law env γ (m.fullCoords mb t) := by
  have H : FDCase mb m fd solve := ⟨R.wf, R.rigid, sz, hq, hv, hfit, R.inertia, R.subspace,
    (R.plant le_rfl one_pos).exact hfit hq hv.toPosReady⟩
  obtain ⟨fd', r, e, hs, h⟩ := H.torque
  refine ⟨fd', r, e, hs, ?_⟩
  have := (accOf_iff R.wf R.rigid hq R.inertia R.subspace m.alpha m.jointTorque ⟨0, m.gravity⟩ m.forceAt r).1 h
  rw [this]
  unfold accelUnit MBC.fullCoords
  dsimp only
  rw [unflatQ_flatQ R.wf sz.q, unitQ_of_valid R.wf hq, MultiBody.unflat_flat R.wf sz.alpha, ← ht, ← hf, ← hg]
  rfl

/-- C91: for a control law and an environment which are continuously differentiable functions of time, joint parameters and joint velocities, the
accelerations of `forwardDynamics` at states with unit quaternions are the values of one function of time, joint parameters and velocities which is
continuously differentiable everywhere. -/
theorem C91_smooth (R : Robot mb solve) (hl : FullLaw mb law) (he : FullForces mb env) (γ : Vec3 ℝ) :
    ∃ A : mb.FullSpace → mb.Ix → ℝ, ContDiff ℝ 1 A ∧ ∀ (t : ℝ) (m : MBC ℝ) (fd : FD ℝ), m.Sized mb → ValidQ mb m.q → m.VelReady mb → m.gravity = γ →
      m.jointTorque = law t m.q m.alpha → m.force = env t m.q m.alpha → fd.Fits mb →
      ∃ fd' r, fd.forwardDynamics solve mb m = .ok (fd', { m with alphaD := r }) ∧ SizedDof mb r ∧
        ∀ i a (hi : i < mb.bodies.length) (ha : a < mb.dofAt i), entry r i a =
          A (t, fun x => entry m.q x.1 x.2, fun x => entry m.alpha x.1 x.2) ⟨⟨i, hi⟩, ⟨a, ha⟩⟩ := by
  refine ⟨fun w => (fullFlow mb law env γ w).2.2, (contDiff_snd.comp contDiff_snd).comp (fullFlow_diff R hl he γ), fun t m fd sz hq hv hg ht hf hfit => ?_⟩
  obtain ⟨fd', r, e, hs, h⟩ := R.acc sz hq hv hg ht hf hfit
  refine ⟨fd', r, e, hs, fun i a hi ha => ?_⟩
  have hu := MBC.fullCoords_unit R.wf hq t
  show entry r i a = (fullFlow mb law env γ (m.fullCoords mb t)).2.2 ⟨⟨i, hi⟩, ⟨a, ha⟩⟩
  rw [fullFlow_unit R.wf hu]
  exact congrFun h ⟨⟨i, hi⟩, ⟨a, ha⟩⟩

/-! ### Uniqueness -/

theorem Motion.fullFlow (R : Robot mb solve) {I : Set ℝ} {mbc : ℝ → MBC ℝ} (h : Motion mb solve law env γ I mbc) {t : ℝ} (ht : t ∈ I) :
    HasDerivAt (fun s => (mbc s).fullCoords mb s) (fullFlow mb law env γ ((mbc t).fullCoords mb t)) t := by
  have hq := (h.moves t ht).valid t
  rw [fullFlow_unit R.wf (MBC.fullCoords_unit R.wf hq t)]
  refine (hasDerivAt_id t).prodMk (HasDerivAt.prodMk ?_ ?_)
  · refine hasDerivAt_pi.2 fun x => ?_
    obtain ⟨j, e, -⟩ := R.wf.joint_get x.1.2
    have := ((h.moves t ht).rate x.1 j e).2 x.2
    unfold MultiBody.coordRateAt MBC.fullCoords
    dsimp only
    rw [unflatQ_flatQ R.wf (hq.sizes R.wf), MultiBody.unflat_flat R.wf (h.sized t ht).alpha, typeAt_eq e]
    exact this
  · obtain ⟨fd, fd', m, hfit, e, hm⟩ := h.dynamics t ht
    obtain ⟨fd₁, r, e1, -, hr⟩ := R.acc (h.sized t ht) hq (h.ready t ht) (h.gravity t ht) (h.torque t ht) (h.force t ht) hfit
    rw [e] at e1
    have : (mbc t).alphaD = r := by rw [← hm, (Prod.mk.inj (Except.ok.inj e1)).2]
    rw [← hr, ← this]
    exact hasDerivAt_pi.2 fun x => (h.rate t ht x.1 x.1.2).2 x.2

theorem flatQ_inj (wf : mb.WF) {v w : List (List ℝ)} (hv : SizedQ mb v) (hw : SizedQ mb w) (h : mb.flatQ v = mb.flatQ w) : v = w :=
  hv.ext_entry wf hw fun i a hi ha => congrFun h ⟨⟨i, hi⟩, ⟨a, ha⟩⟩

/-- C91: two motions under the same control law, forces and gravity which have the same joint positions and velocities at one time have them at all
times, before and after. -/
theorem C91_unique (R : Robot mb solve) (hl : FullLaw mb law) (he : FullForces mb env) {a b t₀ : ℝ} (h0 : t₀ ∈ Set.Icc a b)
    {mbc mbc' : ℝ → MBC ℝ} (h : Motion mb solve law env γ (Set.Icc a b) mbc) (h' : Motion mb solve law env γ (Set.Icc a b) mbc')
    (hq : (mbc t₀).q = (mbc' t₀).q) (ha : (mbc t₀).alpha = (mbc' t₀).alpha) {t : ℝ} (ht : t ∈ Set.Icc a b) :
    (mbc t).q = (mbc' t).q ∧ (mbc t).alpha = (mbc' t).alpha ∧ (mbc t).bodyPosW = (mbc' t).bodyPosW ∧ (mbc t).bodyVelB = (mbc' t).bodyVelB ∧
      (mbc t).alphaD = (mbc' t).alphaD := by
  have hG := fullFlow_diff R hl he γ
  have e0 : (mbc t₀).fullCoords mb t₀ = (mbc' t₀).fullCoords mb t₀ := by unfold MBC.fullCoords; rw [hq, ha]
  have e : (mbc t).fullCoords mb t = (mbc' t).fullCoords mb t := by
    rcases le_total t₀ t with hc | hc
    · exact solution_unique hG (x := fun s => (mbc s).fullCoords mb s) (y := fun s => (mbc' s).fullCoords mb s) (a := t₀) (b := b)
        (fun s hs => h.fullFlow R ⟨h0.1.trans hs.1, hs.2⟩) (fun s hs => h'.fullFlow R ⟨h0.1.trans hs.1, hs.2⟩) e0 ⟨hc, ht.2⟩
    · exact solution_unique_back hG (x := fun s => (mbc s).fullCoords mb s) (y := fun s => (mbc' s).fullCoords mb s) (a := a) (b := t₀)
        (fun s hs => h.fullFlow R ⟨hs.1, hs.2.trans h0.2⟩) (fun s hs => h'.fullFlow R ⟨hs.1, hs.2.trans h0.2⟩) e0 ⟨ht.1, hc⟩
  have eq := flatQ_inj R.wf (h.sized t ht).q (h'.sized t ht).q (Prod.mk.inj (Prod.mk.inj e).2).1
  have ea := flat_inj R.wf (h.sized t ht).alpha (h'.sized t ht).alpha (Prod.mk.inj (Prod.mk.inj e).2).2
  refine ⟨eq, ea, ?_, ?_, ?_⟩
  · rw [(h.ready t ht).bodyPosW, (h'.ready t ht).bodyPosW, eq]
  · rw [(h.ready t ht).bodyVelB, (h'.ready t ht).bodyVelB, eq, ea]
  · have key : ∀ {c : ℝ → MBC ℝ}, Motion mb solve law env γ (Set.Icc a b) c → mb.flat (c t).alphaD = accelUnit mb law env γ ((c t).fullCoords mb t) := by
      intro c hc
      obtain ⟨fd, fd', m, hfit, e, hm⟩ := hc.dynamics t ht
      obtain ⟨fd₁, r, e1, -, hr⟩ := R.acc (hc.sized t ht) ((hc.moves t ht).valid t) (hc.ready t ht) (hc.gravity t ht) (hc.torque t ht) (hc.force t ht) hfit
      rw [e] at e1
      rw [← hm, (Prod.mk.inj (Except.ok.inj e1)).2]
      exact hr
    exact flat_inj R.wf (h.sized t ht).alphaD (h'.sized t ht).alphaD (by rw [key h, key h', e])

/-! ### Existence -/

/-- A configuration with the given vectors, on which forward kinematics and velocity have been called. -/
theorem Robot.config_exists (R : Robot mb solve) {q α r τ : List (List ℝ)} {f : List (ForceVec ℝ)} (hq : ValidQ mb q) (ha : SizedDof mb α)
    (hr : SizedDof mb r) (ht : SizedDof mb τ) (hf : f.length = mb.bodies.length) (γ : Vec3 ℝ) :
    ∃ m : MBC ℝ, m.Sized mb ∧ m.VelReady mb ∧ m.q = q ∧ m.alpha = α ∧ m.alphaD = r ∧ m.force = f ∧ m.gravity = γ ∧ m.jointTorque = τ := by
  have sz : MBC.Sized mb ⟨q, α, r, f, List.replicate mb.bodies.length 1, List.replicate mb.bodies.length 0, τ,
      mb.joints.map (fun j => List.replicate j.dof 0), List.replicate mb.bodies.length 1, List.replicate mb.bodies.length 1,
      List.replicate mb.bodies.length 0, List.replicate mb.bodies.length 0, List.replicate mb.bodies.length 0, γ⟩ :=
    ⟨hq.sizes R.wf, ha, hr, ht, hf, by simp, by simp, by simp [Function.comp_def], by simp, by simp, by simp, by simp, by simp⟩
  obtain ⟨m₁, m, -, -, hv, hs, h1, h2, h3, h4, h5, h6⟩ := C24_velReady R.wf R.rigid sz hq
  exact ⟨m, hs, hv, h1, h2, h3, h4, h5, h6⟩

/-- Parameters with unit quaternions that change at the rates of the joint velocities are joint positions that move with these velocities. -/
theorem Robot.moves (R : Robot mb solve) {x : ℝ → mb.FullSpace} {t : ℝ} (hu : x t ∈ mb.UnitSpace)
    (h : HasDerivAt (fun s => (x s).2.1) (fun y : mb.Px => mb.coordRateAt (x t) y.1 y.2) t) :
    Trajectory mb (fun s => mb.unitQ (mb.unflatQ (x s).2.1)) (mb.unflat (x t).2.2) t := by
  have hsz := fun v : mb.Px → ℝ => unflatQ_sized R.wf v
  have hval := fun s => unitQ_valid R.wf (hsz (x s).2.1)
  refine ⟨hval, mb.unflat_sized R.wf _, fun i j e => ?_⟩
  have hi : i < mb.bodies.length := by rw [← R.wf.njoints]; exact (List.getElem?_eq_some_iff.1 e).1
  have hlq : (((mb.unflatQ (x t).2.1)[i]?).getD []).length = Joint.nParams (mb.typeAt i) := by
    rw [(hsz _).getD_length R.wf hi, R.wf.params_type hi]
  have hla : (((mb.unflat (x t).2.2)[i]?).getD []).length = Joint.nDof (mb.typeAt i) := by
    rw [(mb.unflat_sized R.wf _).getD_length R.wf hi, R.wf.dof_type hi]
  rw [unitQ_of_valid R.wf hu, ← typeAt_eq e]
  refine ⟨fun s => ?_, fun a => ?_⟩
  · rw [((hval s).sizes R.wf).getD_length R.wf hi, coordRate_length hlq hla, R.wf.params_type hi]
  · have hd : ∀ a, HasDerivAt (fun s => entry (mb.unflatQ (x s).2.1) i a) (mb.coordRateAt (x t) i a) t := fun a => by
      by_cases ha : a < mb.paramsAt i
      · have e1 : (fun s => entry (mb.unflatQ (x s).2.1) i a) = fun s => (x s).2.1 ⟨⟨i, hi⟩, ⟨a, ha⟩⟩ := funext fun s => entry_unflatQ _ hi ha
        rw [e1]
        exact hasDerivAt_pi.1 h ⟨⟨i, hi⟩, ⟨a, ha⟩⟩
      · have e1 : (fun s => entry (mb.unflatQ (x s).2.1) i a) = fun _ => 0 := funext fun s => entry_beyondQ R.wf (hsz _) fun h => ha h.2
        have e2 := coordRate_length hlq hla
        rw [e1, MultiBody.coordRateAt, List.getD_eq_getElem?_getD, List.getElem?_eq_none (by rw [e2, ← R.wf.params_type hi]; omega)]
        exact hasDerivAt_const _ _
    have e3 : (fun s => (((mb.unitQ (mb.unflatQ (x s).2.1))[i]?).getD []).getD a 0) = fun s => mb.unitEntry (mb.unflatQ (x s).2.1) i a :=
      funext fun s => unitQ_entry R.wf (hsz _) i a hi
    rw [e3]
    by_cases hc : (mb.typeAt i).IsQuat ∧ a < 4
    · have h1 : quatSq (mb.unflatQ (x t).2.1) i = 1 := ((validQ_iff R.wf).1 hu).2 i hi hc.1
      have hN : HasDerivAt (fun s => quatSq (mb.unflatQ (x s).2.1) i) 0 t := by
        refine ((((hd 0).pow 2).add ((hd 1).pow 2)).add ((hd 2).pow 2) |>.add ((hd 3).pow 2)).congr_deriv ?_
        have hk := coordRate_quat hc.1 hlq hla
        change entry (mb.unflatQ (x t).2.1) i 0 * mb.coordRateAt (x t) i 0 + entry (mb.unflatQ (x t).2.1) i 1 * mb.coordRateAt (x t) i 1 +
          entry (mb.unflatQ (x t).2.1) i 2 * mb.coordRateAt (x t) i 2 + entry (mb.unflatQ (x t).2.1) i 3 * mb.coordRateAt (x t) i 3 = 0 at hk
        simp only [Nat.add_one_sub_one, pow_one, Nat.cast_ofNat]
        linear_combination 2 * hk
      have hne : ∀ᶠ s in 𝓝 t, quatSq (mb.unflatQ (x s).2.1) i ≠ 0 := hN.continuousAt.eventually_ne (by rw [h1]; exact one_ne_zero)
      have hev : (fun s => mb.unitEntry (mb.unflatQ (x s).2.1) i a) =ᶠ[𝓝 t]
          fun s => entry (mb.unflatQ (x s).2.1) i a / √(quatSq (mb.unflatQ (x s).2.1) i) := by
        filter_upwards [hne] with s hs
        rw [MultiBody.unitEntry, if_pos hc, if_neg hs]
      refine (((hd a).div (hN.sqrt (by rw [h1]; exact one_ne_zero)) (by rw [h1, Real.sqrt_one]; exact one_ne_zero)).congr_of_eventuallyEq hev).congr_deriv ?_
      rw [h1, Real.sqrt_one]
      simp only [MultiBody.coordRateAt]
      ring
    · have e4 : (fun s => mb.unitEntry (mb.unflatQ (x s).2.1) i a) = fun s => entry (mb.unflatQ (x s).2.1) i a := funext fun s => by
        rw [MultiBody.unitEntry, if_neg hc]
      rw [e4]
      exact hd a

theorem Robot.rates (R : Robot mb solve) {y : ℝ → mb.Ix → ℝ} {v : mb.Ix → ℝ} {t : ℝ} (h : HasDerivAt y v t) :
    HasDerivDof mb (fun s => mb.unflat (y s)) (mb.unflat v) t := fun i hi => by
  have hsz := fun v : mb.Ix → ℝ => mb.unflat_sized R.wf v
  refine ⟨fun s => by rw [(hsz _).getD_length R.wf hi, (hsz _).getD_length R.wf hi], fun a => ?_⟩
  by_cases hal : a < mb.dofAt i
  · have e1 : (fun s => (((mb.unflat (y s))[i]?).getD []).getD a 0) = fun s => y s ⟨⟨i, hi⟩, ⟨a, hal⟩⟩ :=
      funext fun s => MultiBody.entry_unflat _ hi hal
    have e2 : (((mb.unflat v)[i]?).getD []).getD a 0 = v ⟨⟨i, hi⟩, ⟨a, hal⟩⟩ := MultiBody.entry_unflat _ hi hal
    rw [e1, e2]
    exact hasDerivAt_pi.1 h _
  · have e1 : (fun s => (((mb.unflat (y s))[i]?).getD []).getD a 0) = fun _ => 0 :=
      funext fun s => entry_beyond R.wf (hsz _) (by omega)
    have e2 : (((mb.unflat v)[i]?).getD []).getD a 0 = 0 := entry_beyond R.wf (hsz _) (by omega)
    rw [e1, e2]
    exact hasDerivAt_const _ _

/-- A solution of the differential equation from unit quaternions is a motion of the robot. -/
theorem Motion.of_fullFlow (R : Robot mb solve) (hl : FullLaw mb law) (he : FullForces mb env) {I : Set ℝ} {x : ℝ → mb.FullSpace}
    (hu : ∀ t ∈ I, x t ∈ mb.UnitSpace) (hx : ∀ t ∈ I, HasDerivAt x (RBDyn.fullFlow mb law env γ (x t)) t) (htime : ∀ t ∈ I, (x t).1 = t) :
    ∃ mbc : ℝ → MBC ℝ, (∀ t ∈ I, (mbc t).q = mb.unflatQ (x t).2.1 ∧ (mbc t).alpha = mb.unflat (x t).2.2) ∧ Motion mb solve law env γ I mbc := by
  have hsz := fun v : mb.Ix → ℝ => mb.unflat_sized R.wf v
  have key : ∀ t, ∃ m : MBC ℝ, m.Sized mb ∧ m.VelReady mb ∧ m.q = mb.unitQ (mb.unflatQ (x t).2.1) ∧ m.alpha = mb.unflat (x t).2.2 ∧
      m.alphaD = mb.unflat (accelUnit mb law env γ (x t)) ∧ m.force = env (x t).1 (mb.unflatQ (x t).2.1) (mb.unflat (x t).2.2) ∧ m.gravity = γ ∧
      m.jointTorque = law (x t).1 (mb.unflatQ (x t).2.1) (mb.unflat (x t).2.2) := fun t =>
    R.config_exists (unitQ_valid R.wf (unflatQ_sized R.wf _)) (hsz _) (hsz _) (hl.sized (x t)) (he.length _ _ _) γ
  choose mbc k1 k2 k3 k4 k5 k6 k7 k8 using key
  have k3' : ∀ t ∈ I, (mbc t).q = mb.unflatQ (x t).2.1 := fun t ht => by rw [k3, unitQ_of_valid R.wf (hu t ht)]
  have hval : ∀ t ∈ I, ValidQ mb (mbc t).q := fun t ht => by rw [k3' t ht]; exact hu t ht
  obtain ⟨fd₀, -, hfd⟩ := FD.mk'_fits R.wf (⟨⟨0, 0, fun _ _ => 0⟩, [], [], [], [], [], [], []⟩ : FD ℝ)
  have hx' : ∀ t ∈ I, HasDerivAt x (1, fun y : mb.Px => mb.coordRateAt (x t) y.1 y.2, accelUnit mb law env γ (x t)) t := fun t ht => by
    rw [← fullFlow_unit R.wf (hu t ht)]
    exact hx t ht
  refine ⟨mbc, fun t ht => ⟨k3' t ht, k4 t⟩, fun t _ => k1 t, fun t _ => k2 t, fun t ht => ?_, fun t ht => ?_,
    fun t _ => k7 t, fun t ht => by rw [k8, k3' t ht, k4, htime t ht], fun t ht => by rw [k6, k3' t ht, k4, htime t ht], fun t ht => ?_⟩
  · simp only [k3, k4]
    exact R.moves (hu t ht) (((ContinuousLinearMap.fst ℝ (mb.Px → ℝ) (mb.Ix → ℝ)).comp
      (ContinuousLinearMap.snd ℝ ℝ ((mb.Px → ℝ) × (mb.Ix → ℝ)))).hasFDerivAt.comp_hasDerivAt t (hx' t ht))
  · simp only [k4, k5]
    exact R.rates (((ContinuousLinearMap.snd ℝ (mb.Px → ℝ) (mb.Ix → ℝ)).comp
      (ContinuousLinearMap.snd ℝ ℝ ((mb.Px → ℝ) × (mb.Ix → ℝ)))).hasFDerivAt.comp_hasDerivAt t (hx' t ht))
  · obtain ⟨fd', r, e1, hs, hr⟩ := R.acc (t := t) (k1 t) (hval t ht) (k2 t) (k7 t) (by rw [k8, k3' t ht, k4, htime t ht])
      (by rw [k6, k3' t ht, k4, htime t ht]) hfd
    refine ⟨fd₀, fd', _, hfd, e1, flat_inj R.wf hs (k1 t).alphaD ?_⟩
    rw [hr, k5, MultiBody.flat_unflat]
    unfold MBC.fullCoords
    rw [k3' t ht, k4, flatQ_unflatQ, MultiBody.flat_unflat]
    congr 1
    exact Prod.ext (htime t ht).symm rfl

/-- The time of a solution of the differential equation is the time. -/
theorem fullFlow_time {I : Set ℝ} (ho : IsOpen I) (hc : Convex ℝ I) {x : ℝ → mb.FullSpace} (hx : ∀ t ∈ I, HasDerivAt x (fullFlow mb law env γ (x t)) t)
    {t₀ : ℝ} (h0 : t₀ ∈ I) (hx0 : (x t₀).1 = t₀) {t : ℝ} (ht : t ∈ I) : (x t).1 = t := by
  have hd : ∀ t ∈ I, HasDerivAt (fun s => (x s).1 - s) 0 t := fun t ht => by
    have h1 : HasDerivAt (fun s => (x s).1) 1 t :=
      (ContinuousLinearMap.fst ℝ ℝ ((mb.Px → ℝ) × (mb.Ix → ℝ))).hasFDerivAt.comp_hasDerivAt t (hx t ht)
    have h2 := h1.sub (hasDerivAt_id t)
    rw [sub_self] at h2
    exact h2
  have hc := hc.is_const_of_fderivWithin_eq_zero (𝕜 := ℝ) (f := fun s => (x s).1 - s)
    (fun s hs => (hd s hs).differentiableAt.differentiableWithinAt)
    (fun s hs => by
      rw [fderivWithin_of_isOpen ho hs, (hd s hs).hasFDerivAt.fderiv]
      ext
      simp) ht h0
  simp only [hx0] at hc
  linarith

/-- C91: from all joint positions with unit quaternions and all joint velocities and at every time there is a motion of the robot under the control law,
the forces and gravity, for some time before and after. -/
theorem C91_exists (R : Robot mb solve) (hl : FullLaw mb law) (he : FullForces mb env) (γ : Vec3 ℝ) {q₀ α₀ : List (List ℝ)}
    (hq : ValidQ mb q₀) (ha : SizedDof mb α₀) (t₀ : ℝ) :
    ∃ ε > 0, ∃ mbc : ℝ → MBC ℝ, (mbc t₀).q = q₀ ∧ (mbc t₀).alpha = α₀ ∧ Motion mb solve law env γ (Set.Ioo (t₀ - ε) (t₀ + ε)) mbc := by
  obtain ⟨x, hx0, ε, hε, hx⟩ := (fullFlow_diff R hl he γ).contDiffAt.exists_forall_mem_closedBall_exists_eq_forall_mem_Ioo_hasDerivAt₀
    (x₀ := (t₀, mb.flatQ q₀, mb.flat α₀)) t₀
  have h0 : t₀ ∈ Set.Ioo (t₀ - ε) (t₀ + ε) := ⟨by linarith, by linarith⟩
  have e0 : mb.unflatQ (x t₀).2.1 = q₀ := by rw [hx0, unflatQ_flatQ R.wf (hq.sizes R.wf)]
  have hu : ∀ t ∈ Set.Ioo (t₀ - ε) (t₀ + ε), x t ∈ mb.UnitSpace := fun t ht =>
    unitSpace_stays R.wf (f := fun _ => 1) h0 (by show ValidQ mb (mb.unflatQ (x t₀).2.1); rw [e0]; exact hq) (fun t ht => by rw [one_smul]; exact hx t ht) ht
  obtain ⟨mbc, h1, h2⟩ := Motion.of_fullFlow R hl he hu hx fun t ht => fullFlow_time isOpen_Ioo (convex_Ioo _ _) hx h0 (by rw [hx0]) ht
  refine ⟨ε, hε, mbc, ?_, ?_, h2⟩
  · rw [(h1 t₀ h0).1, e0]
  · rw [(h1 t₀ h0).2, hx0, MultiBody.unflat_flat R.wf ha]

end RBDyn
