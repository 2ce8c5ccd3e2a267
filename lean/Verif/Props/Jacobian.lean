import Verif.Lemmas.JacDeriv
import Verif.Lemmas.JacFull
import Verif.Props.Kinematics

/-! Properties C34, C35, C36, C38 (Jacobians of a point of a body). -/

namespace RBDyn
variable {K : Type} [Scalar K] {mb : MultiBody K}
open scoped Mat3

/-! ### C34 -/

/-- C34: the constructor `Jacobian(mb, bodyName, point)` succeeds for the name of a body and gives an object whose path leads from the root
to the body, with matrices of the right size, whatever the memory contained. -/
theorem C34_constructor (wf : mb.WF) (junk : Nat → MotionVec K) {name : String} {N : Nat} (hN : mb.sBodyIndexByName name = .ok (N : Int))
    (hlt : N < mb.nrBodies) (p : Vec3 K) : ∃ J, Jac.mk' junk mb name p = .ok J ∧ J.Of mb N p := Jac.mk'_of wf junk hN hlt p

/-- Every body of a well-formed `MultiBody` has Jacobian objects. -/
theorem Jac.exists_of (wf : mb.WF) {N : Nat} (hN : N < mb.bodies.length) (p : Vec3 K) : ∃ J : Jac K, J.Of mb N p := by
  refine ⟨⟨(pathUp mb.par N).reverse, (pathUp mb.par N).reverse.map fun _ => 1, .ofTrans p,
    (List.range ((pathUp mb.par N).reverse.map mb.dofAt).sum).map fun _ => 0,
    (List.range ((pathUp mb.par N).reverse.map mb.dofAt).sum).map fun _ => 0, N, 0⟩, ?_⟩
  exact
    { path := fun i hi => wf.mem_pathUp_lt hN (List.mem_reverse.1 hi)
      sign := by simp
      jac := by rw [List.length_map, List.length_range]
      jacDot := by rw [List.length_map, List.length_range]
      isBody := hN
      path_eq := rfl
      sign_eq := rfl
      point := rfl
      body := rfl
      ref := rfl }

/-- C34: `jacobian(mb, mbc)` times the velocities of the path joints is the velocity of the point as given by the stored body velocity,
with the orientation of the world, and this is also what `velocity(mb, mbc)` returns. The rest of the object is unchanged, and it can
be used again. -/
theorem C34_jacobian (wf : mb.WF) (hr : mb.Rigid) {mbc : MBC K} (sz : mbc.Sized mb) (hq : ValidQ mb mbc.q) (hv : mbc.VelReady mb)
    {J : Jac K} {N : Nat} {p : Vec3 K} (h : J.Of mb N p) :
    ∃ (J₁ : Jac K) (W : PTransform K) (V : MotionVec K), J.jacobian mb mbc = .ok J₁ ∧ mbc.bodyPosW[N]? = some W ∧ mbc.bodyVelB[N]? = some V ∧
      applyCols J₁.jac (pathVec J.path mbc.alpha) = pointVel W V p ∧ J.velocity mbc = .ok (pointVel W V p) ∧
      J₁.Of mb N p ∧ { J₁ with jac := J.jac } = J := by
  have rN := mb.posAt_rigid hr hq N
  refine ⟨_, _, _, h.jacobian_eq wf hv.toPosReady, by rw [hv.bodyPosW, range_map_getElem? h.isBody],
    by rw [hv.bodyVelB, range_map_getElem? h.isBody], ?_, ?_, h.with_jac (jacCols_length _ _ _ _), rfl⟩
  · dsimp only
    rw [h.apply wf hr hq sz.alpha, ofTrans_mul_inv rN, pointVel_eq]
  · unfold Jac.velocity
    simp only [h.back, Res.bind_ok, hv.rd_pos h.isBody, hv.rd_vB h.isBody, h.point, Res.pure_eq, ← pointVel_eq]
    rfl

/-- C34: `bodyJacobian(mb, mbc)` times the velocities of the path joints is the velocity of the point in the frame of the body, and this
is also what `bodyVelocity(mb, mbc)` returns. -/
theorem C34_bodyJacobian (wf : mb.WF) (hr : mb.Rigid) {mbc : MBC K} (sz : mbc.Sized mb) (hq : ValidQ mb mbc.q) (hv : mbc.VelReady mb)
    {J : Jac K} {N : Nat} {p : Vec3 K} (h : J.Of mb N p) :
    ∃ (J₁ : Jac K) (V : MotionVec K), J.bodyJacobian mb mbc = .ok J₁ ∧ mbc.bodyVelB[N]? = some V ∧
      applyCols J₁.jac (pathVec J.path mbc.alpha) = pointVelB V p ∧ J.bodyVelocity mbc = .ok (pointVelB V p) ∧
      J₁.Of mb N p ∧ { J₁ with jac := J.jac } = J := by
  refine ⟨_, _, h.bodyJacobian_eq wf hv.toPosReady,
    by rw [hv.bodyVelB, range_map_getElem? h.isBody], ?_, ?_, h.with_jac (jacCols_length _ _ _ _), rfl⟩
  · dsimp only
    rw [h.apply wf hr hq sz.alpha]
    exact (congrArg (fun X => PTransform.mulMotion X _) (mb.toPoint_self hr hq N p)).trans (pointVelB_eq _ _)
  · unfold Jac.bodyVelocity
    simp only [h.back, Res.bind_ok, hv.rd_vB h.isBody, h.point, Res.pure_eq, ← pointVelB_eq]

/-- C34: `jacobian(mb, mbc, X_0_p)` for any frame `X_b_p` attached to the body: times the velocities of the path joints it is what
`velocity(mb, mbc, X_b_p)` returns, the body velocity transported to that frame. -/
theorem C34_jacobian_frame (wf : mb.WF) (hr : mb.Rigid) {mbc : MBC K} (sz : mbc.Sized mb) (hq : ValidQ mb mbc.q) (hv : mbc.VelReady mb)
    {J : Jac K} {N : Nat} {p : Vec3 K} (h : J.Of mb N p) (Xbp : PTransform K) :
    ∃ (J₁ : Jac K) (W : PTransform K) (V : MotionVec K), mbc.bodyPosW[N]? = some W ∧ mbc.bodyVelB[N]? = some V ∧
      J.jacobianX mb mbc (Xbp * W) = .ok J₁ ∧ applyCols J₁.jac (pathVec J.path mbc.alpha) = Xbp.mulMotion V ∧
      J.velocityX mbc Xbp = .ok (Xbp.mulMotion V) ∧ J₁.Of mb N p := by
  have rN := mb.posAt_rigid hr hq N
  refine ⟨{ J with jac := mb.jacCols mbc.q (Xbp * mb.posAt mbc.q N) J.path J.sign }, _, _,
    by rw [hv.bodyPosW, range_map_getElem? h.isBody], by rw [hv.bodyVelB, range_map_getElem? h.isBody], ?_, ?_, ?_, ?_⟩
  · unfold Jac.jacobianX Jac.toRef
    simp only [jacobianFill_eq wf hv.toPosReady _ h.path h.sign h.jac, Res.bind_ok, h.ref, lt_irrefl, if_false, Res.pure_eq]
  · dsimp only
    rw [h.apply wf hr hq sz.alpha, PTransform.mul_assoc', PTransform.mul_inv rN, PTransform.mul_one']
  · unfold Jac.velocityX
    simp only [h.back, Res.bind_ok, hv.rd_vB h.isBody, Res.pure_eq]
  · exact h.with_jac (jacCols_length _ _ _ _)

/-- C34, for every velocity vector and knowing nothing but the poses: `jacobian` and `bodyJacobian` times the entries of `v` at the path
joints are the velocity of the point when the robot moves with `v`. -/
theorem C34_any_velocity (wf : mb.WF) (hr : mb.Rigid) {mbc : MBC K} (sz : mbc.Sized mb) (hq : ValidQ mb mbc.q) (hv : mbc.PosReady mb)
    {J : Jac K} {N : Nat} {p : Vec3 K} (h : J.Of mb N p) {v : List (List K)} (hs : SizedDof mb v) :
    ∃ (J₁ J₂ : Jac K) (m : MBC K) (W : PTransform K) (V : MotionVec K), J.jacobian mb mbc = .ok J₁ ∧ J.bodyJacobian mb mbc = .ok J₂ ∧
      forwardVelocity mb { mbc with alpha := v } = .ok m ∧ mbc.bodyPosW[N]? = some W ∧ m.bodyVelB[N]? = some V ∧
      applyCols J₁.jac (pathVec J.path v) = pointVel W V p ∧ applyCols J₂.jac (pathVec J.path v) = pointVelB V p := by
  have rN := mb.posAt_rigid hr hq N
  have szv : ({ mbc with alpha := v } : MBC K).Sized mb := { sz with alpha := hs }
  have hpv : ({ mbc with alpha := v } : MBC K).PosReady mb := { hv with }
  obtain ⟨m, e, -, hm, hf⟩ := szv.fv wf hr hq hpv
  have hmq : m.q = mbc.q := (congrArg MBC.q hf :)
  have hma : m.alpha = v := (congrArg MBC.alpha hf :)
  refine ⟨_, _, m, _, _, h.jacobian_eq wf hv, h.bodyJacobian_eq wf hv, e, by rw [hv.bodyPosW, range_map_getElem? h.isBody],
    by rw [hm.bodyVelB, range_map_getElem? h.isBody, hmq, hma], ?_, ?_⟩
  · dsimp only
    rw [h.apply wf hr hq hs, ofTrans_mul_inv rN, pointVel_eq]
  · dsimp only
    rw [h.apply wf hr hq hs]
    exact (congrArg (fun X => PTransform.mulMotion X _) (mb.toPoint_self hr hq N p)).trans (pointVelB_eq _ _)

/-- The point `(1, 2, 3)` of the hand of the sample robot: its Jacobian has ten columns, and its velocity is not zero. -/
example : ∃ J J₁ W V, Jac.mk' (fun _ => ⟨⟨7, 7, 7⟩, 0⟩) Sample.mb "hand" ⟨1, 2, 3⟩ = .ok J ∧ J.jacobian Sample.mb Sample.mbcV = .ok J₁ ∧
    Sample.mbcV.bodyPosW[2]? = some W ∧ Sample.mbcV.bodyVelB[2]? = some V ∧ J₁.jac.length = 10 ∧
    applyCols J₁.jac (pathVec [0, 1, 2] Sample.mbcV.alpha) = pointVel W V ⟨1, 2, 3⟩ ∧ pointVel W V ⟨1, 2, 3⟩ ≠ 0 := by
  obtain ⟨h1, h2, h3⟩ := Sample.ready
  obtain ⟨J, e, h⟩ := C34_constructor Sample.wf (fun _ => ⟨⟨7, 7, 7⟩, 0⟩) (name := "hand") (N := 2) (by decide +kernel) (by decide +kernel)
    (⟨1, 2, 3⟩ : Vec3 ℚ)
  obtain ⟨J₁, W, V, e1, hW, hV, hJ, -, hO, -⟩ := C34_jacobian Sample.wf Sample.rigid h2 h3 h1 h
  have hp : J.path = [0, 1, 2] := by rw [h.path_eq]; decide +kernel
  have hp1 : J₁.path = [0, 1, 2] := by rw [hO.path_eq]; decide +kernel
  refine ⟨J, J₁, W, V, e, e1, hW, hV, ?_, hp ▸ hJ, ?_⟩
  · rw [hO.jac, hp1]; decide +kernel
  · have hW' : W = (Sample.mbcV.bodyPosW[2]?).getD 1 := by rw [hW]; rfl
    have hV' : V = (Sample.mbcV.bodyVelB[2]?).getD 0 := by rw [hV]; rfl
    rw [hW', hV']
    decide +kernel

/-- C34 with true derivatives: along every trajectory the linear rows of `jacobian` times `α` are the time derivative of the world
position of the point, and `bodyJacobian` times `α` is the velocity of the frame of the body moved to the point. -/
theorem C34_velocity_is_derivative {mb : MultiBody ℝ} (wf : mb.WF) (hr : mb.Rigid) (hd : mb.DirOK) {mbc : ℝ → MBC ℝ} {t : ℝ}
    (sz : ∀ s, (mbc s).Sized mb) (hv : ∀ s, (mbc s).PosReady mb) (h : Trajectory mb (fun s => (mbc s).q) (mbc t).alpha t)
    {J : Jac ℝ} {N : Nat} {p : Vec3 ℝ} (hJ : J.Of mb N p) :
    ∃ (J₁ J₂ : Jac ℝ) (W : ℝ → PTransform ℝ), J.jacobian mb (mbc t) = .ok J₁ ∧ J.bodyJacobian mb (mbc t) = .ok J₂ ∧
      (∀ s, (mbc s).bodyPosW[N]? = some (W s)) ∧
      HasDerivVec (fun s => (PTransform.ofTrans p * W s).r) (applyCols J₁.jac (pathVec J.path (mbc t).alpha)).lin t ∧
      HasSpatialVelocity (fun s => PTransform.ofTrans p * W s) (applyCols J₂.jac (pathVec J.path (mbc t).alpha)) t := by
  have hq := h.valid t
  have rN := mb.posAt_rigid hr hq N
  have h1 := (HasSpatialVelocity.const (PTransform.ofTrans p) t).mul (mb.posAt_hasVelocity wf hr hd h hJ.isBody) (ofTrans_rigid p)
  have e2 : applyCols (mb.jacCols (mbc t).q (PTransform.ofTrans p * mb.posAt (mbc t).q N) J.path J.sign) (pathVec J.path (mbc t).alpha) =
      (PTransform.ofTrans p).mulMotion (mb.velAt (mbc t).q (mbc t).alpha N) := by
    rw [hJ.apply wf hr hq (sz t).alpha]
    exact congrArg (fun X => PTransform.mulMotion X _) (mb.toPoint_self hr hq N p)
  refine ⟨_, _, fun s => mb.posAt (mbc s).q N, hJ.jacobian_eq wf (hv t), hJ.bodyJacobian_eq wf (hv t),
    fun s => by rw [(hv s).bodyPosW, range_map_getElem? hJ.isBody], ?_, ?_⟩
  · dsimp only
    rw [hJ.apply wf hr hq (sz t).alpha, ofTrans_mul_inv rN]
    refine h1.trans.congr ?_
    simp [PTransform.mulMotion, PTransform.ofTrans]
  · dsimp only
    rw [e2]
    simpa using h1

/-- The arm of `Sample.real_arm` meets the hypotheses for a point of its second body. -/
example : ∃ (mb : MultiBody ℝ) (mbc : ℝ → MBC ℝ) (J : Jac ℝ), mb.WF ∧ mb.Rigid ∧ mb.DirOK ∧ (∀ s, (mbc s).Sized mb) ∧
    (∀ s, (mbc s).VelReady mb) ∧ J.Of mb 1 ⟨1, 2, 3⟩ ∧
    ∀ t, Trajectory mb (fun s => (mbc s).q) (mbc t).alpha t ∧ (mbc t).alpha = [[2 * t], [3]] := by
  obtain ⟨mb, mbc, wf, hr, hd, hb, hs, hv, h⟩ := Sample.real_arm
  obtain ⟨J, hJ⟩ := Jac.exists_of wf (N := 1) (by simp [hb]) ⟨1, 2, 3⟩
  exact ⟨mb, mbc, J, wf, hr, hd, hs, hv, hJ, fun t => ⟨(h t).1, (h t).2.2.1⟩⟩

/-! ### C35 -/

/-- C35: `jacobianDot` times the velocities of the path joints is `normalAcceleration`, `bodyJacobianDot` times the velocities of the
path joints is `bodyNormalAcceleration`. -/
theorem C35_normal_acceleration (wf : mb.WF) (hr : mb.Rigid) {mbc : MBC K} (sz : mbc.Sized mb) (hq : ValidQ mb mbc.q)
    (hv : mbc.VelReady mb) {J : Jac K} {N : Nat} {p : Vec3 K} (h : J.Of mb N p) :
    ∃ J₁ J₂ : Jac K, J.jacobianDot mb mbc = .ok J₁ ∧ J.bodyJacobianDot mb mbc = .ok J₂ ∧
      J.normalAcceleration mbc = .ok (applyCols J₁.jacDot (pathVec J.path mbc.alpha)) ∧
      J.bodyNormalAcceleration mbc = .ok (applyCols J₂.jacDot (pathVec J.path mbc.alpha)) ∧
      J₁.Of mb N p ∧ J₂.Of mb N p ∧ { J₁ with jacDot := J.jacDot } = J ∧ { J₂ with jacDot := J.jacDot } = J := by
  have hn : normalAccB mbc J.path = .ok (mb.accAt mbc.q mbc.alpha [] 0 N) := by
    rw [h.path_eq]; exact normalAccB_eq wf hr hq hv h.isBody
  refine ⟨_, _, h.jacobianDot_eq wf hv, h.bodyJacobianDot_eq wf hv, ?_, ?_, h.with_jacDot (homCols_length _ _),
    h.with_jacDot (homCols_length _ _), rfl, rfl⟩
  · dsimp only
    rw [h.homCols wf sz.alpha, dot_sum hr hq]
    unfold Jac.normalAcceleration Jac.normalAccOf
    simp only [hn, h.back, Res.bind_ok, hv.rd_pos h.isBody, hv.rd_vB h.isBody, hv.rd_vW h.isBody, h.point, Res.pure_eq]
    rfl
  · dsimp only
    rw [h.homCols wf sz.alpha, bdot_sum hr hq]
    unfold Jac.bodyNormalAcceleration
    simp only [hn, Res.bind_ok, h.point, Res.pure_eq]

/-- C35: `jacobian αD + jacobianDot α` is the acceleration of the point that follows from the stored body velocity and the body
acceleration that `forwardAcceleration` computes for an unaccelerated base; `bodyJacobian αD + bodyJacobianDot α` is that body
acceleration, transported to the point. -/
theorem C35_acceleration (wf : mb.WF) (hr : mb.Rigid) {mbc : MBC K} (sz : mbc.Sized mb) (hq : ValidQ mb mbc.q)
    (hv : mbc.VelReady mb) {J : Jac K} {N : Nat} {p : Vec3 K} (h : J.Of mb N p) :
    ∃ (J₁ J₁' J₂ J₂' : Jac K) (m : MBC K) (W : PTransform K) (V A : MotionVec K),
      J.jacobian mb mbc = .ok J₁ ∧ J.jacobianDot mb mbc = .ok J₁' ∧ J.bodyJacobian mb mbc = .ok J₂ ∧ J.bodyJacobianDot mb mbc = .ok J₂' ∧
      forwardAcceleration mb mbc 0 = .ok m ∧ mbc.bodyPosW[N]? = some W ∧ mbc.bodyVelB[N]? = some V ∧ m.bodyAccB[N]? = some A ∧
      applyCols J₁.jac (pathVec J.path mbc.alphaD) + applyCols J₁'.jacDot (pathVec J.path mbc.alpha) = pointAcc W V A p ∧
      applyCols J₂.jac (pathVec J.path mbc.alphaD) + applyCols J₂'.jacDot (pathVec J.path mbc.alpha) = pointVelB A p := by
  have rN := mb.posAt_rigid hr hq N
  have hA : mb.accAt mbc.q mbc.alpha mbc.alphaD 0 N = mb.velAt mbc.q mbc.alphaD N + mb.accAt mbc.q mbc.alpha [] 0 N := by
    rw [mb.accAt_nil]
    unfold MultiBody.accAt MultiBody.velAt
    rw [PTransform.mulMotion_zero, zero_add, ← Finset.sum_add_distrib]
    refine Finset.sum_congr rfl fun k _ => ?_
    rw [← PTransform.mulMotion_add]
  refine ⟨_, _, _, _, _, _, _, _, h.jacobian_eq wf hv.toPosReady, h.jacobianDot_eq wf hv, h.bodyJacobian_eq wf hv.toPosReady,
    h.bodyJacobianDot_eq wf hv, sz.fa wf hr hq hv 0, by rw [hv.bodyPosW, range_map_getElem? h.isBody],
    by rw [hv.bodyVelB, range_map_getElem? h.isBody], range_map_getElem? h.isBody, ?_, ?_⟩
  · dsimp only
    rw [h.apply wf hr hq sz.alphaD, ofTrans_mul_inv rN, h.homCols wf sz.alpha, dot_sum hr hq, ← pointAcc_eq rN, hA,
      PTransform.mulMotion_add, add_assoc]
    rfl
  · dsimp only
    rw [h.apply wf hr hq sz.alphaD, h.homCols wf sz.alpha, bdot_sum hr hq, ← pointVelB_eq, hA, PTransform.mulMotion_add]
    congr 1
    exact congrArg (fun X => PTransform.mulMotion X _) (mb.toPoint_self hr hq N p)

/-- C35: the overloads that take the normal accelerations of all bodies (as `NormalAcc`-style caches provide them) give the same. -/
theorem C35_cached (wf : mb.WF) (hr : mb.Rigid) {mbc : MBC K} (hq : ValidQ mb mbc.q)
    (hv : mbc.VelReady mb) {J : Jac K} {N : Nat} {p : Vec3 K} (h : J.Of mb N p) {m : MBC K} {v0 : List (List K)}
    (hs : mbc.Sized mb) (hz : SizedDof mb v0) (h0 : ∀ l ∈ v0, ∀ x ∈ l, x = 0)
    (hm : forwardAcceleration mb { mbc with alphaD := v0 } 0 = .ok m) :
    J.normalAccelerationV mbc m.bodyAccB = J.normalAcceleration mbc ∧
      J.bodyNormalAccelerationV m.bodyAccB = J.bodyNormalAcceleration mbc ∧
      ∀ X V, J.normalAccelerationVX mbc m.bodyAccB X V = J.normalAccelerationX mbc X V := by
  have sz : ({ mbc with alphaD := v0 } : MBC K).Sized mb := { hs with alphaD := hz }
  have hv' : ({ mbc with alphaD := v0 } : MBC K).VelReady mb := { hv with }
  rw [sz.fa wf hr hq hv' 0] at hm
  cases hm
  have hj : ∀ k, mb.jointMotion v0 k = 0 := by
    intro k
    unfold MultiBody.jointMotion applyCols
    refine List.sum_eq_zero fun c hc => ?_
    obtain ⟨n, hn, rfl⟩ := List.getElem_of_mem hc
    rw [List.getElem_zipWith]
    have key : ∀ x ∈ (v0[k]?).getD [], x = 0 := by
      intro x hx
      cases e : v0[k]? with
      | none => simp [e] at hx
      | some l => rw [e] at hx; exact h0 l (List.mem_of_getElem? e) x hx
    rw [key _ (List.getElem_mem _), zero_smul]
  have e0 : mb.accAt mbc.q mbc.alpha v0 0 N = mb.accAt mbc.q mbc.alpha [] 0 N := by
    have h0 : ∀ i, mb.jointMotion [] i = 0 := fun i => by simp [MultiBody.jointMotion, applyCols]
    unfold MultiBody.accAt
    simp [h0, hj]
  have hn : normalAccB mbc J.path = .ok (mb.accAt mbc.q mbc.alpha [] 0 N) := by
    rw [h.path_eq]; exact normalAccB_eq wf hr hq hv h.isBody
  have hr' : rd ((List.range mb.bodies.length).map (mb.accAt mbc.q mbc.alpha v0 0)) N = .ok (mb.accAt mbc.q mbc.alpha [] 0 N) := by
    rw [← e0]; exact rd_of_getElem? (range_map_getElem? h.isBody)
  refine ⟨?_, ?_, fun X V => ?_⟩
  · unfold Jac.normalAccelerationV Jac.normalAcceleration
    rw [h.back, hn, Res.bind_ok, hr']
  · unfold Jac.bodyNormalAccelerationV Jac.bodyNormalAcceleration
    rw [h.back, hn, Res.bind_ok, hr']
  · unfold Jac.normalAccelerationVX Jac.normalAccelerationX
    rw [h.back, hn, Res.bind_ok, hr']

/-- C35 with true derivatives: along every trajectory each column of `jacobianDot` is the time derivative of that column of `jacobian`, and
each column of `bodyJacobianDot` that of `bodyJacobian`. -/
theorem C35_dot_is_derivative {mb : MultiBody ℝ} (wf : mb.WF) (hr : mb.Rigid) (hd : mb.DirOK) {mbc : ℝ → MBC ℝ} {t : ℝ}
    (hv : ∀ s, (mbc s).VelReady mb) (h : Trajectory mb (fun s => (mbc s).q) (mbc t).alpha t)
    {J : Jac ℝ} {N : Nat} {p : Vec3 ℝ} (hJ : J.Of mb N p) :
    ∃ (J₁ J₂ : ℝ → Jac ℝ) (J₁' J₂' : Jac ℝ), (∀ s, J.jacobian mb (mbc s) = .ok (J₁ s)) ∧ (∀ s, J.bodyJacobian mb (mbc s) = .ok (J₂ s)) ∧
      J.jacobianDot mb (mbc t) = .ok J₁' ∧ J.bodyJacobianDot mb (mbc t) = .ok J₂' ∧
      (∀ c, HasDerivMotion (fun s => (J₁ s).jac.getD c 0) (J₁'.jacDot.getD c 0) t) ∧
      ∀ c, HasDerivMotion (fun s => (J₂ s).jac.getD c 0) (J₂'.jacDot.getD c 0) t := by
  have hone : ∀ x, x < J.path.length → J.sign.getD x 0 = 1 := by
    intro x hx
    rw [hJ.sign_eq, List.getD_eq_getElem?_getD, List.getElem?_map, List.getElem?_eq_getElem hx]; rfl
  refine ⟨_, _, _, _, fun s => hJ.jacobian_eq wf (hv s).toPosReady, fun s => hJ.bodyJacobian_eq wf (hv s).toPosReady,
    hJ.jacobianDot_eq wf (hv t), hJ.bodyJacobianDot_eq wf (hv t), fun c => ?_, fun c => ?_⟩
  · refine pathCols_hasDeriv (fun x a hx => ?_) c
    rw [hone x hx]
    simp only [one_smul]
    exact mb.col_hasDeriv wf hr hd h hJ.isBody (hJ.path _ (getD_mem hx)) p _
  · refine pathCols_hasDeriv (fun x a hx => ?_) c
    rw [hone x hx]
    simp only [one_smul]
    exact mb.bcol_hasDeriv wf hr hd h hJ.isBody (hJ.path _ (getD_mem hx)) p _

/-- C35 on the sample robot: the normal acceleration of a point of the hand is not zero. -/
example : ∃ J J₁ a, Jac.mk' (fun _ => 0) Sample.mb "hand" ⟨1, 2, 3⟩ = .ok J ∧ J.jacobianDot Sample.mb Sample.mbcV = .ok J₁ ∧
    J.normalAcceleration Sample.mbcV = .ok a ∧ a = applyCols J₁.jacDot (pathVec J.path Sample.mbcV.alpha) ∧ a ≠ 0 := by
  obtain ⟨h1, h2, h3⟩ := Sample.ready
  obtain ⟨J, e, h⟩ := C34_constructor Sample.wf (fun _ => 0) (name := "hand") (N := 2) (by decide +kernel) (by decide +kernel)
    (⟨1, 2, 3⟩ : Vec3 ℚ)
  obtain ⟨J₁, J₂, e1, -, e2, -⟩ := C35_normal_acceleration Sample.wf Sample.rigid h2 h3 h1 h
  refine ⟨J, J₁, _, e, e1, e2, rfl, ?_⟩
  have hJ : J = ((Jac.mk' (fun _ => 0) Sample.mb "hand" (⟨1, 2, 3⟩ : Vec3 ℚ)).toOption).getD ⟨[], [], 1, [], [], 0, 0⟩ := by rw [e]; rfl
  intro h0
  rw [h0, hJ] at e2
  revert e2
  decide +kernel

/-! ### C36 -/

/-- C36: `fullJacobian(mb, jac, res)` for a path without repetitions: the columns of path joint number `x` go to the columns of that joint
in the vector of degrees of freedom, the columns of joints outside the path are zero, and nothing else in `res` is touched. The product
with the velocities of all joints is the product of the compact matrix with the velocities of the path joints. -/
theorem C36_full_jacobian (wf : mb.WF) {J : Jac K} (h : J.Fits mb) (hnd : J.path.Nodup) {jac res : DMat K}
    (hc : mb.nrDof ≤ res.cols) (hrow : jac.rows ≤ res.rows) (hjac : jac.cols = (J.path.map mb.dofAt).sum) :
    ∃ m, J.fullJacobian mb jac res = .ok m ∧ m.rows = res.rows ∧ m.cols = res.cols ∧
      (∀ (r x i a : Nat) (j : Joint K) (pos : Nat), r < jac.rows → J.path[x]? = some i → mb.joints[i]? = some j → a < j.dof →
        mb.jointPosInDof[i]? = some pos → m.get r (pos + a) = jac.get r (((J.path.take x).map mb.dofAt).sum + a)) ∧
      (∀ (r i a : Nat) (j : Joint K) (pos : Nat), r < jac.rows → i ∉ J.path → mb.joints[i]? = some j → a < j.dof →
        mb.jointPosInDof[i]? = some pos → m.get r (pos + a) = 0) ∧
      (∀ r c, ¬ (r < jac.rows ∧ c < mb.nrDof) → m.get r c = res.get r c) ∧
      ∀ v, SizedDof mb v → res.cols = mb.nrDof → ∀ r, r < jac.rows → m.mulVecAt v.flatten r = jac.mulVecAt (pathVec J.path v) r := by
  obtain ⟨m, e, h1, h2, h3, h4⟩ := J.fullJacobian_eq wf h.path hc hrow hjac.ge
  have key : ∀ (i a : Nat) (j : Joint K) (pos : Nat), mb.joints[i]? = some j → a < j.dof → mb.jointPosInDof[i]? = some pos →
      i < mb.bodies.length ∧ a < mb.dofAt i ∧ pos = mb.dofPosAt i ∧ pos + a < mb.nrDof := by
    intro i a j pos hj ha hp
    have hi' := (List.getElem?_eq_some_iff.1 hj).1
    have hi : i < mb.bodies.length := by rw [← wf.njoints]; exact hi'
    have hd : mb.dofAt i = j.dof := by simp [MultiBody.dofAt, hj]
    have hpos := wf.posDof i hi'
    rw [hp] at hpos
    have hpos : pos = mb.dofPosAt i := Option.some.inj hpos
    have := wf.dofPosAt_add_le hi
    exact ⟨hi, by omega, hpos, by omega⟩
  refine ⟨m, e, h1, h2, ?_, ?_, h4, ?_⟩
  · intro r x i a j pos hr hx hj ha hp
    obtain ⟨hi, ha', rfl, hlt⟩ := key i a j pos hj ha hp
    rw [h3 r _ hr hlt, wf.scat_at h.path hnd hx ha']
  · intro r i a j pos hr hn hj ha hp
    obtain ⟨hi, ha', rfl, hlt⟩ := key i a j pos hj ha hp
    rw [h3 r _ hr hlt, wf.scat_notin h.path hi ha' hn]
  · intro v hv hcols r hr
    unfold DMat.mulVecAt
    rw [h2, hcols, hjac, ← mulVec_scat wf hv h.path (jac.get r)]
    refine Finset.sum_congr rfl fun c hcc => ?_
    rw [h3 r c hr (Finset.mem_range.1 hcc)]

/-- C36: `addFullJacobian` adds to `res` exactly the matrix that `fullJacobian` makes from a zero matrix. -/
theorem C36_add_full_jacobian (wf : mb.WF) {J : Jac K} (h : J.Fits mb) {jac res : DMat K} (hc : res.cols = mb.nrDof)
    (hrow : res.rows = jac.rows) (hjac : jac.cols = (J.path.map mb.dofAt).sum) :
    ∃ m m₀, J.addFullJacobian mb jac res = .ok m ∧ J.fullJacobian mb jac res.setZero = .ok m₀ ∧ m.rows = res.rows ∧ m.cols = res.cols ∧
      ∀ r c, r < res.rows → c < res.cols → m.get r c = res.get r c + m₀.get r c := by
  obtain ⟨m₀, e, -, -, h3, -⟩ := J.fullJacobian_eq wf h.path (res := res.setZero) hc.ge hrow.ge hjac.ge
  refine ⟨_, m₀, J.addFullJacobian_eq wf h.path hc.ge hrow.ge hjac.ge, e, rfl, rfl, fun r c hr hcc => ?_⟩
  rw [hrow] at hr
  rw [hc] at hcc
  dsimp only
  rw [if_pos hr, h3 r c hr hcc]

/-- C36: the overloads that use the merged blocks of `compactPath` give the same as those that use the path. -/
theorem C36_compact_path (wf : mb.WF) {J : Jac K} (h : J.Fits mb) (hne : J.path ≠ []) :
    ∃ bs, J.compactPath mb = .ok bs ∧
      (∀ jac res : DMat K, mb.nrDof ≤ res.cols → jac.rows ≤ res.rows → jac.cols = (J.path.map mb.dofAt).sum →
        addFullBlocks bs jac res = J.addFullJacobian mb jac res) ∧
      ∀ jac res : DMat K, res.cols = mb.nrDof → res.rows = mb.nrDof → jac.cols = (J.path.map mb.dofAt).sum →
        jac.rows = (J.path.map mb.dofAt).sum → expandAddBlocks bs jac res = J.expandAdd mb jac res := by
  obtain ⟨bs, e, h1, h2⟩ := J.blocks_eq wf h.path hne
  exact ⟨bs, e, fun jac res a b c => h1 jac res a b c.ge, fun jac res a b c d => h2 jac res a b c.ge d.ge⟩

/-- C36: `expand` agrees with products of full Jacobians: for all compact matrices `A` and `B` of the path with the same number of rows,
expanding `Aᵀ B` gives `full(A)ᵀ full(B)`; `expandAdd` adds it. -/
theorem C36_expand (wf : mb.WF) {J : Jac K} (h : J.Fits mb) {A B AtB Z res : DMat K} (hA : A.cols = (J.path.map mb.dofAt).sum)
    (hB : B.cols = (J.path.map mb.dofAt).sum) (hrow : B.rows = A.rows) (hZr : Z.rows = A.rows) (hZc : Z.cols = mb.nrDof)
    (hr : AtB.rows = A.cols) (hc : AtB.cols = B.cols)
    (hm : ∀ k l, k < A.cols → l < B.cols → AtB.get k l = ∑ q ∈ Finset.range A.rows, A.get q k * B.get q l)
    (hrr : res.rows = mb.nrDof) (hrc : res.cols = mb.nrDof) :
    ∃ fA fB E E', J.fullJacobian mb A Z = .ok fA ∧ J.fullJacobian mb B Z = .ok fB ∧ J.expand mb AtB = .ok E ∧
      J.expandAdd mb AtB res = .ok E' ∧ E.rows = mb.nrDof ∧ E.cols = mb.nrDof ∧
      ∀ r c, r < mb.nrDof → c < mb.nrDof → E.get r c = ∑ q ∈ Finset.range A.rows, fA.get q r * fB.get q c ∧
        E'.get r c = res.get r c + E.get r c := by
  obtain ⟨fA, eA, -, -, gA, -⟩ := J.fullJacobian_eq wf h.path (res := Z) hZc.ge hZr.ge hA.ge
  obtain ⟨fB, eB, -, -, gB, -⟩ := J.fullJacobian_eq wf h.path (jac := B) (res := Z) hZc.ge (by omega) hB.ge
  have hE := J.expandAdd_eq wf h.path (jac := AtB) (res := ⟨mb.nrDof, mb.nrDof, fun _ _ => 0⟩) rfl rfl (by omega) (by omega)
  have hE' := J.expandAdd_eq wf h.path (jac := AtB) (res := res) hrc hrr (by omega) (by omega)
  refine ⟨fA, fB, _, _, eA, eB, hE, hE', rfl, rfl, fun r c hr' hc' => ⟨?_, ?_⟩⟩
  · dsimp only
    rw [zero_add]
    have e1 : scat (mb.dofIdx J.path) (fun k => scat (mb.dofIdx J.path) (AtB.get k) c) r =
        scat (mb.dofIdx J.path) (fun k => scat (mb.dofIdx J.path) (fun l => ∑ q ∈ Finset.range A.rows, A.get q k * B.get q l) c) r := by
      refine scat_congr (fun k hk => scat_congr (fun l hl => ?_) c) r
      rw [mb.dofIdx_length] at hk hl
      exact hm k l (by omega) (by omega)
    rw [e1, scat_mul]
    refine Finset.sum_congr rfl fun q hq => ?_
    rw [Finset.mem_range] at hq
    rw [gA q r hq hr', gB q c (by omega) hc']
  · dsimp only
    rw [zero_add]

/-- The path of a Jacobian of a body has no repetitions and is not empty, so C36 applies to it; the result is the Jacobian over all
degrees of freedom: its product with the vector of all velocities is the velocity of the point. -/
theorem C36_point_velocity (wf : mb.WF) (hr : mb.Rigid) {mbc : MBC K} (sz : mbc.Sized mb) (hq : ValidQ mb mbc.q) (hv : mbc.VelReady mb)
    {J : Jac K} {N : Nat} {p : Vec3 K} (h : J.Of mb N p) {res : DMat K} (hrr : res.rows = 6) (hrc : res.cols = mb.nrDof) :
    J.path.Nodup ∧ J.path ≠ [] ∧ ∃ (J₁ : Jac K) (W : PTransform K) (V : MotionVec K) (m : DMat K), J.jacobian mb mbc = .ok J₁ ∧
      mbc.bodyPosW[N]? = some W ∧ mbc.bodyVelB[N]? = some V ∧ J₁.fullJacobian mb (DMat.ofCols J₁.jac) res = .ok m ∧
      ∀ r, r < 6 → m.mulVecAt mbc.alpha.flatten r = (pointVel W V p).toList.getD r 0 := by
  have hnd : J.path.Nodup := by rw [h.path_eq, List.nodup_reverse]; exact pathUp_nodup N
  obtain ⟨l, hl⟩ := pathUp_head (par := mb.par) N
  have hne : J.path ≠ [] := by rw [h.path_eq, hl]; simp
  obtain ⟨J₁, W, V, e, hW, hV, hJ, -, hO, hf⟩ := C34_jacobian wf hr sz hq hv h
  have hpath : J₁.path = J.path := (congrArg Jac.path hf :)
  obtain ⟨m, em, -, -, -, -, -, hmul⟩ := C36_full_jacobian wf hO.toFits (hpath ▸ hnd) (jac := DMat.ofCols J₁.jac) (res := res) hrc.ge hrr.ge hO.jac
  refine ⟨hnd, hne, J₁, W, V, m, e, hW, hV, em, fun r hr6 => ?_⟩
  rw [hmul _ sz.alpha hrc r hr6, hpath, ← hJ, ofCols_mulVecAt]

/-- C36 on the sample robot: the path of the slider skips the arm and the hand; its blocks are joint 0 and joint 3. The columns of the
arm (6) and the hand (7, 8, 9) are zero, the last one is the column of the slider. -/
example : ∃ J J₁ m, Jac.mk' (fun _ => 0) Sample.mb "slider" ⟨1, 2, 3⟩ = .ok J ∧ J.jacobian Sample.mb Sample.mbcV = .ok J₁ ∧
    J.compactPath Sample.mb = .ok [⟨0, 0, 6⟩, ⟨10, 6, 1⟩] ∧
    J₁.fullJacobian Sample.mb (DMat.ofCols J₁.jac) ⟨6, 11, fun _ _ => 42⟩ = .ok m ∧ m.get 4 7 = 0 ∧
    m.get 5 10 = (DMat.ofCols J₁.jac).get 5 6 ∧ m.get 5 10 = 2 := by
  obtain ⟨h1, h2, h3⟩ := Sample.ready
  obtain ⟨J, e, h⟩ := C34_constructor Sample.wf (fun _ => 0) (name := "slider") (N := 3) (by decide +kernel) (by decide +kernel)
    (⟨1, 2, 3⟩ : Vec3 ℚ)
  obtain ⟨hnd, -, J₁, W, V, m, e1, -, -, em, -⟩ := C36_point_velocity Sample.wf Sample.rigid h2 h3 h1 h (res := ⟨6, 11, fun _ _ => 42⟩) rfl
    (by decide +kernel)
  obtain ⟨J₁', W', V', e1', -, -, -, -, hO, hf⟩ := C34_jacobian Sample.wf Sample.rigid h2 h3 h1 h
  rw [e1] at e1'
  cases e1'
  have hp : J.path = [0, 3] := by rw [h.path_eq]; decide +kernel
  have hp1 : J₁.path = [0, 3] := by rw [hO.path_eq]; decide +kernel
  obtain ⟨m', em', -, -, ha, hb, -, -⟩ := C36_full_jacobian Sample.wf hO.toFits (hp1 ▸ hp ▸ hnd) (jac := DMat.ofCols J₁.jac)
    (res := ⟨6, 11, fun _ _ => 42⟩) (by decide +kernel) le_rfl hO.jac
  rw [em] at em'
  cases em'
  have hs : (Joint.mk' .Spherical ⟨0, 0, 1⟩ false "wrist" : Joint ℚ).dof = 3 := by decide +kernel
  have hpr : (Joint.mk' .Prism ⟨0, 2, 0⟩ true "slide" : Joint ℚ).dof = 1 := by decide +kernel
  have h5 : m.get 5 10 = (DMat.ofCols J₁.jac).get 5 6 := by
    have := ha 5 1 3 0 _ 10 (by show 5 < 6; omega) (by rw [hp1]; rfl) (by decide +kernel : Sample.mb.joints[3]? = some (Joint.mk' .Prism ⟨0, 2, 0⟩ true "slide"))
      (by rw [hpr]; omega) (by decide +kernel)
    rw [this, hp1]
    congr 1
  refine ⟨J, J₁, m, e, e1, ?_, em, ?_, h5, ?_⟩
  · have hJ : J = ((Jac.mk' (fun _ => 0) Sample.mb "slider" (⟨1, 2, 3⟩ : Vec3 ℚ)).toOption).getD ⟨[], [], 1, [], [], 0, 0⟩ := by rw [e]; rfl
    rw [hJ]
    decide +kernel
  · exact hb 4 2 0 _ 7 (by show 4 < 6; omega) (by rw [hp1]; decide) (by decide +kernel : Sample.mb.joints[2]? = some (Joint.mk' .Spherical ⟨0, 0, 1⟩ false "wrist"))
      (by rw [hs]; omega) (by decide +kernel)
  · rw [h5]
    have hJ1 : J₁ = (((Jac.mk' (fun _ => 0) Sample.mb "slider" (⟨1, 2, 3⟩ : Vec3 ℚ)).bind fun J => J.jacobian Sample.mb Sample.mbcV).toOption).getD
        ⟨[], [], 1, [], [], 0, 0⟩ := by
      rw [e]; show _ = (J.jacobian Sample.mb Sample.mbcV).toOption.getD _; rw [e1]; rfl
    rw [hJ1]
    decide +kernel

/-! ### C38 -/

/-- C38: `translateJacobian` applied to the Jacobian of the point `p₀` of a body is the Jacobian of the point `p₀ + p` of the same body. -/
theorem C38_translate (wf : mb.WF) (hr : mb.Rigid) {mbc : MBC K} (hq : ValidQ mb mbc.q) (hv : mbc.PosReady mb)
    {J : Jac K} {N : Nat} {p₀ : Vec3 K} (h : J.Of mb N p₀) (p : Vec3 K) {res : List (MotionVec K)} (hres : res.length = J.jac.length) :
    ∃ J₁ J₂, J.jacobian mb mbc = .ok J₁ ∧ (J.setPoint (p₀ + p)).jacobian mb mbc = .ok J₂ ∧
      J.translateJacobian J₁.jac mbc p res = .ok J₂.jac := by
  have h' : (J.setPoint (p₀ + p)).Of mb N (p₀ + p) := { h with point := rfl }
  have rN := mb.posAt_rigid hr hq N
  refine ⟨_, _, h.jacobian_eq wf hv, h'.jacobian_eq wf hv, ?_⟩
  unfold Jac.translateJacobian
  simp only [h.back, Res.bind_ok, hv.rd_pos h.isBody]
  rw [translateCols_eq _ (by rw [hres, jacCols_length, h.jac]), jacCols_map hr hq _ _ (ofTrans_rigid _)]
  congr 2
  ext1
  · simp only [PTransform.mul_E, PTransform.ofRot, PTransform.ofTrans, PTransform.inv, Mat3.tr_tr]
    simpa using IsRot.tr_mul rN
  · simp [PTransform.ofRot, PTransform.ofTrans, PTransform.inv, Mat3.mulVec_add]
    abel

/-- C38: `translateBodyJacobian` applied to the body Jacobian of the point `p₀` is the body Jacobian of the point `p₀ + p`. -/
theorem C38_translate_body (wf : mb.WF) (hr : mb.Rigid) {mbc : MBC K} (hq : ValidQ mb mbc.q) (hv : mbc.PosReady mb)
    {J : Jac K} {N : Nat} {p₀ : Vec3 K} (h : J.Of mb N p₀) (p : Vec3 K) {res : List (MotionVec K)} (hres : res.length = J.jac.length) :
    ∃ J₁ J₂, J.bodyJacobian mb mbc = .ok J₁ ∧ (J.setPoint (p₀ + p)).bodyJacobian mb mbc = .ok J₂ ∧
      J.translateBodyJacobian J₁.jac p res = .ok J₂.jac := by
  have h' : (J.setPoint (p₀ + p)).Of mb N (p₀ + p) := { h with point := rfl }
  have rN := mb.posAt_rigid hr hq N
  refine ⟨_, _, h.bodyJacobian_eq wf hv, h'.bodyJacobian_eq wf hv, ?_⟩
  unfold Jac.translateBodyJacobian
  rw [translateCols_eq _ (by rw [hres, jacCols_length, h.jac]), jacCols_map hr hq _ _ ((ofTrans_rigid _).mul rN), ← PTransform.mul_assoc']
  show Except.ok (mb.jacCols mbc.q _ J.path J.sign) = .ok (mb.jacCols mbc.q _ J.path J.sign)
  congr 3
  ext1
  · simp [PTransform.ofTrans]
  · simp [PTransform.ofTrans]

/-- On the sample robot, translating the Jacobian of a point of the hand changes it. -/
example : ∃ J J₁ J₂, Jac.mk' (fun _ => 0) Sample.mb "hand" ⟨1, 2, 3⟩ = .ok J ∧ J.jacobian Sample.mb Sample.mbcV = .ok J₁ ∧
    (J.setPoint (⟨1, 2, 3⟩ + ⟨1, 0, 5⟩)).jacobian Sample.mb Sample.mbcV = .ok J₂ ∧
    J.translateJacobian J₁.jac Sample.mbcV ⟨1, 0, 5⟩ J.jac = .ok J₂.jac ∧ J₂.jac ≠ J₁.jac := by
  obtain ⟨h1, h2, h3⟩ := Sample.ready
  obtain ⟨J, e, h⟩ := C34_constructor Sample.wf (fun _ => 0) (name := "hand") (N := 2) (by decide +kernel) (by decide +kernel)
    (⟨1, 2, 3⟩ : Vec3 ℚ)
  obtain ⟨J₁, J₂, e1, e2, e3⟩ := C38_translate Sample.wf Sample.rigid h3 h1.toPosReady h ⟨1, 0, 5⟩ (res := J.jac) rfl
  refine ⟨J, J₁, J₂, e, e1, e2, e3, ?_⟩
  have hJ : J = ((Jac.mk' (fun _ => 0) Sample.mb "hand" (⟨1, 2, 3⟩ : Vec3 ℚ)).toOption).getD ⟨[], [], 1, [], [], 0, 0⟩ := by rw [e]; rfl
  have hJ1 : J₁ = ((J.jacobian Sample.mb Sample.mbcV).toOption).getD ⟨[], [], 1, [], [], 0, 0⟩ := by rw [e1]; rfl
  have hJ2 : J₂ = (((J.setPoint (⟨1, 2, 3⟩ + ⟨1, 0, 5⟩)).jacobian Sample.mb Sample.mbcV).toOption).getD ⟨[], [], 1, [], [], 0, 0⟩ := by
    rw [e2]; rfl
  rw [hJ1, hJ2, hJ]
  decide +kernel

end RBDyn
