import Verif.Lemmas.JacRelDot
import Verif.Props.JacRel
import Verif.Props.Checked
import Verif.Lemmas.GraphMB

/-! Property C74 (derivative, velocity and normal acceleration of relative Jacobians). -/

namespace RBDyn
variable {K : Type} [Scalar K] {mb : MultiBody K}
open scoped Mat3

theorem pointVelB_eq_zero {V : MotionVec K} {p : Vec3 K} : pointVelB V p = 0 ↔ V = 0 := by
  constructor
  · intro h
    have h1 : V.ang = 0 := congrArg MotionVec.ang h
    have h2 : V.lin + V.ang.cross p = 0 := congrArg MotionVec.lin h
    rw [h1, Vec3.zero_cross, add_zero] at h2
    ext1
    · exact h1
    · exact h2
  · rintro rfl
    simp [pointVelB, MotionVec.ext_iff]

theorem IsRigid.mulMotion_eq_zero {X : PTransform K} (hX : IsRigid X) {V : MotionVec K} : X.mulMotion V = 0 ↔ V = 0 := by
  constructor
  · intro h
    have := congrArg X.inv.mulMotion h
    rwa [← PTransform.mul_mulMotion _ _ _ hX, PTransform.inv_mul hX, PTransform.one_mulMotion, PTransform.mulMotion_zero] at this
  · rintro rfl
    exact PTransform.mulMotion_zero _

/-- C74, partial (velocities): for a Jacobian of the point `p` of `N` relative to `R`, `velocity` and `bodyVelocity` return the velocity of the
point in the world; the products of the Jacobians with `α` lack the velocity of the point that moves with `R`. So the documented
`J·alpha` is what `bodyVelocity` returns exactly if `R` does not move.

Full statement: `velocity` is `jacobian` times `α` and `bodyVelocity` is `bodyJacobian` times `α`. Missing, because the code does not use the
reference body there: reference bodies that move. -/
theorem C74_velocity_partial (wf : mb.WF) (hr : mb.Rigid) {mbc : MBC K} (sz : mbc.Sized mb) (hq : ValidQ mb mbc.q) (hv : mbc.VelReady mb)
    {junk : Nat → MotionVec K} {name rname : String} {N R : Nat} (hN : mb.sBodyIndexByName name = .ok (N : Int))
    (hR : mb.sBodyIndexByName rname = .ok (R : Int)) (hNl : N < mb.nrBodies) (hRl : R < mb.nrBodies) (h : mb.RelOK N R) {p : Vec3 K} {J : Jac K}
    (hJ : Jac.mkRel junk mb name rname p = .ok J) :
    ∃ (J₁ J₂ : Jac K) (W W' : PTransform K) (V V' v : MotionVec K), J.jacobian mb mbc = .ok J₁ ∧ J.bodyJacobian mb mbc = .ok J₂ ∧
      mbc.bodyPosW[N]? = some W ∧ mbc.bodyPosW[R]? = some W' ∧ mbc.bodyVelB[N]? = some V ∧ mbc.bodyVelB[R]? = some V' ∧
      J.velocity mbc = .ok (pointVel W V p) ∧ J.bodyVelocity mbc = .ok v ∧ v = pointVelB V p ∧
      (applyCols J₂.jac (pathVec J.path mbc.alpha) = v ↔ V' = 0) ∧
      (R = 0 → (applyCols J₁.jac (pathVec J.path mbc.alpha) = pointVel W V p ↔ V' = 0)) := by
  obtain ⟨J', e, hJ'⟩ := Jac.mkRel_of wf junk hN hR hNl hRl h p
  obtain rfl : J' = J := Except.ok.inj (e.symm.trans hJ)
  have hNl : N < mb.bodies.length := hNl
  have hRl : R < mb.bodies.length := hRl
  have rN := mb.posAt_rigid hr hq N
  have rR := mb.posAt_rigid hr hq R
  refine ⟨_, _, _, _, _, _, _, hJ'.jacobian_eq wf hv.toPosReady, hJ'.bodyJacobian_eq wf hv.toPosReady,
    by rw [hv.bodyPosW, range_map_getElem? hNl], by rw [hv.bodyPosW, range_map_getElem? hRl],
    by rw [hv.bodyVelB, range_map_getElem? hNl], by rw [hv.bodyVelB, range_map_getElem? hRl], ?_, ?_, rfl, ?_, ?_⟩
  · unfold Jac.velocity
    simp only [hJ'.back, Res.bind_ok, hv.rd_pos hNl, hv.rd_vB hNl, hJ'.point, Res.pure_eq, ← pointVel_eq]
    rfl
  · unfold Jac.bodyVelocity
    simp only [hJ'.back, Res.bind_ok, hv.rd_vB hNl, hJ'.point, Res.pure_eq, ← pointVelB_eq]
  · dsimp only
    have h1 : (PTransform.ofTrans p * mb.posAt mbc.q N * (mb.posAt mbc.q N).inv).mulMotion (mb.velAt mbc.q mbc.alpha N) =
        pointVelB (mb.velAt mbc.q mbc.alpha N) p :=
      (congrArg (fun X => PTransform.mulMotion X _) (mb.toPoint_self hr hq N p)).trans (pointVelB_eq _ _)
    rw [hJ'.apply wf hr hq sz.alpha, h1, sub_eq_self]
    exact IsRigid.mulMotion_eq_zero (mb.toPoint_rigid hr hq N p R)
  · rintro rfl
    dsimp only
    rw [if_neg (lt_irrefl 0), id, hJ'.apply wf hr hq sz.alpha, ofTrans_mul_inv rN, pointVel_eq, sub_eq_self]
    exact IsRigid.mulMotion_eq_zero ((ofTrans_rigid _).mul rR.inv)

/-- C74, partial (derivatives), along every trajectory: column `c` of `bodyJacobianDot` is, up to the sign of its joint in the path, the derivative
of that column of `bodyJacobian`. The derivative of a column of `jacobian` is the column of `jacobianDot` with the sign of the joint, rotated
into the reference body, minus the turning of that body, if it is not body 0.

Full statement: the columns of `jacobianDot` and `bodyJacobianDot` are the derivatives. Missing, because the code uses neither the signs nor the
orientation of the reference body there: joints with sign -1; for `jacobianDot` reference bodies other than body 0. -/
theorem C74_derivative_partial {mb : MultiBody ℝ} (wf : mb.WF) (hr : mb.Rigid) (hd : mb.DirOK) {mbc : ℝ → MBC ℝ} {t : ℝ}
    (hv : ∀ s, (mbc s).VelReady mb) (h : Trajectory mb (fun s => (mbc s).q) (mbc t).alpha t)
    {junk : Nat → MotionVec ℝ} {name rname : String} {N R : Nat} (hN : mb.sBodyIndexByName name = .ok (N : Int))
    (hR : mb.sBodyIndexByName rname = .ok (R : Int)) (hNl : N < mb.nrBodies) (hRl : R < mb.nrBodies) (hok : mb.RelOK N R) {p : Vec3 ℝ}
    {J : Jac ℝ} (hJ : Jac.mkRel junk mb name rname p = .ok J) :
    ∃ (J₁ J₂ : ℝ → Jac ℝ) (J₁' J₂' : Jac ℝ) (W' : PTransform ℝ) (V' : MotionVec ℝ),
      (∀ s, J.jacobian mb (mbc s) = .ok (J₁ s)) ∧ (∀ s, J.bodyJacobian mb (mbc s) = .ok (J₂ s)) ∧
      J.jacobianDot mb (mbc t) = .ok J₁' ∧ J.bodyJacobianDot mb (mbc t) = .ok J₂' ∧
      (mbc t).bodyPosW[R]? = some W' ∧ (mbc t).bodyVelB[R]? = some V' ∧
      (∀ c, HasDerivMotion (fun s => (J₂ s).jac.getD c 0) ((J.colSign mb).getD c 0 • J₂'.jacDot.getD c 0) t) ∧
      (R = 0 → ∀ c, HasDerivMotion (fun s => (J₁ s).jac.getD c 0) ((J.colSign mb).getD c 0 • J₁'.jacDot.getD c 0) t) ∧
      (0 < R → ∀ c, HasDerivMotion (fun s => (J₁ s).jac.getD c 0)
        ((J.colSign mb).getD c 0 • ⟨W'.E *ᵥ (J₁'.jacDot.getD c 0).ang, W'.E *ᵥ (J₁'.jacDot.getD c 0).lin⟩ -
          (⟨V'.ang, 0⟩ : MotionVec ℝ).cross ((J₁ t).jac.getD c 0)) t) := by
  obtain ⟨J', e, hJ'⟩ := Jac.mkRel_of wf junk hN hR hNl hRl hok p
  obtain rfl : J' = J := Except.ok.inj (e.symm.trans hJ)
  have hNl : N < mb.bodies.length := hNl
  have hRl : R < mb.bodies.length := hRl
  have key1 : ∀ c, HasDerivMotion (fun s => (mb.jacCols (mbc s).q (.ofTrans (PTransform.ofTrans p * mb.posAt (mbc s).q N).r) J'.path J'.sign).getD c 0)
      ((J'.colSign mb).getD c 0 • (mb.homCols J'.path (mb.dotHom (mbc t).q (mbc t).alpha N p)).getD c 0) t := by
    intro c
    unfold MultiBody.homCols MultiBody.jacCols
    rw [J'.colSign_eq, ← pathCols_smul]
    refine pathCols_hasDeriv (fun x a hx => ?_) c
    rw [← map_smul]
    exact mb.col_hasDeriv wf hr hd h hNl (hJ'.path _ (getD_mem hx)) p _
  refine ⟨_, _, _, _, _, _, fun s => hJ'.jacobian_eq wf (hv s).toPosReady, fun s => hJ'.bodyJacobian_eq wf (hv s).toPosReady,
    hJ'.jacobianDot_eq wf (hv t), hJ'.bodyJacobianDot_eq wf (hv t), by rw [(hv t).bodyPosW, range_map_getElem? hRl],
    by rw [(hv t).bodyVelB, range_map_getElem? hRl], fun c => ?_, ?_, ?_⟩
  · dsimp only
    unfold MultiBody.homCols MultiBody.jacCols
    rw [J'.colSign_eq, ← pathCols_smul]
    refine pathCols_hasDeriv (fun x a hx => ?_) c
    rw [← map_smul]
    exact mb.bcol_hasDeriv wf hr hd h hNl (hJ'.path _ (getD_mem hx)) p _
  · rintro rfl c
    exact key1 c
  · intro h0 c
    dsimp only
    simp only [if_pos h0, rotCols_getD]
    have hrot : HasSpatialVelocity (fun s => PTransform.ofRot (mb.posAt (mbc s).q R).E) ⟨(mb.velAt (mbc t).q (mbc t).alpha R).ang, 0⟩ t := by
      constructor
      · exact (mb.posAt_hasVelocity wf hr hd h hRl).rot
      · refine (HasDerivVec.const (0 : Vec3 ℝ) t).congr ?_
        simp
    refine (hrot.mulMotion (key1 c) (ofRot_rigid (mb.posAt_rigid hr (h.valid t) R))).congr ?_
    rw [PTransform.mulMotion_smul]
    congr 2
    simp [PTransform.mulMotion, PTransform.ofRot]

/-- C74 (derivatives) for a reference body that is an ancestor: every column of `bodyJacobianDot` is the derivative of that column of
`bodyJacobian`, and if the reference is body 0 every column of `jacobianDot` that of `jacobian`. -/
theorem C74_ancestor_derivative_partial {mb : MultiBody ℝ} (wf : mb.WF) (hr : mb.Rigid) (hd : mb.DirOK) {mbc : ℝ → MBC ℝ} {t : ℝ}
    (hv : ∀ s, (mbc s).VelReady mb) (h : Trajectory mb (fun s => (mbc s).q) (mbc t).alpha t)
    {junk : Nat → MotionVec ℝ} {name rname : String} {N R : Nat} (hN : mb.sBodyIndexByName name = .ok (N : Int))
    (hR : mb.sBodyIndexByName rname = .ok (R : Int)) (hNl : N < mb.nrBodies) (hRl : R < mb.nrBodies) (hne : N ≠ R)
    (hup : R ∈ pathUp mb.par N) {p : Vec3 ℝ} {J : Jac ℝ} (hJ : Jac.mkRel junk mb name rname p = .ok J) :
    ∃ (J₁ J₂ : ℝ → Jac ℝ) (J₁' J₂' : Jac ℝ), (∀ s, J.jacobian mb (mbc s) = .ok (J₁ s)) ∧ (∀ s, J.bodyJacobian mb (mbc s) = .ok (J₂ s)) ∧
      J.jacobianDot mb (mbc t) = .ok J₁' ∧ J.bodyJacobianDot mb (mbc t) = .ok J₂' ∧
      (∀ c, HasDerivMotion (fun s => (J₂ s).jac.getD c 0) (J₂'.jacDot.getD c 0) t) ∧
      (R = 0 → ∀ c, HasDerivMotion (fun s => (J₁ s).jac.getD c 0) (J₁'.jacDot.getD c 0) t) := by
  have hnup : N ∉ pathUp mb.par R := fun h' => by
    have h1 := le_of_mem_pathUp h'
    have h2 := le_of_mem_pathUp hup
    omega
  obtain ⟨J', e, hJ', hp, hs⟩ := Jac.mkRel_ancestor wf junk hN hR hNl hRl hne hup p
  obtain rfl : J' = J := Except.ok.inj (e.symm.trans hJ)
  obtain ⟨J₁, J₂, J₁', J₂', W', V', e1, e2, e3, e4, -, -, h1, h2, -⟩ :=
    C74_derivative_partial wf hr hd hv h hN hR hNl hRl ⟨hnup, .inl hup⟩ hJ
  have key : ∀ (l : List (MotionVec ℝ)), l.length = (J'.colSign mb).length → ∀ c, (J'.colSign mb).getD c 0 • l.getD c 0 = l.getD c 0 := by
    intro l hl c
    by_cases hc : c < l.length
    · have h1 : (J'.colSign mb).getD c 0 = 1 := by
        have hm : (J'.colSign mb).getD c 0 ∈ J'.colSign mb := by
          rw [List.getD_eq_getElem?_getD, List.getElem?_eq_getElem (by omega : c < (J'.colSign mb).length)]
          exact List.getElem_mem _
        simp only [Jac.colSign, List.mem_flatMap, List.mem_range, List.mem_replicate] at hm
        obtain ⟨x, hx, -, h2⟩ := hm
        unfold Jac.colSign
        rw [h2, hs, List.getD_eq_getElem?_getD, List.getElem?_map, List.getElem?_eq_getElem (by rw [← hp]; exact hx)]
        rfl
      rw [h1, one_smul]
    · have : l.getD c 0 = 0 := by rw [List.getD_eq_getElem?_getD, List.getElem?_eq_none (by omega)]; rfl
      rw [this, smul_zero]
  have hl : (J'.colSign mb).length = (J'.path.map mb.dofAt).sum := by
    rw [J'.colSign_eq, mb.pathCols_length _ _ le_rfl, MultiBody.colOff, List.take_length]
  have l1 : J₁'.jacDot.length = (J'.colSign mb).length := by
    obtain rfl := Except.ok.inj ((hJ'.jacobianDot_eq wf (hv t)).symm.trans e3)
    rw [hl]; exact homCols_length _ _
  have l2 : J₂'.jacDot.length = (J'.colSign mb).length := by
    obtain rfl := Except.ok.inj ((hJ'.bodyJacobianDot_eq wf (hv t)).symm.trans e4)
    rw [hl]; exact homCols_length _ _
  exact ⟨J₁, J₂, J₁', J₂', e1, e2, e3, e4, fun c => (h1 c).congr (key _ l2 c), fun h0 c => (h2 h0 c).congr (key _ l1 c)⟩

/-- C74, partial (normal acceleration), for a reference body that is an ancestor: `bodyJacobianDot` times `α` is `bodyNormalAcceleration` plus the
cross product of the velocity of the point with the velocity of the point that moves with the reference body, all in the frame of the body.
So the documented `JDot·alpha` is what `bodyNormalAcceleration` returns exactly if this product vanishes.

Full statement: `bodyNormalAcceleration` is `bodyJacobianDot` times `α`. Missing, because the code does not use the reference body there:
reference bodies that move; reference bodies of other branches. -/
theorem C74_normal_acceleration_partial (wf : mb.WF) (hr : mb.Rigid) {mbc : MBC K} (sz : mbc.Sized mb) (hq : ValidQ mb mbc.q) (hv : mbc.VelReady mb)
    {junk : Nat → MotionVec K} {name rname : String} {N R : Nat} (hN : mb.sBodyIndexByName name = .ok (N : Int))
    (hR : mb.sBodyIndexByName rname = .ok (R : Int)) (hNl : N < mb.nrBodies) (hRl : R < mb.nrBodies) (hne : N ≠ R)
    (hup : R ∈ pathUp mb.par N) {p : Vec3 K} {J : Jac K} (hJ : Jac.mkRel junk mb name rname p = .ok J) :
    ∃ (J₂ : Jac K) (W W' : PTransform K) (V V' a : MotionVec K), J.bodyJacobianDot mb mbc = .ok J₂ ∧
      mbc.bodyPosW[N]? = some W ∧ mbc.bodyPosW[R]? = some W' ∧ mbc.bodyVelB[N]? = some V ∧ mbc.bodyVelB[R]? = some V' ∧
      J.bodyNormalAcceleration mbc = .ok a ∧
      applyCols J₂.jacDot (pathVec J.path mbc.alpha) = a + (pointVelB V p).cross ((PTransform.ofTrans p * W * W'.inv).mulMotion V') := by
  obtain ⟨J', e, hJ', hp, hs⟩ := Jac.mkRel_ancestor wf junk hN hR hNl hRl hne hup p
  obtain rfl : J' = J := Except.ok.inj (e.symm.trans hJ)
  have hNl : N < mb.bodies.length := hNl
  have hRl : R < mb.bodies.length := hRl
  have hn := normalAccB_upTo wf hr hq hv N hNl hup
  rw [← hp] at hn
  refine ⟨_, _, _, _, _, _, hJ'.bodyJacobianDot_eq wf hv, by rw [hv.bodyPosW, range_map_getElem? hNl],
    by rw [hv.bodyPosW, range_map_getElem? hRl], by rw [hv.bodyVelB, range_map_getElem? hNl], by rw [hv.bodyVelB, range_map_getElem? hRl],
    by unfold Jac.bodyNormalAcceleration; rw [hn, Res.bind_ok, hJ'.point]; rfl, ?_⟩
  dsimp only
  have hone : ∀ x, x < J'.path.length → J'.sign.getD x 0 = 1 := by
    intro x hx
    rw [hs, List.getD_eq_getElem?_getD, List.getElem?_map, List.getElem?_eq_getElem (by rw [← hp]; exact hx)]; rfl
  have h1 : ∀ k, mb.bdotHom mbc.q mbc.alpha N p k (mb.jointMotion mbc.alpha k) =
      (mb.toPoint mbc.q N p k).mulMotion ((mb.velAt mbc.q mbc.alpha k).cross (mb.jointMotion mbc.alpha k)) -
        ((PTransform.ofTrans p).mulMotion (mb.velAt mbc.q mbc.alpha N)).cross ((mb.toPoint mbc.q N p k).mulMotion (mb.jointMotion mbc.alpha k)) := by
    intro k
    rw [PTransform.mulMotion_cross (mb.toPoint_rigid hr hq N p k), ← MotionVec.sub_cross]
    rfl
  have hsum : ∀ M, ∑ k ∈ mb.path M, mb.bdotHom mbc.q mbc.alpha N p k (mb.jointMotion mbc.alpha k) =
      (mb.toPoint mbc.q N p M).mulMotion (mb.accAt mbc.q mbc.alpha [] 0 M) -
        ((PTransform.ofTrans p).mulMotion (mb.velAt mbc.q mbc.alpha N)).cross ((mb.toPoint mbc.q N p M).mulMotion (mb.velAt mbc.q mbc.alpha M)) := by
    intro M
    rw [Finset.sum_congr rfl fun k _ => h1 k, Finset.sum_sub_distrib, ← MotionVec.cross_sum]
    have : ∀ f : Nat → MotionVec K, ∑ k ∈ mb.path M, (mb.toPoint mbc.q N p k).mulMotion (f k) =
        (mb.toPoint mbc.q N p M).mulMotion (∑ k ∈ mb.path M, (mb.relAt mbc.q k M).mulMotion (f k)) :=
      fun f => mb.sum_transport hr hq _ M f
    rw [this, this, mb.accAt_nil]
    rfl
  rw [homCols_apply wf sz.alpha _ hJ'.path]
  have h2 := hJ'.sum (fun k => mb.bdotHom mbc.q mbc.alpha N p k (mb.jointMotion mbc.alpha k)) (fun k hk => by
    rw [mb.jointMotion_dofless wf _ hk, map_zero])
  rw [hsum, hsum, mb.toPoint_self hr hq] at h2
  have h3 : ∑ x ∈ Finset.range J'.path.length, mb.bdotHom mbc.q mbc.alpha N p (J'.path.getD x 0) (mb.jointMotion mbc.alpha (J'.path.getD x 0)) =
      ∑ x ∈ Finset.range J'.path.length, J'.sign.getD x 0 • mb.bdotHom mbc.q mbc.alpha N p (J'.path.getD x 0) (mb.jointMotion mbc.alpha (J'.path.getD x 0)) :=
    Finset.sum_congr rfl fun x hx => by rw [hone x (Finset.mem_range.1 hx), one_smul]
  rw [h3, h2]
  have h4 : (mb.toPoint mbc.q N p R) = PTransform.ofTrans p * mb.relAt mbc.q R N := by
    unfold MultiBody.toPoint MultiBody.relAt
    rw [PTransform.mul_assoc']
  have h5 : ∀ v : MotionVec K, v.cross v = 0 := fun v => by ext <;> simp [MotionVec.cross] <;> ring
  have h6 : (mb.toPoint mbc.q N p R).mulMotion (mb.accAt mbc.q mbc.alpha [] 0 R) =
      (PTransform.ofTrans p).mulMotion ((mb.relAt mbc.q R N).mulMotion (mb.accAt mbc.q mbc.alpha [] 0 R)) := by
    rw [h4, PTransform.mul_mulMotion _ _ _ (mb.relAt_rigid hr hq _ _)]
  have h7 : (PTransform.ofTrans p).mulMotion (mb.velAt mbc.q mbc.alpha N) = pointVelB (mb.velAt mbc.q mbc.alpha N) p := pointVelB_eq _ _
  rw [h5, h6, h7, PTransform.mulMotion_sub]
  show _ = _ + MotionVec.cross _ ((mb.toPoint mbc.q N p R).mulMotion _)
  abel

/-! ### Hypotheses can be met -/

/-- C74 on the sample robot: relative to the moving base, the velocity that `bodyVelocity` returns for the hand is not `bodyJacobian` times `α`. -/
example : ∃ J J₂ v, Jac.mkRel (fun _ => 0) Sample.mb "hand" "base" ⟨1, 2, 3⟩ = .ok J ∧ J.bodyJacobian Sample.mb Sample.mbcV = .ok J₂ ∧
    J.bodyVelocity Sample.mbcV = .ok v ∧ applyCols J₂.jac (pathVec J.path Sample.mbcV.alpha) ≠ v := by
  obtain ⟨h1, h2, h3⟩ := Sample.ready
  have hok : Sample.mb.RelOK 2 0 := ⟨by decide +kernel, .inl (by decide +kernel)⟩
  obtain ⟨J, e, -⟩ := Jac.mkRel_of Sample.wf (fun _ => 0) (name := "hand") (rname := "base") (N := 2) (R := 0) (by decide +kernel)
    (by decide +kernel) (by decide +kernel) (by decide +kernel) hok (⟨1, 2, 3⟩ : Vec3 ℚ)
  obtain ⟨J₁, J₂, W, W', V, V', v, -, e2, -, -, -, e6, -, e8, -, e10, -⟩ := C74_velocity_partial Sample.wf Sample.rigid h2 h3 h1
    (by decide +kernel) (by decide +kernel) (by decide +kernel) (by decide +kernel) hok e
  refine ⟨J, J₂, v, e, e2, e8, fun h => ?_⟩
  rw [e10] at h
  rw [h] at e6
  revert e6
  decide +kernel

/-- C74 on the sample robot: relative to the moving base, `bodyJacobianDot` times `α` is not what `bodyNormalAcceleration` returns for the hand. -/
example : ∃ J J₂ a, Jac.mkRel (fun _ => 0) Sample.mb "hand" "base" ⟨1, 2, 3⟩ = .ok J ∧ J.bodyJacobianDot Sample.mb Sample.mbcV = .ok J₂ ∧
    J.bodyNormalAcceleration Sample.mbcV = .ok a ∧ applyCols J₂.jacDot (pathVec J.path Sample.mbcV.alpha) ≠ a := by
  obtain ⟨h1, h2, h3⟩ := Sample.ready
  have hok : Sample.mb.RelOK 2 0 := ⟨by decide +kernel, .inl (by decide +kernel)⟩
  obtain ⟨J, e, -⟩ := Jac.mkRel_of Sample.wf (fun _ => 0) (name := "hand") (rname := "base") (N := 2) (R := 0) (by decide +kernel)
    (by decide +kernel) (by decide +kernel) (by decide +kernel) hok (⟨1, 2, 3⟩ : Vec3 ℚ)
  obtain ⟨J₂, W, W', V, V', a, e1, e2, e3, e4, e5, e6, e7⟩ := C74_normal_acceleration_partial Sample.wf Sample.rigid h2 h3 h1 (N := 2) (R := 0)
    (by decide +kernel) (by decide +kernel) (by decide +kernel) (by decide +kernel) (by decide) (by decide +kernel) e
  refine ⟨J, J₂, a, e, e1, e6, fun h => ?_⟩
  rw [e7, add_eq_left] at h
  have k1 : W = (Sample.mbcV.bodyPosW[2]?).getD 1 := by rw [e2]; rfl
  have k2 : W' = (Sample.mbcV.bodyPosW[0]?).getD 1 := by rw [e3]; rfl
  have k3 : V = (Sample.mbcV.bodyVelB[2]?).getD 0 := by rw [e4]; rfl
  have k4 : V' = (Sample.mbcV.bodyVelB[0]?).getD 0 := by rw [e5]; rfl
  rw [k1, k2, k3, k4] at h
  revert h
  decide +kernel

/-- The arm of `Sample.real_arm` meets the hypotheses of the theorems on derivatives for its second body relative to its first. -/
example : ∃ (mb : MultiBody ℝ) (mbc : ℝ → MBC ℝ) (J : Jac ℝ), mb.WF ∧ mb.Rigid ∧ mb.DirOK ∧ (∀ s, (mbc s).VelReady mb) ∧
    mb.sBodyIndexByName "y" = .ok ((1 : Nat) : Int) ∧ mb.sBodyIndexByName "x" = .ok ((0 : Nat) : Int) ∧ 1 < mb.nrBodies ∧ mb.RelOK 1 0 ∧
    0 ∈ pathUp mb.par 1 ∧ Jac.mkRel (fun _ => 0) mb "y" "x" ⟨1, 2, 3⟩ = .ok J ∧
    ∀ t, Trajectory mb (fun s => (mbc s).q) (mbc t).alpha t ∧ (mbc t).alpha = [[2 * t], [3]] := by
  obtain ⟨mb, mbc, hm, hp, wf, hr, hd, hb, -, hv, h⟩ := Sample.real_arm_made
  have hc : CtorInv mb.bodies mb.joints mb.pred mb.succ mb.parent mb.Xt mb.bodies.length mb := by
    obtain ⟨b, j, pred, succ, parent, Xt, hl, -, hm⟩ := hm
    obtain ⟨mb', h', hi⟩ := ctor_inv b j pred succ parent Xt hl
    rw [h'] at hm
    cases hm
    rw [hi.bodies, hi.joints, hi.pred, hi.succ, hi.parent, hi.Xt]
    exact hi
  have hn : ∀ (i i' : Nat) (b b' : Body ℝ), mb.bodies[i]? = some b → mb.bodies[i']? = some b' → b.name = b'.name → i = i' := by
    intro i i' b b' h1 h2 h3
    rw [hb] at h1 h2
    have k1 : i < 2 := (List.getElem?_eq_some_iff.1 h1).1
    have k2 : i' < 2 := (List.getElem?_eq_some_iff.1 h2).1
    obtain rfl | rfl : i = 0 ∨ i = 1 := by omega
    all_goals obtain rfl | rfl : i' = 0 ∨ i' = 1 := by omega
    all_goals cases h1; cases h2
    all_goals first | rfl | exact absurd h3 (by decide)
  have h1 : mb.sBodyIndexByName "y" = .ok ((1 : Nat) : Int) := Graph.CtorInv.body_find hc hn (i := 1) (b := ⟨⟨3, 0, ⟨2, 0, 2, 0, 0, 2⟩⟩, "y"⟩) (by rw [hb]; rfl)
  have h0 : mb.sBodyIndexByName "x" = .ok ((0 : Nat) : Int) :=
    Graph.CtorInv.body_find hc hn (i := 0) (b := ⟨⟨2, ⟨1, 0, 0⟩, ⟨1, 0, 1, 0, 0, 1⟩⟩, "x"⟩) (by rw [hb]; rfl)
  have p1 : mb.par 1 = some 0 := by unfold MultiBody.par; rw [hp]; rfl
  have p0 : mb.par 0 = none := by unfold MultiBody.par; rw [hp]; rfl
  have hup : 0 ∈ pathUp mb.par 1 := by rw [pathUp_some p1 (by omega), pathUp_none p0]; simp
  have hok : mb.RelOK 1 0 := ⟨by rw [pathUp_none p0]; simp, .inl hup⟩
  have hl : mb.bodies.length = 2 := by rw [hb]; rfl
  obtain ⟨J, e, -⟩ := Jac.mkRel_of wf (fun _ => 0) h1 h0 (by omega) (by omega) hok ⟨1, 2, 3⟩
  exact ⟨mb, mbc, J, wf, hr, hd, hv, h1, h0, by show 1 < mb.bodies.length; omega, hok, hup, e, fun t => ⟨(h t).1, (h t).2.2.1⟩⟩

/-! ### Counterexamples -/

end RBDyn

namespace RBDyn

namespace RelBad
/-- A right angle about the z axis. -/
def quarter : PTransform ℚ := ⟨⟨0, 1, 0, -1, 0, 0, 0, 0, 1⟩, 0⟩
def bodies : List (Body ℚ) := ["base", "mid", "turn", "slide", "side"].map fun n => ⟨⟨1, 0, ⟨1, 0, 1, 0, 0, 1⟩⟩, n⟩
def joints : List (Joint ℚ) :=
  [Joint.mk' .Fixed ⟨0, 0, 1⟩ true "j0", Joint.mk' .Fixed ⟨0, 0, 1⟩ true "j1", Joint.mk' .Rev ⟨0, 0, 1⟩ true "j2",
   Joint.mk' .Prism ⟨0, 1, 0⟩ true "j3", Joint.mk' .Rev ⟨0, 0, 1⟩ true "j4"]
/-- base – mid – (turn – slide), side. -/
def mb : MultiBody ℚ where
  bodies := bodies
  joints := joints
  pred := [-1, 0, 1, 2, 1]
  succ := [0, 1, 2, 3, 4]
  parent := [-1, 0, 1, 2, 1]
  Xt := [1, quarter, 1, 1, 1]
  bodyNameToInd := [("side", 4), ("slide", 3), ("turn", 2), ("mid", 1), ("base", 0)]
  jointNameToInd := [("j4", 4), ("j3", 3), ("j2", 2), ("j1", 1), ("j0", 0)]
  jointPosInParam := [0, 0, 0, 1, 2]
  jointPosInDof := [0, 0, 0, 1, 2]
  nrParams := 3
  nrDof := 3

theorem mk_eq : MultiBody.mk' bodies joints [-1, 0, 1, 2, 1] [0, 1, 2, 3, 4] [-1, 0, 1, 2, 1] [1, quarter, 1, 1, 1] = .ok mb := by
  decide +kernel

/-- The slider is at `s` and has speed 1. -/
def mbc₀ (s : ℚ) : MBC ℚ :=
  { q := [[], [], [0], [s], [0]], alpha := [[], [], [0], [1], [0]], alphaD := [[], [], [0], [0], [0]], force := [0, 0, 0, 0, 0],
    jointConfig := [1, 1, 1, 1, 1], jointVelocity := [0, 0, 0, 0, 0], jointTorque := [[], [], [0], [0], [0]],
    motionSubspace := [[], [], [0], [0], [0]], bodyPosW := [1, 1, 1, 1, 1], parentToSon := [1, 1, 1, 1, 1],
    bodyVelW := [0, 0, 0, 0, 0], bodyVelB := [0, 0, 0, 0, 0], bodyAccB := [0, 0, 0, 0, 0], gravity := ⟨0, 0, 10⟩ }

/-- After `forwardKinematics`. -/
def mbc (s : ℚ) : MBC ℚ := { mbc₀ s with
  jointConfig := [1, 1, 1, ⟨1, ⟨0, s, 0⟩⟩, 1], parentToSon := [1, quarter, 1, ⟨1, ⟨0, s, 0⟩⟩, 1],
  bodyPosW := [1, quarter, quarter, ⟨quarter.E, ⟨-s, 0, 0⟩⟩, quarter],
  motionSubspace := [[], [], [⟨⟨0, 0, 1⟩, 0⟩], [⟨0, ⟨0, 1, 0⟩⟩], [⟨⟨0, 0, 1⟩, 0⟩]] }

theorem fk (s : ℚ) : forwardKinematics mb (mbc₀ s) = .ok (mbc s) := by
  have p0 : (Joint.mk' (K := ℚ) .Fixed ⟨0, 0, 1⟩ true "j0").pose [] = .ok 1 := by decide +kernel
  have p1 : (Joint.mk' (K := ℚ) .Fixed ⟨0, 0, 1⟩ true "j1").pose [] = .ok 1 := by decide +kernel
  have p2 : (Joint.mk' (K := ℚ) .Rev ⟨0, 0, 1⟩ true "j2").pose [0] = .ok 1 := by decide +kernel
  have p4 : (Joint.mk' (K := ℚ) .Rev ⟨0, 0, 1⟩ true "j4").pose [0] = .ok 1 := by decide +kernel
  have s0 : (Joint.mk' (K := ℚ) .Fixed ⟨0, 0, 1⟩ true "j0").S = [] := by decide +kernel
  have s1 : (Joint.mk' (K := ℚ) .Fixed ⟨0, 0, 1⟩ true "j1").S = [] := by decide +kernel
  have s2 : (Joint.mk' (K := ℚ) .Rev ⟨0, 0, 1⟩ true "j2").S = [⟨⟨0, 0, 1⟩, 0⟩] := by decide +kernel
  have s3 : (Joint.mk' (K := ℚ) .Prism ⟨0, 1, 0⟩ true "j3").S = [⟨0, ⟨0, 1, 0⟩⟩] := by decide +kernel
  have s4 : (Joint.mk' (K := ℚ) .Rev ⟨0, 0, 1⟩ true "j4").S = [⟨⟨0, 0, 1⟩, 0⟩] := by decide +kernel
  have v3 : s • (⟨0, 1, 0⟩ : Vec3 ℚ) = ⟨0, s, 0⟩ := by ext <;> simp
  have w3 : (⟨1, ⟨0, s, 0⟩⟩ : PTransform ℚ) * quarter = ⟨quarter.E, ⟨-s, 0, 0⟩⟩ := by
    ext <;> simp [quarter, Mat3.tr, Mat3.mulVec]
  show (List.range 5).foldlM (fkStep mb) (mbc₀ s) = _
  simp [show List.range 5 = [0, 1, 2, 3, 4] from rfl, fkStep, mb, joints, mbc₀, mbc, rd, wr, wrI, rdI, p0, p1, p2, p4, s0, s1, s2, s3, s4,
    Joint.pose_prism, Joint.sgn, v3, w3]

def Jmid : Jac ℚ := ⟨[2, 3], [1, 1], 1, [0, 0], [0, 0], 3, 1⟩
def Jside : Jac ℚ := ⟨[4, 2, 3], [-1, 1, 1], 1, [0, 0, 0], [0, 0, 0], 3, 4⟩

theorem x2 (s : ℚ) : (PTransform.ofTrans (⟨-s, 0, 0⟩ : Vec3 ℚ) * quarter.inv).mulMotion ⟨⟨0, 0, 1⟩, 0⟩ = ⟨⟨0, 0, 1⟩, ⟨0, -s, 0⟩⟩ := by
  ext <;> simp [quarter, PTransform.ofTrans, PTransform.inv, PTransform.mulMotion, Mat3.tr, Mat3.mulVec, Vec3.cross]
theorem y2 (s : ℚ) : ((⟨quarter.E, ⟨-s, 0, 0⟩⟩ : PTransform ℚ) * quarter.inv).mulMotion (-⟨⟨0, 0, 1⟩, 0⟩) = ⟨⟨0, 0, -1⟩, ⟨s, 0, 0⟩⟩ := by
  ext <;> simp [quarter, PTransform.inv, PTransform.mulMotion, Mat3.tr, Mat3.mulVec, Vec3.cross]

theorem jmid (s : ℚ) : ∃ J, Jmid.jacobian mb (mbc s) = .ok J ∧ J.jac.getD 0 0 = ⟨⟨0, 0, 1⟩, ⟨-s, 0, 0⟩⟩ := by
  refine ⟨_, by
    simp [Jmid, Jac.jacobian, Jac.back, Jac.toRef, jacobianFill, fillCols, writeCols, mb, joints, mbc, mbc₀, rd, wr, rdI,
      show List.range 2 = [0, 1] from rfl, Joint.mk', Joint.nDof, x2]
    rfl, ?_⟩
  simp [rotCols, quarter, Mat3.mulVec]

theorem jside (s : ℚ) : ∃ J, Jside.bodyJacobian mb (mbc s) = .ok J ∧ J.jac.getD 0 0 = ⟨⟨0, 0, -1⟩, ⟨s, 0, 0⟩⟩ := by
  refine ⟨_, by
    simp [Jside, Jac.bodyJacobian, Jac.back, jacobianFill, fillCols, writeCols, mb, joints, mbc, mbc₀, rd, wr,
      show List.range 3 = [0, 1, 2] from rfl, Joint.mk', Joint.nDof, y2]
    rfl, ?_⟩
  rfl

end RelBad

/-- C74 fails for `jacobianDot` when the reference body is not oriented like the world: a slider at `s` on an arm that can turn about the z axis of a
body that stands at a right angle to the world. Relative to that body the column of the turning joint is `(0, 0, 1; -s, 0, 0)` for
all `s`, so its derivative for a slider of speed 1 has linear part `(-1, 0, 0)`. The column of `jacobianDot` has `(0, -1, 0)`. -/
theorem C74_counterexample_orientation :
    MultiBody.mk' RelBad.bodies RelBad.joints [-1, 0, 1, 2, 1] [0, 1, 2, 3, 4] [-1, 0, 1, 2, 1] [1, RelBad.quarter, 1, 1, 1] = .ok RelBad.mb ∧
    ∃ J, Jac.mkRel (fun _ => 0) RelBad.mb "slide" "mid" (0 : Vec3 ℚ) = .ok J ∧
      (∀ s : ℚ, ∃ m J₁, (RelBad.mbc₀ s).q = [[], [], [0], [s], [0]] ∧ forwardKinematics RelBad.mb (RelBad.mbc₀ s) = .ok m ∧
        J.jacobian RelBad.mb m = .ok J₁ ∧ J₁.jac.getD 0 0 = ⟨⟨0, 0, 1⟩, ⟨-s, 0, 0⟩⟩) ∧
      ∃ m m' J₁, (RelBad.mbc₀ 1).alpha = [[], [], [0], [1], [0]] ∧ forwardKinematics RelBad.mb (RelBad.mbc₀ 1) = .ok m ∧
        forwardVelocity RelBad.mb m = .ok m' ∧ J.jacobianDot RelBad.mb m' = .ok J₁ ∧ J₁.jacDot.getD 0 0 = ⟨0, ⟨0, -1, 0⟩⟩ := by
  refine ⟨RelBad.mk_eq, RelBad.Jmid, by decide +kernel, fun s => ?_, ?_⟩
  · obtain ⟨J, h1, h2⟩ := RelBad.jmid s
    exact ⟨_, J, rfl, RelBad.fk s, h1, h2⟩
  · obtain ⟨m', h1, h2⟩ := ok_and (m := forwardVelocity RelBad.mb (RelBad.mbc 1)) (fun m' : MBC ℚ =>
      ((RelBad.Jmid.jacobianDot RelBad.mb m').toOption.map fun J : Jac ℚ => decide (J.jacDot.getD 0 0 = ⟨0, ⟨0, -1, 0⟩⟩)).getD false)
      (by decide +kernel)
    obtain ⟨J, h3, h4⟩ := ok_and _ h2
    exact ⟨_, m', J, rfl, RelBad.fk 1, h1, h3, by simpa using h4⟩

/-- C74 fails for `bodyJacobianDot` for the joints of the branch of the reference body: the column of the joint of the other arm is `(0, 0, -1; s, 0, 0)`
for all `s`, so its derivative for a slider of speed 1 has linear part `(1, 0, 0)`. The column of `bodyJacobianDot` has `(-1, 0, 0)`. -/
theorem C74_counterexample_sign :
    ∃ J, Jac.mkRel (fun _ => 0) RelBad.mb "slide" "side" (0 : Vec3 ℚ) = .ok J ∧
      (∀ s : ℚ, ∃ m J₂, (RelBad.mbc₀ s).q = [[], [], [0], [s], [0]] ∧ forwardKinematics RelBad.mb (RelBad.mbc₀ s) = .ok m ∧
        J.bodyJacobian RelBad.mb m = .ok J₂ ∧ J₂.jac.getD 0 0 = ⟨⟨0, 0, -1⟩, ⟨s, 0, 0⟩⟩) ∧
      ∃ m m' J₂, (RelBad.mbc₀ 1).alpha = [[], [], [0], [1], [0]] ∧ forwardKinematics RelBad.mb (RelBad.mbc₀ 1) = .ok m ∧
        forwardVelocity RelBad.mb m = .ok m' ∧ J.bodyJacobianDot RelBad.mb m' = .ok J₂ ∧ J₂.jacDot.getD 0 0 = ⟨0, ⟨-1, 0, 0⟩⟩ := by
  refine ⟨RelBad.Jside, by decide +kernel, fun s => ?_, ?_⟩
  · obtain ⟨J, h1, h2⟩ := RelBad.jside s
    exact ⟨_, J, rfl, RelBad.fk s, h1, h2⟩
  · obtain ⟨m', h1, h2⟩ := ok_and (m := forwardVelocity RelBad.mb (RelBad.mbc 1)) (fun m' : MBC ℚ =>
      ((RelBad.Jside.bodyJacobianDot RelBad.mb m').toOption.map fun J : Jac ℚ => decide (J.jacDot.getD 0 0 = ⟨0, ⟨-1, 0, 0⟩⟩)).getD false)
      (by decide +kernel)
    obtain ⟨J, h3, h4⟩ := ok_and _ h2
    exact ⟨_, m', J, rfl, RelBad.fk 1, h1, h3, by simpa using h4⟩

end RBDyn
