import Verif.Props.Momentum
import Verif.Props.DynDeriv

/-! Property C71: the momentum of a robot that is not attached to the world. -/

namespace RBDyn
variable {K : Type} [Scalar K] {mb : MultiBody K}
open scoped Mat3

/-- A force vector given about the origin, about the point `p`. -/
def ForceVec.about (f : ForceVec K) (p : Vec3 K) : ForceVec K := ⟨f.couple - p.cross f.force, f.force⟩

/-- Only body 0 has no predecessor. -/
def MultiBody.OneRoot (mb : MultiBody K) : Prop := ∀ i : Nat, mb.pred[i]? = some (-1) → i = 0

theorem MultiBody.OneRoot.mem_path (ho : mb.OneRoot) (wf : mb.WF) {k : Nat} (hk : k < mb.bodies.length) : 0 ∈ pathUp mb.par k := by
  induction k using Nat.strong_induction_on with
  | _ k ih =>
    cases hp : mb.par k with
    | none =>
      have hl : k < mb.pred.length := by rw [wf.npred]; exact hk
      have hg : mb.pred[k]? = some mb.pred[k] := List.getElem?_eq_getElem hl
      have h1 := wf.pred k _ hg
      unfold MultiBody.par at hp
      rw [hg] at hp
      have h2 : mb.pred[k] < 0 := by
        by_contra h
        simp [h] at hp
      rw [show mb.pred[k] = -1 by omega] at hg
      rw [ho k hg, pathUp_none (by rw [← ho k hg, MultiBody.par, hg]; rfl)]
      simp
    | some j =>
      have hj := wf.par_lt _ _ hp
      rw [pathUp_some hp hj]
      exact List.mem_cons_of_mem _ (ih j hj (by omega))

/-- The rate of change of the momentum of body `k` about the world origin. -/
def MultiBody.rateAt (mb : MultiBody K) (q alpha alphaD : List (List K)) (k : Nat) : ForceVec K :=
  (mb.posAt q k).transMul ((mb.inertiaAt k).mulMotion (mb.accAt q alpha alphaD 0 k) +
    (mb.velAt q alpha k).crossDual ((mb.inertiaAt k).mulMotion (mb.velAt q alpha k)))

/-- Newton-Euler for the subtree of joint `i`, in world coordinates. -/
theorem MultiBody.wrenchAt_world (hr : mb.Rigid) {mbc : MBC K} (hq : ValidQ mb mbc.q) (i : Nat) :
    mb.wrenchAt mbc.q (mb.netForceAt mbc.q mbc.alpha mbc.alphaD ⟨0, mbc.gravity⟩ mbc.forceAt) i =
      (mb.posAt mbc.q i).dualMul (∑ k ∈ mb.subtree i, (mb.rateAt mbc.q mbc.alpha mbc.alphaD k - mbc.forceAt k -
        weight (mb.posAt mbc.q k) (mb.inertiaAt k) mbc.gravity)) := by
  unfold MultiBody.wrenchAt
  rw [← PTransform.dualHom_apply, map_sum]
  refine Finset.sum_congr rfl fun k hk => ?_
  have hW := mb.posAt_rigid hr hq k
  have hWi := mb.posAt_rigid hr hq i
  rw [MultiBody.relAt, PTransform.mul_transMul _ _ _ hWi.inv, PTransform.dualHom_apply, PTransform.dualMul_eq _ hWi]
  congr 1
  rw [MultiBody.netForceAt, mb.accAt_base]
  have e1 := PTransform.transMul_dualMul hW (weight (mb.posAt mbc.q k) (mb.inertiaAt k) mbc.gravity)
  rw [dualMul_weight hW] at e1
  have e2 := PTransform.transMul_dualMul hW (mbc.forceAt k)
  rw [← e1, RBInertia.mulMotion_add, PTransform.transMul_sub, e2, PTransform.transMul_add, MultiBody.rateAt, PTransform.transMul_add,
    PTransform.transMul_add, PTransform.transMul_neg]
  abel

theorem transMul_about {W : PTransform K} (com : Vec3 K) (f : ForceVec K) :
    (W * PTransform.ofTrans (-com)).transMul f = (W.transMul f).about com := by
  rw [PTransform.mul_transMul _ _ _ (ofTrans_rigid _)]
  unfold ForceVec.about
  ext <;> simp [PTransform.transMul, PTransform.ofTrans] <;> ring

/-- The rate of change of the momentum about a moving point. -/
theorem MultiBody.momentumDotAt_about (q alpha alphaD : List (List K)) (com comDot : Vec3 K) :
    mb.momentumDotAt (fun _ => 1) q alpha com comDot (mb.accAt q alpha alphaD 0) =
      (∑ k ∈ Finset.range mb.bodies.length, mb.rateAt q alpha alphaD k).about com -
        ⟨comDot.cross (mb.momentumAt (fun _ => 1) q alpha com).force, 0⟩ := by
  unfold MultiBody.momentumDotAt MultiBody.momentumAt
  generalize mb.bodies.length = n
  induction n with
  | zero => ext <;> simp [ForceVec.about]
  | succ n ih =>
    rw [Finset.sum_range_succ, ih, Finset.sum_range_succ, Finset.sum_range_succ, momDotHom_apply, momHom_apply, momHom_apply,
      transMul_about, transMul_about, transMul_about, MultiBody.rateAt, PTransform.transMul_add]
    ext <;> simp [ForceVec.about, MotionVec.crossDual] <;> ring

theorem sum_weight (hm : mb.MassOK) (hM : 0 < mb.totalMass) (q : List (List K)) (g : Vec3 K) :
    ∑ k ∈ Finset.range mb.bodies.length, weight (mb.posAt q k) (mb.inertiaAt k) g =
      -⟨(mb.totalMass • mb.comAt q).cross g, mb.totalMass • g⟩ := by
  have e : mb.totalMass • mb.comAt q = ∑ k ∈ Finset.range mb.bodies.length, massPos (mb.posAt q k) (mb.inertiaAt k) := by
    unfold MultiBody.comAt
    rw [smul_smul, mul_one_div_cancel (ne_of_gt hM), one_smul]
    refine Finset.sum_congr rfl fun k hk => ?_
    unfold massPos worldPoint
    rw [hm.moment (Finset.mem_range.1 hk)]
    ext <;> simp <;> ring
  rw [e]
  unfold MultiBody.totalMass
  generalize mb.bodies.length = n
  induction n with
  | zero => ext <;> simp
  | succ n ih =>
    rw [Finset.sum_range_succ, ih, Finset.sum_range_succ, Finset.sum_range_succ]
    unfold weight
    ext <;> simp <;> ring

theorem ForceVec.eq_zero_of_free {j : Joint K} (hj : j.BuiltUnit) (hf : j.type = .Free) {f : ForceVec K}
    (h : ∀ c ∈ j.S, c.dot f = 0) : f = 0 := by
  obtain ⟨t, ax, fw, n, hax, e⟩ := hj.exists_mk
  have hS : j.S = Joint.mkS (if fw then 1 else -1) t ax ∧ j.type = t := by
    rcases e with rfl | ⟨_, _, _, rfl⟩ <;> exact ⟨rfl, rfl⟩
  obtain rfl : t = .Free := hS.2.symm.trans hf
  rw [hS.1] at h
  cases fw <;> simp [Joint.mkS, MotionVec.dot, Vec3.dot] at h <;> ext <;> simp_all

/-- C71: the torque of the only root joint, whatever its type, is the projection on its motion subspace of what the rate of change of the
momentum of the whole robot lacks of the external forces and the weight. `g` is the rate that `computeCentroidalMomentumDot` gives about any
moving point. -/
theorem C71_root_torque (wf : mb.WF) (hr : mb.Rigid) (ho : mb.OneRoot) (hm : mb.MassOK) (hM : 0 < mb.totalMass) {mbc : MBC K}
    (sz : mbc.Sized mb) (hq : ValidQ mb mbc.q) (hv : mbc.VelReady mb) {d : ID K} (hd : d.f.length = mb.nrBodies) {j : Joint K}
    (hj : mb.joints[0]? = some j) (com comDot : Vec3 K) :
    ∃ d' m m' g P c W, d.inverseDynamics mb mbc = .ok (d', m) ∧ forwardAcceleration mb mbc 0 = .ok m' ∧
      computeCentroidalMomentumDot mb m' com comDot = .ok g ∧ computeCentroidalMomentum mb mbc com = .ok P ∧ computeCoM mb mbc = .ok c ∧
      mbc.bodyPosW[0]? = some W ∧
      m.jointTorque[0]? = some (j.S.map fun s => s.dot (W.dualMul
        ((g + ⟨comDot.cross P.force, 0⟩ - (∑ k ∈ Finset.range mb.nrBodies, (mbc.force[k]?).getD 0).about com +
          ⟨(c - com).cross (mb.totalMass • mbc.gravity), mb.totalMass • mbc.gravity⟩).about (-com)))) := by
  have h0 : 0 < mb.bodies.length := by rw [← wf.njoints]; exact (List.getElem?_eq_some_iff.1 hj).1
  refine ⟨_, _, _, _, _, _, _, id_eq wf hr sz hq hv hd rfl, sz.fa wf hr hq hv 0, computeCentroidalMomentumDot_fa hr hq hv com comDot _,
    computeCentroidalMomentum_eq hv com, computeCoM_eq hm hM hv.toPosReady, by rw [hv.bodyPosW]; exact range_map_getElem? h0, ?_⟩
  simp only [range_map_getElem? h0, Option.some.injEq, MultiBody.project, MultiBody.SAt, hj, Option.map_some, Option.getD_some]
  congr 1
  funext s
  congr 1
  rw [mb.wrenchAt_world hr hq]
  congr 1
  have hs : mb.subtree 0 = Finset.range mb.bodies.length := by
    ext k
    rw [MultiBody.mem_subtree, Finset.mem_range]
    exact ⟨fun h => h.1, fun h => ⟨h, ho.mem_path wf h⟩⟩
  rw [hs, Finset.sum_sub_distrib, Finset.sum_sub_distrib, sum_weight hm hM, mb.momentumDotAt_about]
  show _ = ((_ - (∑ k ∈ Finset.range mb.bodies.length, mbc.forceAt k).about com) + _ : ForceVec K).about (-com)
  generalize ∑ k ∈ Finset.range mb.bodies.length, mb.rateAt mbc.q mbc.alpha mbc.alphaD k = R
  generalize ∑ k ∈ Finset.range mb.bodies.length, mbc.forceAt k = F
  generalize (mb.momentumAt (fun _ => 1) mbc.q mbc.alpha com).force = P
  generalize mb.comAt mbc.q = c
  ext <;> simp [ForceVec.about] <;> ring

/-- C71: if the only root joint is a free joint and inverse dynamics finds no torque on it, the rate of change of the momentum about the
moving point `com` is the sum of the external forces and of the weight, which acts at the centre of mass `c`; the motion of the point adds
`-comDot × P`. -/
theorem C71_rate (wf : mb.WF) (hr : mb.Rigid) (ho : mb.OneRoot) (hm : mb.MassOK) (hM : 0 < mb.totalMass) {mbc : MBC K}
    (sz : mbc.Sized mb) (hq : ValidQ mb mbc.q) (hv : mbc.VelReady mb) {d d' : ID K} (hd : d.f.length = mb.nrBodies) {j : Joint K}
    (hj : mb.joints[0]? = some j) (hfree : j.type = .Free) {m : MBC K} (he : d.inverseDynamics mb mbc = .ok (d', m))
    (h0 : m.jointTorque[0]? = some [0, 0, 0, 0, 0, 0]) (com comDot : Vec3 K) :
    ∃ m' g P c, forwardAcceleration mb mbc 0 = .ok m' ∧ computeCentroidalMomentumDot mb m' com comDot = .ok g ∧
      computeCentroidalMomentum mb mbc com = .ok P ∧ computeCoM mb mbc = .ok c ∧
      g.force = ∑ k ∈ Finset.range mb.nrBodies, ((mbc.force[k]?).getD 0).force - mb.totalMass • mbc.gravity ∧
      g.couple = ∑ k ∈ Finset.range mb.nrBodies, (((mbc.force[k]?).getD 0).couple - com.cross ((mbc.force[k]?).getD 0).force) -
        (c - com).cross (mb.totalMass • mbc.gravity) - comDot.cross P.force := by
  obtain ⟨d'', m₂, m', g, P, c, W, i1, i2, i3, i4, i5, i6, i7⟩ := C71_root_torque wf hr ho hm hM sz hq hv hd hj com comDot
  rw [he] at i1
  cases i1
  refine ⟨m', g, P, c, i2, i3, i4, i5, ?_⟩
  have hW : IsRigid W := by
    have h0' : 0 < mb.bodies.length := by rw [← wf.njoints]; exact (List.getElem?_eq_some_iff.1 hj).1
    rw [hv.bodyPosW, range_map_getElem? h0'] at i6
    cases i6
    exact mb.posAt_rigid hr hq 0
  rw [h0, Option.some_inj] at i7
  have hw := ForceVec.eq_zero_of_free (f := _) (hr.joints j (List.mem_of_getElem? hj)) hfree fun s hs => by
    have := List.mem_map_of_mem (f := fun s => MotionVec.dot s (W.dualMul
        ((g + ⟨comDot.cross P.force, 0⟩ - (∑ k ∈ Finset.range mb.nrBodies, (mbc.force[k]?).getD 0).about com +
          ⟨(c - com).cross (mb.totalMass • mbc.gravity), mb.totalMass • mbc.gravity⟩).about (-com)))) hs
    rw [← i7] at this
    simpa using this
  have hw := congrArg W.transMul hw
  rw [PTransform.transMul_dualMul hW, PTransform.transMul_zero] at hw
  have hsum : ∑ k ∈ Finset.range mb.nrBodies, (((mbc.force[k]?).getD 0).couple - com.cross ((mbc.force[k]?).getD 0).force) =
      ((∑ k ∈ Finset.range mb.nrBodies, (mbc.force[k]?).getD 0).about com).couple ∧
      ∑ k ∈ Finset.range mb.nrBodies, ((mbc.force[k]?).getD 0).force = (∑ k ∈ Finset.range mb.nrBodies, (mbc.force[k]?).getD 0).force := by
    generalize mb.nrBodies = n
    induction n with
    | zero => constructor <;> ext <;> simp [ForceVec.about]
    | succ n ih =>
      rw [Finset.sum_range_succ, ih.1, Finset.sum_range_succ, Finset.sum_range_succ, ih.2]
      constructor <;> ext <;> simp [ForceVec.about] <;> ring
  rw [hsum.1, hsum.2]
  generalize ∑ k ∈ Finset.range mb.nrBodies, (mbc.force[k]?).getD 0 = F at hw ⊢
  obtain ⟨⟨g1, g2, g3⟩, ⟨g4, g5, g6⟩⟩ := g
  simp only [ForceVec.about, ForceVec.ext_iff, Vec3.ext_iff] at hw ⊢
  simp at hw ⊢
  grind

/-- C71: a robot whose only root joint is a free joint without torque is moved by external forces only, whatever the torques of the other
joints: with the accelerations that forward dynamics computes, the rate of change of the momentum about the centre of mass is the sum of the
external forces and couples about the centre of mass, plus the weight, which has no couple. -/
theorem C71_floating (wf : mb.WF) (hr : mb.Rigid) (ho : mb.OneRoot) (hm : mb.MassOK) (hM : 0 < mb.totalMass) {mbc : MBC K}
    (sz : mbc.Sized mb) (hq : ValidQ mb mbc.q) (hv : mbc.VelReady mb) {fd : FD K} (hf : fd.Fits mb) {j : Joint K}
    (hj : mb.joints[0]? = some j) (hfree : j.type = .Free) (h0 : mbc.jointTorque[0]? = some [0, 0, 0, 0, 0, 0])
    {solve : DMat K → List K → List K} (hs : ∀ fd₁, fd.computeH mb mbc = .ok fd₁ → ExactSolve solve fd₁.H) :
    ∃ fd' m m' c v g, fd.forwardDynamics solve mb mbc = .ok (fd', m) ∧ forwardAcceleration mb m 0 = .ok m' ∧ computeCoM mb m' = .ok c ∧
      computeCoMVelocity mb m' = .ok v ∧ computeCentroidalMomentumDot mb m' c v = .ok g ∧
      g.force = ∑ k ∈ Finset.range mb.nrBodies, ((mbc.force[k]?).getD 0).force - mb.totalMass • mbc.gravity ∧
      g.couple = ∑ k ∈ Finset.range mb.nrBodies, (((mbc.force[k]?).getD 0).couple - c.cross ((mbc.force[k]?).getD 0).force) := by
  have hl : (⟨List.replicate mb.nrBodies 0⟩ : ID K).f.length = mb.nrBodies := by simp
  obtain ⟨fd', m, d', m₁, e1, hmm, -, szm, e2, ht⟩ := C27_forward_then_inverse wf hr sz hq hv hl hf hs
  have hmf : m.force = mbc.force := (congrArg MBC.force hmm :)
  have hmg : m.gravity = mbc.gravity := (congrArg MBC.gravity hmm :)
  have hsp : SamePosVel m mbc := by
    unfold SamePosVel
    conv_rhs => rw [← hmm]
    have b1 : m.bodyAccB = mbc.bodyAccB := (congrArg MBC.bodyAccB hmm :)
    have b2 : m.jointTorque = mbc.jointTorque := (congrArg MBC.jointTorque hmm :)
    rw [← b1, ← b2]
  obtain ⟨hvm, hqm⟩ := hsp.ready hv hq
  obtain ⟨m', g, P, c, i2, i3, i4, i5, i6, i7⟩ := C71_rate wf hr ho hm hM szm hqm hvm hl hj hfree e2 (ht ▸ h0) (mb.comAt m.q)
    (mb.comVelAt m.q m.alpha)
  rw [computeCoM_eq hm hM hvm.toPosReady] at i5
  cases i5
  have hP : P.force = mb.totalMass • mb.comVelAt m.q m.alpha := by
    obtain ⟨h, v, k1, k2, k3⟩ := C40_linear hr hm hM hqm hvm (mb.comAt m.q)
    rw [i4] at k1
    cases k1
    rw [computeCoMVelocity_eq hm hM hvm] at k2
    cases k2
    exact k3
  rw [szm.fa wf hr hqm hvm 0] at i2
  cases i2
  have hv' := hvm.withAcc ((List.range mb.bodies.length).map (mb.accAt m.q m.alpha m.alphaD 0))
  refine ⟨fd', m, _, mb.comAt m.q, mb.comVelAt m.q m.alpha, g, e1, szm.fa wf hr hqm hvm 0, computeCoM_eq hm hM hv'.toPosReady,
    computeCoMVelocity_eq hm hM hv', i3, ?_, ?_⟩
  · rw [i6, hmf, hmg]
  · rw [i7, hmf, hP]
    generalize ∑ k ∈ Finset.range mb.nrBodies, (((mbc.force[k]?).getD 0).couple - (mb.comAt m.q).cross ((mbc.force[k]?).getD 0).force) = F
    ext <;> simp <;> ring

theorem HasDerivVec.eq_line {f : ℝ → Vec3 ℝ} {a : Vec3 ℝ} (h : ∀ t, HasDerivVec f a t) (t : ℝ) : f t = f 0 + t • a := by
  have key : ∀ (u : ℝ → ℝ) (b : ℝ), (∀ t, HasDerivAt u b t) → u t = u 0 + t * b := by
    intro u b hu
    have h1 : ∀ x, HasDerivAt (fun s => u s - s * b) 0 x := fun x =>
      ((hu x).sub ((hasDerivAt_id x).mul_const b)).congr_deriv (by ring)
    have := is_const_of_deriv_eq_zero (fun x => (h1 x).differentiableAt) (fun x => (h1 x).deriv) t 0
    simp only [zero_mul, sub_zero] at this
    linarith
  ext
  · exact key _ _ fun t => (h t).x
  · exact key _ _ fun t => (h t).y
  · exact key _ _ fun t => (h t).z

theorem HasDerivVec.eq_parabola {f g : ℝ → Vec3 ℝ} {a : Vec3 ℝ} (h : ∀ t, HasDerivVec f (g t) t) (hg : ∀ t, HasDerivVec g a t) (t : ℝ) :
    f t = f 0 + t • g 0 + (t ^ 2 / 2) • a := by
  have h1 : ∀ t, HasDerivVec (fun s => f s - (s ^ 2 / 2) • a) (g 0) t := fun t => by
    refine ((h t).sub (HasDerivVec.smul_const (f' := t) ?_ a)).congr ?_
    · exact (((hasDerivAt_id t).pow 2).div_const 2).congr_deriv (by simp)
    · rw [HasDerivVec.eq_line hg t]
      abel
  have := HasDerivVec.eq_line h1 t
  rw [sub_eq_iff_eq_add] at this
  rw [this]
  ext <;> simp

/-- C71, along a whole motion: a robot in free fall — the only root joint is a free joint that carries no torque, no external forces act, the
other joints may carry any torques — keeps its angular momentum about the centre of mass, its linear momentum grows by the weight, and the
centre of mass moves on a parabola. -/
theorem C71_free_fall {mb : MultiBody ℝ} (wf : mb.WF) (hr : mb.Rigid) (hd : mb.DirOK) (ho : mb.OneRoot) (hm : mb.MassOK)
    (hM : 0 < mb.totalMass) {mbc : ℝ → MBC ℝ} (sz : ∀ s, (mbc s).Sized mb) (hv : ∀ s, (mbc s).VelReady mb)
    (h : ∀ t, Trajectory mb (fun s => (mbc s).q) (mbc t).alpha t)
    (ha : ∀ t, HasDerivDof mb (fun s => (mbc s).alpha) (mbc t).alphaD t) {j : Joint ℝ} (hj : mb.joints[0]? = some j) (hfree : j.type = .Free)
    {d : ID ℝ} (hl : d.f.length = mb.nrBodies)
    (h0 : ∀ t, ∃ d' m, d.inverseDynamics mb (mbc t) = .ok (d', m) ∧ m.jointTorque[0]? = some [0, 0, 0, 0, 0, 0])
    (hf : ∀ t, ∀ k : Nat, ((mbc t).force[k]?).getD 0 = 0) {γ : Vec3 ℝ} (hg : ∀ t, (mbc t).gravity = γ) :
    ∃ (P : ℝ → ForceVec ℝ) (c v : ℝ → Vec3 ℝ), (∀ t, computeCoM mb (mbc t) = .ok (c t)) ∧ (∀ t, computeCoMVelocity mb (mbc t) = .ok (v t)) ∧
      (∀ t, computeCentroidalMomentum mb (mbc t) (c t) = .ok (P t)) ∧
      (∀ t, (P t).couple = (P 0).couple) ∧ (∀ t, (P t).force = (P 0).force - t • (mb.totalMass • γ)) ∧
      ∀ t, c t = c 0 + t • v 0 - (t ^ 2 / 2) • γ := by
  have hc : ∀ t, HasDerivVec (fun s => mb.comAt (mbc s).q) (mb.comVelAt (mbc t).q (mbc t).alpha) t := fun t =>
    mb.comAt_hasDeriv wf hr hd (h t)
  have hlin : ∀ t, (mb.momentumAt (fun _ => 1) (mbc t).q (mbc t).alpha (mb.comAt (mbc t).q)).force =
      mb.totalMass • mb.comVelAt (mbc t).q (mbc t).alpha := by
    intro t
    obtain ⟨P, v, k1, k2, k3⟩ := C40_linear hr hm hM ((h t).valid t) (hv t) (mb.comAt (mbc t).q)
    rw [computeCentroidalMomentum_eq (hv t)] at k1
    cases k1
    rw [computeCoMVelocity_eq hm hM (hv t)] at k2
    cases k2
    exact k3
  have hrate : ∀ t, HasDerivForce (fun s => mb.momentumAt (fun _ => 1) (mbc s).q (mbc s).alpha (mb.comAt (mbc s).q))
      ⟨0, -(mb.totalMass • γ)⟩ t := by
    intro t
    obtain ⟨d', m, e1, e2⟩ := h0 t
    obtain ⟨P, m', g, k1, k2, k3, k4⟩ := C40_rate_is_derivative wf hr hd (sz t) hv (h t) (ha t) (hc t)
    obtain ⟨m'', g', P', c', i1, i2, i3, i4, i5, i6⟩ := C71_rate wf hr ho hm hM (sz t) ((h t).valid t) (hv t) hl hj hfree e1 e2
      (mb.comAt (mbc t).q) (mb.comVelAt (mbc t).q (mbc t).alpha)
    rw [k2] at i1
    cases i1
    rw [k3] at i2
    cases i2
    rw [computeCoM_eq hm hM (hv t).toPosReady] at i4
    cases i4
    rw [computeCentroidalMomentum_eq (hv t)] at i3
    cases i3
    have : P = fun s => mb.momentumAt (fun _ => 1) (mbc s).q (mbc s).alpha (mb.comAt (mbc s).q) := by
      funext s
      have := k1 s
      rw [computeCentroidalMomentum_eq (hv s)] at this
      exact (Except.ok.inj this).symm
    subst this
    refine k4.congr ?_
    rw [hg] at i5 i6
    rw [hlin] at i6
    simp only [hf t] at i5 i6
    ext
    · rw [i6]; simp; ring
    · rw [i6]; simp; ring
    · rw [i6]; simp; ring
    · rw [i5]; simp
    · rw [i5]; simp
    · rw [i5]; simp
  refine ⟨_, _, _, fun t => computeCoM_eq hm hM (hv t).toPosReady, fun t => computeCoMVelocity_eq hm hM (hv t),
    fun t => computeCentroidalMomentum_eq (hv t) _, fun t => ?_, fun t => ?_, fun t => ?_⟩
  · exact (HasDerivVec.eq_line (fun t => (hrate t).couple) t).trans (by ext <;> simp)
  · exact (HasDerivVec.eq_line (fun t => (hrate t).force) t).trans (by ext <;> simp <;> ring)
  · have hvel : ∀ t, HasDerivVec (fun s => mb.comVelAt (mbc s).q (mbc s).alpha) (-γ) t := by
      intro t
      have h1 := (hrate t).force
      have e : (fun s => mb.comVelAt (mbc s).q (mbc s).alpha) = fun s => (1 / mb.totalMass) •
          (mb.momentumAt (fun _ => 1) (mbc s).q (mbc s).alpha (mb.comAt (mbc s).q)).force := by
        funext s
        rw [hlin, smul_smul, one_div_mul_cancel (ne_of_gt hM), one_smul]
      rw [e]
      refine (HasDerivVec.smul (hasDerivAt_const t _) h1).congr ?_
      rw [zero_smul, zero_add, smul_neg, smul_smul, one_div_mul_cancel (ne_of_gt hM), one_smul]
    refine (HasDerivVec.eq_parabola hc hvel t).trans ?_
    rw [smul_neg, sub_eq_add_neg]

/-! ### Hypotheses can be met -/

theorem Sample.oneRoot : Sample.mb.OneRoot := by
  have hp : Sample.mb.pred = [-1, 0, 1, 0] := by decide +kernel
  intro i hi
  rw [hp] at hi
  match i with
  | 0 => rfl
  | 1 | 2 | 3 => simp at hi
  | n + 4 => simp at hi

def Sample.pushed : MBC ℚ :=
  { Sample.mbcV with
    jointTorque := [[0, 0, 0, 0, 0, 0], [5], [1, 2, 3], [-4]], force := [0, ⟨⟨1, 2, 3⟩, ⟨4, 5, 6⟩⟩, 0, ⟨0, ⟨1, 0, 0⟩⟩]
    gravity := ⟨0, 0, 981 / 100⟩ }

/-- The sample robot with external forces on two bodies and torques in all joints but the first one, which is a free joint. -/
example : ∃ (mbc : MBC ℚ) (j : Joint ℚ) (solve : DMat ℚ → List ℚ → List ℚ), Sample.mb.OneRoot ∧ Sample.mb.MassOK ∧ 0 < Sample.mb.totalMass ∧
    mbc.Sized Sample.mb ∧ ValidQ Sample.mb mbc.q ∧ mbc.VelReady Sample.mb ∧ Sample.fd.Fits Sample.mb ∧ Sample.mb.joints[0]? = some j ∧
    j.type = .Free ∧ mbc.jointTorque = [[0, 0, 0, 0, 0, 0], [5], [1, 2, 3], [-4]] ∧
    mbc.force = [0, ⟨⟨1, 2, 3⟩, ⟨4, 5, 6⟩⟩, 0, ⟨0, ⟨1, 0, 0⟩⟩] ∧ mbc.gravity = ⟨0, 0, 981 / 100⟩ ∧
    ∀ fd₁, Sample.fd.computeH Sample.mb mbc = .ok fd₁ → ExactSolve solve fd₁.H := by
  obtain ⟨h1, h2, h3⟩ := Sample.ready
  obtain ⟨solve, hs⟩ := ExactSolve.exists_of_regular (K := ℚ) Sample.mb.nrDof
  refine ⟨Sample.pushed, Joint.mk' .Free ⟨0, 0, 1⟩ true "root", solve, Sample.oneRoot,
    by unfold MultiBody.MassOK; decide +kernel, by decide +kernel,
    ⟨h2.q, h2.alpha, h2.alphaD, by unfold SizedDof; decide +kernel, by decide +kernel, h2.jointConfig, h2.jointVelocity, h2.motionSubspace,
      h2.bodyPosW, h2.parentToSon, h2.bodyVelW, h2.bodyVelB, h2.bodyAccB⟩, h3, ?_, Sample.fd_fits, by decide +kernel, rfl, rfl, rfl, rfl,
    fun fd₁ e => ?_⟩
  · exact ⟨⟨h1.parentToSon, h1.bodyPosW, h1.motionSubspace⟩, h1.jointVelocity, h1.bodyVelB, h1.bodyVelW⟩
  · have hp : MBC.PosReady Sample.mb Sample.pushed := ⟨h1.parentToSon, h1.bodyPosW, h1.motionSubspace⟩
    obtain ⟨d', e', h⟩ := C29_positive_definite Sample.wf Sample.rigid (mbc := Sample.pushed) h3 hp Sample.fd_fits Sample.inertia_pos Sample.subspace_ne
    obtain ⟨d'', e'', hr, hc, -⟩ := C28_symmetric Sample.wf Sample.rigid (mbc := Sample.pushed) h3 hp Sample.fd_fits
    rw [e] at e' e''
    cases e'
    cases e''
    refine hs _ hr hc fun x hx hne => ?_
    by_contra hcon
    push Not at hcon
    have := h x hx hne
    rw [Finset.sum_eq_zero fun r hr => by rw [hcon r (Finset.mem_range.1 hr), mul_zero]] at this
    exact lt_irrefl _ this

/-- A falling robot over `ℝ`: a base on a free joint, thrown with velocity `(1, 0, 2)`, and a slider that moves along it at speed 3. -/
example : ∃ (mb : MultiBody ℝ) (mbc : ℝ → MBC ℝ) (j : Joint ℝ) (d : ID ℝ), mb.WF ∧ mb.Rigid ∧ mb.DirOK ∧ mb.OneRoot ∧ mb.MassOK ∧
    0 < mb.totalMass ∧ (∀ s, (mbc s).Sized mb) ∧ (∀ s, (mbc s).VelReady mb) ∧ (∀ t, Trajectory mb (fun s => (mbc s).q) (mbc t).alpha t) ∧
    (∀ t, HasDerivDof mb (fun s => (mbc s).alpha) (mbc t).alphaD t) ∧ mb.joints[0]? = some j ∧ j.type = .Free ∧ d.f.length = mb.nrBodies ∧
    (∀ t, ∃ d' m, d.inverseDynamics mb (mbc t) = .ok (d', m) ∧ m.jointTorque[0]? = some [0, 0, 0, 0, 0, 0]) ∧
    (∀ t, ∀ k : Nat, ((mbc t).force[k]?).getD 0 = 0) ∧ (∀ t, (mbc t).gravity = ⟨0, 0, 10⟩) ∧
    ∀ t, (mbc t).alpha = [[0, 0, 0, 1, 0, 2 - 10 * t], [3]] := by
  let J : List (Joint ℝ) := [Joint.mk' .Free ⟨0, 0, 1⟩ true "a", Joint.mk' .Prism ⟨1, 0, 0⟩ true "b"]
  have hu : ∀ j ∈ J, j.BuiltUnit := by
    intro j hj
    simp only [J, List.mem_cons, List.not_mem_nil, or_false] at hj
    rcases hj with rfl | rfl
    · exact .mk _ _ _ _ trivial
    · exact .mk _ _ _ _ trivial
  obtain ⟨mb, -, wf, hb, hj, hp, -, -, hX⟩ := MultiBody.mk'_wf
    [⟨⟨2, ⟨2, 0, 0⟩, ⟨1, 0, 3, 0, 0, 3⟩⟩, "x"⟩, ⟨⟨3, 0, ⟨2, 0, 2, 0, 0, 2⟩⟩, "y"⟩] J [-1, 0] [0, 1] [-1, 0] [1, 1] rfl rfl rfl
    (by intro i hi
        have : i < 2 := hi
        obtain rfl | rfl : i = 0 ∨ i = 1 := by omega
        all_goals rfl)
    (by intro i p hp
        obtain ⟨hi, -⟩ := List.getElem?_eq_some_iff.1 hp
        have : i < 2 := hi
        obtain rfl | rfl : i = 0 ∨ i = 1 := by omega
        all_goals (cases hp; decide))
    rfl (fun j hj => (hu j hj).built)
  have hr : mb.Rigid := by
    refine ⟨hj ▸ hu, ?_⟩
    rw [hX]; intro X h
    simp only [List.mem_cons, List.not_mem_nil, or_false, or_self] at h
    subst h; exact IsRigid.one
  let q : ℝ → List (List ℝ) := fun s => [[1, 0, 0, 0, s, 0, 2 * s - 5 * s ^ 2], [3 * s]]
  let c : ℝ → MBC ℝ := fun s =>
    { q := q s, alpha := [[0, 0, 0, 1, 0, 2 - 10 * s], [3]], alphaD := [[0, 0, 0, 0, 0, -10], [0]], force := [0, 0], jointConfig := [1, 1],
      jointVelocity := [0, 0], jointTorque := [[0, 0, 0, 0, 0, 0], [0]], motionSubspace := [[0, 0, 0, 0, 0, 0], [0]], bodyPosW := [1, 1],
      parentToSon := [1, 1], bodyVelW := [0, 0], bodyVelB := [0, 0], bodyAccB := [0, 0], gravity := ⟨0, 0, 10⟩ }
  have sz : ∀ s, (c s).Sized mb := by
    intro s
    constructor <;> simp [c, q, SizedQ, SizedDof, hb, hj, J] <;> exact ⟨rfl, rfl⟩
  have hq : ∀ s, ValidQ mb (q s) := by
    intro s
    unfold ValidQ
    rw [hj]
    refine .cons ⟨rfl, ?_⟩ (.cons ⟨rfl, trivial⟩ .nil)
    show (1 : ℝ) * 1 + 0 * 0 + 0 * 0 + 0 * 0 = 1
    norm_num
  choose m₁ m h1 h2 h3 h4 h5 h6 h7 h9 h8 h10 using fun s => C24_velReady wf hr (sz s) (hq s)
  have hpar : mb.par 0 = none ∧ mb.par 1 = some 0 := by
    unfold MultiBody.par
    rw [hp]
    exact ⟨rfl, rfl⟩
  refine ⟨mb, m, Joint.mk' .Free ⟨0, 0, 1⟩ true "a", ⟨[0, 0]⟩, wf, hr, ?_, ?_, ?_, ?_, h4, h3, fun t => ⟨?_, ?_, ?_⟩, fun t => ?_, ?_, rfl, ?_, ?_, ?_, h8, h6⟩
  · intro j h
    rw [hj] at h
    simp only [J, List.mem_cons, List.not_mem_nil, or_false] at h
    rcases h with rfl | rfl <;> exact .inl (by simp [Joint.mk', Joint.isForward])
  · intro i hi
    rw [hp] at hi
    match i with
    | 0 => rfl
    | 1 => simp at hi
    | n + 2 => simp at hi
  · unfold MultiBody.MassOK
    rw [hb]
    simp
  · simp only [MultiBody.totalMass, MultiBody.inertiaAt, hb, Finset.sum_range_succ, List.length_cons, List.length_nil]
    norm_num
  · intro s; show ValidQ mb (m s).q; rw [h5]; exact hq s
  · rw [h6]; exact (sz t).alpha
  · intro i j hij
    simp only [h5, h6]
    rw [hj] at hij
    obtain ⟨hi, -⟩ := List.getElem?_eq_some_iff.1 hij
    have : i < 2 := hi
    obtain rfl | rfl : i = 0 ∨ i = 1 := by omega
    · cases hij
      refine ⟨fun s => rfl, fun k => ?_⟩
      match k with
      | 0 | 1 | 2 | 3 => exact (hasDerivAt_const _ _).congr_deriv (by simp [c, q, coordRate, Joint.mk'])
      | 4 => exact (hasDerivAt_id t).congr_deriv (by simp [c, q, coordRate, Joint.mk', Quat.toRot])
      | 5 => exact (hasDerivAt_const _ _).congr_deriv (by simp [c, q, coordRate, Joint.mk', Quat.toRot])
      | 6 => exact (((hasDerivAt_id t).const_mul 2).sub (((hasDerivAt_id t).pow 2).const_mul 5)).congr_deriv
              (by simp [c, q, coordRate, Joint.mk', Quat.toRot]; ring)
      | n + 7 => exact (hasDerivAt_const _ _).congr_deriv (by simp [c, q, coordRate, Joint.mk'])
    · cases hij
      refine ⟨fun s => rfl, fun k => ?_⟩
      match k with
      | 0 => exact ((hasDerivAt_id t).const_mul 3).congr_deriv (by simp [c, coordRate, Joint.mk'])
      | n + 1 => exact (hasDerivAt_const _ _).congr_deriv (by simp [c, coordRate, Joint.mk'])
  · intro i hi
    simp only [h6, h7]
    have : i < 2 := by rw [hb] at hi; exact hi
    obtain rfl | rfl : i = 0 ∨ i = 1 := by omega
    · refine ⟨fun s => rfl, fun k => ?_⟩
      match k with
      | 0 | 1 | 2 | 3 | 4 => exact (hasDerivAt_const _ _).congr_deriv (by simp [c])
      | 5 => exact (((hasDerivAt_id t).const_mul 10).const_sub 2).congr_deriv (by simp [c])
      | n + 6 => exact (hasDerivAt_const _ _).congr_deriv (by simp [c])
    · refine ⟨fun s => rfl, fun k => ?_⟩
      match k with
      | 0 => exact (hasDerivAt_const _ _).congr_deriv (by simp [c])
      | n + 1 => exact (hasDerivAt_const _ _).congr_deriv (by simp [c])
  · rw [hj]; rfl
  · simp [MultiBody.nrBodies, hb]
  · intro t
    have hqt : ValidQ mb (m t).q := by rw [h5]; exact hq t
    have hl : ∀ i, i < 2 → i < mb.bodies.length := by rw [hb]; exact fun i hi => hi
    have hS : mb.SAt 0 = Joint.mkS 1 .Free ⟨0, 0, 1⟩ ∧ mb.SAt 1 = Joint.mkS 1 .Prism ⟨1, 0, 0⟩ := by
      unfold MultiBody.SAt
      rw [hj]
      exact ⟨rfl, rfl⟩
    have hn : ∀ k ∈ mb.subtree 0, mb.netForceAt (m t).q (m t).alpha (m t).alphaD ⟨0, (m t).gravity⟩ (m t).forceAt k = 0 := by
      intro k hk
      have hk := (MultiBody.mem_subtree.1 hk).1
      have hm0 : mb.jointMotion (m t).alpha 0 = ⟨0, ⟨1, 0, 2 - 10 * t⟩⟩ := by
        simp only [MultiBody.jointMotion, hS.1, h6, c]
        ext <;> simp [applyCols, Joint.mkS]
      have hm1 : mb.jointMotion (m t).alpha 1 = ⟨0, ⟨3, 0, 0⟩⟩ := by
        simp only [MultiBody.jointMotion, hS.2, h6, c]
        ext <;> simp [applyCols, Joint.mkS]
      have hd0 : mb.jointMotion (m t).alphaD 0 = ⟨0, ⟨0, 0, -10⟩⟩ := by
        simp only [MultiBody.jointMotion, hS.1, h7, c]
        ext <;> simp [applyCols, Joint.mkS]
      have hd1 : mb.jointMotion (m t).alphaD 1 = 0 := by
        simp only [MultiBody.jointMotion, hS.2, h7, c]
        ext <;> simp [applyCols, Joint.mkS]
      have hE : (mb.ptsAt (m t).q 0).E = 1 ∧ (mb.ptsAt (m t).q 1).E = 1 := by
        simp only [MultiBody.ptsAt, MultiBody.poseAt, MultiBody.XtAt, h5, hj, hX, J, c, q, List.getElem?_cons_zero, List.getElem?_cons_succ,
          Option.getD_some, Joint.mk', Joint.pose]
        constructor <;> ext <;> simp [Joint.mkS, Except.toOption, rd, Joint.quatToE, PTransform.ofTrans] <;> norm_num
      have hv0 : mb.velAt (m t).q (m t).alpha 0 = ⟨0, ⟨1, 0, 2 - 10 * t⟩⟩ := by
        rw [wf.velAt_none hr hqt _ (hl 0 (by omega)) hpar.1, hm0]
      have hv1 : mb.velAt (m t).q (m t).alpha 1 = ⟨0, ⟨4, 0, 2 - 10 * t⟩⟩ := by
        rw [wf.velAt_some hr hqt _ (hl 1 (by omega)) hpar.2, hv0, hm1]
        ext <;> simp [PTransform.mulMotion, hE.2]
        norm_num
      have ha0 : mb.accAt (m t).q (m t).alpha (m t).alphaD ⟨0, (m t).gravity⟩ 0 = 0 := by
        rw [wf.accAt_none hr hqt _ _ _ (hl 0 (by omega)) hpar.1, hd0, hm0, hv0, h8]
        ext <;> simp [PTransform.mulMotion, hE.1, c, MotionVec.cross]
      have ha1 : mb.accAt (m t).q (m t).alpha (m t).alphaD ⟨0, (m t).gravity⟩ 1 = 0 := by
        rw [wf.accAt_some hr hqt _ _ _ (hl 1 (by omega)) hpar.2, ha0, hd1, hm1, hv1]
        ext <;> simp [PTransform.mulMotion, MotionVec.cross]
      have hf : ∀ k, (m t).forceAt k = 0 := by
        intro k
        unfold MBC.forceAt
        rw [h9]
        match k with
        | 0 | 1 => rfl
        | n + 2 => rfl
      rw [hb] at hk
      have hk : k < 2 := hk
      obtain rfl | rfl : k = 0 ∨ k = 1 := by omega
      · rw [MultiBody.netForceAt, ha0, hv0, hf]
        simp only [MultiBody.inertiaAt, hb]
        ext <;> simp [RBInertia.mulMotion, MotionVec.crossDual, PTransform.dualMul] <;> ring
      · rw [MultiBody.netForceAt, ha1, hv1, hf]
        simp only [MultiBody.inertiaAt, hb]
        ext <;> simp [RBInertia.mulMotion, MotionVec.crossDual, PTransform.dualMul] <;> ring
    refine ⟨_, _, id_eq wf hr (h4 t) hqt (h3 t) (by simp [hb]) rfl, ?_⟩
    simp only [range_map_getElem? (hl 0 (by omega)), MultiBody.project, hS.1, MultiBody.wrenchAt]
    rw [Finset.sum_eq_zero fun k hk => by rw [hn k hk, PTransform.transMul_zero]]
    simp [Joint.mkS, MotionVec.dot, Vec3.dot]
  · intro t k
    rw [h9]
    match k with
    | 0 | 1 => rfl
    | n + 2 => rfl

end RBDyn
