import Verif.Lemmas.CoMDeriv
import Verif.Props.Kinematics

/-! Property C39 (centre of mass). -/

namespace RBDyn
variable {K : Type} [Scalar K] {mb : MultiBody K}
open scoped Mat3

/-- Weights one, as the constructors without weights use. -/
def MultiBody.ones (mb : MultiBody K) : List K := List.replicate mb.bodies.length 1

theorem MultiBody.sum_ones (mb : MultiBody K) (f : Nat → Vec3 K) :
    ∑ k ∈ Finset.range mb.bodies.length, mb.comCoeff mb.ones k • f k =
      (1 / mb.totalMass) • ∑ k ∈ Finset.range mb.bodies.length, (mb.inertiaAt k).m • f k := by
  rw [Finset.smul_sum]
  refine Finset.sum_congr rfl fun k hk => ?_
  rw [Finset.mem_range] at hk
  unfold MultiBody.comCoeff MultiBody.ones
  rw [List.getD_eq_getElem?_getD, List.getElem?_replicate, if_pos hk, Option.getD_some, smul_smul]
  congr 1
  ring

/-- C39: `computeCoM` is the mean of the centres of mass of the bodies (`h = m p` in the frame of the body), weighted with the masses. -/
theorem C39_com (hm : mb.MassOK) (hM : 0 < mb.totalMass) {mbc : MBC K} (hv : mbc.PosReady mb) :
    ∃ (c : Vec3 K) (W : Nat → PTransform K) (p : Nat → Vec3 K), computeCoM mb mbc = .ok c ∧
      (∀ k, k < mb.nrBodies → mbc.bodyPosW[k]? = some (W k) ∧ (mb.inertiaAt k).h = (mb.inertiaAt k).m • p k) ∧
      mb.totalMass • c = ∑ k ∈ Finset.range mb.nrBodies, (mb.inertiaAt k).m • worldPoint (W k) (p k) := by
  refine ⟨_, mb.posAt mbc.q, mb.corComAt, computeCoM_eq hm hM hv,
    fun k hk => ⟨by rw [hv.bodyPosW]; exact range_map_getElem? hk, hm.moment hk⟩, ?_⟩
  unfold MultiBody.comAt
  rw [smul_smul, mul_one_div_cancel (ne_of_gt hM), one_smul]
  rfl

/-- A negative or zero total mass fails the assertion. -/
theorem C39_no_mass {mbc : MBC K} (hm : mb.MassOK) (hM : ¬ 0 < mb.totalMass) (hv : mbc.PosReady mb) : computeCoM mb mbc = .error .ub := by
  unfold computeCoM
  rw [foldlM_range_sum _ (fun k => ((mb.inertiaAt k).m • worldPoint (mb.posAt mbc.q k) (mb.corComAt k), (mb.inertiaAt k).m))]
  · simp only [Res.bind_ok, Prod.fst_add, Prod.snd_add, Prod.fst_sum, Prod.snd_sum, zero_add]
    rw [if_neg (by exact hM)]
  · intro i hi s
    obtain ⟨b, e, hI, -, -⟩ := mb.rd_bodies hi
    have hh := hm.moment hi
    simp only [e, Res.bind_ok, hv.rd_pos hi, Res.pure_eq, ← hI, hh]
    congr 2
    ext <;> simp [worldPoint, PTransform.ofTrans] <;> ring

/-- C39: both constructors succeed, for every vector of weights of the right size, whatever the memory contained
(`CoMJacobianDummy` looks the bodies up by name, see C08). -/
theorem C39_constructor (wf : mb.WF) (junkV : Nat → MotionVec K) (junkK : Nat → K) (junkX : Nat → PTransform K) (junkC : Nat → Vec3 K)
    (junkM : Nat → Nat → K) {w : List K} (hw : w.length = mb.nrBodies) :
    (∃ c, CoMJac.mk' junkV junkK junkX junkC mb w = .ok c ∧ c.For mb w) ∧
    ((∀ (i : Nat) (b : Body K), mb.bodies[i]? = some b → mb.sBodyIndexByName b.name = .ok (i : Int)) →
      ∃ c, CoMDummy.mk' junkV junkM mb w = .ok c ∧ c.For mb w) ∧
    ∀ (c : CoMJac K) (w' : List K), c.For mb w' → ∃ c', c.setWeight mb w = .ok c' ∧ c'.For mb w :=
  ⟨CoMJac.mk'_for wf junkV junkK junkX junkC hw, fun hn => CoMDummy.mk'_for wf hn junkV junkM hw, fun _ _ h => h.setWeight hw⟩

/-- The constructors without weights are those with weights one; weights of any other size are refused. -/
theorem C39_constructor_default (junkV : Nat → MotionVec K) (junkK : Nat → K) (junkX : Nat → PTransform K) (junkC : Nat → Vec3 K)
    (junkM : Nat → Nat → K) (w : List K) :
    CoMJac.mkOnes junkV junkK junkX junkC mb = CoMJac.mk' junkV junkK junkX junkC mb mb.ones ∧
    CoMDummy.mkOnes junkV junkM mb = CoMDummy.mk' junkV junkM mb mb.ones ∧
    (w.length ≠ mb.nrBodies → CoMJac.mk' junkV junkK junkX junkC mb w = .error .domainError) := by
  refine ⟨rfl, rfl, fun h => ?_⟩
  unfold CoMJac.mk'
  dsimp only
  rw [if_pos h]

/-- C39: `CoMJacobian::jacobian` times `alpha` is `CoMJacobian::velocity`, for all weights. -/
theorem C39_jacobian (wf : mb.WF) (hr : mb.Rigid) {mbc : MBC K} (sz : mbc.Sized mb) (hq : ValidQ mb mbc.q) (hv : mbc.VelReady mb)
    {w : List K} {c : CoMJac K} (h : c.For mb w) :
    ∃ c' v, c.jacobian mb mbc = .ok c' ∧ c'.For mb w ∧ c.velocity mb mbc = .ok v ∧ c'.jac.length = mb.nrDof ∧
      colsMul c'.jac mbc.alpha.flatten = v := by
  obtain ⟨c', e, h', -, hg⟩ := h.jacobian_eq wf hv.toPosReady
  refine ⟨c', _, e, h', h.velocity_eq hv, h'.jac, ?_⟩
  rw [colsMul_dof wf h'.jac sz.alpha hg, wf.comCol_sum hr hq]

/-- C39: for weights one, `CoMJacobian::jacobian` times any vector of joint velocities is what `computeCoMVelocity` gives after
`forwardVelocity` with these velocities. -/
theorem C39_velocity (wf : mb.WF) (hr : mb.Rigid) (hm : mb.MassOK) (hM : 0 < mb.totalMass) {mbc : MBC K} (sz : mbc.Sized mb)
    (hq : ValidQ mb mbc.q) (hv : mbc.PosReady mb) {c : CoMJac K} (h : c.For mb mb.ones) {v : List (List K)} (hs : SizedDof mb v) :
    ∃ c' m, c.jacobian mb mbc = .ok c' ∧ forwardVelocity mb { mbc with alpha := v } = .ok m ∧
      computeCoMVelocity mb m = .ok (colsMul c'.jac v.flatten) := by
  obtain ⟨c', e, h', -, hg⟩ := h.jacobian_eq wf hv
  have szv : ({ mbc with alpha := v } : MBC K).Sized mb := { sz with alpha := hs }
  have hpv : ({ mbc with alpha := v } : MBC K).PosReady mb := { hv with }
  obtain ⟨m, em, -, hmv, hf⟩ := szv.fv wf hr hq hpv
  have hmq : m.q = mbc.q := (congrArg MBC.q hf :)
  have hma : m.alpha = v := (congrArg MBC.alpha hf :)
  refine ⟨c', m, e, em, ?_⟩
  rw [computeCoMVelocity_eq hm hM hmv, colsMul_dof wf h'.jac hs hg, wf.comCol_sum hr hq, mb.sum_ones, hmq, hma]
  rfl

/-- C39: `CoMJacobianDummy` and `CoMJacobian` give the same matrices, for all weights. -/
theorem C39_dummy (wf : mb.WF) (hM : 0 < mb.totalMass) {mbc : MBC K} (hv : mbc.VelReady mb) {w : List K} {c : CoMJac K}
    (h : c.For mb w) {d : CoMDummy K} (hd : d.For mb w) :
    ∃ c₁ c₂ d₁ d₂, c.jacobian mb mbc = .ok c₁ ∧ c.jacobianDot mb mbc = .ok c₂ ∧ d.jacobian mb mbc = .ok d₁ ∧
      d.jacobianDot mb mbc = .ok d₂ ∧ d₁.jac.rows = 3 ∧ d₁.jac.cols = c₁.jac.length ∧ d₂.jacDot.rows = 3 ∧
      d₂.jacDot.cols = c₂.jacDot.length ∧ ∀ r l, r < 3 → l < mb.nrDof → d₁.jac.get r l = ((c₁.jac.getD l 0).toList).getD r 0 ∧
        d₂.jacDot.get r l = ((c₂.jacDot.getD l 0).toList).getD r 0 := by
  obtain ⟨c₁, e1, h1, -, g1⟩ := h.jacobian_eq wf hv.toPosReady
  obtain ⟨c₂, e2, h2, -, g2⟩ := h.jacobianDot_eq wf hv
  obtain ⟨d₁, e3, h3, -, g3⟩ := hd.jacobian_eq wf hM hv.toPosReady
  obtain ⟨d₂, e4, h4, -, g4⟩ := hd.jacobianDot_eq wf hM hv
  refine ⟨c₁, c₂, d₁, d₂, e1, e2, e3, e4, h3.1.jac.1, by rw [h3.1.jac.2, h1.jac], h4.1.jacDot.1, by rw [h4.1.jacDot.2, h2.jacDot],
    fun r l hr hl => ?_⟩
  obtain ⟨i, a, hi, ha, rfl⟩ := wf.exists_segment hl
  rw [g1 i a hi ha, g2 i a hi ha, g3 r i a hr hi ha, g4 r i a hr hi ha]
  exact ⟨rfl, rfl⟩

/-- C39: `CoMJacobian::jacobianDot` times `alpha` is `CoMJacobian::normalAcceleration`, for all weights, and the version that is given the
normal accelerations of the bodies returns the same. -/
theorem C39_jacobianDot (wf : mb.WF) (hr : mb.Rigid) {mbc : MBC K} (sz : mbc.Sized mb) (hq : ValidQ mb mbc.q) (hv : mbc.VelReady mb)
    {w : List K} {c : CoMJac K} (h : c.For mb w) :
    ∃ c' c'' a, c.jacobianDot mb mbc = .ok c' ∧ c'.For mb w ∧ c.normalAcceleration mb mbc = .ok (a, c'') ∧ c''.For mb w ∧
      colsMul c'.jacDot mbc.alpha.flatten = a ∧ c.normalAccelerationOf mb mbc c''.normalAcc = .ok a := by
  obtain ⟨c', e, h', -, hg⟩ := h.jacobianDot_eq wf hv
  have hf : CoMJac.For mb w { c with normalAcc := (List.range mb.bodies.length).map (mb.accAt mbc.q mbc.alpha [] 0) } :=
    ⟨h.jac, h.jacDot, h.coeff, h.com, h.sub, h.comWorld, h.comVelB, by simp, h.weight, h.weights, h.subs⟩
  refine ⟨c', { c with normalAcc := (List.range mb.bodies.length).map (mb.accAt mbc.q mbc.alpha [] 0) }, _, e, h', ?_, hf, ?_,
    h.normalAccOf_eq hr hq hv _⟩
  · unfold CoMJac.normalAcceleration
    rw [RBDyn.normalAcc_eq wf hr hq hv h.normalAcc, Res.bind_ok]
    dsimp only
    rw [hf.normalAccOf_eq hr hq hv, Res.bind_ok]
    rfl
  · rw [colsMul_dof wf h'.jacDot sz.alpha hg, wf.comDotCol_sum hr hq]

/-- C39: for weights one, `J αD` plus the normal acceleration is what `computeCoMAcceleration` gives after `forwardAcceleration`. -/
theorem C39_acceleration (wf : mb.WF) (hr : mb.Rigid) (hm : mb.MassOK) (hM : 0 < mb.totalMass) {mbc : MBC K} (sz : mbc.Sized mb)
    (hq : ValidQ mb mbc.q) (hv : mbc.VelReady mb) {c : CoMJac K} (h : c.For mb mb.ones) :
    ∃ c' c'' a m, c.jacobian mb mbc = .ok c' ∧ c.normalAcceleration mb mbc = .ok (a, c'') ∧ forwardAcceleration mb mbc 0 = .ok m ∧
      computeCoMAcceleration mb m = .ok (colsMul c'.jac mbc.alphaD.flatten + a) := by
  obtain ⟨c', e, h', -, hg⟩ := h.jacobian_eq wf hv.toPosReady
  obtain ⟨c'', -, -, -, e2⟩ := h.normalAcc_eq wf hr hq hv
  refine ⟨c', c'', _, _, e, e2, sz.fa wf hr hq hv 0, ?_⟩
  rw [computeCoMAcceleration_fa hr hm hM mbc hq hv, colsMul_dof wf h'.jac sz.alphaD hg, wf.comCol_sum hr hq, mb.sum_ones, mb.sum_ones]
  unfold MultiBody.comAccAt
  rw [← smul_add, ← Finset.sum_add_distrib]
  congr 2
  refine Finset.sum_congr rfl fun k _ => ?_
  rw [wf.accAt_split, pointAcc_add, ← smul_add, add_comm]
  rfl

/-- C39 with true derivatives: along every trajectory `computeCoMVelocity` is the time derivative of `computeCoM`. -/
theorem C39_velocity_is_derivative {mb : MultiBody ℝ} (wf : mb.WF) (hr : mb.Rigid) (hd : mb.DirOK) (hm : mb.MassOK) (hM : 0 < mb.totalMass)
    {mbc : ℝ → MBC ℝ} {t : ℝ} (hv : ∀ s, (mbc s).VelReady mb) (h : Trajectory mb (fun s => (mbc s).q) (mbc t).alpha t) :
    ∃ (c : ℝ → Vec3 ℝ) (v : Vec3 ℝ), (∀ s, computeCoM mb (mbc s) = .ok (c s)) ∧ computeCoMVelocity mb (mbc t) = .ok v ∧ HasDerivVec c v t :=
  ⟨_, _, fun s => computeCoM_eq hm hM (hv s).toPosReady, computeCoMVelocity_eq hm hM (hv t), mb.comAt_hasDeriv wf hr hd h⟩

/-- C39 with true derivatives: along every trajectory `computeCoMAcceleration` is the time derivative of `computeCoMVelocity`. -/
theorem C39_acceleration_is_derivative {mb : MultiBody ℝ} (wf : mb.WF) (hr : mb.Rigid) (hd : mb.DirOK) (hm : mb.MassOK)
    (hM : 0 < mb.totalMass) {mbc : ℝ → MBC ℝ} {t : ℝ} (sz : (mbc t).Sized mb) (hv : ∀ s, (mbc s).VelReady mb)
    (h : Trajectory mb (fun s => (mbc s).q) (mbc t).alpha t) (ha : HasDerivDof mb (fun s => (mbc s).alpha) (mbc t).alphaD t) :
    ∃ (v : ℝ → Vec3 ℝ) (m : MBC ℝ) (a : Vec3 ℝ), (∀ s, computeCoMVelocity mb (mbc s) = .ok (v s)) ∧
      forwardAcceleration mb (mbc t) 0 = .ok m ∧ computeCoMAcceleration mb m = .ok a ∧ HasDerivVec v a t := by
  exact ⟨_, _, _, fun s => computeCoMVelocity_eq hm hM (hv s), sz.fa wf hr (h.valid t) (hv t) 0,
    computeCoMAcceleration_fa hr hm hM (mbc t) (h.valid t) (hv t) _, mb.comVelAt_hasDeriv wf hr hd h ha⟩

/-- C39 with true derivatives: along every trajectory the columns of `jacobianDot` are the time derivatives of the columns of `jacobian`. -/
theorem C39_jacobianDot_is_derivative {mb : MultiBody ℝ} (wf : mb.WF) (hr : mb.Rigid) (hd : mb.DirOK) {mbc : ℝ → MBC ℝ} {t : ℝ}
    (hv : ∀ s, (mbc s).VelReady mb) (h : Trajectory mb (fun s => (mbc s).q) (mbc t).alpha t) {w : List ℝ} {c : CoMJac ℝ} (hc : c.For mb w) :
    ∃ (c₁ : ℝ → CoMJac ℝ) (c₂ : CoMJac ℝ), (∀ s, c.jacobian mb (mbc s) = .ok (c₁ s)) ∧ c.jacobianDot mb (mbc t) = .ok c₂ ∧
      ∀ l, l < mb.nrDof → HasDerivVec (fun s => (c₁ s).jac.getD l 0) (c₂.jacDot.getD l 0) t := by
  choose c₁ e1 _ _ g1 using fun s => hc.jacobian_eq wf (hv s).toPosReady
  obtain ⟨c₂, e2, -, -, g2⟩ := hc.jacobianDot_eq wf (hv t)
  refine ⟨c₁, c₂, e1, e2, fun l hl => ?_⟩
  obtain ⟨i, a, hi, ha, rfl⟩ := wf.exists_segment hl
  rw [g2 i a hi ha]
  have : (fun s => (c₁ s).jac.getD (mb.dofPosAt i + a) 0) = fun s => mb.comCol w (mbc s).q i a := by
    funext s
    exact g1 s i a hi ha
  rw [this]
  exact mb.comCol_hasDeriv wf hr hd h w hi a

/-! ### Hypotheses can be met -/

/-- The sample robot: positive masses, and weights that are not all one. -/
example : Sample.mb.MassOK ∧ 0 < Sample.mb.totalMass ∧ ∃ c d v, CoMJac.mk' (fun _ => 0) (fun _ => 7) (fun _ => 1) (fun _ => ⟨1, 2, 3⟩) Sample.mb
    [1, 2, 0, 1] = .ok c ∧ c.For Sample.mb [1, 2, 0, 1] ∧ CoMDummy.mk' (fun _ => 0) (fun _ _ => 3) Sample.mb [1, 2, 0, 1] = .ok d ∧
    d.For Sample.mb [1, 2, 0, 1] ∧ c.velocity Sample.mb Sample.mbcV = .ok v ∧ v ≠ 0 := by
  obtain ⟨⟨c, e, hc⟩, h2, -⟩ := C39_constructor Sample.wf (fun _ => 0) (fun _ => 7) (fun _ => 1) (fun _ => ⟨1, 2, 3⟩) (fun _ _ => 3)
    (w := [1, 2, 0, 1]) rfl
  obtain ⟨d, e', hd⟩ := h2 (by
    intro i b hb
    have hi : i < 4 := (List.getElem?_eq_some_iff.1 hb).1
    obtain rfl | rfl | rfl | rfl : i = 0 ∨ i = 1 ∨ i = 2 ∨ i = 3 := by omega
    all_goals (revert b; decide +kernel))
  refine ⟨by unfold MultiBody.MassOK; decide +kernel, by decide +kernel, c, d, _, e, hc, e', hd, hc.velocity_eq Sample.ready.1, ?_⟩
  decide +kernel

/-- The arm of `Sample.real_arm` meets the hypotheses of the theorems about derivatives. -/
example : ∃ (mb : MultiBody ℝ) (mbc : ℝ → MBC ℝ), mb.WF ∧ mb.Rigid ∧ mb.DirOK ∧ mb.MassOK ∧ 0 < mb.totalMass ∧
    (∀ s, (mbc s).Sized mb) ∧ (∀ s, (mbc s).VelReady mb) ∧
    (∀ t, Trajectory mb (fun s => (mbc s).q) (mbc t).alpha t ∧ HasDerivDof mb (fun s => (mbc s).alpha) (mbc t).alphaD t ∧
      (mbc t).alpha = [[2 * t], [3]]) ∧ (mb.inertiaAt 0).h = ⟨1, 0, 0⟩ := by
  obtain ⟨mb, mbc, wf, hr, hd, hb, hs, hv, h⟩ := Sample.real_arm
  refine ⟨mb, mbc, wf, hr, hd, ?_, ?_, hs, hv, fun t => ⟨(h t).1, (h t).2.1, (h t).2.2.1⟩, by simp [MultiBody.inertiaAt, hb]⟩
  · unfold MultiBody.MassOK
    rw [hb]
    intro b hm
    simp only [List.mem_cons, List.not_mem_nil, or_false] at hm
    rcases hm with rfl | rfl <;> left <;> norm_num
  · unfold MultiBody.totalMass
    simp [MultiBody.inertiaAt, hb, Finset.sum_range_succ]
    norm_num

end RBDyn
