import Verif.Lemmas.MomDeriv
import Verif.Props.CoM

/-! Property C40 (centroidal momentum). -/

namespace RBDyn
variable {K : Type} [Scalar K] {mb : MultiBody K}
open scoped Mat3

/-- C40: `computeCentroidalMomentum` is the total momentum of the bodies about the point `com`: the linear part is the sum of `m v` over the
centres of mass, the angular part the sum of `(c - com) × m v` and of the angular momenta of the bodies about their own centres of mass
(`v` and `ω` are what the code of `Jacobian` computes as velocity of the centre of mass of the body, see C34). -/
theorem C40_momentum (hr : mb.Rigid) (hm : mb.MassOK) {mbc : MBC K} (hq : ValidQ mb mbc.q) (hv : mbc.VelReady mb) (com : Vec3 K) :
    ∃ (h : ForceVec K) (W : Nat → PTransform K) (V : Nat → MotionVec K) (p : Nat → Vec3 K),
      computeCentroidalMomentum mb mbc com = .ok h ∧
      (∀ k, k < mb.nrBodies → mbc.bodyPosW[k]? = some (W k) ∧ mbc.bodyVelB[k]? = some (V k) ∧
        (mb.inertiaAt k).h = (mb.inertiaAt k).m • p k) ∧
      h.force = ∑ k ∈ Finset.range mb.nrBodies, (mb.inertiaAt k).m • (pointVel (W k) (V k) (p k)).lin ∧
      h.couple = ∑ k ∈ Finset.range mb.nrBodies, ((worldPoint (W k) (p k) - com).cross ((mb.inertiaAt k).m • (pointVel (W k) (V k) (p k)).lin) +
        (mb.inertiaAt k).world (W k) (p k) *ᵥ (pointVel (W k) (V k) (p k)).ang) := by
  refine ⟨_, mb.posAt mbc.q, mb.velAt mbc.q mbc.alpha, mb.corComAt, computeCentroidalMomentum_eq hv com, fun k hk =>
    ⟨by rw [hv.bodyPosW]; exact range_map_getElem? hk, by rw [hv.bodyVelB]; exact range_map_getElem? hk, hm.moment hk⟩, ?_, ?_⟩
  · rw [mb.momentumAt_eq hr hm hq, ForceVec.sum_force]
    rfl
  · rw [mb.momentumAt_eq hr hm hq, ForceVec.sum_couple]
    rfl

/-- C40: the linear momentum is the total mass times the velocity of the centre of mass, whatever the reference point. -/
theorem C40_linear (hr : mb.Rigid) (hm : mb.MassOK) (hM : 0 < mb.totalMass) {mbc : MBC K} (hq : ValidQ mb mbc.q) (hv : mbc.VelReady mb)
    (com : Vec3 K) : ∃ h v, computeCentroidalMomentum mb mbc com = .ok h ∧ computeCoMVelocity mb mbc = .ok v ∧ h.force = mb.totalMass • v := by
  refine ⟨_, _, computeCentroidalMomentum_eq hv com, computeCoMVelocity_eq hm hM hv, ?_⟩
  rw [mb.momentumAt_eq hr hm hq, ForceVec.sum_force]
  unfold MultiBody.comVelAt
  rw [smul_smul, mul_one_div_cancel (ne_of_gt hM), one_smul]

/-- C40: changing the reference point adds the moment of the linear momentum. -/
theorem C40_shift (hr : mb.Rigid) (hm : mb.MassOK) {mbc : MBC K} (hq : ValidQ mb mbc.q) (hv : mbc.VelReady mb) (com com' : Vec3 K) :
    ∃ h h', computeCentroidalMomentum mb mbc com = .ok h ∧ computeCentroidalMomentum mb mbc com' = .ok h' ∧ h'.force = h.force ∧
      h'.couple = h.couple + (com - com').cross h.force := by
  refine ⟨_, _, computeCentroidalMomentum_eq hv com, computeCentroidalMomentum_eq hv com', ?_, ?_⟩
  · rw [mb.momentumAt_eq hr hm hq, mb.momentumAt_eq hr hm hq, ForceVec.sum_force, ForceVec.sum_force]
  · rw [mb.momentumAt_eq hr hm hq, mb.momentumAt_eq hr hm hq, ForceVec.sum_force, ForceVec.sum_couple, ForceVec.sum_couple]
    dsimp only
    have h : ∀ (n : Nat) (a x : Nat → Vec3 K) (c : Vec3 K) (I : Nat → Vec3 K), ∑ k ∈ Finset.range n, ((x k - com').cross (a k) + I k) =
        ∑ k ∈ Finset.range n, ((x k - com).cross (a k) + I k) + (com - com').cross (∑ k ∈ Finset.range n, a k) := by
      intro n a x c I
      induction n with
      | zero => ext <;> simp
      | succ n ih =>
        rw [Finset.sum_range_succ, Finset.sum_range_succ, Finset.sum_range_succ, ih]
        ext <;> simp <;> ring
    exact h _ _ _ 0 _

/-- C40: the constructor succeeds for every vector of weights of the right size, whatever the memory contained, and refuses the others; the
constructor without weights is the one with weights one. -/
theorem C40_constructor (wf : mb.WF) (hn : ∀ (i : Nat) (b : Body K), mb.bodies[i]? = some b → mb.sBodyIndexByName b.name = .ok (i : Int))
    (junk : Nat → MotionVec K) (junkF : Nat → ForceVec K) (junkM : Nat → Nat → K) (w : List K) :
    (w.length = mb.nrBodies → ∃ c, CMM.mk' junk junkF junkM mb w = .ok c ∧ c.For mb w) ∧
    (w.length ≠ mb.nrBodies → CMM.mk' junk junkF junkM mb w = .error .domainError) ∧
    CMM.mkOnes junk junkF junkM mb = CMM.mk' junk junkF junkM mb mb.ones := by
  refine ⟨fun hw => CMM.mk'_for wf hn junk junkF junkM hw, fun hw => ?_, rfl⟩
  obtain ⟨c, e, -⟩ := CMM.mk'_for wf hn junk junkF junkM (w := mb.ones) (by simp [MultiBody.ones])
  unfold CMM.mk' at e ⊢
  dsimp only at e ⊢
  -- the loop does not look at the weights
  have key : ∀ (l : List Nat) (c₀ c₁ : CMM K), l.foldlM (CMM.initStep junk junkF mb) c₀ = .ok c₁ →
      l.foldlM (CMM.initStep junk junkF mb) { c₀ with weight := w } = .ok { c₁ with weight := w } := by
    intro l
    induction l with
    | nil =>
      intro c₀ c₁ h
      cases h
      rfl
    | cons i l ih =>
      intro c₀ c₁ h
      rw [List.foldlM_cons] at h ⊢
      cases hs : CMM.initStep junk junkF mb c₀ i with
      | error x => rw [hs] at h; cases h
      | ok c₂ =>
        rw [hs, Res.bind_ok] at h
        have : CMM.initStep junk junkF mb { c₀ with weight := w } i = .ok { c₂ with weight := w } := by
          unfold CMM.initStep at hs ⊢
          cases hb : rd mb.bodies i with
          | error x => rw [hb] at hs; cases hs
          | ok b =>
            rw [hb, Res.bind_ok] at hs; rw [Res.bind_ok]
            cases hj : Jac.mk' junk mb b.name 0 with
            | error x => rw [hj] at hs; cases hs
            | ok J =>
              rw [hj, Res.bind_ok] at hs; rw [Res.bind_ok]
              cases hp : J.compactPath mb with
              | error x => rw [hp] at hs; cases hs
              | ok P =>
                rw [hp, Res.bind_ok] at hs; rw [Res.bind_ok]
                cases hs
                rfl
        rw [this, Res.bind_ok]
        exact ih _ _ h
  cases hl : (List.range mb.nrBodies).foldlM (CMM.initStep junk junkF mb) ⟨⟨6, mb.nrDof, junkM⟩, ⟨6, mb.nrDof, junkM⟩, [], [], [], mb.ones,
      (List.range mb.nrBodies).map junk⟩ with
  | error x => rw [hl] at e; cases e
  | ok c' =>
    have := key _ _ _ hl
    dsimp only at this
    rw [this, Res.bind_ok]
    dsimp only
    rw [if_pos hw]

/-- C40: the centroidal momentum matrix times `alpha` is `CentroidalMomentumMatrix::momentum`, for all weights and reference points, whatever
the object contained before. -/
theorem C40_matrix (wf : mb.WF) (hr : mb.Rigid) {mbc : MBC K} (sz : mbc.Sized mb) (hq : ValidQ mb mbc.q) (hv : mbc.VelReady mb)
    {w : List K} {c : CMM K} (h : c.For mb w) (com : Vec3 K) :
    ∃ c' m, c.computeMatrix mb mbc com = .ok c' ∧ c'.For mb w ∧ c.momentum mb mbc com = .ok m ∧ c'.cmMat.rows = 6 ∧
      c'.cmMat.cols = mb.nrDof ∧ ∀ r, r < 6 → c'.cmMat.mulVecAt mbc.alpha.flatten r = m.toList.getD r 0 := by
  obtain ⟨c', e, h', -, hg⟩ := h.computeMatrix_eq wf hr hq hv.toPosReady com
  refine ⟨c', _, e, h', h.momentum_eq hv com, h'.init.mat.1, h'.init.mat.2, fun r hr' => ?_⟩
  rw [mulVecAt_dof wf h'.init.mat.2 sz.alpha (fun i a hi ha => hg r i a hr' hi ha), wf.cmCol_sum]

theorem MultiBody.momentumAt_ones (mb : MultiBody K) (q alpha : List (List K)) (com : Vec3 K) :
    mb.momentumAt (fun k => mb.ones.getD k 0) q alpha com = mb.momentumAt (fun _ => 1) q alpha com := by
  unfold MultiBody.momentumAt
  refine Finset.sum_congr rfl fun k hk => ?_
  rw [Finset.mem_range] at hk
  unfold MultiBody.ones
  dsimp only
  rw [List.getD_eq_getElem?_getD, List.getElem?_replicate, if_pos hk, Option.getD_some]

theorem MultiBody.momentumDotAt_ones (mb : MultiBody K) (q alpha : List (List K)) (com comDot : Vec3 K) (A : Nat → MotionVec K) :
    mb.momentumDotAt (fun k => mb.ones.getD k 0) q alpha com comDot A = mb.momentumDotAt (fun _ => 1) q alpha com comDot A := by
  unfold MultiBody.momentumDotAt
  refine Finset.sum_congr rfl fun k hk => ?_
  rw [Finset.mem_range] at hk
  unfold MultiBody.ones
  dsimp only
  rw [List.getD_eq_getElem?_getD, List.getElem?_replicate, if_pos hk, Option.getD_some]

/-- C40: for weights one, the matrix times any vector of joint velocities is what `computeCentroidalMomentum` gives after `forwardVelocity`
with these velocities. -/
theorem C40_matrix_momentum (wf : mb.WF) (hr : mb.Rigid) {mbc : MBC K} (sz : mbc.Sized mb) (hq : ValidQ mb mbc.q) (hv : mbc.PosReady mb)
    {c : CMM K} (h : c.For mb mb.ones) (com : Vec3 K) {v : List (List K)} (hs : SizedDof mb v) :
    ∃ c' m f, c.computeMatrix mb mbc com = .ok c' ∧ forwardVelocity mb { mbc with alpha := v } = .ok m ∧
      computeCentroidalMomentum mb m com = .ok f ∧ ∀ r, r < 6 → c'.cmMat.mulVecAt v.flatten r = f.toList.getD r 0 := by
  obtain ⟨c', e, h', -, hg⟩ := h.computeMatrix_eq wf hr hq hv com
  have szv : ({ mbc with alpha := v } : MBC K).Sized mb := { sz with alpha := hs }
  have hpv : ({ mbc with alpha := v } : MBC K).PosReady mb := { hv with }
  obtain ⟨m, em, -, hmv, hf⟩ := szv.fv wf hr hq hpv
  have hmq : m.q = mbc.q := (congrArg MBC.q hf :)
  have hma : m.alpha = v := (congrArg MBC.alpha hf :)
  refine ⟨c', m, _, e, em, computeCentroidalMomentum_eq hmv com, fun r hr' => ?_⟩
  rw [mulVecAt_dof wf h'.init.mat.2 hs (fun i a hi ha => hg r i a hr' hi ha), wf.cmCol_sum, mb.momentumAt_ones, hmq, hma]

/-- C40: the derivative of the matrix times `alpha` is `normalMomentumDot`, for all weights, and the version that is given the normal
accelerations of the bodies returns the same. -/
theorem C40_matrixDot (wf : mb.WF) (hr : mb.Rigid) {mbc : MBC K} (sz : mbc.Sized mb) (hq : ValidQ mb mbc.q) (hv : mbc.VelReady mb)
    {w : List K} {c : CMM K} (h : c.For mb w) (com comDot : Vec3 K) :
    ∃ c' c'' f, c.computeMatrixDot mb mbc com comDot = .ok c' ∧ c'.For mb w ∧ c.normalMomentumDot mb mbc com comDot = .ok (f, c'') ∧
      c''.For mb w ∧ c.normalMomentumDotOf mb mbc com comDot c''.normalAcc = .ok f ∧ c'.cmMatDot.rows = 6 ∧ c'.cmMatDot.cols = mb.nrDof ∧
      ∀ r, r < 6 → c'.cmMatDot.mulVecAt mbc.alpha.flatten r = f.toList.getD r 0 := by
  obtain ⟨c', e, h', -, hg⟩ := h.computeMatrixDot_eq wf hr hq hv com comDot
  obtain ⟨c'', e2, h'', hn⟩ := h.normalMomentumDot_eq wf hr hq hv com comDot
  refine ⟨c', c'', _, e, h', e2, h'', by rw [hn]; exact h.normalMomentumDotOf_eq hr hq hv com comDot _, h'.init.matDot.1, h'.init.matDot.2,
    fun r hr' => ?_⟩
  rw [mulVecAt_dof wf h'.init.matDot.2 sz.alpha (fun i a hi ha => hg r i a hr' hi ha), wf.cmDotCol_sum hr hq]

/-- C40: for weights one, the matrix times `alphaD` plus the normal momentum rate is what `computeCentroidalMomentumDot` gives after
`forwardAcceleration`. -/
theorem C40_rate (wf : mb.WF) (hr : mb.Rigid) {mbc : MBC K} (sz : mbc.Sized mb) (hq : ValidQ mb mbc.q) (hv : mbc.VelReady mb)
    {c : CMM K} (h : c.For mb mb.ones) (com comDot : Vec3 K) :
    ∃ c' c'' f m g, c.computeMatrix mb mbc com = .ok c' ∧ c.normalMomentumDot mb mbc com comDot = .ok (f, c'') ∧
      forwardAcceleration mb mbc 0 = .ok m ∧ computeCentroidalMomentumDot mb m com comDot = .ok g ∧
      ∀ r, r < 6 → g.toList.getD r 0 = c'.cmMat.mulVecAt mbc.alphaD.flatten r + f.toList.getD r 0 := by
  obtain ⟨c', e, h', -, hg⟩ := h.computeMatrix_eq wf hr hq hv.toPosReady com
  obtain ⟨c'', e2, -, -⟩ := h.normalMomentumDot_eq wf hr hq hv com comDot
  refine ⟨c', c'', _, _, _, e, e2, sz.fa wf hr hq hv 0, computeCentroidalMomentumDot_fa hr hq hv com comDot _,
    fun r hr' => ?_⟩
  rw [mulVecAt_dof wf h'.init.mat.2 sz.alphaD (fun i a hi ha => hg r i a hr' hi ha), wf.cmCol_sum, mb.momentumAt_ones, mb.momentumDotAt_ones,
    wf.momentumDotAt_split, ← ForceVec.rowHom_apply, map_add]
  rfl

/-- C40: `computeMatrixAndMatrixDot` computes what `computeMatrix` and `computeMatrixDot` compute. -/
theorem C40_both (wf : mb.WF) (hr : mb.Rigid) {mbc : MBC K} (hq : ValidQ mb mbc.q) (hv : mbc.VelReady mb) {w : List K} {c : CMM K}
    (h : c.For mb w) (com comDot : Vec3 K) :
    ∃ c₁ c₂ c₃, c.computeMatrix mb mbc com = .ok c₁ ∧ c.computeMatrixDot mb mbc com comDot = .ok c₂ ∧
      c.computeMatrixAndMatrixDot mb mbc com comDot = .ok c₃ ∧ c₃.For mb w ∧
      ∀ r l, r < 6 → l < mb.nrDof → c₃.cmMat.get r l = c₁.cmMat.get r l ∧ c₃.cmMatDot.get r l = c₂.cmMatDot.get r l := by
  obtain ⟨c₁, e1, -, -, g1⟩ := h.computeMatrix_eq wf hr hq hv.toPosReady com
  obtain ⟨c₂, e2, -, -, g2⟩ := h.computeMatrixDot_eq wf hr hq hv com comDot
  obtain ⟨c₃, e3, h3, g3⟩ := h.computeBoth_eq wf hr hq hv com comDot
  refine ⟨c₁, c₂, c₃, e1, e2, e3, h3, fun r l hr' hl => ?_⟩
  obtain ⟨i, a, hi, ha, rfl⟩ := wf.exists_segment hl
  rw [g1 r i a hr' hi ha, g2 r i a hr' hi ha]
  exact g3 r i a hr' hi ha

/-- C40 with true derivatives: along every trajectory of the robot, and for every moving reference point, `computeCentroidalMomentumDot` is
the time derivative of `computeCentroidalMomentum`. -/
theorem C40_rate_is_derivative {mb : MultiBody ℝ} (wf : mb.WF) (hr : mb.Rigid) (hd : mb.DirOK) {mbc : ℝ → MBC ℝ} {t : ℝ}
    (sz : (mbc t).Sized mb) (hv : ∀ s, (mbc s).VelReady mb) (h : Trajectory mb (fun s => (mbc s).q) (mbc t).alpha t)
    (ha : HasDerivDof mb (fun s => (mbc s).alpha) (mbc t).alphaD t) {com : ℝ → Vec3 ℝ} {comDot : Vec3 ℝ} (hc : HasDerivVec com comDot t) :
    ∃ (f : ℝ → ForceVec ℝ) (m : MBC ℝ) (g : ForceVec ℝ), (∀ s, computeCentroidalMomentum mb (mbc s) (com s) = .ok (f s)) ∧
      forwardAcceleration mb (mbc t) 0 = .ok m ∧ computeCentroidalMomentumDot mb m (com t) comDot = .ok g ∧ HasDerivForce f g t :=
  ⟨_, _, _, fun s => computeCentroidalMomentum_eq (hv s) (com s), sz.fa wf hr (h.valid t) (hv t) 0,
    computeCentroidalMomentumDot_fa hr (h.valid t) (hv t) (com t) comDot _, mb.momentumAt_hasDeriv wf hr hd h ha _ hc⟩

/-- C40 with true derivatives: the entries of `cmMatDot` are the time derivatives of the entries of `cmMat`, for all weights. -/
theorem C40_matrixDot_is_derivative {mb : MultiBody ℝ} (wf : mb.WF) (hr : mb.Rigid) (hd : mb.DirOK) {mbc : ℝ → MBC ℝ} {t : ℝ}
    (hv : ∀ s, (mbc s).VelReady mb) (h : Trajectory mb (fun s => (mbc s).q) (mbc t).alpha t) {w : List ℝ} {c : CMM ℝ} (hc : c.For mb w)
    {com : ℝ → Vec3 ℝ} {comDot : Vec3 ℝ} (hcom : HasDerivVec com comDot t) :
    ∃ (c₁ : ℝ → CMM ℝ) (c₂ : CMM ℝ), (∀ s, c.computeMatrix mb (mbc s) (com s) = .ok (c₁ s)) ∧
      c.computeMatrixDot mb (mbc t) (com t) comDot = .ok c₂ ∧
      ∀ r l, r < 6 → l < mb.nrDof → HasDerivAt (fun s => (c₁ s).cmMat.get r l) (c₂.cmMatDot.get r l) t := by
  choose c₁ e1 _ _ g1 using fun s => hc.computeMatrix_eq wf hr (h.valid s) (hv s).toPosReady (com s)
  obtain ⟨c₂, e2, -, -, g2⟩ := hc.computeMatrixDot_eq wf hr (h.valid t) (hv t) (com t) comDot
  refine ⟨c₁, c₂, e1, e2, fun r l hr' hl => ?_⟩
  obtain ⟨i, a, hi, ha, rfl⟩ := wf.exists_segment hl
  rw [g2 r i a hr' hi ha]
  have : (fun s => (c₁ s).cmMat.get r (mb.dofPosAt i + a)) =
      fun s => (mb.cmCol (fun k => w.getD k 0) (mbc s).q (com s) i a).toList.getD r 0 := by
    funext s
    exact g1 s r i a hr' hi ha
  rw [this]
  exact (mb.cmCol_hasDeriv wf hr hd h _ hcom hi a).row r

/-! ### Hypotheses can be met -/

theorem Sample.names (i : Nat) (b : Body ℚ) (hb : Sample.mb.bodies[i]? = some b) : Sample.mb.sBodyIndexByName b.name = .ok (i : Int) := by
  have hi : i < 4 := (List.getElem?_eq_some_iff.1 hb).1
  obtain rfl | rfl | rfl | rfl : i = 0 ∨ i = 1 ∨ i = 2 ∨ i = 3 := by omega
  all_goals (revert b; decide +kernel)

/-- The sample robot with a matrix object and a non-zero momentum. -/
example : Sample.mb.MassOK ∧ 0 < Sample.mb.totalMass ∧ ∃ c f, CMM.mk' (fun _ => 0) (fun _ => 0) (fun _ _ => 3) Sample.mb
    [1, 2, 0, 1] = .ok c ∧ c.For Sample.mb [1, 2, 0, 1] ∧ c.momentum Sample.mb Sample.mbcV ⟨1, 2, 3⟩ = .ok f ∧ f.couple ≠ 0 ∧ f.force ≠ 0 := by
  obtain ⟨c, e, hc⟩ := (C40_constructor Sample.wf Sample.names (fun _ => 0) (fun _ => 0) (fun _ _ => 3) [1, 2, 0, 1]).1 rfl
  exact ⟨by unfold MultiBody.MassOK; decide +kernel, by decide +kernel, c, _, e, hc, hc.momentum_eq Sample.ready.1 _, by decide +kernel,
    by decide +kernel⟩

/-- The arm of `Sample.real_arm` meets the hypotheses of the theorems about derivatives, with its centre of mass as reference point. -/
example : ∃ (mb : MultiBody ℝ) (mbc : ℝ → MBC ℝ), mb.WF ∧ mb.Rigid ∧ mb.DirOK ∧ (∀ s, (mbc s).Sized mb) ∧ (∀ s, (mbc s).VelReady mb) ∧
    ∀ t, Trajectory mb (fun s => (mbc s).q) (mbc t).alpha t ∧ HasDerivDof mb (fun s => (mbc s).alpha) (mbc t).alphaD t ∧
      HasDerivVec (fun s => mb.comAt (mbc s).q) (mb.comVelAt (mbc t).q (mbc t).alpha) t := by
  obtain ⟨mb, mbc, wf, hr, hd, hb, hs, hv, h⟩ := Sample.real_arm
  exact ⟨mb, mbc, wf, hr, hd, hs, hv, fun t => ⟨(h t).1, (h t).2.1, mb.comAt_hasDeriv wf hr hd (h t).1⟩⟩

end RBDyn
