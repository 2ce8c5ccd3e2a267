import Verif.Lemmas.CorDeriv
import Verif.Props.Dynamics
import Verif.Props.Kinematics

/-! Property C30. -/

namespace RBDyn
variable {K : Type} [Scalar K] {mb : MultiBody K}
open scoped Mat3

/-- The constructor of `Coriolis` succeeds if every body is found under its name (see C08). -/
theorem C30_constructor (wf : mb.WF)
    (hn : ∀ (i : Nat) (b : Body K), mb.bodies[i]? = some b → mb.sBodyIndexByName b.name = .ok (i : Int))
    (junk : Nat → MotionVec K) (junkM : Nat → Nat → K) : ∃ c, Cor.mk' junk junkM mb = .ok c ∧ c.For mb := Cor.mk'_for wf hn junk junkM

/-- The same configuration without gravity and external forces. -/
def MBC.unloaded (mbc : MBC K) : MBC K := { mbc with gravity := 0, force := mbc.force.map fun _ => 0 }

/-- C30: the matrix of `coriolis` times `alpha` is the bias vector of forward dynamics without gravity and external forces. Bodies must
have positive mass or no first moment of mass. -/
theorem C30_bias (wf : mb.WF) (hr : mb.Rigid) {mbc : MBC K} (sz : mbc.Sized mb) (hq : ValidQ mb mbc.q) (hv : mbc.VelReady mb)
    (hm : ∀ b ∈ mb.bodies, 0 < b.inertia.m ∨ b.inertia.h = 0) {c : Cor K} (hc : c.For mb) {fd : FD K} (hf : fd.Fits mb) :
    ∃ c' fd', c.coriolis mb mbc = .ok c' ∧ c'.For mb ∧ c'.mat.rows = mb.nrDof ∧ c'.mat.cols = mb.nrDof ∧
      fd.computeC mb mbc.unloaded = .ok fd' ∧ fd'.C.length = mb.nrDof ∧
      ∀ r, r < mb.nrDof → fd'.C[r]? = some (c'.mat.mulVecAt mbc.alpha.flatten r) := by
  obtain ⟨c', e, hc', hg⟩ := Cor.coriolis_eq wf hv hc
  have hv0 : mbc.unloaded.VelReady mb := by
    exact { parentToSon := hv.parentToSon, bodyPosW := hv.bodyPosW, motionSubspace := hv.motionSubspace,
            jointVelocity := hv.jointVelocity, bodyVelB := hv.bodyVelB, bodyVelW := hv.bodyVelW }
  obtain ⟨fd', ef, hC, hf', -⟩ := computeC_eq (mbc := mbc.unloaded) wf hr (by simpa [MBC.unloaded] using sz.force) hq hv0 hf
  refine ⟨c', fd', e, hc', hc'.rows, hc'.cols, ef, hf'.C, fun r hr' => ?_⟩
  obtain ⟨i, a, hi, ha, rfl⟩ := wf.exists_segment hr'
  rw [hC i a hi ha, mb.dot_wrenchAt]
  congr 1
  unfold DMat.mulVecAt
  rw [hc'.cols, wf.sum_range_dof]
  have e1 : (mb.dofSum fun j b => c'.mat.get (mb.dofPosAt i + a) (mb.dofPosAt j + b) * mbc.alpha.flatten.getD (mb.dofPosAt j + b) 0) =
      mb.dofSum fun j b => mb.corAt mbc.q mbc.alpha mb.bodies.length i a j b * entry mbc.alpha j b :=
    dofSum_congr fun j b hj hb => by
      rw [hg i a j b hi hj ha hb, List.getD_eq_getElem?_getD, sz.alpha.flatten_getD wf hj hb, Option.getD_some]
  have e2 : (mb.dofSum fun j b => mb.corAt mbc.q mbc.alpha mb.bodies.length i a j b * entry mbc.alpha j b) =
      ∑ k ∈ Finset.range mb.bodies.length, mb.dofSum fun j b => corForm (mb.posAt mbc.q k) (mb.velWAt mbc.q mbc.alpha k).ang (mb.inertiaAt k)
        (mb.corComAt k) (mb.wcol mbc.q k (mb.corComAt k) i a) (mb.wdot mbc.q mbc.alpha k (mb.corComAt k) j b)
        (mb.wcol mbc.q k (mb.corComAt k) j b) * entry mbc.alpha j b := by
    unfold MultiBody.corAt MultiBody.dofSum
    simp only [Finset.sum_mul]
    rw [Finset.sum_comm]
    refine Finset.sum_congr rfl fun j _ => ?_
    rw [Finset.sum_comm]
  rw [e1, e2]
  refine Finset.sum_congr rfl fun k hk => ?_
  rw [Finset.mem_range] at hk
  have hb : mb.bodies[k]? = some mb.bodies[k] := List.getElem?_eq_getElem hk
  have hcom : (mb.inertiaAt k).h = (mb.inertiaAt k).m • mb.corComAt k := by
    have := mb.bodies[k].corCom_spec (hm _ (List.getElem_mem hk))
    simpa [MultiBody.inertiaAt, MultiBody.corComAt, hb] using this
  have hF := fun x => (dofSum_hom (mb := mb) (corHom (mb.posAt mbc.q k) (mb.velWAt mbc.q mbc.alpha k).ang (mb.inertiaAt k)
    (mb.corComAt k) (mb.wcol mbc.q k (mb.corComAt k) i a)).toAddMonoidHom x).symm
  have e3 : (mb.dofSum fun j b => corForm (mb.posAt mbc.q k) (mb.velWAt mbc.q mbc.alpha k).ang (mb.inertiaAt k)
        (mb.corComAt k) (mb.wcol mbc.q k (mb.corComAt k) i a) (mb.wdot mbc.q mbc.alpha k (mb.corComAt k) j b)
        (mb.wcol mbc.q k (mb.corComAt k) j b) * entry mbc.alpha j b) =
      mb.dofSum fun j b => (corHom (mb.posAt mbc.q k) (mb.velWAt mbc.q mbc.alpha k).ang (mb.inertiaAt k)
        (mb.corComAt k) (mb.wcol mbc.q k (mb.corComAt k) i a)).toAddMonoidHom (entry mbc.alpha j b •
          (mb.wdot mbc.q mbc.alpha k (mb.corComAt k) j b, mb.wcol mbc.q k (mb.corComAt k) j b)) :=
    dofSum_congr fun j b _ _ => by
      rw [LinearMap.toAddMonoidHom_coe, map_smul, smul_eq_mul, mul_comm]; rfl
  rw [e3, hF]
  have e4 : (mb.dofSum fun j b => entry mbc.alpha j b •
      (mb.wdot mbc.q mbc.alpha k (mb.corComAt k) j b, mb.wcol mbc.q k (mb.corComAt k) j b)) =
      (pointAcc (mb.posAt mbc.q k) (mb.velAt mbc.q mbc.alpha k) (mb.accAt mbc.q mbc.alpha [] 0 k) (mb.corComAt k),
        pointVel (mb.posAt mbc.q k) (mb.velAt mbc.q mbc.alpha k) (mb.corComAt k)) := by
    ext1
    · rw [← wf.wdot_sum hr hq]
      exact dofSum_hom (LinearMap.fst K (MotionVec K) (MotionVec K)).toAddMonoidHom _
    · rw [← wf.wcol_sum hr hq]
      exact dofSum_hom (LinearMap.snd K (MotionVec K) (MotionVec K)).toAddMonoidHom _
  rw [e4]
  show _ = corForm _ _ _ _ _ _ _
  rw [mb.velWAt_ang, mb.wcol_eq hr hq, corForm_newton (mb.posAt_rigid hr hq k) _ _ hcom]
  congr 1
  have hz : mbc.unloaded.forceAt k = 0 := by
    unfold MBC.forceAt MBC.unloaded
    rw [List.getElem?_map]
    cases mbc.force[k]? <;> rfl
  unfold MultiBody.netForceAt
  rw [hz]
  have : (mb.posAt mbc.unloaded.q k).dualMul 0 = 0 := by ext <;> simp [PTransform.dualMul]
  rw [this, sub_zero]
  rfl

/-- C30: along every trajectory, `C + Cᵀ` is the time derivative of the mass matrix of `computeH` (so `Ḣ - 2 C` is skew). -/
theorem C30_mass_derivative {mb : MultiBody ℝ} (wf : mb.WF) (hr : mb.Rigid) (hd : mb.DirOK) {mbc : ℝ → MBC ℝ} {t : ℝ}
    (hv : ∀ s, (mbc s).VelReady mb) (h : Trajectory mb (fun s => (mbc s).q) (mbc t).alpha t)
    (hm : ∀ b ∈ mb.bodies, 0 < b.inertia.m ∨ b.inertia.h = 0) {c : Cor ℝ} (hc : c.For mb) {fd : FD ℝ} (hf : fd.Fits mb) :
    ∃ (c' : Cor ℝ) (fd' : ℝ → FD ℝ), c.coriolis mb (mbc t) = .ok c' ∧ (∀ s, fd.computeH mb (mbc s) = .ok (fd' s)) ∧
      ∀ r l, r < mb.nrDof → l < mb.nrDof →
        HasDerivAt (fun s => (fd' s).H.get r l) (c'.mat.get r l + c'.mat.get l r) t := by
  obtain ⟨c', e, hc', hg⟩ := Cor.coriolis_eq wf (hv t) hc
  choose fd' ef hH _ _ using fun s => computeH_eq wf hr (h.valid s) (hv s).toPosReady hf
  refine ⟨c', fd', e, ef, fun r l hr' hl' => ?_⟩
  obtain ⟨i, a, hi, ha, rfl⟩ := wf.exists_segment hr'
  obtain ⟨j, b, hj, hb, rfl⟩ := wf.exists_segment hl'
  rw [hg i a j b hi hj ha hb, hg j b i a hj hi hb ha]
  have : (fun s => (fd' s).H.get (mb.dofPosAt i + a) (mb.dofPosAt j + b)) = fun s => mb.massAt (mbc s).q i a j b := by
    funext s
    exact ((hH s).2.2 i a j b hi hj ha hb).1 trivial
  rw [this]
  exact MultiBody.massAt_hasDeriv wf hr hd h hm hi hj a b

/-! ### Hypotheses can be met -/

/-- The sample robot: every body is found under its name and has positive mass. -/
example : ∃ c, Cor.mk' (fun _ => 0) (fun _ _ => 0) Sample.mb = .ok c ∧ c.For Sample.mb := by
  refine C30_constructor Sample.wf (fun i b hb => ?_) _ _
  have hi : i < 4 := (List.getElem?_eq_some_iff.1 hb).1
  obtain rfl | rfl | rfl | rfl : i = 0 ∨ i = 1 ∨ i = 2 ∨ i = 3 := by omega
  all_goals (revert b; decide +kernel)

example : ∀ b ∈ Sample.mb.bodies, 0 < b.inertia.m ∨ b.inertia.h = 0 := by decide +kernel

/-- The arm of `Sample.real_arm` meets the hypotheses of `C30_mass_derivative`, with an off-centre body and non-zero velocities. -/
example : ∃ (mb : MultiBody ℝ) (mbc : ℝ → MBC ℝ), mb.WF ∧ mb.Rigid ∧ mb.DirOK ∧ (∀ s, (mbc s).VelReady mb) ∧
    (∀ t, Trajectory mb (fun s => (mbc s).q) (mbc t).alpha t ∧ (mbc t).alpha = [[2 * t], [3]]) ∧
    (∀ b ∈ mb.bodies, 0 < b.inertia.m ∨ b.inertia.h = 0) ∧ (mb.inertiaAt 0).h = ⟨1, 0, 0⟩ := by
  obtain ⟨mb, mbc, wf, hr, hd, hb, hs, hv, h⟩ := Sample.real_arm
  refine ⟨mb, mbc, wf, hr, hd, hv, fun t => ⟨(h t).1, (h t).2.2.1⟩, ?_, by simp [MultiBody.inertiaAt, hb]⟩
  rw [hb]
  intro b hm
  simp only [List.mem_cons, List.not_mem_nil, or_false] at hm
  rcases hm with rfl | rfl <;> left <;> norm_num

end RBDyn
