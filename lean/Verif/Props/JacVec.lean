import Verif.Lemmas.JacVec
import Verif.Props.Jacobian

/-! Property C57 (Jacobians of a vector attached to a body). -/

namespace RBDyn
variable {K : Type} [Scalar K] {mb : MultiBody K}
open scoped Mat3

/-- C57: the linear rows of `vectorJacobian` and `vectorBodyJacobian` times the velocities of the path joints are the rate of change of
the vector `u` fixed in the body, with the orientation of the world and of the body. The angular rows are left as they were, and the object
can be used again. -/
theorem C57_vector_jacobians (wf : mb.WF) (hr : mb.Rigid) {mbc : MBC K} (sz : mbc.Sized mb) (hq : ValidQ mb mbc.q) (hv : mbc.VelReady mb)
    {J : Jac K} {N : Nat} {p : Vec3 K} (h : J.Of mb N p) (u : Vec3 K) :
    ∃ (J₁ J₂ : Jac K) (W : PTransform K) (V : MotionVec K), J.vectorJacobian mb mbc u = .ok J₁ ∧ J.vectorBodyJacobian mb mbc u = .ok J₂ ∧
      mbc.bodyPosW[N]? = some W ∧ mbc.bodyVelB[N]? = some V ∧
      (applyCols J₁.jac (pathVec J.path mbc.alpha)).lin = W.E.tr *ᵥ V.ang.cross u ∧
      (applyCols J₂.jac (pathVec J.path mbc.alpha)).lin = V.ang.cross u ∧
      J₁.jac.map (·.ang) = J.jac.map (·.ang) ∧ J₂.jac.map (·.ang) = J.jac.map (·.ang) ∧
      J₁.Of mb N p ∧ J₂.Of mb N p ∧ { J₁ with jac := J.jac } = J ∧ { J₂ with jac := J.jac } = J := by
  refine ⟨_, _, _, _, h.vectorJacobian_eq wf hv.toPosReady u, h.vectorBodyJacobian_eq wf hv.toPosReady u,
    by rw [hv.bodyPosW, range_map_getElem? h.isBody], by rw [hv.bodyVelB, range_map_getElem? h.isBody],
    h.vectorJacobian_apply wf hr hq sz.alpha _ u, h.vectorBodyJacobian_apply wf hr hq sz.alpha _ u,
    ?_, ?_, h.with_jac (linCols_length _ _ _), h.with_jac (linCols_length _ _ _), rfl, rfl⟩
  · dsimp only; exact linCols_ang _ h.jac _
  · dsimp only; exact linCols_ang _ h.jac _

/-- C57 with true derivatives: along every trajectory the linear rows of `vectorJacobian` times `α` are the time derivative of the vector in
the world, and those of `vectorBodyJacobian` are the same derivative seen from the body. -/
theorem C57_vector_derivative {mb : MultiBody ℝ} (wf : mb.WF) (hr : mb.Rigid) (hd : mb.DirOK) {mbc : ℝ → MBC ℝ} {t : ℝ}
    (sz : ∀ s, (mbc s).Sized mb) (hv : ∀ s, (mbc s).PosReady mb) (h : Trajectory mb (fun s => (mbc s).q) (mbc t).alpha t)
    {J : Jac ℝ} {N : Nat} {p : Vec3 ℝ} (hJ : J.Of mb N p) (u : Vec3 ℝ) :
    ∃ (J₁ J₂ : Jac ℝ) (W : ℝ → PTransform ℝ), J.vectorJacobian mb (mbc t) u = .ok J₁ ∧ J.vectorBodyJacobian mb (mbc t) u = .ok J₂ ∧
      (∀ s, (mbc s).bodyPosW[N]? = some (W s)) ∧
      HasDerivVec (fun s => (W s).E.tr *ᵥ u) (applyCols J₁.jac (pathVec J.path (mbc t).alpha)).lin t ∧
      HasDerivVec (fun s => (W s).E.tr *ᵥ u) ((W t).E.tr *ᵥ (applyCols J₂.jac (pathVec J.path (mbc t).alpha)).lin) t := by
  have hq := h.valid t
  have h1 := ((mb.posAt_hasVelocity wf hr hd h hJ.isBody).rot.tr.mulVec (HasDerivVec.const u t))
  have e : (-(Mat3.crossMat (mb.velAt (mbc t).q (mbc t).alpha N).ang * (mb.posAt (mbc t).q N).E)).tr *ᵥ u + (mb.posAt (mbc t).q N).E.tr *ᵥ 0 =
      (mb.posAt (mbc t).q N).E.tr *ᵥ (mb.velAt (mbc t).q (mbc t).alpha N).ang.cross u := by
    ext <;> simp [Mat3.crossMat, Mat3.tr] <;> ring
  refine ⟨_, _, fun s => mb.posAt (mbc s).q N, hJ.vectorJacobian_eq wf (hv t) u, hJ.vectorBodyJacobian_eq wf (hv t) u,
    fun s => by rw [(hv s).bodyPosW, range_map_getElem? hJ.isBody], ?_, ?_⟩
  · dsimp only
    rw [hJ.vectorJacobian_apply wf hr hq (sz t).alpha]
    exact h1.congr e
  · dsimp only
    rw [hJ.vectorBodyJacobian_apply wf hr hq (sz t).alpha]
    exact h1.congr e

/-- The arm of `Sample.real_arm` meets the hypotheses. -/
example : ∃ (mb : MultiBody ℝ) (mbc : ℝ → MBC ℝ) (J : Jac ℝ), mb.WF ∧ mb.Rigid ∧ mb.DirOK ∧ (∀ s, (mbc s).Sized mb) ∧
    (∀ s, (mbc s).PosReady mb) ∧ J.Of mb 1 ⟨1, 2, 3⟩ ∧
    ∀ t, Trajectory mb (fun s => (mbc s).q) (mbc t).alpha t ∧ (mbc t).alpha = [[2 * t], [3]] := by
  obtain ⟨mb, mbc, wf, hr, hd, hb, hs, hv, h⟩ := Sample.real_arm
  obtain ⟨J, hJ⟩ := Jac.exists_of wf (N := 1) (by simp [hb]) ⟨1, 2, 3⟩
  exact ⟨mb, mbc, J, wf, hr, hd, hs, fun s => (hv s).toPosReady, hJ, fun t => ⟨(h t).1, (h t).2.2.1⟩⟩

/-- C57 on the sample robot: the vector `(1, 2, 3)` of the hand; it moves. -/
example : ∃ J J₁ J₂ W V, Jac.mk' (fun _ => ⟨⟨7, 7, 7⟩, 0⟩) Sample.mb "hand" ⟨1, 2, 3⟩ = .ok J ∧
    J.vectorJacobian Sample.mb Sample.mbcV ⟨1, 2, 3⟩ = .ok J₁ ∧ J.vectorBodyJacobian Sample.mb Sample.mbcV ⟨1, 2, 3⟩ = .ok J₂ ∧
    Sample.mbcV.bodyPosW[2]? = some W ∧ Sample.mbcV.bodyVelB[2]? = some V ∧
    (applyCols J₁.jac (pathVec [0, 1, 2] Sample.mbcV.alpha)).lin = W.E.tr *ᵥ V.ang.cross ⟨1, 2, 3⟩ ∧
    W.E.tr *ᵥ V.ang.cross ⟨1, 2, 3⟩ ≠ 0 ∧ (J₁.jac.map (·.ang))[5]? = some ⟨7, 7, 7⟩ := by
  obtain ⟨h1, h2, h3⟩ := Sample.ready
  obtain ⟨J, e, h⟩ := C34_constructor Sample.wf (fun _ => ⟨⟨7, 7, 7⟩, 0⟩) (name := "hand") (N := 2) (by decide +kernel) (by decide +kernel)
    (⟨1, 2, 3⟩ : Vec3 ℚ)
  obtain ⟨J₁, J₂, W, V, e1, e2, hW, hV, hJ, -, ha, -⟩ := C57_vector_jacobians Sample.wf Sample.rigid h2 h3 h1 h ⟨1, 2, 3⟩
  have hp : J.path = [0, 1, 2] := by rw [h.path_eq]; decide +kernel
  refine ⟨J, J₁, J₂, W, V, e, e1, e2, hW, hV, hp ▸ hJ, ?_, ?_⟩
  · have hW' : W = (Sample.mbcV.bodyPosW[2]?).getD 1 := by rw [hW]; rfl
    have hV' : V = (Sample.mbcV.bodyVelB[2]?).getD 0 := by rw [hV]; rfl
    rw [hW', hV']
    decide +kernel
  · rw [ha]
    have : Jac.mk' (fun _ => ⟨⟨7, 7, 7⟩, 0⟩) Sample.mb "hand" ⟨1, 2, 3⟩ = .ok J := e
    have hh : ((Jac.mk' (fun _ => ⟨⟨7, 7, 7⟩, 0⟩) Sample.mb "hand" ⟨1, 2, 3⟩).toOption.map fun J => (J.jac.map (·.ang))[5]?) =
        some (some ⟨7, 7, 7⟩) := by decide +kernel
    rw [this] at hh
    exact Option.some.inj hh

end RBDyn
