import Verif.Lemmas.IS
import Verif.Lemmas.MomDeriv
import Verif.Lemmas.JointDeriv

/-! The derivative of the torques of inverse statics. -/

namespace RBDyn
open scoped Mat3

section algebra
variable {K : Type} [Scalar K]

/-- The first loop as a linear map. -/
def isLocalHom (I : RBInertia K) (W : PTransform K) (g : Vec3 K) (fe : ForceVec K) : MotionVec K →ₗ[K] ForceVec K where
  toFun := isLocal I W g fe
  map_add' v w := by ext <;> simp [isLocal, RBInertia.mulMotion] <;> ring
  map_smul' s v := by ext <;> simp [isLocal, RBInertia.mulMotion] <;> ring

/-- The product with `MJ` as a linear map. -/
def mjHom (X : PTransform K) (f : ForceVec K) : MotionVec K →ₗ[K] ForceVec K where
  toFun := mjMul X f
  map_add' v w := by ext <;> simp [mjMul, Vec3.dot] <;> ring
  map_smul' s v := by ext <;> simp [mjMul, Vec3.dot] <;> ring

/-- The matrix of the first loop is the derivative of the force with respect to the motion of the body. -/
theorem isLocal_eq (I : RBInertia K) {W : PTransform K} (h : IsRigid W) (g : Vec3 K) (fe : ForceVec K) (w v : Vec3 K) :
    isLocal I W g fe ⟨w, v⟩ = I.mulMotion (-(MotionVec.cross ⟨W.E *ᵥ w, W.E *ᵥ v⟩ (W.mulMotion ⟨0, g⟩))) +
      MotionVec.crossDual ⟨W.E *ᵥ w, W.E *ᵥ v⟩ (W.dualMul fe) := by
  have e1 : (⟨(W.E * Mat3.crossMat (0 : Vec3 K)) *ᵥ w,
      (W.E * (-(Mat3.crossMat (Mat3.crossMat W.r *ᵥ (0 : Vec3 K))) + Mat3.crossMat g)) *ᵥ w + (W.E * Mat3.crossMat (0 : Vec3 K)) *ᵥ v⟩ : MotionVec K) =
      -(MotionVec.cross ⟨W.E *ᵥ w, W.E *ᵥ v⟩ (W.mulMotion ⟨0, g⟩)) := by
    ext1
    · simp only [MotionVec.cross, PTransform.mulMotion, MotionVec.neg_ang]
      ext <;> simp
    · simp only [MotionVec.cross, PTransform.mulMotion, MotionVec.neg_lin, ← h.mulVec_cross, ← Mat3.mulVec_add, ← Mat3.mulVec_neg,
        Mat3.mul_mulVec]
      congr 1
      ext <;> simp <;> ring
  have e2 : (⟨(W.E * (Mat3.crossMat fe.couple - Mat3.crossMat (Mat3.crossMat W.r *ᵥ fe.force))) *ᵥ w + (W.E * Mat3.crossMat fe.force) *ᵥ v,
      (W.E * Mat3.crossMat fe.force) *ᵥ w⟩ : ForceVec K) = -(MotionVec.crossDual ⟨W.E *ᵥ w, W.E *ᵥ v⟩ (W.dualMul fe)) := by
    ext1
    · simp only [MotionVec.crossDual, PTransform.dualMul, ForceVec.neg_couple, ← h.mulVec_cross, ← Mat3.mulVec_add, ← Mat3.mulVec_neg,
        Mat3.mul_mulVec]
      congr 1
      ext <;> simp <;> ring
    · simp only [MotionVec.crossDual, PTransform.dualMul, ForceVec.neg_force, ← h.mulVec_cross, ← Mat3.mulVec_neg, Mat3.mul_mulVec]
      congr 1
      ext <;> simp <;> ring
  unfold isLocal
  dsimp only
  rw [e1, e2, sub_neg_eq_add]

/-- For a pure rotation about an axis that the joint leaves fixed, `MJ` is minus the derivative of the transport of the force. -/
theorem mjMul_eq {X : PTransform K} (h : IsRigid X) (f : ForceVec K) {v : MotionVec K} (hl : v.lin = 0) (hw : X.E *ᵥ v.ang = v.ang) :
    mjMul X f v = -X.transMul (v.crossDual f) := by
  have hw' : X.E.tr *ᵥ v.ang = v.ang := by
    conv_lhs => rw [← hw]
    exact IsRot.tr_mulVec h _
  unfold mjMul PTransform.transMul MotionVec.crossDual
  ext1
  · simp only [ForceVec.neg_couple, Mat3.mulVec_add, h.tr_mulVec_cross, hw', hl]
    ext <;> simp [Vec3.dot] <;> ring
  · simp only [ForceVec.neg_force, h.tr_mulVec_cross, hw']
    ext <;> simp <;> ring

end algebra

/-- Derivative of a force vector expressed in a moving frame. -/
theorem HasSpatialVelocity.dualMul {X : ℝ → PTransform ℝ} {v : MotionVec ℝ} {f : ℝ → ForceVec ℝ} {f' : ForceVec ℝ} {t : ℝ}
    (hX : HasSpatialVelocity X v t) (hf : HasDerivForce f f' t) (rX : IsRigid (X t)) :
    HasDerivForce (fun s => (X s).dualMul (f s)) ((X t).dualMul f' - v.crossDual ((X t).dualMul (f t))) t := by
  have hn : ∀ (x : Vec3 ℝ), (-(Mat3.crossMat v.ang * (X t).E)) *ᵥ x = -(v.ang.cross ((X t).E *ᵥ x)) := fun x => by
    rw [Mat3.neg_mulVec, Mat3.mul_mulVec, Mat3.crossMat_mulVec]
  constructor
  · refine (hX.rot.mulVec (hf.couple.sub (hX.trans.cross hf.force))).congr ?_
    simp only [PTransform.dualMul, ForceVec.sub_couple, MotionVec.crossDual, hn, Mat3.mulVec_sub, Mat3.mulVec_add,
      IsRot.mulVec_cross rX, IsRot.mulVec_tr rX]
    abel
  · refine (hX.rot.mulVec hf.force).congr ?_
    simp only [PTransform.dualMul, ForceVec.sub_force, MotionVec.crossDual, hn]
    abel

theorem HasDerivForce.sub {f g : ℝ → ForceVec ℝ} {f' g' : ForceVec ℝ} {t : ℝ} (hf : HasDerivForce f f' t) (hg : HasDerivForce g g' t) :
    HasDerivForce (fun s => f s - g s) (f' - g') t := ⟨hf.couple.sub hg.couple, hf.force.sub hg.force⟩

theorem HasDerivForce.add {f g : ℝ → ForceVec ℝ} {f' g' : ForceVec ℝ} {t : ℝ} (hf : HasDerivForce f f' t) (hg : HasDerivForce g g' t) :
    HasDerivForce (fun s => f s + g s) (f' + g') t := ⟨hf.couple.add hg.couple, hf.force.add hg.force⟩

section tree
variable {mb : MultiBody ℝ}

theorem MultiBody.XtAt_rigid' (mb : MultiBody ℝ) (hr : mb.Rigid) (i : Nat) : IsRigid (mb.XtAt i) := by
  unfold MultiBody.XtAt
  cases h : mb.Xt[i]? with
  | none => exact IsRigid.one
  | some X => exact hr.Xt X (List.mem_of_getElem? h)

/-- The full Jacobian of the origin of body `k` times the velocities is the velocity of the body in world orientation. -/
theorem MultiBody.WF.fullAt_sum (wf : mb.WF) (hr : mb.Rigid) {q : List (List ℝ)} (hq : ValidQ mb q) {α : List (List ℝ)} (ha : SizedDof mb α)
    {J : Jac ℝ} {k : Nat} (h : J.Of mb k 0) :
    ∑ c ∈ Finset.range mb.nrDof, α.flatten.getD c 0 • mb.fullAt q k c = pointVel (mb.posAt q k) (mb.velAt q α k) 0 := by
  have hk : k < mb.bodies.length := h.isBody
  have key : ∀ r, r < 6 → ∑ c ∈ Finset.range mb.nrDof, α.flatten.getD c 0 * (mb.fullAt q k c).toList.getD r 0 =
      (pointVel (mb.posAt q k) (mb.velAt q α k) 0).toList.getD r 0 := by
    intro r h6
    have e : ∀ c, (mb.fullAt q k c).toList.getD r 0 = scat (mb.dofIdx J.path)
        ((DMat.ofCols (mb.jacCols q (.ofTrans (PTransform.ofTrans 0 * mb.posAt q k).r) J.path J.sign)).get r) c := by
      intro c
      rw [h.sign_eq, h.path_eq]
      match r, h6 with
      | 0, _ => rfl
      | 1, _ => rfl
      | 2, _ => rfl
      | 3, _ => rfl
      | 4, _ => rfl
      | 5, _ => rfl
    simp only [e, mul_comm (α.flatten.getD _ 0)]
    rw [mulVec_scat wf ha h.path]
    have := h.apply wf hr hq ha (.ofTrans (PTransform.ofTrans 0 * mb.posAt q k).r)
    rw [ofTrans_mul_inv (mb.posAt_rigid hr hq k)] at this
    rw [pointVel_eq] at this
    rw [← this, ← ofCols_mulVecAt]
    unfold DMat.mulVecAt
    rw [← jacCols_length q (.ofTrans (PTransform.ofTrans (0 : Vec3 ℝ) * mb.posAt q k).r) J.path J.sign]
    rfl
  have row : ∀ (r : Nat), MotionVec.rowHom (K := ℝ) r (∑ c ∈ Finset.range mb.nrDof, α.flatten.getD c 0 • mb.fullAt q k c) =
      ∑ c ∈ Finset.range mb.nrDof, α.flatten.getD c 0 * (mb.fullAt q k c).toList.getD r 0 := by
    intro r
    rw [map_sum]
    exact Finset.sum_congr rfl fun c _ => by rw [map_smul]; rfl
  ext
  · exact (row 0).trans (key 0 (by omega))
  · exact (row 1).trans (key 1 (by omega))
  · exact (row 2).trans (key 2 (by omega))
  · exact (row 3).trans (key 3 (by omega))
  · exact (row 4).trans (key 4 (by omega))
  · exact (row 5).trans (key 5 (by omega))

/-- Derivative of the force on a body, when its Jacobian enters with the opposite sign. -/
theorem MultiBody.isNet_hasDeriv (wf : mb.WF) (hr : mb.Rigid) (hd : mb.DirOK) {q : ℝ → List (List ℝ)} {α : List (List ℝ)} {t : ℝ}
    (h : Trajectory mb q α t) {w : Nat} {β : Nat → ℝ} (hw : mb.nrDof ≤ w) (hβ : ∀ c, c < mb.nrDof → β c = α.flatten.getD c 0)
    {J : Jac ℝ} {k : Nat} (hJ : J.Of mb k 0) (g : Vec3 ℝ) {fe : ℝ → Nat → ForceVec ℝ} {e : FMat ℝ}
    {jac : List (FMat ℝ)} (he : jac[k]? = some e)
    (hfe : HasDerivForce (fun s => fe s k) (if 0 < e.cols then -∑ c ∈ Finset.range w, β c • e.col c else 0) t) :
    HasDerivForce (fun s => mb.isNet (q s) g (fe s) k)
      (∑ c ∈ Finset.range w, β c • mb.isLoc (q t) g (fe t) jac k c) t := by
  have hk : k < mb.bodies.length := hJ.isBody
  have rk := mb.posAt_rigid hr (h.valid t) k
  have hv := mb.posAt_hasVelocity wf hr hd h hk
  have h1 := (hv.mulMotion (HasDerivMotion.const ⟨0, g⟩ t) rk).mulInertia (mb.inertiaAt k)
  have h2 := hv.dualMul hfe rk
  refine (h1.sub h2).congr ?_
  have e1 : ∑ c ∈ Finset.range w, β c • mb.isLoc (q t) g (fe t) jac k c =
      isLocalHom (mb.inertiaAt k) (mb.posAt (q t) k) g (fe t k) (∑ c ∈ Finset.range mb.nrDof, α.flatten.getD c 0 • mb.fullAt (q t) k c) +
      (mb.posAt (q t) k).dualHom (if 0 < e.cols then ∑ c ∈ Finset.range w, β c • e.col c else 0) := by
    have e2 : (mb.posAt (q t) k).dualHom (if 0 < e.cols then ∑ c ∈ Finset.range w, β c • e.col c else 0) =
        ∑ c ∈ Finset.range w, β c • if 0 < e.cols then (mb.posAt (q t) k).dualMul (e.col c) else 0 := by
      split
      · rw [map_sum]
        exact Finset.sum_congr rfl fun c _ => by rw [map_smul]; rfl
      · simp
    have e2' : ∑ c ∈ Finset.range mb.nrDof, α.flatten.getD c 0 • isLocalHom (mb.inertiaAt k) (mb.posAt (q t) k) g (fe t k) (mb.fullAt (q t) k c) =
        ∑ c ∈ Finset.range w, β c • if c < mb.nrDof then isLocalHom (mb.inertiaAt k) (mb.posAt (q t) k) g (fe t k) (mb.fullAt (q t) k c) else 0 := by
      simp only [smul_ite, smul_zero]
      rw [← Finset.sum_filter]
      have : (Finset.range w).filter (fun c => c < mb.nrDof) = Finset.range mb.nrDof := by
        ext c
        rw [Finset.mem_filter, Finset.mem_range, Finset.mem_range]
        omega
      rw [this]
      exact Finset.sum_congr rfl fun c hc => by rw [hβ c (Finset.mem_range.1 hc)]
    rw [e2, map_sum]
    simp only [map_smul]
    rw [e2', ← Finset.sum_add_distrib]
    refine Finset.sum_congr rfl fun c hc => ?_
    rw [← smul_add]
    unfold MultiBody.isLoc
    rw [he]
    rfl
  rw [e1, wf.fullAt_sum hr (h.valid t) h.sized hJ]
  have e3 : isLocalHom (mb.inertiaAt k) (mb.posAt (q t) k) g (fe t k) (pointVel (mb.posAt (q t) k) (mb.velAt (q t) α k) 0) =
      (mb.inertiaAt k).mulMotion (-((mb.velAt (q t) α k).cross ((mb.posAt (q t) k).mulMotion ⟨0, g⟩))) +
      (mb.velAt (q t) α k).crossDual ((mb.posAt (q t) k).dualMul (fe t k)) := by
    unfold pointVel
    refine (isLocal_eq (mb.inertiaAt k) rk g (fe t k) _ _).trans ?_
    simp only [IsRot.mulVec_tr rk, Vec3.cross_zero, add_zero]
  rw [e3]
  have e4 : (mb.posAt (q t) k).mulMotion 0 = 0 := PTransform.mulMotion_zero _
  rw [e4, zero_sub]
  have e5 : (mb.posAt (q t) k).dualMul (if 0 < e.cols then -∑ c ∈ Finset.range w, β c • e.col c else 0) =
      -(mb.posAt (q t) k).dualHom (if 0 < e.cols then ∑ c ∈ Finset.range w, β c • e.col c else 0) := by
    rw [← map_neg]
    split
    · rfl
    · simp
  rw [e5]
  generalize (mb.posAt (q t) k).dualHom _ = A
  generalize (mb.velAt (q t) α k).crossDual _ = B
  generalize (mb.inertiaAt k).mulMotion _ = C
  ext1
  · simp only [ForceVec.add_couple, ForceVec.sub_couple, ForceVec.neg_couple]; abel
  · simp only [ForceVec.add_force, ForceVec.sub_force, ForceVec.neg_force]; abel

/-- The joints for which the second loop is right: pure rotations about an axis that the joint leaves fixed. -/
def MultiBody.Turning (mb : MultiBody ℝ) (q : List (List ℝ)) : Prop :=
  ∀ i, i < mb.bodies.length → mb.par i ≠ none → ∀ v ∈ mb.SAt i, v.lin = 0 ∧ (mb.poseAt q i).E *ᵥ v.ang = v.ang

theorem MultiBody.WF.isUp_sum (wf : mb.WF) (hr : mb.Rigid) {q : List (List ℝ)} (hq : ValidQ mb q) {α : List (List ℝ)} (ha : SizedDof mb α)
    {w : Nat} {β : Nat → ℝ} (hw : mb.nrDof ≤ w) (hβ : ∀ c, c < mb.nrDof → β c = α.flatten.getD c 0)
    (hT : mb.Turning q) (F : Nat → ForceVec ℝ) (D : Nat → ForceVec ℝ) {i : Nat} (hi : i < mb.bodies.length) (hp : mb.par i ≠ none) :
    ∑ c ∈ Finset.range w, β c • mb.isUp q F i D c =
      (mb.ptsAt q i).transMul ((∑ c ∈ Finset.range w, β c • D c) + (mb.jointMotion α i).crossDual (F i)) := by
  unfold MultiBody.isUp
  simp only [smul_sub, Finset.sum_sub_distrib, ← PTransform.transHom_apply]
  simp only [← map_smul]
  rw [← map_sum, map_add, sub_eq_add_neg]
  congr 1
  have hjm : mb.jointMotion α i = ∑ a ∈ Finset.range (mb.dofAt i), entry α i a • (mb.SAt i).getD a 0 :=
    applyCols_eq_sum _ _ _ (wf.SAt_length hi)
  have e : (∑ c ∈ Finset.range w, β c • if mb.dofPosAt i ≤ c ∧ c < mb.dofPosAt i + mb.dofAt i then
      (mb.XtAt i).transHom (mjMul (mb.poseAt q i) (F i) ((mb.SAt i).getD (c - mb.dofPosAt i) 0)) else 0) =
      ∑ a ∈ Finset.range (mb.dofAt i), entry α i a • (mb.XtAt i).transHom (mjMul (mb.poseAt q i) (F i) ((mb.SAt i).getD a 0)) := by
    simp only [smul_ite, smul_zero]
    rw [← Finset.sum_filter]
    have hle := wf.dofPosAt_add_le hi
    symm
    refine Finset.sum_nbij (fun a => mb.dofPosAt i + a) ?_ ?_ ?_ ?_
    · intro a h
      rw [Finset.mem_range] at h
      rw [Finset.mem_filter, Finset.mem_range]
      omega
    · intro a _ b _ h
      dsimp only at h
      omega
    · intro c h
      rw [Finset.mem_coe, Finset.mem_filter, Finset.mem_range] at h
      exact ⟨c - mb.dofPosAt i, by rw [Finset.mem_coe, Finset.mem_range]; omega, by dsimp only; omega⟩
    · intro a h
      rw [Finset.mem_range] at h
      rw [hβ _ (by omega), List.getD_eq_getElem?_getD (l := α.flatten), ha.flatten_getD wf hi h, Option.getD_some, Nat.add_sub_cancel_left]
  rw [e]
  have e2 : ∀ a, a < mb.dofAt i → mjMul (mb.poseAt q i) (F i) ((mb.SAt i).getD a 0) =
      -(mb.poseAt q i).transMul (((mb.SAt i).getD a 0).crossDual (F i)) := by
    intro a h
    rw [← wf.SAt_length hi] at h
    have hm : (mb.SAt i).getD a 0 ∈ mb.SAt i := by
      rw [List.getD_eq_getElem?_getD, List.getElem?_eq_getElem h]; exact List.getElem_mem h
    obtain ⟨h1, h2⟩ := hT i hi hp _ hm
    exact mjMul_eq (mb.poseAt_rigid hr hq i) _ h1 h2
  rw [hjm]
  have e3 : (∑ a ∈ Finset.range (mb.dofAt i), entry α i a • (mb.SAt i).getD a 0).crossDual (F i) =
      ∑ a ∈ Finset.range (mb.dofAt i), entry α i a • ((mb.SAt i).getD a 0).crossDual (F i) := by
    have : ∀ (s : Finset Nat) (g : Nat → MotionVec ℝ), (∑ a ∈ s, g a).crossDual (F i) = ∑ a ∈ s, (g a).crossDual (F i) := by
      intro s g
      exact map_sum (⟨⟨fun v => v.crossDual (F i), by ext <;> simp [MotionVec.crossDual]⟩, fun v w => MotionVec.add_crossDual v w _⟩ : MotionVec ℝ →+ ForceVec ℝ) g s
    rw [this]
    exact Finset.sum_congr rfl fun a _ => MotionVec.smul_crossDual _ _ _
  rw [e3, map_sum, ← Finset.sum_neg_distrib]
  refine Finset.sum_congr rfl fun a ha' => ?_
  rw [e2 a (Finset.mem_range.1 ha'), map_smul, map_neg, smul_neg, neg_neg]
  congr 1
  exact (PTransform.mul_transMul _ _ _ (mb.XtAt_rigid' hr i)).symm

/-- Derivative of the accumulated forces. -/
theorem MultiBody.WF.isSub_hasDeriv (wf : mb.WF) (hr : mb.Rigid) (hd : mb.DirOK) {q : ℝ → List (List ℝ)} {α : List (List ℝ)} {t : ℝ}
    (h : Trajectory mb q α t) {w : Nat} {β : Nat → ℝ} (hw : mb.nrDof ≤ w) (hβ : ∀ c, c < mb.nrDof → β c = α.flatten.getD c 0) (hT : mb.Turning (q t)) {net : ℝ → Nat → ForceVec ℝ} {loc D : Nat → Nat → ForceVec ℝ}
    (hnet : ∀ k, k < mb.bodies.length →
      HasDerivForce (fun s => net s k) (∑ c ∈ Finset.range w, β c • loc k c) t)
    (hD : SubRec mb.par (mb.isUp (q t) (mb.wrenchAt (q t) (net t))) loc D mb.bodies.length) (i : Nat) (hi : i < mb.bodies.length) :
    HasDerivForce (fun s => mb.wrenchAt (q s) (net s) i) (∑ c ∈ Finset.range w, β c • D i c) t := by
  have step : ∀ m i, i < mb.bodies.length → mb.bodies.length - i ≤ m →
      HasDerivForce (fun s => mb.wrenchAt (q s) (net s) i) (∑ c ∈ Finset.range w, β c • D i c) t := by
    intro m
    induction m with
    | zero => intro i h1 h2; omega
    | succ m ih =>
      intro i hi hm
      have hrec : (fun s => mb.wrenchAt (q s) (net s) i) = fun s => net s i + ∑ c ∈ Finset.range mb.bodies.length,
          if mb.par c = some i then (mb.ptsAt (q s) c).transMul (mb.wrenchAt (q s) (net s) c) else 0 := by
        funext s
        rw [wf.wrenchAt_rec hr (h.valid s) (net s) i hi, Finset.sum_filter]
      rw [hrec]
      have hs : HasDerivForce (fun s => ∑ c ∈ Finset.range mb.bodies.length,
          if mb.par c = some i then (mb.ptsAt (q s) c).transMul (mb.wrenchAt (q s) (net s) c) else 0)
          (∑ c ∈ Finset.range mb.bodies.length, if mb.par c = some i then
            ∑ x ∈ Finset.range w, β x • mb.isUp (q t) (mb.wrenchAt (q t) (net t)) c (D c) x else 0) t := by
        refine HasDerivForce.sum fun c hc => ?_
        by_cases hp : mb.par c = some i
        · simp only [if_pos hp]
          have hlt := wf.par_lt _ _ hp
          obtain ⟨j, hj, -⟩ := wf.joint_get hc
          rw [wf.isUp_sum hr (h.valid t) h.sized hw hβ hT _ (D c) hc (by rw [hp]; simp)]
          exact (mb.ptsAt_hasVelocity hr hd h hj).transMul (ih c hc (by omega)) (mb.ptsAt_rigid hr (h.valid t) c)
        · simp only [if_neg hp]
          exact ⟨HasDerivVec.const _ _, HasDerivVec.const _ _⟩
      have := hnet i hi
      refine (this.add hs).congr ?_
      rw [hD i hi]
      simp only [Pi.add_apply, Finset.sum_apply, smul_add, Finset.sum_add_distrib, Finset.smul_sum]
      congr 1
      rw [Finset.sum_comm, Finset.sum_filter]
  exact step _ i hi le_rfl

end tree
end RBDyn
