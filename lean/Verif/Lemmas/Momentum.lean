import Verif.Lemmas.CoMJac
import Verif.Model.Momentum

/-! Centroidal momentum and the centroidal momentum matrix. -/

namespace RBDyn
variable {K : Type} [Scalar K] {mb : MultiBody K}
open scoped Mat3

/-- The frame of body pose `W` seen from the frame at `com` with the orientation of the world. -/
theorem comFrame_inv (W : PTransform K) (com : Vec3 K) :
    (W * PTransform.ofTrans (-com)).inv = PTransform.ofTrans com * W.inv := by
  ext1
  · simp [PTransform.ofTrans, PTransform.inv]
  · simp only [PTransform.mul_r, PTransform.mul_E, PTransform.ofTrans, PTransform.inv, Mat3.tr_tr]
    ext <;> simp <;> ring

theorem comFrame_rigid {W : PTransform K} (h : IsRigid W) (com : Vec3 K) : IsRigid (W * PTransform.ofTrans (-com)) := h.mul (ofTrans_rigid _)

/-- Moving a force vector from the frame of the body to the centroidal frame, as `jacProjector` does it. -/
theorem comFrame_dualMul {W : PTransform K} (h : IsRigid W) (com : Vec3 K) (f : ForceVec K) :
    (PTransform.ofTrans com * W.inv).dualMul f = (W * PTransform.ofTrans (-com)).transMul f := by
  rw [← comFrame_inv, PTransform.dualMul_eq _ (comFrame_rigid h com).inv, PTransform.inv_inv _ (comFrame_rigid h com)]

/-- Momentum about `com` of a body in pose `W`, as a linear function of its velocity. -/
def momHom (W : PTransform K) (com : Vec3 K) (I : RBInertia K) : MotionVec K →ₗ[K] ForceVec K where
  toFun v := (W * PTransform.ofTrans (-com)).transMul (I.mulMotion v)
  map_add' v w := by rw [RBInertia.mulMotion_add, PTransform.transMul_add]
  map_smul' s v := by rw [RBInertia.mulMotion_smul, PTransform.transMul_smul]; rfl

theorem momHom_apply (W : PTransform K) (com : Vec3 K) (I : RBInertia K) (v : MotionVec K) :
    momHom W com I v = (W * PTransform.ofTrans (-com)).transMul (I.mulMotion v) := rfl

/-- Rate of the momentum, as a linear function of velocity and acceleration (`V` is the velocity of the body). -/
def momDotHom (W : PTransform K) (com comDot : Vec3 K) (I : RBInertia K) (V : MotionVec K) : MotionVec K × MotionVec K →ₗ[K] ForceVec K where
  toFun v := (W * PTransform.ofTrans (-com)).transMul (V.crossDual (I.mulMotion v.1)) -
    (⟨0, comDot⟩ : MotionVec K).crossDual (momHom W com I v.1) + momHom W com I v.2
  map_add' v w := by
    simp only [Prod.fst_add, Prod.snd_add, map_add, RBInertia.mulMotion_add, MotionVec.crossDual_add, PTransform.transMul_add]
    abel
  map_smul' s v := by
    simp only [Prod.smul_fst, Prod.smul_snd, map_smul, RBInertia.mulMotion_smul, MotionVec.smul_crossDual, MotionVec.crossDual_smul,
      PTransform.transMul_smul, RingHom.id_apply, smul_add, smul_sub]

theorem momDotHom_apply (W : PTransform K) (com comDot : Vec3 K) (I : RBInertia K) (V : MotionVec K) (v d : MotionVec K) :
    momDotHom W com comDot I V (v, d) = (W * PTransform.ofTrans (-com)).transMul (V.crossDual (I.mulMotion v)) -
    (⟨0, comDot⟩ : MotionVec K).crossDual (momHom W com I v) + momHom W com I d := rfl

theorem momentumDotTerm_eq {W : PTransform K} (h : IsRigid W) (I : RBInertia K) (V A : MotionVec K) (com comDot : Vec3 K) :
    momentumDotTerm W I V A com comDot = momDotHom W com comDot I V (V, A) := by
  unfold momentumDotTerm
  dsimp only
  rw [comFrame_inv, comFrame_dualMul h, comFrame_dualMul h, momDotHom_apply]
  rfl

/-- Row `r` of a force vector, as a linear map. -/
def ForceVec.rowHom (r : Nat) : ForceVec K →ₗ[K] K where
  toFun v := v.toList.getD r 0
  map_add' v w := by rcases r with _ | _ | _ | _ | _ | _ | r <;> simp [ForceVec.toList]
  map_smul' s v := by rcases r with _ | _ | _ | _ | _ | _ | r <;> simp [ForceVec.toList]

theorem ForceVec.rowHom_apply (r : Nat) (f : ForceVec K) : ForceVec.rowHom r f = f.toList.getD r 0 := rfl

/-! ### Momentum of the bodies -/

/-- Momentum of all bodies about `com`, with weights. -/
def MultiBody.momentumAt (mb : MultiBody K) (w : Nat → K) (q alpha : List (List K)) (com : Vec3 K) : ForceVec K :=
  ∑ k ∈ Finset.range mb.bodies.length, w k • momHom (mb.posAt q k) com (mb.inertiaAt k) (mb.velAt q alpha k)

/-- Rate of the momentum of all bodies about `com`, with weights, for accelerations `A` of the bodies. -/
def MultiBody.momentumDotAt (mb : MultiBody K) (w : Nat → K) (q alpha : List (List K)) (com comDot : Vec3 K) (A : Nat → MotionVec K) : ForceVec K :=
  ∑ k ∈ Finset.range mb.bodies.length, w k • momDotHom (mb.posAt q k) com comDot (mb.inertiaAt k) (mb.velAt q alpha k) (mb.velAt q alpha k, A k)

theorem computeCentroidalMomentum_eq {mbc : MBC K} (hv : mbc.VelReady mb) (com : Vec3 K) :
    computeCentroidalMomentum mb mbc com = .ok (mb.momentumAt (fun _ => 1) mbc.q mbc.alpha com) := by
  unfold computeCentroidalMomentum
  rw [foldlM_range_sum _ (fun k => momHom (mb.posAt mbc.q k) com (mb.inertiaAt k) (mb.velAt mbc.q mbc.alpha k)), zero_add]
  · unfold MultiBody.momentumAt
    simp only [one_smul]
    rfl
  · intro i hi s
    have hi : i < mb.bodies.length := hi
    obtain ⟨b, e, hI, -, -⟩ := mb.rd_bodies hi
    simp only [e, Res.bind_ok, hv.rd_vB hi, hv.rd_pos hi, Res.pure_eq, hI]
    rfl

theorem computeCentroidalMomentumDot_eq (hr : mb.Rigid) {mbc : MBC K} (hq : ValidQ mb mbc.q) (hv : mbc.VelReady mb) (com comDot : Vec3 K)
    (A : Nat → MotionVec K) (hA : mbc.bodyAccB = (List.range mb.bodies.length).map A) :
    computeCentroidalMomentumDot mb mbc com comDot = .ok (mb.momentumDotAt (fun _ => 1) mbc.q mbc.alpha com comDot A) := by
  unfold computeCentroidalMomentumDot
  rw [foldlM_range_sum _ (fun k => momDotHom (mb.posAt mbc.q k) com comDot (mb.inertiaAt k) (mb.velAt mbc.q mbc.alpha k)
    (mb.velAt mbc.q mbc.alpha k, A k)), zero_add]
  · unfold MultiBody.momentumDotAt
    simp only [one_smul]
    rfl
  · intro i hi s
    have hi : i < mb.bodies.length := hi
    obtain ⟨b, e, hI, -, -⟩ := mb.rd_bodies hi
    have ea : rd mbc.bodyAccB i = .ok (A i) := by rw [hA]; exact rd_of_getElem? (range_map_getElem? hi)
    simp only [e, Res.bind_ok, hv.rd_vB hi, hv.rd_pos hi, ea, Res.pure_eq, hI, momentumDotTerm_eq (mb.posAt_rigid hr hq i)]

theorem computeCentroidalMomentumDot_fa (hr : mb.Rigid) {mbc : MBC K} (hq : ValidQ mb mbc.q) (hv : mbc.VelReady mb) (com comDot : Vec3 K)
    (A : Nat → MotionVec K) :
    computeCentroidalMomentumDot mb { mbc with bodyAccB := (List.range mb.bodies.length).map A } com comDot =
      .ok (mb.momentumDotAt (fun _ => 1) mbc.q mbc.alpha com comDot A) :=
  computeCentroidalMomentumDot_eq (mbc := { mbc with bodyAccB := (List.range mb.bodies.length).map A }) hr hq (hv.withAcc _) com comDot A rfl

/-! ### The class `CentroidalMomentumMatrix` -/

/-- The first `n` bodies have been treated by `init`. -/
structure CMM.Until (mb : MultiBody K) (w : List K) (c : CMM K) (n : Nat) : Prop where
  mat : c.cmMat.rows = 6 ∧ c.cmMat.cols = mb.nrDof
  matDot : c.cmMatDot.rows = 6 ∧ c.cmMatDot.cols = mb.nrDof
  jacs : c.jacVec.length = n
  blks : c.blocks.length = n
  works : c.jacWork.length = n
  jac : ∀ (k : Nat) (J : Jac K), c.jacVec[k]? = some J → J.Of mb k 0
  path : ∀ (k : Nat) (J : Jac K) (P : List Blk), c.jacVec[k]? = some J → c.blocks[k]? = some P → J.compactPath mb = .ok P
  weight : c.weight = w
  normalAcc : c.normalAcc.length = mb.bodies.length

/-- A `CentroidalMomentumMatrix` object that belongs to the robot. -/
structure CMM.For (mb : MultiBody K) (w : List K) (c : CMM K) : Prop where
  init : CMM.Until mb w c mb.bodies.length
  weights : w.length = mb.bodies.length

theorem CMM.mk'_for (wf : mb.WF) (hn : ∀ (i : Nat) (b : Body K), mb.bodies[i]? = some b → mb.sBodyIndexByName b.name = .ok (i : Int))
    (junk : Nat → MotionVec K) (junkF : Nat → ForceVec K) (junkM : Nat → Nat → K) {w : List K} (hw : w.length = mb.bodies.length) :
    ∃ c, CMM.mk' junk junkF junkM mb w = .ok c ∧ c.For mb w := by
  unfold CMM.mk'
  dsimp only
  refine (foldlM_range_inv (CMM.initStep junk junkF mb) (fun n c => CMM.Until mb w c n) mb.nrBodies
    ⟨⟨6, mb.nrDof, junkM⟩, ⟨6, mb.nrDof, junkM⟩, [], [], [], w, (List.range mb.nrBodies).map junk⟩ ?_ ?_).elim ?_
  · exact ⟨⟨rfl, rfl⟩, ⟨rfl, rfl⟩, rfl, rfl, rfl, by simp, by simp, rfl, by simp [MultiBody.nrBodies]⟩
  · intro i c hi h
    have hi : i < mb.bodies.length := hi
    have hb : mb.bodies[i]? = some mb.bodies[i] := List.getElem?_eq_getElem hi
    obtain ⟨J, e, hJ⟩ := Jac.mk'_of wf junk (hn i _ hb) hi 0
    obtain ⟨P, eP, -⟩ := J.compactPath_eq wf hJ.path hJ.path_ne
    refine ⟨{ c with
      jacVec := (c.jacVec ++ [J]), blocks := (c.blocks ++ [P]), jacWork := (c.jacWork ++ [(List.range J.dof).map junkF]) }, ?_, ?_⟩
    · simp only [CMM.initStep, rd_ok hi, Res.bind_ok, e, eP, Res.pure_eq]
    · refine ⟨h.mat, h.matDot, by simp [h.jacs], by simp [h.blks], by simp [h.works], ?_, ?_, h.weight, h.normalAcc⟩
      · intro k J' hJ'
        rcases getElem?_snoc hJ' with hk | ⟨rfl, rfl⟩
        · exact h.jac k J' hk
        · rw [h.jacs]
          exact hJ
      · intro k J' P' hJ' hP'
        rcases getElem?_snoc hJ' with hk | ⟨rfl, rfl⟩
        · rcases getElem?_snoc hP' with hk' | ⟨rfl, rfl⟩
          · exact h.path k J' P' hk hk'
          · rw [h.blks, List.getElem?_eq_none (by rw [h.jacs])] at hk
            cases hk
        · rcases getElem?_snoc hP' with hk' | ⟨_, rfl⟩
          · rw [h.jacs, List.getElem?_eq_none (by rw [h.blks])] at hk'
            cases hk'
          · exact eP
  · rintro c ⟨e, h⟩
    rw [e, Res.bind_ok, if_neg (by rw [h.weight, hw]; exact fun h => h rfl)]
    exact ⟨c, rfl, h, hw⟩

/-- Accumulating a block of columns. -/
theorem addBlocks_force (wf : mb.WF) {J : Jac K} {N : Nat} {p : Vec3 K} (hJ : J.Of mb N p) {P : List Blk} (hP : J.compactPath mb = .ok P)
    (L L' : Nat → MotionVec K →ₗ[K] MotionVec K) (F : MotionVec K × MotionVec K →ₗ[K] ForceVec K) {cols : List (ForceVec K)}
    (hl : cols.length = (J.path.map mb.dofAt).sum)
    (hc : ∀ c, cols.getD c 0 = F ((mb.homCols J.path L).getD c 0, (mb.homCols J.path L').getD c 0)) {m : DMat K}
    (hm : m.rows = 6 ∧ m.cols = mb.nrDof) :
    ∃ m', addFullBlocks P (DMat.ofForceCols cols) m = .ok m' ∧ (m'.rows = 6 ∧ m'.cols = mb.nrDof) ∧
      ∀ r i a, r < 6 → i < mb.bodies.length → a < mb.dofAt i → m'.get r (mb.dofPosAt i + a) =
        m.get r (mb.dofPosAt i + a) + ForceVec.rowHom r (F (mb.pathCol L N i a, mb.pathCol L' N i a)) := by
  obtain ⟨P', eP, h1, -⟩ := J.blocks_eq wf hJ.path hJ.path_ne
  rw [hP, Except.ok.injEq] at eP
  subst eP
  rw [h1 _ _ hm.2.ge hm.1.ge (by exact hl.ge), J.addFullJacobian_eq wf hJ.path hm.2.ge hm.1.ge (by exact hl.ge)]
  refine ⟨_, rfl, hm, fun r i a hr hi ha => ?_⟩
  dsimp only
  rw [if_pos (by exact hr)]
  congr 1
  rw [← scat_homCols₂ wf hJ L L' (fun u v => ForceVec.rowHom r (F (u, v))) (by
    have : ((0 : MotionVec K), (0 : MotionVec K)) = 0 := rfl
    rw [this, map_zero, map_zero]) hi ha]
  congr 1
  funext c
  show (cols.getD c 0).toList.getD r 0 = _
  rw [hc]
  rfl

/-- Column of the body Jacobian. -/
theorem pathCol_body {q : List (List K)} (k i a : Nat) :
    mb.pathCol (fun i => (mb.toPoint q k 0 i).motionHom) k i a = mb.colAt q k i a := by
  have e : (PTransform.ofTrans (0 : Vec3 K)) = 1 := rfl
  unfold MultiBody.pathCol MultiBody.colAt MultiBody.toPoint
  simp only [e, PTransform.one_mul']
  rfl

/-- Column of the derivative of the body Jacobian. -/
def MultiBody.bdotAt (mb : MultiBody K) (q alpha : List (List K)) (k i a : Nat) : MotionVec K := mb.pathCol (mb.bdotHom q alpha k 0) k i a

/-- Column `a` of joint `i` of the centroidal momentum matrix. -/
def MultiBody.cmCol (mb : MultiBody K) (w : Nat → K) (q : List (List K)) (com : Vec3 K) (i a : Nat) : ForceVec K :=
  ∑ k ∈ Finset.range mb.bodies.length, w k • momHom (mb.posAt q k) com (mb.inertiaAt k) (mb.colAt q k i a)

/-- Column `a` of joint `i` of the derivative of the centroidal momentum matrix. -/
def MultiBody.cmDotCol (mb : MultiBody K) (w : Nat → K) (q alpha : List (List K)) (com comDot : Vec3 K) (i a : Nat) : ForceVec K :=
  ∑ k ∈ Finset.range mb.bodies.length, w k •
    momDotHom (mb.posAt q k) com comDot (mb.inertiaAt k) (mb.velAt q alpha k) (mb.colAt q k i a, mb.bdotAt q alpha k i a)

theorem CMM.For.rd_weight {w : List K} {c : CMM K} (h : c.For mb w) {k : Nat} (hk : k < mb.bodies.length) : rd c.weight k = .ok (w.getD k 0) := by
  have : k < w.length := by rw [h.weights]; exact hk
  rw [h.init.weight, rd_ok this, List.getD_eq_getElem?_getD, List.getElem?_eq_getElem this]
  rfl

/-- Replacing the work space of a body and the matrices. -/
theorem CMM.For.replace {w : List K} {c : CMM K} (h : c.For mb w) {i : Nat} (hi : i < mb.bodies.length) {J₀ J : Jac K}
    (h0 : c.jacVec[i]? = some J₀) (hJ : J.Of mb i 0) (hp : J.path = J₀.path) (work : List (ForceVec K)) {m m' : DMat K}
    (hm : m.rows = 6 ∧ m.cols = mb.nrDof) (hm' : m'.rows = 6 ∧ m'.cols = mb.nrDof) :
    CMM.For mb w { c with
      cmMat := m, cmMatDot := m', jacVec := (c.jacVec.set i J), jacWork := (c.jacWork.set i work) } := by
  refine ⟨⟨hm, hm', by simp [h.init.jacs], h.init.blks, by simp [h.init.works], fun k J' hJ' => ?_, fun k J' P hJ' hP => ?_, h.init.weight,
    h.init.normalAcc⟩, h.weights⟩
  · rcases eq_or_ne i k with rfl | hne
    · dsimp only at hJ'
      rw [List.getElem?_set_self (by rw [h.init.jacs]; exact hi), Option.some.injEq] at hJ'
      subst hJ'
      exact hJ
    · dsimp only at hJ'
      rw [List.getElem?_set_ne hne] at hJ'
      exact h.init.jac k J' hJ'
  · rcases eq_or_ne i k with rfl | hne
    · dsimp only at hJ' hP
      rw [List.getElem?_set_self (by rw [h.init.jacs]; exact hi), Option.some.injEq] at hJ'
      subst hJ'
      rw [← h.init.path i J₀ P h0 hP]
      unfold Jac.compactPath
      rw [hp]
    · dsimp only at hJ' hP
      rw [List.getElem?_set_ne hne] at hJ'
      exact h.init.path k J' P hJ' hP

theorem getD_map_zero {M M' : Type} [Zero M] [Zero M'] (l : List M) (f : M → M') (hf : f 0 = 0) (c : Nat) :
    (l.map f).getD c 0 = f (l.getD c 0) := by
  rw [List.getD_eq_getElem?_getD, List.getD_eq_getElem?_getD, List.getElem?_map]
  cases l[c]? <;> simp [hf]

theorem getD_zipWith_zero {M M' M'' : Type} [Zero M] [Zero M'] [Zero M''] (l : List M) (l' : List M') (hl : l.length = l'.length)
    (f : M → M' → M'') (hf : f 0 0 = 0) (c : Nat) : (List.zipWith f l l').getD c 0 = f (l.getD c 0) (l'.getD c 0) := by
  rw [List.getD_eq_getElem?_getD, List.getD_eq_getElem?_getD, List.getD_eq_getElem?_getD, List.getElem?_zipWith]
  rcases Nat.lt_or_ge c l.length with h | h
  · rw [List.getElem?_eq_getElem h, List.getElem?_eq_getElem (by omega)]
    rfl
  · rw [List.getElem?_eq_none h, List.getElem?_eq_none (by omega)]
    exact hf.symm

section steps
variable {mbc : MBC K} {w : List K}

/-- The columns added to the matrix for body `i`. -/
theorem workCols_eq (hr : mb.Rigid) (hq : ValidQ mb mbc.q) (path : List Nat) (com : Vec3 K) (i : Nat) (x : K)
    (L L' : Nat → MotionVec K →ₗ[K] MotionVec K) (c : Nat) :
    ((mb.homCols path L).map fun v => x • jacProjector (PTransform.ofTrans com * (mb.posAt mbc.q i).inv) (mb.inertiaAt i) v).getD c 0 =
      (x • (momHom (mb.posAt mbc.q i) com (mb.inertiaAt i) ∘ₗ LinearMap.fst K _ _)) ((mb.homCols path L).getD c 0, (mb.homCols path L').getD c 0) := by
  have h : ∀ v, jacProjector (PTransform.ofTrans com * (mb.posAt mbc.q i).inv) (mb.inertiaAt i) v =
      momHom (mb.posAt mbc.q i) com (mb.inertiaAt i) v := fun v => comFrame_dualMul (mb.posAt_rigid hr hq i) com _
  simp only [h]
  rw [getD_map_zero _ _ (by rw [map_zero, smul_zero])]
  rfl

theorem dotCols_eq (hr : mb.Rigid) (hq : ValidQ mb mbc.q) (path : List Nat) (com comDot : Vec3 K) (i : Nat) (x : K) (V : MotionVec K)
    (L L' : Nat → MotionVec K →ₗ[K] MotionVec K) :
    ∃ cols, cmmDotCols x (PTransform.ofTrans com * (mb.posAt mbc.q i).inv) (mb.inertiaAt i) V ⟨0, comDot⟩ (mb.homCols path L)
      (mb.homCols path L') = .ok cols ∧ cols.length = (path.map mb.dofAt).sum ∧
      ∀ c, cols.getD c 0 = (x • momDotHom (mb.posAt mbc.q i) com comDot (mb.inertiaAt i) V)
        ((mb.homCols path L).getD c 0, (mb.homCols path L').getD c 0) := by
  have hl : (mb.homCols path L').length = (mb.homCols path L).length := by rw [homCols_length, homCols_length]
  have h := mb.posAt_rigid hr hq i
  unfold cmmDotCols
  rw [if_pos hl]
  refine ⟨_, rfl, by rw [List.length_zipWith, hl, min_self, homCols_length], fun c => ?_⟩
  have e : ∀ d v, x • jacProjector (PTransform.ofTrans com * (mb.posAt mbc.q i).inv) (mb.inertiaAt i) d +
      x • jacProjectorDot (PTransform.ofTrans com * (mb.posAt mbc.q i).inv) (mb.inertiaAt i) V ⟨0, comDot⟩ v =
      (x • momDotHom (mb.posAt mbc.q i) com comDot (mb.inertiaAt i) V) (v, d) := by
    intro d v
    unfold jacProjector jacProjectorDot
    rw [comFrame_dualMul h, comFrame_dualMul h, comFrame_dualMul h, LinearMap.smul_apply, momDotHom_apply, ← smul_add, add_comm]
    rfl
  simp only [e]
  rw [getD_zipWith_zero _ _ hl]
  exact map_zero _

/-- One step of `computeMatrix`. -/
theorem CMM.For.matStep_eq (wf : mb.WF) (hr : mb.Rigid) (hq : ValidQ mb mbc.q) (hv : mbc.PosReady mb) {c : CMM K} (h : c.For mb w)
    (com : Vec3 K) {k : Nat} (hk : k < mb.bodies.length) :
    ∃ c', CMM.matStep mb mbc com c k = .ok c' ∧ c'.For mb w ∧ c'.cmMatDot = c.cmMatDot ∧
      ∀ r i a, r < 6 → i < mb.bodies.length → a < mb.dofAt i → c'.cmMat.get r (mb.dofPosAt i + a) = c.cmMat.get r (mb.dofPosAt i + a) +
        ForceVec.rowHom r (w.getD k 0 • momHom (mb.posAt mbc.q k) com (mb.inertiaAt k) (mb.colAt mbc.q k i a)) := by
  have b1 : k < c.jacVec.length := by rw [h.init.jacs]; exact hk
  have b2 : k < c.blocks.length := by rw [h.init.blks]; exact hk
  have b3 : k < c.jacWork.length := by rw [h.init.works]; exact hk
  obtain ⟨b, eb, hI, -, -⟩ := mb.rd_bodies hk
  have h1 : c.jacVec[k]? = some c.jacVec[k] := List.getElem?_eq_getElem b1
  have hJ := h.init.jac k _ h1
  have hP := h.init.path k _ _ h1 (List.getElem?_eq_getElem b2)
  have eJ := hJ.bodyJacobian_eq wf hv
  rw [jacCols_eq_homCols hJ] at eJ
  obtain ⟨m, em, hm, hg⟩ := addBlocks_force wf hJ hP (fun i => (mb.toPoint mbc.q k 0 i).motionHom) (fun i => (mb.toPoint mbc.q k 0 i).motionHom)
    (w.getD k 0 • (momHom (mb.posAt mbc.q k) com (mb.inertiaAt k) ∘ₗ LinearMap.fst K _ _))
    (by rw [List.length_map, homCols_length]) (workCols_eq hr hq _ com k _ _ _) h.init.mat
  refine ⟨_, ?_, h.replace hk h1 (hJ.with_jac (jac := mb.homCols c.jacVec[k].path fun i => (mb.toPoint mbc.q k 0 i).motionHom)
    (homCols_length _ _)) rfl ((mb.homCols c.jacVec[k].path fun i => (mb.toPoint mbc.q k 0 i).motionHom).map fun v =>
      w.getD k 0 • jacProjector (PTransform.ofTrans com * (mb.posAt mbc.q k).inv) (mb.inertiaAt k) v) hm h.init.matDot, rfl,
    fun r i a hr' hi ha => ?_⟩
  · simp only [MultiBody.toPoint] at em
    simp only [CMM.matStep, rd_ok b1, Res.bind_ok, eJ, hv.rd_pos hk, h.rd_weight hk, eb, ← hI, rd_ok b2, em, wr_ok b1, wr_ok b3, Res.pure_eq]
    rfl
  · dsimp only
    rw [hg r i a hr' hi ha, pathCol_body]
    rfl

/-- One step of `computeMatrixDot`. -/
theorem CMM.For.matDotStep_eq (wf : mb.WF) (hr : mb.Rigid) (hq : ValidQ mb mbc.q) (hv : mbc.VelReady mb) {c : CMM K} (h : c.For mb w)
    (com comDot : Vec3 K) {k : Nat} (hk : k < mb.bodies.length) :
    ∃ c', CMM.matDotStep mb mbc com comDot c k = .ok c' ∧ c'.For mb w ∧ c'.cmMat = c.cmMat ∧
      ∀ r i a, r < 6 → i < mb.bodies.length → a < mb.dofAt i → c'.cmMatDot.get r (mb.dofPosAt i + a) =
        c.cmMatDot.get r (mb.dofPosAt i + a) + ForceVec.rowHom r (w.getD k 0 • momDotHom (mb.posAt mbc.q k) com comDot (mb.inertiaAt k)
          (mb.velAt mbc.q mbc.alpha k) (mb.colAt mbc.q k i a, mb.bdotAt mbc.q mbc.alpha k i a)) := by
  have b1 : k < c.jacVec.length := by rw [h.init.jacs]; exact hk
  have b2 : k < c.blocks.length := by rw [h.init.blks]; exact hk
  have b3 : k < c.jacWork.length := by rw [h.init.works]; exact hk
  obtain ⟨b, eb, hI, -, -⟩ := mb.rd_bodies hk
  have h1 : c.jacVec[k]? = some c.jacVec[k] := List.getElem?_eq_getElem b1
  have hJ := h.init.jac k _ h1
  have hP := h.init.path k _ _ h1 (List.getElem?_eq_getElem b2)
  have eJ := hJ.bodyJacobian_eq wf hv.toPosReady
  rw [jacCols_eq_homCols hJ] at eJ
  have hJ' := hJ.with_jac (jac := mb.homCols c.jacVec[k].path fun i => (mb.toPoint mbc.q k 0 i).motionHom) (homCols_length _ _)
  have eJ' := hJ'.bodyJacobianDot_eq wf hv
  dsimp only at eJ'
  obtain ⟨cols, ec, hcl, hcc⟩ := dotCols_eq hr hq c.jacVec[k].path com comDot k (w.getD k 0) (mb.velAt mbc.q mbc.alpha k)
    (fun i => (mb.toPoint mbc.q k 0 i).motionHom) (mb.bdotHom mbc.q mbc.alpha k 0)
  obtain ⟨m, em, hm, hg⟩ := addBlocks_force wf hJ hP (fun i => (mb.toPoint mbc.q k 0 i).motionHom) (mb.bdotHom mbc.q mbc.alpha k 0)
    (w.getD k 0 • momDotHom (mb.posAt mbc.q k) com comDot (mb.inertiaAt k) (mb.velAt mbc.q mbc.alpha k)) hcl hcc h.init.matDot
  refine ⟨_, ?_, h.replace hk h1 (hJ'.with_jacDot (jac := mb.homCols c.jacVec[k].path (mb.bdotHom mbc.q mbc.alpha k 0))
    (homCols_length _ _)) rfl cols h.init.mat hm, rfl, fun r i a hr' hi ha => ?_⟩
  · simp only [MultiBody.toPoint] at ec eJ'
    simp only [CMM.matDotStep, rd_ok b1, Res.bind_ok, eJ, eJ', hv.rd_pos hk, hv.rd_vB hk, h.rd_weight hk, eb, ← hI, rd_ok b2, ec, em, wr_ok b1,
      wr_ok b3, Res.pure_eq]
    rfl
  · dsimp only
    rw [hg r i a hr' hi ha, pathCol_body]
    rfl

/-- One step of `computeMatrixAndMatrixDot`. -/
theorem CMM.For.matBothStep_eq (wf : mb.WF) (hr : mb.Rigid) (hq : ValidQ mb mbc.q) (hv : mbc.VelReady mb) {c : CMM K} (h : c.For mb w)
    (com comDot : Vec3 K) {k : Nat} (hk : k < mb.bodies.length) :
    ∃ c', CMM.matBothStep mb mbc com comDot c k = .ok c' ∧ c'.For mb w ∧
      (∀ r i a, r < 6 → i < mb.bodies.length → a < mb.dofAt i → c'.cmMat.get r (mb.dofPosAt i + a) = c.cmMat.get r (mb.dofPosAt i + a) +
        ForceVec.rowHom r (w.getD k 0 • momHom (mb.posAt mbc.q k) com (mb.inertiaAt k) (mb.colAt mbc.q k i a))) ∧
      ∀ r i a, r < 6 → i < mb.bodies.length → a < mb.dofAt i → c'.cmMatDot.get r (mb.dofPosAt i + a) =
        c.cmMatDot.get r (mb.dofPosAt i + a) + ForceVec.rowHom r (w.getD k 0 • momDotHom (mb.posAt mbc.q k) com comDot (mb.inertiaAt k)
          (mb.velAt mbc.q mbc.alpha k) (mb.colAt mbc.q k i a, mb.bdotAt mbc.q mbc.alpha k i a)) := by
  have b1 : k < c.jacVec.length := by rw [h.init.jacs]; exact hk
  have b2 : k < c.blocks.length := by rw [h.init.blks]; exact hk
  have b3 : k < c.jacWork.length := by rw [h.init.works]; exact hk
  obtain ⟨b, eb, hI, -, -⟩ := mb.rd_bodies hk
  have h1 : c.jacVec[k]? = some c.jacVec[k] := List.getElem?_eq_getElem b1
  have hJ := h.init.jac k _ h1
  have hP := h.init.path k _ _ h1 (List.getElem?_eq_getElem b2)
  have eJ := hJ.bodyJacobian_eq wf hv.toPosReady
  rw [jacCols_eq_homCols hJ] at eJ
  have hJ' := hJ.with_jac (jac := mb.homCols c.jacVec[k].path fun i => (mb.toPoint mbc.q k 0 i).motionHom) (homCols_length _ _)
  have eJ' := hJ'.bodyJacobianDot_eq wf hv
  dsimp only at eJ'
  obtain ⟨m, em, hm, hg⟩ := addBlocks_force wf hJ hP (fun i => (mb.toPoint mbc.q k 0 i).motionHom) (fun i => (mb.toPoint mbc.q k 0 i).motionHom)
    (w.getD k 0 • (momHom (mb.posAt mbc.q k) com (mb.inertiaAt k) ∘ₗ LinearMap.fst K _ _))
    (by rw [List.length_map, homCols_length]) (workCols_eq hr hq _ com k _ _ _) h.init.mat
  obtain ⟨cols, ec, hcl, hcc⟩ := dotCols_eq hr hq c.jacVec[k].path com comDot k (w.getD k 0) (mb.velAt mbc.q mbc.alpha k)
    (fun i => (mb.toPoint mbc.q k 0 i).motionHom) (mb.bdotHom mbc.q mbc.alpha k 0)
  obtain ⟨m', em', hm', hg'⟩ := addBlocks_force wf hJ hP (fun i => (mb.toPoint mbc.q k 0 i).motionHom) (mb.bdotHom mbc.q mbc.alpha k 0)
    (w.getD k 0 • momDotHom (mb.posAt mbc.q k) com comDot (mb.inertiaAt k) (mb.velAt mbc.q mbc.alpha k)) hcl hcc h.init.matDot
  refine ⟨_, ?_, h.replace hk h1 (hJ'.with_jacDot (jac := mb.homCols c.jacVec[k].path (mb.bdotHom mbc.q mbc.alpha k 0))
    (homCols_length _ _)) rfl cols hm hm', fun r i a hr' hi ha => ?_, fun r i a hr' hi ha => ?_⟩
  · simp only [MultiBody.toPoint] at ec eJ' em
    simp only [CMM.matBothStep, rd_ok b1, Res.bind_ok, eJ, eJ', hv.rd_pos hk, hv.rd_vB hk, h.rd_weight hk, eb, ← hI, rd_ok b2, ec, em, em',
      wr_ok b1, wr_ok b3, Res.pure_eq]
    rfl
  · dsimp only
    rw [hg r i a hr' hi ha, pathCol_body]
    rfl
  · dsimp only
    rw [hg' r i a hr' hi ha, pathCol_body]
    rfl

/-- `computeMatrix`, entry by entry. -/
theorem CMM.For.computeMatrix_eq (wf : mb.WF) (hr : mb.Rigid) (hq : ValidQ mb mbc.q) (hv : mbc.PosReady mb) {c : CMM K} (h : c.For mb w)
    (com : Vec3 K) : ∃ c', c.computeMatrix mb mbc com = .ok c' ∧ c'.For mb w ∧ c'.cmMatDot = c.cmMatDot ∧
      ∀ r i a, r < 6 → i < mb.bodies.length → a < mb.dofAt i →
        c'.cmMat.get r (mb.dofPosAt i + a) = (mb.cmCol (fun k => w.getD k 0) mbc.q com i a).toList.getD r 0 := by
  unfold CMM.computeMatrix
  refine (foldlM_range_inv (CMM.matStep mb mbc com) (fun n c' => c'.For mb w ∧ c'.cmMatDot = c.cmMatDot ∧
    ∀ r i a, r < 6 → i < mb.bodies.length → a < mb.dofAt i → c'.cmMat.get r (mb.dofPosAt i + a) = ForceVec.rowHom r
      (∑ k ∈ Finset.range n, w.getD k 0 • momHom (mb.posAt mbc.q k) com (mb.inertiaAt k) (mb.colAt mbc.q k i a)))
    mb.nrBodies { c with cmMat := c.cmMat.setZero } ?_ ?_).elim ?_
  · exact ⟨⟨⟨h.init.mat, h.init.matDot, h.init.jacs, h.init.blks, h.init.works, h.init.jac, h.init.path, h.init.weight, h.init.normalAcc⟩,
      h.weights⟩, rfl, fun r i a _ _ _ => by rw [Finset.sum_range_zero, map_zero]; rfl⟩
  · intro k s hk ⟨h1, h2, h3⟩
    obtain ⟨c', e, hf, hd, hg⟩ := h1.matStep_eq wf hr hq hv com hk
    refine ⟨c', e, hf, hd.trans h2, fun r i a hr' hi ha => ?_⟩
    rw [hg r i a hr' hi ha, h3 r i a hr' hi ha, Finset.sum_range_succ, map_add]
  · rintro c' ⟨e, h1, h2, h3⟩
    exact ⟨c', e, h1, h2, h3⟩

/-- `computeMatrixDot`, entry by entry. -/
theorem CMM.For.computeMatrixDot_eq (wf : mb.WF) (hr : mb.Rigid) (hq : ValidQ mb mbc.q) (hv : mbc.VelReady mb) {c : CMM K} (h : c.For mb w)
    (com comDot : Vec3 K) : ∃ c', c.computeMatrixDot mb mbc com comDot = .ok c' ∧ c'.For mb w ∧ c'.cmMat = c.cmMat ∧
      ∀ r i a, r < 6 → i < mb.bodies.length → a < mb.dofAt i →
        c'.cmMatDot.get r (mb.dofPosAt i + a) = (mb.cmDotCol (fun k => w.getD k 0) mbc.q mbc.alpha com comDot i a).toList.getD r 0 := by
  unfold CMM.computeMatrixDot
  refine (foldlM_range_inv (CMM.matDotStep mb mbc com comDot) (fun n c' => c'.For mb w ∧ c'.cmMat = c.cmMat ∧
    ∀ r i a, r < 6 → i < mb.bodies.length → a < mb.dofAt i → c'.cmMatDot.get r (mb.dofPosAt i + a) = ForceVec.rowHom r
      (∑ k ∈ Finset.range n, w.getD k 0 • momDotHom (mb.posAt mbc.q k) com comDot (mb.inertiaAt k) (mb.velAt mbc.q mbc.alpha k)
        (mb.colAt mbc.q k i a, mb.bdotAt mbc.q mbc.alpha k i a)))
    mb.nrBodies { c with cmMatDot := c.cmMatDot.setZero } ?_ ?_).elim ?_
  · exact ⟨⟨⟨h.init.mat, h.init.matDot, h.init.jacs, h.init.blks, h.init.works, h.init.jac, h.init.path, h.init.weight, h.init.normalAcc⟩,
      h.weights⟩, rfl, fun r i a _ _ _ => by rw [Finset.sum_range_zero, map_zero]; rfl⟩
  · intro k s hk ⟨h1, h2, h3⟩
    obtain ⟨c', e, hf, hd, hg⟩ := h1.matDotStep_eq wf hr hq hv com comDot hk
    refine ⟨c', e, hf, hd.trans h2, fun r i a hr' hi ha => ?_⟩
    rw [hg r i a hr' hi ha, h3 r i a hr' hi ha, Finset.sum_range_succ, map_add]
  · rintro c' ⟨e, h1, h2, h3⟩
    exact ⟨c', e, h1, h2, h3⟩

/-- `computeMatrixAndMatrixDot`, entry by entry. -/
theorem CMM.For.computeBoth_eq (wf : mb.WF) (hr : mb.Rigid) (hq : ValidQ mb mbc.q) (hv : mbc.VelReady mb) {c : CMM K} (h : c.For mb w)
    (com comDot : Vec3 K) : ∃ c', c.computeMatrixAndMatrixDot mb mbc com comDot = .ok c' ∧ c'.For mb w ∧
      ∀ r i a, r < 6 → i < mb.bodies.length → a < mb.dofAt i →
        c'.cmMat.get r (mb.dofPosAt i + a) = (mb.cmCol (fun k => w.getD k 0) mbc.q com i a).toList.getD r 0 ∧
        c'.cmMatDot.get r (mb.dofPosAt i + a) = (mb.cmDotCol (fun k => w.getD k 0) mbc.q mbc.alpha com comDot i a).toList.getD r 0 := by
  unfold CMM.computeMatrixAndMatrixDot
  refine (foldlM_range_inv (CMM.matBothStep mb mbc com comDot) (fun n c' => c'.For mb w ∧
    ∀ r i a, r < 6 → i < mb.bodies.length → a < mb.dofAt i →
      c'.cmMat.get r (mb.dofPosAt i + a) = ForceVec.rowHom r
        (∑ k ∈ Finset.range n, w.getD k 0 • momHom (mb.posAt mbc.q k) com (mb.inertiaAt k) (mb.colAt mbc.q k i a)) ∧
      c'.cmMatDot.get r (mb.dofPosAt i + a) = ForceVec.rowHom r
      (∑ k ∈ Finset.range n, w.getD k 0 • momDotHom (mb.posAt mbc.q k) com comDot (mb.inertiaAt k) (mb.velAt mbc.q mbc.alpha k)
        (mb.colAt mbc.q k i a, mb.bdotAt mbc.q mbc.alpha k i a)))
    mb.nrBodies { c with cmMat := c.cmMat.setZero, cmMatDot := c.cmMatDot.setZero } ?_ ?_).elim ?_
  · exact ⟨⟨⟨h.init.mat, h.init.matDot, h.init.jacs, h.init.blks, h.init.works, h.init.jac, h.init.path, h.init.weight, h.init.normalAcc⟩,
      h.weights⟩, fun r i a _ _ _ => ⟨by rw [Finset.sum_range_zero, map_zero]; rfl, by rw [Finset.sum_range_zero, map_zero]; rfl⟩⟩
  · intro k s hk ⟨h1, h3⟩
    obtain ⟨c', e, hf, hg, hg'⟩ := h1.matBothStep_eq wf hr hq hv com comDot hk
    refine ⟨c', e, hf, fun r i a hr' hi ha => ⟨?_, ?_⟩⟩
    · rw [hg r i a hr' hi ha, (h3 r i a hr' hi ha).1, Finset.sum_range_succ, map_add]
    · rw [hg' r i a hr' hi ha, (h3 r i a hr' hi ha).2, Finset.sum_range_succ, map_add]
  · rintro c' ⟨e, h1, h3⟩
    exact ⟨c', e, h1, h3⟩

/-- `CentroidalMomentumMatrix::momentum`. -/
theorem CMM.For.momentum_eq (hv : mbc.VelReady mb) {c : CMM K} (h : c.For mb w) (com : Vec3 K) :
    c.momentum mb mbc com = .ok (mb.momentumAt (fun k => w.getD k 0) mbc.q mbc.alpha com) := by
  unfold CMM.momentum
  dsimp only
  rw [foldlM_range_sum _ (fun k => w.getD k 0 • momHom (mb.posAt mbc.q k) com (mb.inertiaAt k) (mb.velAt mbc.q mbc.alpha k)), zero_add]
  · rfl
  · intro i hi s
    have hi : i < mb.bodies.length := hi
    obtain ⟨b, e, hI, -, -⟩ := mb.rd_bodies hi
    simp only [e, Res.bind_ok, hv.rd_vB hi, hv.rd_pos hi, h.rd_weight hi, Res.pure_eq, hI]
    rfl

theorem CMM.For.normalMomentumDotOf_eq (hr : mb.Rigid) (hq : ValidQ mb mbc.q) (hv : mbc.VelReady mb) {c : CMM K} (h : c.For mb w)
    (com comDot : Vec3 K) (A : Nat → MotionVec K) :
    c.normalMomentumDotOf mb mbc com comDot ((List.range mb.bodies.length).map A) =
      .ok (mb.momentumDotAt (fun k => w.getD k 0) mbc.q mbc.alpha com comDot A) := by
  unfold CMM.normalMomentumDotOf
  rw [foldlM_range_sum _ (fun k => w.getD k 0 • momDotHom (mb.posAt mbc.q k) com comDot (mb.inertiaAt k) (mb.velAt mbc.q mbc.alpha k)
    (mb.velAt mbc.q mbc.alpha k, A k)), zero_add]
  · rfl
  · intro i hi s
    have hi : i < mb.bodies.length := hi
    obtain ⟨b, e, hI, -, -⟩ := mb.rd_bodies hi
    have ea : rd ((List.range mb.bodies.length).map A) i = .ok (A i) := rd_of_getElem? (range_map_getElem? hi)
    simp only [e, Res.bind_ok, hv.rd_vB hi, hv.rd_pos hi, ea, h.rd_weight hi, Res.pure_eq, hI, momentumDotTerm_eq (mb.posAt_rigid hr hq i)]

theorem CMM.For.normalMomentumDot_eq (wf : mb.WF) (hr : mb.Rigid) (hq : ValidQ mb mbc.q) (hv : mbc.VelReady mb) {c : CMM K} (h : c.For mb w)
    (com comDot : Vec3 K) : ∃ c', c.normalMomentumDot mb mbc com comDot =
      .ok (mb.momentumDotAt (fun k => w.getD k 0) mbc.q mbc.alpha com comDot (mb.accAt mbc.q mbc.alpha [] 0), c') ∧ c'.For mb w ∧
      c'.normalAcc = (List.range mb.bodies.length).map (mb.accAt mbc.q mbc.alpha [] 0) := by
  have hf : CMM.For mb w { c with normalAcc := (List.range mb.bodies.length).map (mb.accAt mbc.q mbc.alpha [] 0) } :=
    ⟨⟨h.init.mat, h.init.matDot, h.init.jacs, h.init.blks, h.init.works, h.init.jac, h.init.path, h.init.weight, by simp⟩, h.weights⟩
  refine ⟨_, ?_, hf, rfl⟩
  unfold CMM.normalMomentumDot
  rw [normalAcc_eq wf hr hq hv h.init.normalAcc, Res.bind_ok]
  dsimp only
  rw [hf.normalMomentumDotOf_eq hr hq hv, Res.bind_ok]
  rfl

end steps

/-! ### Products with velocity vectors -/

theorem MultiBody.WF.cmCol_sum (wf : mb.WF) (w : Nat → K) (q v : List (List K)) (com : Vec3 K) :
    (mb.dofSum fun i a => entry v i a • mb.cmCol w q com i a) = mb.momentumAt w q v com := by
  unfold MultiBody.cmCol MultiBody.momentumAt
  simp only [Finset.smul_sum]
  rw [dofSum_sum]
  refine Finset.sum_congr rfl fun k _ => ?_
  rw [wf.velAt_eq]
  have := dofSum_hom (mb := mb) ((w k • momHom (mb.posAt q k) com (mb.inertiaAt k)).toAddMonoidHom) (fun i a => entry v i a • mb.colAt q k i a)
  refine Eq.trans (dofSum_congr fun i a _ _ => ?_) this.symm
  rw [LinearMap.toAddMonoidHom_coe, LinearMap.smul_apply, map_smul, smul_comm]

theorem MultiBody.WF.bdotAt_sum (wf : mb.WF) (hr : mb.Rigid) {q : List (List K)} (hq : ValidQ mb q) (alpha : List (List K)) (k : Nat) :
    (mb.dofSum fun i a => entry alpha i a • mb.bdotAt q alpha k i a) = mb.accAt q alpha [] 0 k := by
  unfold MultiBody.bdotAt
  rw [wf.pathCol_sum, bdot_sum hr hq]
  ext <;> simp [PTransform.mulMotion, PTransform.ofTrans]

theorem MultiBody.WF.cmDotCol_sum (wf : mb.WF) (hr : mb.Rigid) {q : List (List K)} (hq : ValidQ mb q) (w : Nat → K) (alpha : List (List K))
    (com comDot : Vec3 K) : (mb.dofSum fun i a => entry alpha i a • mb.cmDotCol w q alpha com comDot i a) =
      mb.momentumDotAt w q alpha com comDot (mb.accAt q alpha [] 0) := by
  unfold MultiBody.cmDotCol MultiBody.momentumDotAt
  simp only [Finset.smul_sum]
  rw [dofSum_sum]
  refine Finset.sum_congr rfl fun k _ => ?_
  have hpair : (mb.velAt q alpha k, mb.accAt q alpha [] 0 k) =
      mb.dofSum fun i a => entry alpha i a • (mb.colAt q k i a, mb.bdotAt q alpha k i a) := by
    have h1 := dofSum_hom (mb := mb) (LinearMap.fst K (MotionVec K) (MotionVec K)).toAddMonoidHom
      (fun i a => entry alpha i a • (mb.colAt q k i a, mb.bdotAt q alpha k i a))
    have h2 := dofSum_hom (mb := mb) (LinearMap.snd K (MotionVec K) (MotionVec K)).toAddMonoidHom
      (fun i a => entry alpha i a • (mb.colAt q k i a, mb.bdotAt q alpha k i a))
    refine Prod.ext ?_ ?_
    · rw [wf.velAt_eq]; exact h1.symm
    · rw [← wf.bdotAt_sum hr hq]; exact h2.symm
  have := dofSum_hom (mb := mb) ((w k • momDotHom (mb.posAt q k) com comDot (mb.inertiaAt k) (mb.velAt q alpha k)).toAddMonoidHom)
    (fun i a => entry alpha i a • (mb.colAt q k i a, mb.bdotAt q alpha k i a))
  rw [hpair]
  refine Eq.trans (dofSum_congr fun i a _ _ => ?_) this.symm
  rw [LinearMap.toAddMonoidHom_coe, LinearMap.smul_apply, map_smul, smul_comm]

/-- A matrix given column by column, times a velocity vector. -/
theorem mulVecAt_dof (wf : mb.WF) {m : DMat K} (hm : m.cols = mb.nrDof) {v : List (List K)} (hv : SizedDof mb v) {r : Nat}
    {f : Nat → Nat → ForceVec K} (hg : ∀ i a, i < mb.bodies.length → a < mb.dofAt i → m.get r (mb.dofPosAt i + a) = (f i a).toList.getD r 0) :
    m.mulVecAt v.flatten r = (mb.dofSum fun i a => entry v i a • f i a).toList.getD r 0 := by
  unfold DMat.mulVecAt
  rw [hm, wf.sum_range_dof, ← ForceVec.rowHom_apply]
  have := dofSum_hom (mb := mb) (ForceVec.rowHom (K := K) r).toAddMonoidHom (fun i a => entry v i a • f i a)
  refine Eq.trans (dofSum_congr fun i a hi ha => ?_) this.symm
  rw [hg i a hi ha, List.getD_eq_getElem?_getD (l := v.flatten), hv.flatten_getD wf hi ha, Option.getD_some, LinearMap.toAddMonoidHom_coe,
    map_smul, ForceVec.rowHom_apply, smul_eq_mul, mul_comm]

/-- Accelerations add up in the rate of the momentum. -/
theorem MultiBody.WF.momentumDotAt_split (wf : mb.WF) (w : Nat → K) (q alpha alphaD : List (List K)) (com comDot : Vec3 K) :
    mb.momentumDotAt w q alpha com comDot (mb.accAt q alpha alphaD 0) =
      mb.momentumAt w q alphaD com + mb.momentumDotAt w q alpha com comDot (mb.accAt q alpha [] 0) := by
  unfold MultiBody.momentumDotAt MultiBody.momentumAt
  rw [← Finset.sum_add_distrib]
  refine Finset.sum_congr rfl fun k _ => ?_
  rw [← smul_add, wf.accAt_split, momDotHom_apply, momDotHom_apply, map_add]
  congr 1
  abel

/-! ### The momentum in terms of the centres of mass -/

theorem momHom_eq {W : PTransform K} (hW : IsRigid W) (I : RBInertia K) (p com : Vec3 K) (hp : I.h = I.m • p) (V : MotionVec K) :
    momHom W com I V = ⟨(worldPoint W p - com).cross (I.m • (pointVel W V p).lin) + I.world W p *ᵥ (pointVel W V p).ang,
      I.m • (pointVel W V p).lin⟩ := by
  have hW : IsRot W.E := hW
  have e1 : W.E.tr *ᵥ (I.mulMotion V).force = I.m • (pointVel W V p).lin := by
    unfold pointVel RBInertia.mulMotion
    dsimp only
    rw [← Mat3.mulVec_smul, hp]
    congr 1
    ext <;> simp <;> ring
  have e2 : (I.mulMotion V).couple = I.atCom p *ᵥ V.ang + p.cross (I.mulMotion V).force := by
    unfold RBInertia.mulMotion RBInertia.atCom
    obtain ⟨m, h, I⟩ := I
    change h = m • p at hp
    subst hp
    dsimp only
    ext <;> simp [Mat3.tr] <;> ring
  have e3 : I.world W p *ᵥ (pointVel W V p).ang = W.E.tr *ᵥ (I.atCom p *ᵥ V.ang) := by
    unfold RBInertia.world pointVel
    dsimp only
    rw [Mat3.mul_mulVec, Mat3.mul_mulVec, hW.mulVec_tr]
  rw [e3, ← e1]
  show PTransform.transMul _ _ = _
  unfold PTransform.transMul PTransform.ofTrans worldPoint
  simp only [PTransform.mul_E, PTransform.mul_r, Mat3.mul_one']
  rw [e2]
  simp only [Mat3.mulVec_add, hW.tr.mulVec_cross]
  ext <;> simp <;> ring

/-- Total momentum: each centre of mass with the mass of its body, plus the rotation of the bodies. -/
theorem MultiBody.momentumAt_eq (hr : mb.Rigid) (hm : mb.MassOK) {q : List (List K)} (hq : ValidQ mb q) (alpha : List (List K)) (com : Vec3 K) :
    mb.momentumAt (fun _ => 1) q alpha com = ∑ k ∈ Finset.range mb.bodies.length,
      (⟨(worldPoint (mb.posAt q k) (mb.corComAt k) - com).cross ((mb.inertiaAt k).m • (pointVel (mb.posAt q k) (mb.velAt q alpha k)
        (mb.corComAt k)).lin) + (mb.inertiaAt k).world (mb.posAt q k) (mb.corComAt k) *ᵥ (pointVel (mb.posAt q k) (mb.velAt q alpha k)
        (mb.corComAt k)).ang, (mb.inertiaAt k).m • (pointVel (mb.posAt q k) (mb.velAt q alpha k) (mb.corComAt k)).lin⟩ : ForceVec K) := by
  unfold MultiBody.momentumAt
  refine Finset.sum_congr rfl fun k hk => ?_
  rw [one_smul, momHom_eq (mb.posAt_rigid hr hq k) _ _ _ (hm.moment (Finset.mem_range.1 hk))]

/-- Force part of a force vector, as a linear map. -/
def ForceVec.forceHom : ForceVec K →ₗ[K] Vec3 K where
  toFun f := f.force
  map_add' _ _ := rfl
  map_smul' _ _ := rfl

/-- Couple part of a force vector, as a linear map. -/
def ForceVec.coupleHom : ForceVec K →ₗ[K] Vec3 K where
  toFun f := f.couple
  map_add' _ _ := rfl
  map_smul' _ _ := rfl

theorem ForceVec.sum_force (n : Nat) (f : Nat → ForceVec K) : (∑ k ∈ Finset.range n, f k).force = ∑ k ∈ Finset.range n, (f k).force :=
  map_sum ForceVec.forceHom f _

theorem ForceVec.sum_couple (n : Nat) (f : Nat → ForceVec K) : (∑ k ∈ Finset.range n, f k).couple = ∑ k ∈ Finset.range n, (f k).couple :=
  map_sum ForceVec.coupleHom f _

end RBDyn
