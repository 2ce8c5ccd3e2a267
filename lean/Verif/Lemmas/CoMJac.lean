import Verif.Lemmas.CoM

/-! Centre of mass: velocity, normal acceleration, products with velocity vectors, and `CoMJacobianDummy`. -/

namespace RBDyn
variable {K : Type} [Scalar K] {mb : MultiBody K}
open scoped Mat3

theorem CoMJac.For.velocity_eq {mbc : MBC K} (hv : mbc.VelReady mb) {w : List K} {c : CoMJac K} (h : c.For mb w) :
    c.velocity mb mbc = .ok (∑ k ∈ Finset.range mb.bodies.length, mb.comCoeff w k •
      (pointVel (mb.posAt mbc.q k) (mb.velAt mbc.q mbc.alpha k) (mb.corComAt k)).lin) := by
  unfold CoMJac.velocity
  rw [foldlM_range_sum _ (fun k => mb.comCoeff w k • (pointVel (mb.posAt mbc.q k) (mb.velAt mbc.q mbc.alpha k) (mb.corComAt k)).lin),
    zero_add]
  · rfl
  · intro i hi s
    have hi : i < mb.bodies.length := hi
    simp only [hv.rd_pos hi, Res.bind_ok, h.rd_com hi, h.rd_coeff hi, hv.rd_vB hi, Res.pure_eq, PTransform.ofTrans, pointVel_eq]

/-- The loop of `normalAcceleration` and `normalMomentumDot`. -/
theorem normalAcc_eq (wf : mb.WF) (hr : mb.Rigid) {mbc : MBC K} (hq : ValidQ mb mbc.q) (hv : mbc.VelReady mb) {acc : List (MotionVec K)}
    (hl : acc.length = mb.bodies.length) : (List.range mb.nrJoints).foldlM (normalAccStep mb mbc) acc =
      .ok ((List.range mb.bodies.length).map (mb.accAt mbc.q mbc.alpha [] 0)) := by
  have hn : mb.nrJoints = mb.bodies.length := wf.njoints
  rw [hn]
  set c := (fun i => (mb.velAt mbc.q mbc.alpha i).cross (mb.jointMotion mbc.alpha i)) with hc
  refine (foldlM_range_inv (normalAccStep mb mbc) (fun k s =>
    Filled s (fun i => some (accRec mb.par (mb.ptsAt mbc.q) 0 c i)) k mb.bodies.length) mb.bodies.length acc (.zero hl) ?_).elim ?_
  · rintro i s hi f1
    have b1 : i < s.length := by rw [f1.1]; exact hi
    obtain ⟨p, hp, ⟨rfl, hpar⟩ | ⟨k, rfl, hpar, hk⟩⟩ := wf.pred_cases hi
    · have e : accRec mb.par (mb.ptsAt mbc.q) 0 c i = c i := by
        have : accRec mb.par (mb.ptsAt mbc.q) 0 c i = (mb.ptsAt mbc.q i).mulMotion 0 + c i := treeRec_none hpar
        rw [this, PTransform.mulMotion_zero, zero_add]
      simp only [normalAccStep, hv.rd_pts hi, hv.rd_vj hi, hv.rd_vB hi, hp, wf.rd_succ hi, Res.bind_ok, ne_eq, not_true_eq_false, if_false,
        wrI_ofNat, wr_ok b1, Except.ok.injEq, exists_eq_left']
      exact f1.set hi (by rw [e])
    · have e : accRec mb.par (mb.ptsAt mbc.q) 0 c i = (mb.ptsAt mbc.q i).mulMotion (accRec mb.par (mb.ptsAt mbc.q) 0 c k) + c i :=
        treeRec_some hpar hk
      have hne : ((k : Int) ≠ -1) := by omega
      simp only [normalAccStep, hv.rd_pts hi, hv.rd_vj hi, hv.rd_vB hi, hp, wf.rd_succ hi, Res.bind_ok, ne_eq, hne, not_false_eq_true,
        if_true, wrI_ofNat, rdI_ofNat, f1.rd hk, wr_ok b1, Except.ok.injEq, exists_eq_left']
      exact f1.set hi (by rw [e])
  · rintro s ⟨e, f1⟩
    have hmap : (List.range mb.bodies.length).map (accRec mb.par (mb.ptsAt mbc.q) 0 c) = s := f1.range_map.symm
    rw [e, ← hmap]
    congr 1
    apply List.map_congr_left
    intro i hi
    rw [accRec_closed wf hr hq _ _ (List.mem_range.1 hi), mb.accAt_nil, PTransform.mulMotion_zero, zero_add]

theorem CoMJac.For.normalAccOf_eq (hr : mb.Rigid) {mbc : MBC K} (hq : ValidQ mb mbc.q) (hv : mbc.VelReady mb) {w : List K} {c : CoMJac K}
    (h : c.For mb w) (A : Nat → MotionVec K) : c.normalAccelerationOf mb mbc ((List.range mb.bodies.length).map A) =
      .ok (∑ k ∈ Finset.range mb.bodies.length, mb.comCoeff w k •
        (pointAcc (mb.posAt mbc.q k) (mb.velAt mbc.q mbc.alpha k) (A k) (mb.corComAt k)).lin) := by
  unfold CoMJac.normalAccelerationOf
  rw [foldlM_range_sum _ (fun k => mb.comCoeff w k • (pointAcc (mb.posAt mbc.q k) (mb.velAt mbc.q mbc.alpha k) (A k)
    (mb.corComAt k)).lin), zero_add]
  · rfl
  · intro i hi s
    have hi : i < mb.bodies.length := hi
    have ea : rd ((List.range mb.bodies.length).map A) i = .ok (A i) := rd_of_getElem? (range_map_getElem? hi)
    simp only [hv.rd_pos hi, Res.bind_ok, h.rd_com hi, h.rd_coeff hi, hv.rd_vB hi, hv.rd_vW hi, ea, Res.pure_eq, mb.velWAt_ang]
    rw [← pointAcc_eq (mb.posAt_rigid hr hq i), add_assoc, ← smul_add]
    rfl

theorem CoMJac.For.normalAcc_eq (wf : mb.WF) (hr : mb.Rigid) {mbc : MBC K} (hq : ValidQ mb mbc.q) (hv : mbc.VelReady mb) {w : List K}
    {c : CoMJac K} (h : c.For mb w) : ∃ c', c'.For mb w ∧ c'.jac = c.jac ∧ c'.jacDot = c.jacDot ∧ c.normalAcceleration mb mbc =
      .ok (∑ k ∈ Finset.range mb.bodies.length, mb.comCoeff w k •
        (pointAcc (mb.posAt mbc.q k) (mb.velAt mbc.q mbc.alpha k) (mb.accAt mbc.q mbc.alpha [] 0 k) (mb.corComAt k)).lin, c') := by
  have hf : CoMJac.For mb w { c with normalAcc := (List.range mb.bodies.length).map (mb.accAt mbc.q mbc.alpha [] 0) } :=
    ⟨h.jac, h.jacDot, h.coeff, h.com, h.sub, h.comWorld, h.comVelB, by simp, h.weight, h.weights, h.subs⟩
  refine ⟨_, hf, rfl, rfl, ?_⟩
  unfold CoMJac.normalAcceleration
  rw [RBDyn.normalAcc_eq wf hr hq hv h.normalAcc, Res.bind_ok]
  dsimp only
  rw [hf.normalAccOf_eq hr hq hv, Res.bind_ok]
  rfl

/-! ### Products with velocity vectors -/

/-- Linear part, as a linear map. -/
def MotionVec.linHom : MotionVec K →ₗ[K] Vec3 K where
  toFun v := v.lin
  map_add' _ _ := rfl
  map_smul' _ _ := rfl

omit [Scalar K] in
theorem dofSum_sum {M : Type} [AddCommMonoid M] (n : Nat) (f : Nat → Nat → Nat → M) :
    (mb.dofSum fun i a => ∑ k ∈ Finset.range n, f k i a) = ∑ k ∈ Finset.range n, mb.dofSum (f k) := by
  unfold MultiBody.dofSum
  rw [Finset.sum_comm]
  refine Finset.sum_congr rfl fun i _ => ?_
  rw [Finset.sum_comm]

theorem dofSum_lin (coeff : Nat → K) (v : List (List K)) (f : Nat → Nat → Nat → MotionVec K) :
    (mb.dofSum fun i a => entry v i a • ∑ k ∈ Finset.range mb.bodies.length, coeff k • (f k i a).lin) =
      ∑ k ∈ Finset.range mb.bodies.length, coeff k • (mb.dofSum fun i a => entry v i a • f k i a).lin := by
  simp only [Finset.smul_sum]
  rw [dofSum_sum]
  refine Finset.sum_congr rfl fun k _ => ?_
  have := dofSum_hom (mb := mb) ((coeff k • MotionVec.linHom (K := K)).toAddMonoidHom) (fun i a => entry v i a • f k i a)
  refine Eq.trans (dofSum_congr fun i a _ _ => ?_) this.symm
  rw [LinearMap.toAddMonoidHom_coe, LinearMap.smul_apply, map_smul, smul_comm]
  rfl

theorem MultiBody.WF.comCol_sum (wf : mb.WF) (hr : mb.Rigid) {q : List (List K)} (hq : ValidQ mb q) (w : List K) (v : List (List K)) :
    (mb.dofSum fun i a => entry v i a • mb.comCol w q i a) =
      ∑ k ∈ Finset.range mb.bodies.length, mb.comCoeff w k • (pointVel (mb.posAt q k) (mb.velAt q v k) (mb.corComAt k)).lin := by
  unfold MultiBody.comCol
  rw [dofSum_lin]
  simp only [wf.wcol_sum hr hq]

theorem MultiBody.WF.comDotCol_sum (wf : mb.WF) (hr : mb.Rigid) {q : List (List K)} (hq : ValidQ mb q) (w : List K) (alpha : List (List K)) :
    (mb.dofSum fun i a => entry alpha i a • mb.comDotCol w q alpha i a) =
      ∑ k ∈ Finset.range mb.bodies.length, mb.comCoeff w k •
        (pointAcc (mb.posAt q k) (mb.velAt q alpha k) (mb.accAt q alpha [] 0 k) (mb.corComAt k)).lin := by
  unfold MultiBody.comDotCol
  rw [dofSum_lin]
  simp only [wf.wdot_sum hr hq]

/-- A matrix given by its columns, times a vector. -/
def colsMul {M : Type} [AddCommMonoid M] [SMul K M] (cols : List M) (x : List K) : M := (List.zipWith (fun x c => x • c) x cols).sum

theorem colsMul_eq_sum {M : Type} [AddCommMonoid M] [Module K M] (S : List M) (a : List K) (n : Nat) (hS : S.length = n) :
    colsMul S a = ∑ b ∈ Finset.range n, a.getD b 0 • S.getD b 0 := by
  subst hS
  induction S generalizing a with
  | nil => simp [colsMul]
  | cons c S ih =>
    cases a with
    | nil => simp [colsMul]
    | cons x a =>
      rw [List.length_cons, Finset.sum_range_succ', add_comm]
      have := ih a
      unfold colsMul at this ⊢
      simp only [List.zipWith_cons_cons, List.sum_cons, this, List.getD_cons_zero, List.getD_cons_succ]

/-- A matrix whose columns are known, times a vector of joint velocities. -/
theorem colsMul_dof (wf : mb.WF) {M : Type} [AddCommMonoid M] [Module K M] {S : List M} (hS : S.length = mb.nrDof) {v : List (List K)}
    (hv : SizedDof mb v) {f : Nat → Nat → M}
    (hg : ∀ i a, i < mb.bodies.length → a < mb.dofAt i → S.getD (mb.dofPosAt i + a) 0 = f i a) :
    colsMul S v.flatten = mb.dofSum fun i a => entry v i a • f i a := by
  rw [colsMul_eq_sum S _ _ hS, wf.sum_range_dof]
  refine dofSum_congr fun i a hi ha => ?_
  rw [hg i a hi ha, List.getD_eq_getElem?_getD, hv.flatten_getD wf hi ha, Option.getD_some]

/-- The acceleration splits into the part at zero joint acceleration and the velocity made of the joint accelerations. -/
theorem MultiBody.WF.accAt_split (wf : mb.WF) (q alpha alphaD : List (List K)) (k : Nat) :
    mb.accAt q alpha alphaD 0 k = mb.accAt q alpha [] 0 k + mb.velAt q alphaD k := by
  rw [wf.accAt_eq, wf.velAt_eq]

theorem pointAcc_add (W : PTransform K) (V A B : MotionVec K) (p : Vec3 K) :
    pointAcc W V (A + B) p = pointAcc W V A p + pointVel W B p := by
  ext <;> simp [pointAcc, pointVel] <;> ring

/-! ### `CoMJacobianDummy` -/

/-- Components. -/
def Vec3.toList (v : Vec3 K) : List K := [v.x, v.y, v.z]

def Vec3.rowHom (r : Nat) : Vec3 K →ₗ[K] K where
  toFun v := v.toList.getD r 0
  map_add' v w := by rcases r with _ | _ | _ | r <;> simp [Vec3.toList]
  map_smul' s v := by rcases r with _ | _ | _ | r <;> simp [Vec3.toList]

theorem MotionVec.toList_lin (v : MotionVec K) (r : Nat) : v.toList.getD (3 + r) 0 = v.lin.toList.getD r 0 := by
  rcases r with _ | _ | _ | r
  · rfl
  · rfl
  · rfl
  · have : 3 + (r + 3) = r + 6 := by omega
    rw [this]
    simp [MotionVec.toList, Vec3.toList]

/-- A `CoMJacobianDummy` object in which the entries of the first `n` bodies are in place. -/
structure CoMDummy.Until (mb : MultiBody K) (w : List K) (c : CoMDummy K) (n : Nat) : Prop where
  jac : c.jac.rows = 3 ∧ c.jac.cols = mb.nrDof
  jacDot : c.jacDot.rows = 3 ∧ c.jacDot.cols = mb.nrDof
  jacFull : c.jacFull.rows = 3 ∧ c.jacFull.cols = mb.nrDof
  jacs : c.jacVec.length = n
  jacOf : ∀ (k : Nat) (J : Jac K), c.jacVec[k]? = some J → J.Of mb k (mb.corComAt k)
  mass : c.totalMass = ∑ k ∈ Finset.range n, (mb.inertiaAt k).m
  weight : c.weight = w

/-- A `CoMJacobianDummy` object that belongs to the robot, with the weights `w`. -/
def CoMDummy.For (mb : MultiBody K) (w : List K) (c : CoMDummy K) : Prop :=
  c.Until mb w mb.bodies.length ∧ w.length = mb.bodies.length

theorem CoMDummy.mk'_for (wf : mb.WF) (hn : ∀ (i : Nat) (b : Body K), mb.bodies[i]? = some b → mb.sBodyIndexByName b.name = .ok (i : Int))
    (junk : Nat → MotionVec K) (junkM : Nat → Nat → K) {w : List K} (hw : w.length = mb.bodies.length) :
    ∃ c, CoMDummy.mk' junk junkM mb w = .ok c ∧ c.For mb w := by
  unfold CoMDummy.mk'
  refine (foldlM_range_inv (CoMDummy.initStep junk mb) (fun n c => c.Until mb w n) mb.nrBodies
    ⟨⟨3, mb.nrDof, junkM⟩, ⟨3, mb.nrDof, junkM⟩, ⟨3, mb.nrDof, junkM⟩, [], 0, w⟩ ?_ ?_).elim ?_
  · exact ⟨⟨rfl, rfl⟩, ⟨rfl, rfl⟩, ⟨rfl, rfl⟩, rfl, by simp, by simp, rfl⟩
  · intro i c hi h
    have hi : i < mb.bodies.length := hi
    have hb : mb.bodies[i]? = some mb.bodies[i] := List.getElem?_eq_getElem hi
    obtain ⟨J, e, hJ⟩ := Jac.mk'_of wf junk (hn i _ hb) hi mb.bodies[i].com
    have hp : mb.corComAt i = mb.bodies[i].com := by simp [MultiBody.corComAt, hb]; rfl
    have hI : mb.inertiaAt i = mb.bodies[i].inertia := by simp [MultiBody.inertiaAt, hb]
    refine ⟨{ c with jacVec := c.jacVec ++ [J], totalMass := c.totalMass + mb.bodies[i].inertia.m }, ?_, ?_⟩
    · simp only [CoMDummy.initStep, rd_ok hi, Res.bind_ok, e, Res.pure_eq]
    · refine ⟨h.jac, h.jacDot, h.jacFull, by simp [h.jacs], ?_, ?_, h.weight⟩
      · intro k J' hJ'
        rcases getElem?_snoc hJ' with hk | ⟨rfl, rfl⟩
        · exact h.jacOf k J' hk
        · rw [h.jacs, hp]
          exact hJ
      · dsimp only
        rw [h.mass, Finset.sum_range_succ, hI]
  · rintro c ⟨e, h⟩
    dsimp only
    rw [e, Res.bind_ok, if_neg (by rw [h.weight, hw]; simp [MultiBody.nrBodies])]
    exact ⟨c, rfl, h, hw⟩

/-- Adding the bottom rows of the columns of one body. -/
theorem dummyFull_eq (wf : mb.WF) {J : Jac K} {k : Nat} {p : Vec3 K} (h : J.Of mb k p) (L : Nat → MotionVec K →ₗ[K] MotionVec K) {full : DMat K}
    (hf : full.rows = 3 ∧ full.cols = mb.nrDof) : ∃ B m, (DMat.ofCols (mb.homCols J.path L)).block 3 0 3 (mb.homCols J.path L).length = .ok B ∧
      (∀ J' : Jac K, J'.path = J.path → J'.fullJacobian mb B full = .ok m) ∧ m.rows = 3 ∧ m.cols = mb.nrDof ∧
      ∀ r i a, r < 3 → i < mb.bodies.length → a < mb.dofAt i →
        m.get r (mb.dofPosAt i + a) = (mb.pathCol L k i a).lin.toList.getD r 0 := by
  have e1 : (DMat.ofCols (mb.homCols J.path L)).block 3 0 3 (mb.homCols J.path L).length = .ok ⟨3, (mb.homCols J.path L).length,
      fun i j => (DMat.ofCols (mb.homCols J.path L)).get (3 + i) (0 + j)⟩ := by
    unfold DMat.block
    rw [if_pos ⟨by simp [DMat.ofCols], by simp [DMat.ofCols]⟩]
  obtain ⟨m, e2, h1, h2, h3, -⟩ := J.fullJacobian_eq (jac := ⟨3, (mb.homCols J.path L).length,
      fun i j => (DMat.ofCols (mb.homCols J.path L)).get (3 + i) (0 + j)⟩) (res := full) wf h.path (by rw [hf.2]) (by rw [hf.1])
    (by dsimp only; rw [homCols_length])
  refine ⟨_, m, e1, fun J' hJ' => ?_, h1.trans hf.1, h2.trans hf.2, fun r i a hr hi ha => ?_⟩
  · rw [← e2]
    unfold Jac.fullJacobian Jac.addFullJacobian
    rw [hJ']
  · rw [h3 r _ hr (by have := wf.dofPosAt_add_le hi; omega), ← MotionVec.toList_lin]
    rw [← scat_homCols wf h L (fun u => u.toList.getD (3 + r) 0) (by rw [MotionVec.toList_lin]; exact map_zero (Vec3.rowHom r)) hi ha]
    refine scat_congr (fun y _ => ?_) _
    simp only [Nat.zero_add]
    rfl

theorem CoMDummy.For.jacobian_eq (wf : mb.WF) (hM : 0 < mb.totalMass) {mbc : MBC K} (hv : mbc.PosReady mb) {w : List K} {c : CoMDummy K}
    (h : c.For mb w) : ∃ c', c.jacobian mb mbc = .ok c' ∧ c'.For mb w ∧ c'.jacDot = c.jacDot ∧
      ∀ r i a, r < 3 → i < mb.bodies.length → a < mb.dofAt i →
        c'.jac.get r (mb.dofPosAt i + a) = (mb.comCol w mbc.q i a).toList.getD r 0 := by
  obtain ⟨h, hw⟩ := h
  unfold CoMDummy.jacobian
  refine (foldlM_range_inv (CoMDummy.jacStep mb mbc) (fun n c' => c'.Until mb w mb.bodies.length ∧ c'.jacDot = c.jacDot ∧
    ∀ r i a, r < 3 → i < mb.bodies.length → a < mb.dofAt i → c'.jac.get r (mb.dofPosAt i + a) =
      ∑ k ∈ Finset.range n, (mb.wcol mbc.q k (mb.corComAt k) i a).lin.toList.getD r 0 * ((mb.inertiaAt k).m * w.getD k 0)) mb.nrBodies
    { c with jac := c.jac.setZero } ?_ ?_).elim ?_
  · exact ⟨⟨h.jac, h.jacDot, h.jacFull, h.jacs, h.jacOf, h.mass, h.weight⟩, rfl, fun r i a _ _ _ => by simp [DMat.setZero]⟩
  · rintro k c hk ⟨h, hd, hg⟩
    have hk : k < mb.bodies.length := hk
    have hkj : k < c.jacVec.length := by rw [h.jacs]; exact hk
    have hJ := h.jacOf k _ (List.getElem?_eq_getElem hkj)
    obtain ⟨b, eb, hI, -, -⟩ := mb.rd_bodies hk
    set J := c.jacVec[k] with hJd
    set p := mb.corComAt k with hpd
    set L : Nat → MotionVec K →ₗ[K] MotionVec K :=
      fun i => (PTransform.ofTrans (PTransform.ofTrans p * mb.posAt mbc.q k).r * (mb.posAt mbc.q i).inv).motionHom with hL
    have e1 : J.jacobian mb mbc = .ok { J with jac := mb.homCols J.path L } := by
      rw [hJ.jacobian_eq wf hv, jacCols_eq_homCols hJ]
    have hJ1 := hJ.with_jac (jac := mb.homCols J.path L) (homCols_length _ _)
    obtain ⟨B, m, e2, e3, m1, m2, hmg⟩ := dummyFull_eq wf hJ L h.jacFull
    have ew : rd c.weight k = .ok (w.getD k 0) := by
      rw [h.weight, rd_ok (by omega), List.getD_eq_getElem?_getD, List.getElem?_eq_getElem (by omega)]
      rfl
    have e4 : c.jac.addScaled m (b.inertia.m * w.getD k 0) =
        .ok ⟨c.jac.rows, c.jac.cols, fun i j => c.jac.get i j + m.get i j * (b.inertia.m * w.getD k 0)⟩ := by
      unfold DMat.addScaled
      rw [if_pos ⟨by rw [h.jac.1, m1], by rw [h.jac.2, m2]⟩]
    refine ⟨{ c with
        jac := (⟨c.jac.rows, c.jac.cols, fun i j => c.jac.get i j + m.get i j * (b.inertia.m * w.getD k 0)⟩ : DMat K), jacFull := m,
        jacVec := (c.jacVec.set k { J with jac := mb.homCols J.path L }) }, ?_,
      ⟨h.jac, h.jacDot, ⟨m1, m2⟩, by rw [List.length_set]; exact h.jacs, ?_, h.mass, h.weight⟩, hd, ?_⟩
    · simp only [CoMDummy.jacStep, rd_ok hkj, Res.bind_ok, ← hJd, e1, e2, e3 { J with jac := mb.homCols J.path L } rfl, eb, ew, e4,
        wr_ok hkj, Res.pure_eq]
    · intro k' J' hJ'
      by_cases hkk : k = k'
      · subst hkk
        rw [List.getElem?_set_self hkj] at hJ'
        cases hJ'
        exact hJ1
      · rw [List.getElem?_set_ne hkk] at hJ'
        exact h.jacOf k' J' hJ'
    · intro r i a hr hi ha
      dsimp only
      rw [hg r i a hr hi ha, hmg r i a hr hi ha, Finset.sum_range_succ, hI]
      rfl
  · rintro c' ⟨e, h', hd, hg⟩
    rw [e, Res.bind_ok, if_pos (by rw [h'.mass]; exact hM)]
    refine ⟨_, rfl, ⟨⟨h'.jac, h'.jacDot, h'.jacFull, h'.jacs, h'.jacOf, h'.mass, h'.weight⟩, hw⟩, hd, fun r i a hr hi ha => ?_⟩
    dsimp only [DMat.divBy]
    rw [hg r i a hr hi ha, h'.mass]
    show _ = Vec3.rowHom r (mb.comCol w mbc.q i a)
    unfold MultiBody.comCol
    rw [map_sum, div_eq_mul_inv, Finset.sum_mul]
    refine Finset.sum_congr rfl fun k _ => ?_
    rw [map_smul, smul_eq_mul]
    show Vec3.rowHom r _ * _ * _ = mb.comCoeff w k * _
    unfold MultiBody.comCoeff MultiBody.totalMass
    ring

theorem CoMDummy.For.jacobianDot_eq (wf : mb.WF) (hM : 0 < mb.totalMass) {mbc : MBC K} (hv : mbc.VelReady mb) {w : List K} {c : CoMDummy K}
    (h : c.For mb w) : ∃ c', c.jacobianDot mb mbc = .ok c' ∧ c'.For mb w ∧ c'.jac = c.jac ∧
      ∀ r i a, r < 3 → i < mb.bodies.length → a < mb.dofAt i →
        c'.jacDot.get r (mb.dofPosAt i + a) = (mb.comDotCol w mbc.q mbc.alpha i a).toList.getD r 0 := by
  obtain ⟨h, hw⟩ := h
  unfold CoMDummy.jacobianDot
  refine (foldlM_range_inv (CoMDummy.jacDotStep mb mbc) (fun n c' => c'.Until mb w mb.bodies.length ∧ c'.jac = c.jac ∧
    ∀ r i a, r < 3 → i < mb.bodies.length → a < mb.dofAt i → c'.jacDot.get r (mb.dofPosAt i + a) =
      ∑ k ∈ Finset.range n, (mb.wdot mbc.q mbc.alpha k (mb.corComAt k) i a).lin.toList.getD r 0 * ((mb.inertiaAt k).m * w.getD k 0))
    mb.nrBodies { c with jacDot := c.jacDot.setZero } ?_ ?_).elim ?_
  · exact ⟨⟨h.jac, h.jacDot, h.jacFull, h.jacs, h.jacOf, h.mass, h.weight⟩, rfl, fun r i a _ _ _ => by simp [DMat.setZero]⟩
  · rintro k c hk ⟨h, hd, hg⟩
    have hk : k < mb.bodies.length := hk
    have hkj : k < c.jacVec.length := by rw [h.jacs]; exact hk
    have hJ := h.jacOf k _ (List.getElem?_eq_getElem hkj)
    obtain ⟨b, eb, hI, -, -⟩ := mb.rd_bodies hk
    set J := c.jacVec[k] with hJd
    set p := mb.corComAt k with hpd
    set L := mb.dotHom mbc.q mbc.alpha k p with hL
    have e1 : J.jacobianDot mb mbc = .ok { J with jacDot := mb.homCols J.path L } := hJ.jacobianDot_eq wf hv
    have hJ1 := hJ.with_jacDot (jac := mb.homCols J.path L) (homCols_length _ _)
    obtain ⟨B, m, e2, e3, m1, m2, hmg⟩ := dummyFull_eq wf hJ L h.jacFull
    have ew : rd c.weight k = .ok (w.getD k 0) := by
      rw [h.weight, rd_ok (by omega), List.getD_eq_getElem?_getD, List.getElem?_eq_getElem (by omega)]
      rfl
    have e4 : c.jacDot.addScaled m (b.inertia.m * w.getD k 0) =
        .ok ⟨c.jacDot.rows, c.jacDot.cols, fun i j => c.jacDot.get i j + m.get i j * (b.inertia.m * w.getD k 0)⟩ := by
      unfold DMat.addScaled
      rw [if_pos ⟨by rw [h.jacDot.1, m1], by rw [h.jacDot.2, m2]⟩]
    refine ⟨{ c with
        jacDot := (⟨c.jacDot.rows, c.jacDot.cols, fun i j => c.jacDot.get i j + m.get i j * (b.inertia.m * w.getD k 0)⟩ : DMat K), jacFull := m,
        jacVec := (c.jacVec.set k { J with jacDot := mb.homCols J.path L }) }, ?_,
      ⟨h.jac, h.jacDot, ⟨m1, m2⟩, by rw [List.length_set]; exact h.jacs, ?_, h.mass, h.weight⟩, hd, ?_⟩
    · simp only [CoMDummy.jacDotStep, rd_ok hkj, Res.bind_ok, ← hJd, e1, e2, e3 { J with jacDot := mb.homCols J.path L } rfl, eb, ew, e4,
        wr_ok hkj, Res.pure_eq]
    · intro k' J' hJ'
      by_cases hkk : k = k'
      · subst hkk
        rw [List.getElem?_set_self hkj] at hJ'
        cases hJ'
        exact hJ1
      · rw [List.getElem?_set_ne hkk] at hJ'
        exact h.jacOf k' J' hJ'
    · intro r i a hr hi ha
      dsimp only
      rw [hg r i a hr hi ha, hmg r i a hr hi ha, Finset.sum_range_succ, hI]
      rfl
  · rintro c' ⟨e, h', hd, hg⟩
    rw [e, Res.bind_ok, if_pos (by rw [h'.mass]; exact hM)]
    refine ⟨_, rfl, ⟨⟨h'.jac, h'.jacDot, h'.jacFull, h'.jacs, h'.jacOf, h'.mass, h'.weight⟩, hw⟩, hd, fun r i a hr hi ha => ?_⟩
    dsimp only [DMat.divBy]
    rw [hg r i a hr hi ha, h'.mass]
    show _ = Vec3.rowHom r (mb.comDotCol w mbc.q mbc.alpha i a)
    unfold MultiBody.comDotCol
    rw [map_sum, div_eq_mul_inv, Finset.sum_mul]
    refine Finset.sum_congr rfl fun k _ => ?_
    rw [map_smul, smul_eq_mul]
    show Vec3.rowHom r _ * _ * _ = mb.comCoeff w k * _
    unfold MultiBody.comCoeff MultiBody.totalMass
    ring

end RBDyn
