import Verif.Props.Floating
import Verif.Props.CoM
import Verif.Props.IDIM
import Verif.Props.Jacobian

/-! The columns of the Jacobians over all degrees of freedom, and the torques that forces at points and the weight cause. -/

namespace RBDyn
variable {K : Type} [Scalar K] {mb : MultiBody K}
open scoped Mat3

/-- The wrench `w` (couple and force with the orientation of the world) that acts at the point `p` of a body in pose `W`, as a force
vector about the world origin, the form of `MultiBodyConfig::force`. -/
def pointForce (W : PTransform K) (p : Vec3 K) (w : ForceVec K) : ForceVec K :=
  ⟨w.couple + (worldPoint W p).cross w.force, w.force⟩

theorem pointVel_dot {W : PTransform K} (h : IsRigid W) (V : MotionVec K) (p : Vec3 K) (w : ForceVec K) :
    (pointVel W V p).dot w = V.dot (W.dualMul (pointForce W p w)) := by
  have e : W.dualMul (pointForce W p w) = ⟨W.E *ᵥ w.couple + p.cross (W.E *ᵥ w.force), W.E *ᵥ w.force⟩ := by
    have e1 : W.E *ᵥ ((W.E.tr *ᵥ p).cross w.force) = p.cross (W.E *ᵥ w.force) := by
      rw [IsRot.mulVec_cross h, IsRot.mulVec_tr h]
    unfold PTransform.dualMul pointForce worldPoint
    ext1
    · dsimp only
      rw [← e1, ← Mat3.mulVec_add]
      congr 1
      ext <;> simp <;> ring
    · rfl
  rw [e]
  unfold pointVel MotionVec.dot
  dsimp only
  rw [← Mat3.dot_mulVec, ← Mat3.dot_mulVec]
  simp only [Vec3.dot, Vec3.add_x, Vec3.add_y, Vec3.add_z, Vec3.cross_x, Vec3.cross_y, Vec3.cross_z]
  ring

theorem sum_toList (v : MotionVec K) (w : ForceVec K) :
    ∑ x ∈ Finset.range 6, v.toList.getD x 0 * w.toList.getD x 0 = v.dot w := by
  simp [Finset.sum_range_succ, MotionVec.toList, ForceVec.toList, MotionVec.dot, Vec3.dot]
  ring

/-- The columns of `jacobian`, expanded over all degrees of freedom. -/
theorem Jac.Of.full_cols (wf : mb.WF) {mbc : MBC K} (hv : mbc.PosReady mb) {J : Jac K} {N : Nat} {p : Vec3 K} (h : J.Of mb N p)
    {res : DMat K} (hrr : res.rows = 6) (hrc : res.cols = mb.nrDof) :
    ∃ J₁ A, J.jacobian mb mbc = .ok J₁ ∧ J₁.fullJacobian mb (DMat.ofCols J₁.jac) res = .ok A ∧ A.rows = 6 ∧ A.cols = mb.nrDof ∧
      ∀ x i a, x < 6 → i < mb.bodies.length → a < mb.dofAt i →
        A.get x (mb.dofPosAt i + a) = (mb.wcol mbc.q N p i a).toList.getD x 0 := by
  have h' := h.with_jac (jac := mb.jacCols mbc.q (.ofTrans (PTransform.ofTrans p * mb.posAt mbc.q N).r) J.path J.sign) (jacCols_length _ _ _ _)
  obtain ⟨A, e, r1, r2, hg, -⟩ := Jac.fullJacobian_eq wf h'.path (jac := DMat.ofCols (mb.jacCols mbc.q
    (.ofTrans (PTransform.ofTrans p * mb.posAt mbc.q N).r) J.path J.sign)) (res := res) hrc.ge hrr.ge h'.jac.ge
  refine ⟨_, A, h.jacobian_eq wf hv, e, r1.trans hrr, r2.trans hrc, fun x i a hx hi ha => ?_⟩
  rw [hg x _ hx (by have := wf.dofPosAt_add_le hi; omega)]
  unfold MultiBody.wcol
  rw [← scat_homCols wf h' _ (fun u => u.toList.getD x 0) (map_zero (MotionVec.rowHom x)) hi ha]
  refine scat_congr (fun y _ => ?_) _
  show ((mb.jacCols _ _ _ _).getD y 0).toList.getD x 0 = _
  rw [jacCols_eq_homCols h]

/-- The columns of `bodyJacobian`, expanded over all degrees of freedom. -/
theorem Jac.Of.full_body_cols (wf : mb.WF) (hr : mb.Rigid) {mbc : MBC K} (hq : ValidQ mb mbc.q) (hv : mbc.PosReady mb) {J : Jac K} {N : Nat}
    {p : Vec3 K} (h : J.Of mb N p) {res : DMat K} (hrr : res.rows = 6) (hrc : res.cols = mb.nrDof) :
    ∃ J₁ A, J.bodyJacobian mb mbc = .ok J₁ ∧ J₁.fullJacobian mb (DMat.ofCols J₁.jac) res = .ok A ∧ A.rows = 6 ∧ A.cols = mb.nrDof ∧
      ∀ x i a, x < 6 → i < mb.bodies.length → a < mb.dofAt i →
        A.get x (mb.dofPosAt i + a) = ((PTransform.ofTrans p).mulMotion (mb.colAt mbc.q N i a)).toList.getD x 0 := by
  have h' := h.with_jac (jac := mb.jacCols mbc.q (PTransform.ofTrans p * mb.posAt mbc.q N) J.path J.sign) (jacCols_length _ _ _ _)
  obtain ⟨A, e, r1, r2, hg, -⟩ := Jac.fullJacobian_eq wf h'.path (jac := DMat.ofCols (mb.jacCols mbc.q
    (PTransform.ofTrans p * mb.posAt mbc.q N) J.path J.sign)) (res := res) hrc.ge hrr.ge h'.jac.ge
  refine ⟨_, A, h.bodyJacobian_eq wf hv, e, r1.trans hrr, r2.trans hrc, fun x i a hx hi ha => ?_⟩
  rw [hg x _ hx (by have := wf.dofPosAt_add_le hi; omega)]
  have ec : (PTransform.ofTrans p).mulMotion (mb.colAt mbc.q N i a) =
      mb.pathCol (fun i => (PTransform.ofTrans p * mb.posAt mbc.q N * (mb.posAt mbc.q i).inv).motionHom) N i a := by
    unfold MultiBody.pathCol MultiBody.colAt
    split
    · rw [PTransform.motionHom_apply, PTransform.mul_assoc', ← MultiBody.relAt, PTransform.mul_mulMotion _ _ _ (mb.relAt_rigid hr hq i N)]
    · rw [PTransform.mulMotion_zero]
  rw [ec, ← scat_homCols wf h' _ (fun u => u.toList.getD x 0) (map_zero (MotionVec.rowHom x)) hi ha]
  refine scat_congr (fun y _ => ?_) _
  show ((mb.jacCols _ _ _ _).getD y 0).toList.getD x 0 = _
  rw [jacCols_eq_homCols h]

/-- Changing the force on one body by a wrench at a point changes the torques by the transposed Jacobian of this point. -/
theorem MultiBody.dot_wrenchAt_point (hr : mb.Rigid) {q : List (List K)} (hq : ValidQ mb q) {N : Nat} (hN : N < mb.bodies.length)
    (p : Vec3 K) (w : ForceVec K) (s : K) {f g : Nat → ForceVec K}
    (h : ∀ k, g k = f k + if k = N then s • (mb.posAt q N).dualMul (pointForce (mb.posAt q N) p w) else 0) (i a : Nat) :
    ((mb.SAt i).getD a 0).dot (mb.wrenchAt q g i) = ((mb.SAt i).getD a 0).dot (mb.wrenchAt q f i) + s * (mb.wcol q N p i a).dot w := by
  rw [mb.dot_wrenchAt, mb.dot_wrenchAt, mb.wcol_eq hr hq, pointVel_dot (mb.posAt_rigid hr hq N)]
  simp only [h, MotionVec.dot_add, Finset.sum_add_distrib]
  congr 1
  rw [Finset.sum_eq_single N]
  · rw [if_pos rfl, MotionVec.dot_smul]
  · intro k _ hk
    rw [if_neg hk]
    simp
  · intro h'
    exact absurd (Finset.mem_range.2 hN) h'

theorem Vec3.sum_dot' {ι : Type} (s : Finset ι) (f : ι → Vec3 K) (g : Vec3 K) : (∑ k ∈ s, f k).dot g = ∑ k ∈ s, (f k).dot g := by
  classical
  induction s using Finset.induction_on with
  | empty => simp
  | insert a s ha ih => rw [Finset.sum_insert ha, Finset.sum_insert ha, Vec3.add_dot, ih]

theorem mulMotion_gravity {W : PTransform K} (h : IsRigid W) {I : RBInertia K} {c : Vec3 K} (hc : I.h = I.m • c) (g : Vec3 K) :
    I.mulMotion (W.mulMotion ⟨0, g⟩) = W.dualMul (pointForce W c ⟨0, I.m • g⟩) := by
  have e : pointForce W c ⟨0, I.m • g⟩ = -weight W I g := by
    unfold pointForce weight massPos worldPoint
    rw [hc]
    ext <;> simp <;> ring
  rw [e, ← PTransform.dualHom_apply, map_neg, PTransform.dualHom_apply, dualMul_weight h, neg_neg]

theorem MultiBody.ones_getD (mb : MultiBody K) {k : Nat} (hk : k < mb.bodies.length) : mb.ones.getD k 0 = 1 := by
  simp [MultiBody.ones, List.getD_eq_getElem?_getD, hk]

/-- The torque that carries the weight: total mass times the transposed Jacobian of the centre of mass times gravity. -/
theorem MultiBody.dot_wrenchAt_gravity (hr : mb.Rigid) (hm : mb.MassOK) (hM : 0 < mb.totalMass) {q : List (List K)} (hq : ValidQ mb q)
    (g : Vec3 K) {f f' : Nat → ForceVec K} (h : ∀ k, f' k = f k + (mb.inertiaAt k).mulMotion ((mb.posAt q k).mulMotion ⟨0, g⟩)) (i a : Nat) :
    ((mb.SAt i).getD a 0).dot (mb.wrenchAt q f' i) =
      ((mb.SAt i).getD a 0).dot (mb.wrenchAt q f i) + mb.totalMass * (mb.comCol mb.ones q i a).dot g := by
  rw [mb.dot_wrenchAt, mb.dot_wrenchAt]
  simp only [h, MotionVec.dot_add, Finset.sum_add_distrib]
  congr 1
  have e : mb.totalMass • mb.comCol mb.ones q i a =
      ∑ k ∈ Finset.range mb.bodies.length, (mb.inertiaAt k).m • (mb.wcol q k (mb.corComAt k) i a).lin := by
    unfold MultiBody.comCol
    rw [Finset.smul_sum]
    refine Finset.sum_congr rfl fun k hk => ?_
    rw [smul_smul, MultiBody.comCoeff, mb.ones_getD (Finset.mem_range.1 hk), mul_one, mul_div_cancel₀ _ (ne_of_gt hM)]
  rw [← Vec3.smul_dot, e, Vec3.sum_dot']
  refine Finset.sum_congr rfl fun k hk => ?_
  rw [mulMotion_gravity (mb.posAt_rigid hr hq k) (hm.moment (Finset.mem_range.1 hk)), ← pointVel_dot (mb.posAt_rigid hr hq k), ← mb.wcol_eq hr hq]
  simp only [MotionVec.dot, Vec3.dot, Vec3.smul_x, Vec3.smul_y, Vec3.smul_z, Vec3.zero_x, Vec3.zero_y, Vec3.zero_z]
  ring

/-- The linear momentum of a body is its mass times the velocity of its mass centre. -/
theorem momHom_force {W : PTransform K} {I : RBInertia K} {c : Vec3 K} (hc : I.h = I.m • c) (com : Vec3 K) (V : MotionVec K) :
    (momHom W com I V).force = I.m • (pointVel W V c).lin := by
  rw [momHom_apply, transMul_about]
  unfold ForceVec.about PTransform.transMul RBInertia.mulMotion pointVel
  dsimp only
  rw [hc]
  ext <;> simp <;> ring

theorem MultiBody.cmCol_force (hr : mb.Rigid) (hm : mb.MassOK) (hM : 0 < mb.totalMass) {q : List (List K)} (hq : ValidQ mb q)
    (w : List K) (com : Vec3 K) (i a : Nat) :
    (mb.cmCol (fun k => w.getD k 0) q com i a).force = mb.totalMass • mb.comCol w q i a := by
  unfold MultiBody.cmCol MultiBody.comCol
  rw [Finset.smul_sum]
  have := map_sum (ForceVec.forceHom (K := K)) (fun k => w.getD k 0 • momHom (mb.posAt q k) com (mb.inertiaAt k) (mb.colAt q k i a))
    (Finset.range mb.bodies.length)
  refine this.trans (Finset.sum_congr rfl fun k hk => ?_)
  show (w.getD k 0 • momHom _ _ _ _).force = _
  rw [ForceVec.smul_force, momHom_force (hm.moment (Finset.mem_range.1 hk)), mb.wcol_eq hr hq, smul_smul, smul_smul]
  congr 1
  unfold MultiBody.comCoeff
  field_simp

end RBDyn
