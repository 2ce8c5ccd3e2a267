import Verif.Lemmas.JacDot
import Verif.Lemmas.KinDeriv

/-! Jacobians along trajectories. -/

namespace RBDyn
open scoped Mat3

/-- The velocity of the inverse of a moving frame. -/
theorem HasSpatialVelocity.inv {X : ℝ → PTransform ℝ} {v : MotionVec ℝ} {t : ℝ} (hX : HasSpatialVelocity X v t) (rX : IsRigid (X t)) :
    HasSpatialVelocity (fun s => (X s).inv) (-(X t).inv.mulMotion v) t := by
  constructor
  · refine hX.rot.tr.congr ?_
    have h := crossMat_conj (IsRot.tr rX) v.ang
    have e : (-(Mat3.crossMat v.ang * (X t).E)).tr = (X t).E.tr * Mat3.crossMat v.ang := by ext <;> simp <;> ring
    rw [e, h]
    simp only [PTransform.inv, PTransform.mulMotion, MotionVec.neg_ang]
    have hn : ∀ a : Vec3 ℝ, Mat3.crossMat (-a) = -Mat3.crossMat a := fun a => by ext <;> simp
    have hn' : ∀ A B : Mat3 ℝ, -A * B = -(A * B) := fun A B => by ext <;> simp <;> ring
    rw [hn, hn', neg_neg]
  · have hd := HasDerivVec.sub (HasDerivVec.const (0 : Vec3 ℝ) t) (hX.rot.mulVec hX.trans)
    have e : (fun s => (X s).inv.r) = fun s => 0 - (X s).E *ᵥ (X s).r := by
      funext s; simp [PTransform.inv]
    rw [e]
    refine hd.congr ?_
    simp only [PTransform.inv, PTransform.mulMotion, MotionVec.neg_lin, Mat3.tr_tr, Mat3.mulVec_neg, IsRot.mulVec_tr rX,
      Mat3.neg_mulVec, Mat3.mul_mulVec, Mat3.crossMat_mulVec, Vec3.neg_cross]
    rw [Vec3.cross_anti ((X t).E *ᵥ (X t).r)]
    abel

section traj
variable {mb : MultiBody ℝ} {q : ℝ → List (List ℝ)} {α : List (List ℝ)} {t : ℝ}

theorem MultiBody.toPoint_hasVelocity (wf : mb.WF) (hr : mb.Rigid) (hd : mb.DirOK) (h : Trajectory mb q α t) {N i : Nat}
    (hN : N < mb.bodies.length) (hi : i < mb.bodies.length) (p : Vec3 ℝ) :
    HasSpatialVelocity (fun s => mb.toPoint (q s) N p i)
      ((PTransform.ofTrans p).mulMotion (mb.velAt (q t) α N) - (mb.toPoint (q t) N p i).mulMotion (mb.velAt (q t) α i)) t := by
  have rN := mb.posAt_rigid hr (h.valid t) N
  have ri := mb.posAt_rigid hr (h.valid t) i
  have h1 := (HasSpatialVelocity.const (PTransform.ofTrans p) t).mul (mb.posAt_hasVelocity wf hr hd h hN) (ofTrans_rigid p)
  have h2 := h1.mul ((mb.posAt_hasVelocity wf hr hd h hi).inv ri) ((ofTrans_rigid p).mul rN)
  have e : (PTransform.ofTrans p * mb.posAt (q t) N).mulMotion (-(mb.posAt (q t) i).inv.mulMotion (mb.velAt (q t) α i)) +
      ((PTransform.ofTrans p).mulMotion (mb.velAt (q t) α N) + 0) =
      (PTransform.ofTrans p).mulMotion (mb.velAt (q t) α N) - (mb.toPoint (q t) N p i).mulMotion (mb.velAt (q t) α i) := by
    rw [PTransform.mulMotion_neg, ← PTransform.mul_mulMotion _ _ _ ri.inv, add_zero, neg_add_eq_sub]
    rfl
  rw [← e]
  exact h2

/-- Column of `bodyJacobian`. -/
theorem MultiBody.bcol_hasDeriv (wf : mb.WF) (hr : mb.Rigid) (hd : mb.DirOK) (h : Trajectory mb q α t) {N i : Nat}
    (hN : N < mb.bodies.length) (hi : i < mb.bodies.length) (p : Vec3 ℝ) (S : MotionVec ℝ) :
    HasDerivMotion (fun s => (mb.toPoint (q s) N p i).mulMotion S) (mb.bdotHom (q t) α N p i S) t := by
  refine ((mb.toPoint_hasVelocity wf hr hd h hN hi p).mulMotion (HasDerivMotion.const S t)
    (mb.toPoint_rigid hr (h.valid t) N p i)).congr ?_
  show (mb.toPoint (q t) N p i).mulMotion 0 - _ = (MotionVec.cross _ _)
  rw [PTransform.mulMotion_zero, zero_sub, MotionVec.sub_cross, MotionVec.sub_cross, neg_sub]
  rfl

theorem toPoint_world (hr : mb.Rigid) {q : List (List ℝ)} (hq : ValidQ mb q) (N : Nat) (p : Vec3 ℝ) (i : Nat) :
    PTransform.ofTrans (PTransform.ofTrans p * mb.posAt q N).r * (mb.posAt q i).inv =
      PTransform.ofRot (mb.posAt q N).E.tr * mb.toPoint q N p i := by
  unfold MultiBody.toPoint
  rw [← PTransform.mul_assoc']
  congr 1
  have := mb.posAt_rigid hr hq N
  ext1
  · simp only [PTransform.mul_E, PTransform.ofRot, PTransform.ofTrans, Mat3.one_mul']
    exact (IsRot.tr_mul this).symm
  · simp [PTransform.ofRot, PTransform.ofTrans]

/-- Column of `jacobian`. -/
theorem MultiBody.col_hasDeriv (wf : mb.WF) (hr : mb.Rigid) (hd : mb.DirOK) (h : Trajectory mb q α t) {N i : Nat}
    (hN : N < mb.bodies.length) (hi : i < mb.bodies.length) (p : Vec3 ℝ) (S : MotionVec ℝ) :
    HasDerivMotion (fun s => (PTransform.ofTrans (PTransform.ofTrans p * mb.posAt (q s) N).r * (mb.posAt (q s) i).inv).mulMotion S)
      (mb.dotHom (q t) α N p i S) t := by
  have rN := mb.posAt_rigid hr (h.valid t) N
  have hrot : HasSpatialVelocity (fun s => PTransform.ofRot (mb.posAt (q s) N).E.tr)
      ⟨-((mb.posAt (q t) N).E.tr *ᵥ (mb.velAt (q t) α N).ang), 0⟩ t := by
    have h1 := ((mb.posAt_hasVelocity wf hr hd h hN).inv rN).rot
    constructor
    · exact h1
    · refine (HasDerivVec.const (0 : Vec3 ℝ) t).congr ?_
      simp
  have h2 := hrot.mulMotion (mb.bcol_hasDeriv wf hr hd h hN hi p S) (ofRot_rigid (IsRot.tr rN))
  have e : (fun s => (PTransform.ofTrans (PTransform.ofTrans p * mb.posAt (q s) N).r * (mb.posAt (q s) i).inv).mulMotion S) =
      fun s => (PTransform.ofRot (mb.posAt (q s) N).E.tr).mulMotion ((mb.toPoint (q s) N p i).mulMotion S) := by
    funext s
    rw [toPoint_world hr (h.valid s), PTransform.mul_mulMotion _ _ _ (mb.toPoint_rigid hr (h.valid s) N p i)]
  rw [e]
  refine h2.congr ?_
  show _ = (⟨(mb.velWAt (q t) α N).ang, 0⟩ : MotionVec ℝ).cross ((PTransform.ofRot (mb.posAt (q t) N).E.tr * mb.toPoint (q t) N p i).motionHom S) + _
  rw [PTransform.motionHom_apply, PTransform.mul_mulMotion _ _ _ (mb.toPoint_rigid hr (h.valid t) N p i), add_comm, sub_eq_add_neg]
  congr 1
  ext1 <;> simp [MotionVec.cross, MultiBody.velWAt, Vec3.neg_cross]

/-- Derivatives of all columns of a path. -/
theorem pathCols_hasDeriv {path : List Nat} {h : ℝ → Nat → Nat → MotionVec ℝ} {h' : Nat → Nat → MotionVec ℝ}
    (hd : ∀ x a, x < path.length → HasDerivMotion (fun s => h s x a) (h' x a) t) (c : Nat) :
    HasDerivMotion (fun s => (mb.pathCols path (h s) path.length).getD c 0) ((mb.pathCols path h' path.length).getD c 0) t := by
  have key : ∀ k, k ≤ path.length →
      HasDerivMotion (fun s => (mb.pathCols path (h s) k).getD c 0) ((mb.pathCols path h' k).getD c 0) t := by
    intro k
    induction k with
    | zero => intro _; simpa [MultiBody.pathCols] using HasDerivMotion.const 0 t
    | succ k ih =>
      intro hk
      have e : ∀ g : Nat → Nat → MotionVec ℝ, (mb.pathCols path g (k + 1)).getD c 0 =
          if c < mb.colOff path k then (mb.pathCols path g k).getD c 0
          else if c - mb.colOff path k < mb.dofAt path[k] then g k (c - mb.colOff path k) else 0 := by
        intro g
        rw [mb.pathCols_succ path g hk, List.getD_eq_getElem?_getD]
        have hl := mb.pathCols_length path g (by omega : k ≤ path.length)
        split
        · rw [List.getElem?_append_left (by omega), List.getD_eq_getElem?_getD]
        · rw [List.getElem?_append_right (by omega), hl]
          split
          · rename_i h2
            rw [range_map_getElem? h2, Option.getD_some]
          · rename_i h2
            rw [List.getElem?_eq_none (by simp; omega), Option.getD_none]
      simp only [e]
      split
      · exact ih (by omega)
      · split
        · exact hd k _ hk
        · exact HasDerivMotion.const 0 t
  exact key _ le_rfl

end traj

end RBDyn
