import Verif.Lemmas.CoMJac
import Verif.Lemmas.CorDeriv

/-! Derivatives of the centre of mass and of its Jacobian along a trajectory. -/

namespace RBDyn
variable {mb : MultiBody ℝ}
open scoped Mat3

theorem HasDerivVec.sum {f : Nat → ℝ → Vec3 ℝ} {f' : Nat → Vec3 ℝ} {t : ℝ} {n : Nat} (h : ∀ k, k < n → HasDerivVec (f k) (f' k) t) :
    HasDerivVec (fun s => ∑ k ∈ Finset.range n, f k s) (∑ k ∈ Finset.range n, f' k) t := by
  induction n with
  | zero => simpa using HasDerivVec.const (0 : Vec3 ℝ) t
  | succ n ih =>
    simp only [Finset.sum_range_succ]
    exact (ih fun k hk => h k (by omega)).add (h n (by omega))

theorem worldPoint_hasDeriv {W : ℝ → PTransform ℝ} {V : MotionVec ℝ} {t : ℝ} (h : HasSpatialVelocity W V t) (p : Vec3 ℝ) :
    HasDerivVec (fun s => worldPoint (W s) p) (pointVel (W t) V p).lin t := by
  refine (h.trans.add (h.rot.tr.mulVec (HasDerivVec.const p t))).congr ?_
  unfold pointVel
  ext <;> simp [Mat3.tr] <;> ring

theorem pointVel_hasDeriv {W : ℝ → PTransform ℝ} {V : ℝ → MotionVec ℝ} {A : MotionVec ℝ} {t : ℝ} (h : HasSpatialVelocity W (V t) t)
    (hV : HasDerivMotion V A t) (p : Vec3 ℝ) :
    HasDerivVec (fun s => (pointVel (W s) (V s) p).lin) (pointAcc (W t) (V t) A p).lin t := by
  refine (h.rot.tr.mulVec (hV.lin.add (hV.ang.cross (HasDerivVec.const p t)))).congr ?_
  unfold pointAcc
  ext <;> simp [Mat3.tr] <;> ring

variable {q : ℝ → List (List ℝ)} {α : List (List ℝ)} {t : ℝ}

theorem MultiBody.comAt_hasDeriv (wf : mb.WF) (hr : mb.Rigid) (hd : mb.DirOK) (h : Trajectory mb q α t) :
    HasDerivVec (fun s => mb.comAt (q s)) (mb.comVelAt (q t) α) t := by
  unfold MultiBody.comAt MultiBody.comVelAt
  exact HasDerivVec.const_smul _ (HasDerivVec.sum fun k hk => HasDerivVec.const_smul _
    (worldPoint_hasDeriv (mb.posAt_hasVelocity wf hr hd h hk) _))

theorem MultiBody.comVelAt_hasDeriv (wf : mb.WF) (hr : mb.Rigid) (hd : mb.DirOK) {α : ℝ → List (List ℝ)} {αD : List (List ℝ)}
    (h : Trajectory mb q (α t) t) (ha : HasDerivDof mb α αD t) :
    HasDerivVec (fun s => mb.comVelAt (q s) (α s)) (mb.comAccAt (q t) (α t) αD) t := by
  unfold MultiBody.comVelAt MultiBody.comAccAt
  exact HasDerivVec.const_smul _ (HasDerivVec.sum fun k hk => HasDerivVec.const_smul _
    (pointVel_hasDeriv (mb.posAt_hasVelocity wf hr hd h hk) (mb.velAt_hasDeriv wf hr hd h ha hk) _))

theorem MultiBody.comCol_hasDeriv (wf : mb.WF) (hr : mb.Rigid) (hd : mb.DirOK) (h : Trajectory mb q α t) (w : List ℝ) {i : Nat}
    (hi : i < mb.bodies.length) (a : Nat) : HasDerivVec (fun s => mb.comCol w (q s) i a) (mb.comDotCol w (q t) α i a) t := by
  unfold MultiBody.comCol MultiBody.comDotCol
  exact HasDerivVec.sum fun k hk => HasDerivVec.const_smul _ (mb.wcol_hasDeriv wf hr hd h hk hi _ a).lin

end RBDyn
