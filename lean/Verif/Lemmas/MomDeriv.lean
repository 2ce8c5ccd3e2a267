import Verif.Lemmas.Momentum
import Verif.Lemmas.CoMDeriv

/-! Derivatives of the momentum and of the centroidal momentum matrix along a trajectory. -/

namespace RBDyn
variable {mb : MultiBody ℝ}
open scoped Mat3

theorem HasDerivForce.sum {f : Nat → ℝ → ForceVec ℝ} {f' : Nat → ForceVec ℝ} {t : ℝ} {n : Nat} (h : ∀ k, k < n → HasDerivForce (f k) (f' k) t) :
    HasDerivForce (fun s => ∑ k ∈ Finset.range n, f k s) (∑ k ∈ Finset.range n, f' k) t := by
  constructor
  · simp only [ForceVec.sum_couple]
    exact HasDerivVec.sum fun k hk => (h k hk).couple
  · simp only [ForceVec.sum_force]
    exact HasDerivVec.sum fun k hk => (h k hk).force

theorem HasDerivForce.const_smul (a : ℝ) {g : ℝ → ForceVec ℝ} {g' : ForceVec ℝ} {t : ℝ} (h : HasDerivForce g g' t) :
    HasDerivForce (fun s => a • g s) (a • g') t := ⟨h.couple.const_smul a, h.force.const_smul a⟩

theorem HasDerivVec.neg' {g : ℝ → Vec3 ℝ} {g' : Vec3 ℝ} {t : ℝ} (h : HasDerivVec g g' t) : HasDerivVec (fun s => -g s) (-g') t :=
  ⟨h.x.neg, h.y.neg, h.z.neg⟩

/-- The frame at the moving point `com` with the orientation of the world. -/
theorem ofTrans_hasVelocity {com : ℝ → Vec3 ℝ} {comDot : Vec3 ℝ} {t : ℝ} (h : HasDerivVec com comDot t) :
    HasSpatialVelocity (fun s => PTransform.ofTrans (-com s)) ⟨0, -comDot⟩ t := by
  refine ⟨?_, ?_⟩
  · refine (HasDerivMat.const (1 : Mat3 ℝ) t).congr ?_
    ext <;> simp
  · refine h.neg'.congr ?_
    ext <;> simp [PTransform.ofTrans, Mat3.tr]

theorem momHom_hasDeriv {W : ℝ → PTransform ℝ} {V v' : MotionVec ℝ} {com : ℝ → Vec3 ℝ} {comDot : Vec3 ℝ} {v : ℝ → MotionVec ℝ} {t : ℝ}
    (hW : HasSpatialVelocity W V t) (rW : IsRigid (W t)) (hc : HasDerivVec com comDot t) (hv : HasDerivMotion v v' t) (I : RBInertia ℝ) :
    HasDerivForce (fun s => momHom (W s) (com s) I (v s)) (momDotHom (W t) (com t) comDot I V (v t, v')) t := by
  have rX := comFrame_rigid rW (com t)
  have hX := hW.mul (ofTrans_hasVelocity hc) rW
  refine (hX.transMul (hv.mulInertia I) rX).congr ?_
  have e : (W t).mulMotion ⟨0, -comDot⟩ = -(W t * PTransform.ofTrans (-com t)).mulMotion ⟨0, comDot⟩ := by
    ext <;> simp [PTransform.mulMotion, PTransform.ofTrans] <;> ring
  rw [e, momDotHom_apply, momHom_apply, momHom_apply, PTransform.transMul_add, MotionVec.add_crossDual, PTransform.transMul_add]
  have e2 : (-(W t * PTransform.ofTrans (-com t)).mulMotion ⟨0, comDot⟩).crossDual (I.mulMotion (v t)) =
      -((W t * PTransform.ofTrans (-com t)).mulMotion ⟨0, comDot⟩).crossDual (I.mulMotion (v t)) := by
    ext <;> simp [MotionVec.crossDual] <;> ring
  rw [e2, PTransform.transMul_neg]
  have e3 : (W t * PTransform.ofTrans (-com t)).transMul
      (((W t * PTransform.ofTrans (-com t)).mulMotion ⟨0, comDot⟩).crossDual (I.mulMotion (v t))) =
      (⟨0, comDot⟩ : MotionVec ℝ).crossDual ((W t * PTransform.ofTrans (-com t)).transMul (I.mulMotion (v t))) := by
    rw [PTransform.transMul_crossDual rX]
  rw [e3]
  abel

variable {q : ℝ → List (List ℝ)} {t : ℝ} {com : ℝ → Vec3 ℝ} {comDot : Vec3 ℝ}

theorem MultiBody.momentumAt_hasDeriv (wf : mb.WF) (hr : mb.Rigid) (hd : mb.DirOK) {α : ℝ → List (List ℝ)} {αD : List (List ℝ)}
    (h : Trajectory mb q (α t) t) (ha : HasDerivDof mb α αD t) (w : Nat → ℝ) (hc : HasDerivVec com comDot t) :
    HasDerivForce (fun s => mb.momentumAt w (q s) (α s) (com s))
      (mb.momentumDotAt w (q t) (α t) (com t) comDot (mb.accAt (q t) (α t) αD 0)) t := by
  unfold MultiBody.momentumAt MultiBody.momentumDotAt
  exact HasDerivForce.sum fun k hk => HasDerivForce.const_smul _ (momHom_hasDeriv (mb.posAt_hasVelocity wf hr hd h hk)
    (mb.posAt_rigid hr (h.valid t) k) hc (mb.velAt_hasDeriv wf hr hd h ha hk) _)

theorem MultiBody.colAt_hasDeriv (wf : mb.WF) (hr : mb.Rigid) (hd : mb.DirOK) {α : List (List ℝ)} (h : Trajectory mb q α t) {k i : Nat}
    (hk : k < mb.bodies.length) (hi : i < mb.bodies.length) (a : Nat) :
    HasDerivMotion (fun s => mb.colAt (q s) k i a) (mb.bdotAt (q t) α k i a) t := by
  simp only [← pathCol_body]
  unfold MultiBody.bdotAt MultiBody.pathCol
  by_cases hp : i ∈ pathUp mb.par k
  · simp only [if_pos hp]
    exact mb.bcol_hasDeriv wf hr hd h hk hi 0 _
  · simp only [if_neg hp]
    exact HasDerivMotion.const 0 t

theorem MultiBody.cmCol_hasDeriv (wf : mb.WF) (hr : mb.Rigid) (hd : mb.DirOK) {α : List (List ℝ)} (h : Trajectory mb q α t) (w : Nat → ℝ)
    (hc : HasDerivVec com comDot t) {i : Nat} (hi : i < mb.bodies.length) (a : Nat) :
    HasDerivForce (fun s => mb.cmCol w (q s) (com s) i a) (mb.cmDotCol w (q t) α (com t) comDot i a) t := by
  unfold MultiBody.cmCol MultiBody.cmDotCol
  exact HasDerivForce.sum fun k hk => HasDerivForce.const_smul _ (momHom_hasDeriv (mb.posAt_hasVelocity wf hr hd h hk)
    (mb.posAt_rigid hr (h.valid t) k) hc (mb.colAt_hasDeriv wf hr hd h hk hi a) _)

theorem HasDerivForce.row {g : ℝ → ForceVec ℝ} {g' : ForceVec ℝ} {t : ℝ} (h : HasDerivForce g g' t) (r : Nat) :
    HasDerivAt (fun s => (g s).toList.getD r 0) (g'.toList.getD r 0) t := by
  rcases r with _ | _ | _ | _ | _ | _ | r
  · exact h.couple.x
  · exact h.couple.y
  · exact h.couple.z
  · exact h.force.x
  · exact h.force.y
  · exact h.force.z
  · simpa [ForceVec.toList] using hasDerivAt_const t (0 : ℝ)

end RBDyn
