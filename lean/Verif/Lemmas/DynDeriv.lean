import Verif.Lemmas.KinDeriv
import Verif.Lemmas.Mass

/-! Derivatives of momentum and energy along trajectories. -/

namespace RBDyn
open scoped Mat3

/-- Entrywise derivative of a force (or momentum) vector. -/
structure HasDerivForce (f : ℝ → ForceVec ℝ) (f' : ForceVec ℝ) (t : ℝ) : Prop where
  couple : HasDerivVec (fun s => (f s).couple) f'.couple t
  force : HasDerivVec (fun s => (f s).force) f'.force t

theorem HasDerivForce.congr {f : ℝ → ForceVec ℝ} {a b : ForceVec ℝ} {t : ℝ} (h : HasDerivForce f a t) (e : a = b) :
    HasDerivForce f b t := e ▸ h

theorem HasDerivMat.const_mulVec (A : Mat3 ℝ) {g : ℝ → Vec3 ℝ} {g' : Vec3 ℝ} {t : ℝ} (h : HasDerivVec g g' t) :
    HasDerivVec (fun s => A *ᵥ g s) (A *ᵥ g') t := by
  refine ((HasDerivMat.const A t).mulVec h).congr ?_
  ext <;> simp

theorem HasDerivVec.const_cross (a : Vec3 ℝ) {g : ℝ → Vec3 ℝ} {g' : Vec3 ℝ} {t : ℝ} (h : HasDerivVec g g' t) :
    HasDerivVec (fun s => a.cross (g s)) (a.cross g') t := by
  refine ((HasDerivVec.const a t).cross h).congr ?_
  ext <;> simp

theorem HasDerivVec.const_smul (a : ℝ) {g : ℝ → Vec3 ℝ} {g' : Vec3 ℝ} {t : ℝ} (h : HasDerivVec g g' t) :
    HasDerivVec (fun s => a • g s) (a • g') t := by
  refine (HasDerivVec.smul (hasDerivAt_const t a) h).congr ?_
  ext <;> simp

theorem HasDerivVec.dot {f g : ℝ → Vec3 ℝ} {f' g' : Vec3 ℝ} {t : ℝ} (hf : HasDerivVec f f' t) (hg : HasDerivVec g g' t) :
    HasDerivAt (fun s => (f s).dot (g s)) (f'.dot (g t) + (f t).dot g') t := by
  have := ((hf.x.mul hg.x).add (hf.y.mul hg.y)).add (hf.z.mul hg.z)
  exact this.congr_deriv (by simp [Vec3.dot]; ring)

theorem HasDerivMotion.mulInertia (I : RBInertia ℝ) {v : ℝ → MotionVec ℝ} {v' : MotionVec ℝ} {t : ℝ} (h : HasDerivMotion v v' t) :
    HasDerivForce (fun s => I.mulMotion (v s)) (I.mulMotion v') t :=
  ⟨(HasDerivMat.const_mulVec _ h.ang).add (h.lin.const_cross _), (h.lin.const_smul _).sub (h.ang.const_cross _)⟩

theorem HasDerivMotion.dot {v : ℝ → MotionVec ℝ} {v' : MotionVec ℝ} {f : ℝ → ForceVec ℝ} {f' : ForceVec ℝ} {t : ℝ}
    (h : HasDerivMotion v v' t) (hf : HasDerivForce f f' t) :
    HasDerivAt (fun s => (v s).dot (f s)) (v'.dot (f t) + (v t).dot f') t := by
  have := (h.ang.dot hf.couple).add (h.lin.dot hf.force)
  exact this.congr_deriv (by simp [MotionVec.dot]; ring)

/-- Derivative of a moving force vector expressed in the base frame. -/
theorem HasSpatialVelocity.transMul {X : ℝ → PTransform ℝ} {v : MotionVec ℝ} {f : ℝ → ForceVec ℝ} {f' : ForceVec ℝ} {t : ℝ}
    (hX : HasSpatialVelocity X v t) (hf : HasDerivForce f f' t) (rX : IsRigid (X t)) :
    HasDerivForce (fun s => (X s).transMul (f s)) ((X t).transMul (f' + v.crossDual (f t))) t := by
  have hE := hX.rot.tr
  have ht : ∀ x : Vec3 ℝ, (-(Mat3.crossMat v.ang * (X t).E)).tr *ᵥ x = (X t).E.tr *ᵥ (v.ang.cross x) := by
    intro x
    have : (-(Mat3.crossMat v.ang * (X t).E)).tr = (X t).E.tr * Mat3.crossMat v.ang := by
      ext <;> simp [Mat3.tr] <;> ring
    rw [this, Mat3.mul_mulVec, Mat3.crossMat_mulVec]
  have h1 := hE.mulVec hf.force
  have h2 := hE.mulVec hf.couple
  rw [ht] at h1 h2
  constructor
  · refine (h2.add (hX.trans.cross h1)).congr ?_
    simp only [PTransform.transMul, MotionVec.crossDual, ForceVec.add_couple, ForceVec.add_force, Mat3.mulVec_add,
      rX.tr_mulVec_cross v.lin, Vec3.cross_add]
    ext <;> simp <;> ring
  · refine h1.congr ?_
    simp only [PTransform.transMul, MotionVec.crossDual, ForceVec.add_force, Mat3.mulVec_add]
    ext <;> simp <;> ring

/-- The world position of the mass centre times the mass, for a body with inertia `I` in pose `X`. -/
def massPos {K : Type} [Scalar K] (X : PTransform K) (I : RBInertia K) : Vec3 K := X.E.tr *ᵥ I.h + I.m • X.r

/-- The weight of a body with inertia `I` in pose `X`, as a force vector about the world origin: force `-m g` acting at the mass centre
(`g` points upwards, as `MultiBodyConfig::gravity` does). -/
def weight {K : Type} [Scalar K] (X : PTransform K) (I : RBInertia K) (g : Vec3 K) : ForceVec K :=
  -⟨(massPos X I).cross g, I.m • g⟩

theorem dualMul_weight {K : Type} [Scalar K] {X : PTransform K} (h : IsRigid X) (I : RBInertia K) (g : Vec3 K) :
    X.dualMul (weight X I g) = -I.mulMotion (X.mulMotion ⟨0, g⟩) := by
  have hc := h.mulVec_cross (X.E.tr *ᵥ I.h) g
  rw [h.mulVec_tr] at hc
  have e1 : X.dualMul (weight X I g) = -⟨X.E *ᵥ ((X.E.tr *ᵥ I.h).cross g), X.E *ᵥ (I.m • g)⟩ := by
    unfold weight massPos PTransform.dualMul
    ext <;> simp <;> ring
  rw [e1, hc]
  simp only [PTransform.mulMotion, RBInertia.mulMotion, Mat3.mulVec_smul]
  ext <;> simp

theorem massPos_hasDeriv {X : ℝ → PTransform ℝ} {v : MotionVec ℝ} {t : ℝ} (hX : HasSpatialVelocity X v t) (I : RBInertia ℝ) :
    HasDerivVec (fun s => massPos (X s) I) ((X t).E.tr *ᵥ (I.mulMotion v).force) t := by
  have h1 := hX.rot.tr.mulVec (HasDerivVec.const I.h t)
  refine (h1.add (hX.trans.const_smul I.m)).congr ?_
  have : (-(Mat3.crossMat v.ang * (X t).E)).tr = (X t).E.tr * Mat3.crossMat v.ang := by
    ext <;> simp [Mat3.tr] <;> ring
  rw [this, Mat3.mul_mulVec, Mat3.crossMat_mulVec]
  simp only [RBInertia.mulMotion, Mat3.mulVec_sub, Mat3.mulVec_smul, Vec3.cross_anti v.ang I.h, Mat3.mulVec_neg]
  ext <;> simp <;> ring

variable {mb : MultiBody ℝ}

/-- The acceleration computed with the base accelerating with `a0` is the one with a resting base plus the transported `a0`. -/
theorem MultiBody.accAt_base {K : Type} [Scalar K] (mb : MultiBody K) (q alpha alphaD : List (List K)) (a0 : MotionVec K) (k : Nat) :
    mb.accAt q alpha alphaD a0 k = (mb.posAt q k).mulMotion a0 + mb.accAt q alpha alphaD 0 k := by
  simp [MultiBody.accAt]

/-- World momentum of body `k` along a trajectory: its rate of change. -/
theorem MultiBody.momentum_hasDeriv (wf : mb.WF) (hr : mb.Rigid) (hd : mb.DirOK) {q : ℝ → List (List ℝ)}
    {α : ℝ → List (List ℝ)} {αD : List (List ℝ)} {t : ℝ} (h : Trajectory mb q (α t) t) (ha : HasDerivDof mb α αD t)
    {k : Nat} (hk : k < mb.bodies.length) :
    HasDerivForce (fun s => (mb.posAt (q s) k).transMul ((mb.inertiaAt k).mulMotion (mb.velAt (q s) (α s) k)))
      ((mb.posAt (q t) k).transMul ((mb.inertiaAt k).mulMotion (mb.accAt (q t) (α t) αD 0 k) +
        (mb.velAt (q t) (α t) k).crossDual ((mb.inertiaAt k).mulMotion (mb.velAt (q t) (α t) k)))) t :=
  (mb.posAt_hasVelocity wf hr hd h hk).transMul ((mb.velAt_hasDeriv wf hr hd h ha hk).mulInertia _) (mb.posAt_rigid hr (h.valid t) k)

theorem HasDerivAt.finset_sum {s : Finset Nat} {f : Nat → ℝ → ℝ} {f' : Nat → ℝ} {t : ℝ} (h : ∀ k ∈ s, HasDerivAt (f k) (f' k) t) :
    HasDerivAt (fun x => ∑ k ∈ s, f k x) (∑ k ∈ s, f' k) t :=
  HasDerivAt.fun_sum h

/-- Rate of change of (twice) the kinetic energy of body `k`. -/
theorem MultiBody.kinetic_hasDeriv (wf : mb.WF) (hr : mb.Rigid) (hd : mb.DirOK) {q : ℝ → List (List ℝ)}
    {α : ℝ → List (List ℝ)} {αD : List (List ℝ)} {t : ℝ} (h : Trajectory mb q (α t) t) (ha : HasDerivDof mb α αD t)
    {k : Nat} (hk : k < mb.bodies.length) :
    HasDerivAt (fun s => (mb.velAt (q s) (α s) k).dot ((mb.inertiaAt k).mulMotion (mb.velAt (q s) (α s) k)))
      (2 * (mb.velAt (q t) (α t) k).dot ((mb.inertiaAt k).mulMotion (mb.accAt (q t) (α t) αD 0 k) +
        (mb.velAt (q t) (α t) k).crossDual ((mb.inertiaAt k).mulMotion (mb.velAt (q t) (α t) k)))) t := by
  have hv := mb.velAt_hasDeriv wf hr hd h ha hk
  refine (hv.dot (hv.mulInertia (mb.inertiaAt k))).congr_deriv ?_
  rw [MotionVec.dot_add, MotionVec.dot_crossDual, MotionVec.cross_self]
  rw [RBInertia.dot_mulMotion_comm]
  simp
  ring

end RBDyn
