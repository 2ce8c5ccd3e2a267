import Verif.Lemmas.Coriolis
import Verif.Lemmas.JacDeriv
import Verif.Lemmas.DynDeriv

/-! The time derivative of the mass matrix. -/

namespace RBDyn
variable {mb : MultiBody ℝ}
open scoped Mat3

theorem RBInertia.atCom_symm {K : Type} [Scalar K] (I : RBInertia K) (p : Vec3 K) : (I.atCom p).tr = I.atCom p := by
  unfold RBInertia.atCom
  ext <;> simp [Mat3.tr, Sym3.toMat] <;> ring

theorem RBInertia.world_symm {K : Type} [Scalar K] (I : RBInertia K) (W : PTransform K) (p : Vec3 K) : (I.world W p).tr = I.world W p := by
  unfold RBInertia.world
  rw [Mat3.tr_mul, Mat3.tr_mul, Mat3.tr_tr, I.atCom_symm, Mat3.mul_assoc']

/-- The rotational inertia turns with the body. -/
theorem RBInertia.world_hasDeriv (I : RBInertia ℝ) (p : Vec3 ℝ) {W : ℝ → PTransform ℝ} {V : MotionVec ℝ} {t : ℝ}
    (h : HasSpatialVelocity W V t) (hW : IsRigid (W t)) :
    HasDerivMat (fun s => I.world (W s) p)
      (Mat3.crossMat ((W t).E.tr *ᵥ V.ang) * I.world (W t) p + (Mat3.crossMat ((W t).E.tr *ᵥ V.ang) * I.world (W t) p).tr) t := by
  have hW : IsRot (W t).E := hW
  have hc := crossMat_conj hW.tr V.ang
  have e1 : (-(Mat3.crossMat V.ang * (W t).E)).tr = Mat3.crossMat ((W t).E.tr *ᵥ V.ang) * (W t).E.tr := by
    rw [← hc]; ext <;> simp [Mat3.tr] <;> ring
  refine (h.rot.tr.mul ((HasDerivMat.const (I.atCom p) t).mul h.rot)).congr ?_
  have e2 : (Mat3.crossMat ((W t).E.tr *ᵥ V.ang) * I.world (W t) p).tr =
      (W t).E.tr * (I.atCom p * (-(Mat3.crossMat V.ang * (W t).E))) := by
    have e3 : -(Mat3.crossMat V.ang * (W t).E) = (Mat3.crossMat ((W t).E.tr *ᵥ V.ang) * (W t).E.tr).tr := by rw [← e1, Mat3.tr_tr]
    rw [e3]
    unfold RBInertia.world
    simp only [Mat3.tr_mul, Mat3.tr_tr, I.atCom_symm, Mat3.mul_assoc']
  rw [e1, e2]
  unfold RBInertia.world
  simp only [Mat3.mul_assoc']
  congr 1
  congr 1
  ext <;> simp

/-- The Coriolis form is half of the derivative of the kinetic energy form. -/
theorem corForm_deriv (I : RBInertia ℝ) (p : Vec3 ℝ) {W : ℝ → PTransform ℝ} {V : MotionVec ℝ} {t : ℝ}
    (h : HasSpatialVelocity W V t) (hW : IsRigid (W t)) {u v : ℝ → MotionVec ℝ} {u' v' : MotionVec ℝ} (hu : HasDerivMotion u u' t)
    (hv : HasDerivMotion v v' t) :
    HasDerivAt (fun s => I.m * (u s).lin.dot (v s).lin + (u s).ang.dot (I.world (W s) p *ᵥ (v s).ang))
      (corForm (W t) ((W t).E.tr *ᵥ V.ang) I p (u t) v' (v t) + corForm (W t) ((W t).E.tr *ᵥ V.ang) I p (v t) u' (u t)) t := by
  have h1 := (hu.lin.dot hv.lin).const_mul I.m
  have h2 := hu.ang.dot ((I.world_hasDeriv p h hW).mulVec hv.ang)
  refine (h1.add h2).congr_deriv ?_
  unfold corForm
  have hs := I.world_symm (W t) p
  generalize I.world (W t) p = M at hs ⊢
  generalize Mat3.crossMat ((W t).E.tr *ᵥ V.ang) = Ω
  have h3 : (v t).ang.dot (M *ᵥ u'.ang) = u'.ang.dot (M *ᵥ (v t).ang) := by rw [Mat3.dot_mulVec, hs, Vec3.dot_comm]
  have h4 : (v t).ang.dot ((Ω * M) *ᵥ (u t).ang) = (u t).ang.dot ((Ω * M).tr *ᵥ (v t).ang) := by rw [Mat3.dot_mulVec, Vec3.dot_comm]
  have h5 : (v t).lin.dot u'.lin = u'.lin.dot (v t).lin := Vec3.dot_comm _ _
  have da : ∀ a b c : Vec3 ℝ, a.dot (b + c) = a.dot b + a.dot c := fun a b c => by simp [Vec3.dot]; ring
  simp only [da, Mat3.add_mulVec]
  rw [h3, h4, h5]
  ring

variable {q : ℝ → List (List ℝ)} {α : List (List ℝ)} {t : ℝ}

theorem MultiBody.wcol_hasDeriv (wf : mb.WF) (hr : mb.Rigid) (hd : mb.DirOK) (h : Trajectory mb q α t) {k i : Nat}
    (hk : k < mb.bodies.length) (hi : i < mb.bodies.length) (p : Vec3 ℝ) (a : Nat) :
    HasDerivMotion (fun s => mb.wcol (q s) k p i a) (mb.wdot (q t) α k p i a) t := by
  unfold MultiBody.wcol MultiBody.wdot MultiBody.pathCol
  by_cases hp : i ∈ pathUp mb.par k
  · simp only [if_pos hp]
    exact mb.col_hasDeriv wf hr hd h hk hi p _
  · simp only [if_neg hp]
    exact HasDerivMotion.const 0 t

theorem MultiBody.massAt_hasDeriv (wf : mb.WF) (hr : mb.Rigid) (hd : mb.DirOK) (h : Trajectory mb q α t)
    (hm : ∀ b ∈ mb.bodies, 0 < b.inertia.m ∨ b.inertia.h = 0) {i j : Nat} (hi : i < mb.bodies.length) (hj : j < mb.bodies.length) (a b : Nat) :
    HasDerivAt (fun s => mb.massAt (q s) i a j b)
      (mb.corAt (q t) α mb.bodies.length i a j b + mb.corAt (q t) α mb.bodies.length j b i a) t := by
  unfold MultiBody.massAt MultiBody.corAt
  rw [← Finset.sum_add_distrib]
  refine HasDerivAt.fun_sum fun k hk => ?_
  rw [Finset.mem_range] at hk
  have hb : mb.bodies[k]? = some mb.bodies[k] := List.getElem?_eq_getElem hk
  have hcom : (mb.inertiaAt k).h = (mb.inertiaAt k).m • mb.corComAt k := by
    have := mb.bodies[k].corCom_spec (hm _ (List.getElem_mem hk))
    simpa [MultiBody.inertiaAt, MultiBody.corComAt, hb] using this
  have e : (fun s => (mb.colAt (q s) k i a).dot ((mb.inertiaAt k).mulMotion (mb.colAt (q s) k j b))) =
      fun s => (mb.inertiaAt k).m * (mb.wcol (q s) k (mb.corComAt k) i a).lin.dot (mb.wcol (q s) k (mb.corComAt k) j b).lin +
        (mb.wcol (q s) k (mb.corComAt k) i a).ang.dot
          ((mb.inertiaAt k).world (mb.posAt (q s) k) (mb.corComAt k) *ᵥ (mb.wcol (q s) k (mb.corComAt k) j b).ang) := by
    funext s
    rw [mb.wcol_eq hr (h.valid s), mb.wcol_eq hr (h.valid s), mass_form (mb.posAt_rigid hr (h.valid s) k) _ _ hcom]
  rw [e, mb.velWAt_ang]
  exact corForm_deriv _ _ (mb.posAt_hasVelocity wf hr hd h hk) (mb.posAt_rigid hr (h.valid t) k)
    (mb.wcol_hasDeriv wf hr hd h hk hi _ a) (mb.wcol_hasDeriv wf hr hd h hk hj _ b)

end RBDyn
