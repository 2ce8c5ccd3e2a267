import Verif.Lemmas.Momentum
import Verif.Lemmas.CoM

/-! Changing the units of length, mass and time: quantities in other units, and how the operations of SpaceVecAlg treat them. -/

namespace RBDyn
variable {K : Type} [Scalar K]
open scoped Mat3

/-- A pose when lengths are multiplied by `L`. -/
def PTransform.units (L : K) (X : PTransform K) : PTransform K := ⟨X.E, L • X.r⟩

/-- A velocity (or acceleration) when lengths are multiplied by `L` and angular velocities by `c`. -/
def MotionVec.units (L c : K) (v : MotionVec K) : MotionVec K := ⟨c • v.ang, (c * L) • v.lin⟩

/-- A force (or momentum) when lengths are multiplied by `L` and forces by `c`. -/
def ForceVec.units (L c : K) (f : ForceVec K) : ForceVec K := ⟨(c * L) • f.couple, c • f.force⟩

/-- An inertia when lengths are multiplied by `L` and masses by `M`. -/
def RBInertia.units (L M : K) (I : RBInertia K) : RBInertia K :=
  ⟨M * I.m, (M * L) • I.h, ⟨M * L * L * I.I.xx, M * L * L * I.I.yx, M * L * L * I.I.yy, M * L * L * I.I.zx, M * L * L * I.I.zy, M * L * L * I.I.zz⟩⟩

theorem PTransform.units_one (L : K) : (1 : PTransform K).units L = 1 := by
  ext1
  · rfl
  · simp [PTransform.units]

theorem PTransform.units_mul (L : K) (X Y : PTransform K) : (X * Y).units L = X.units L * Y.units L := by
  ext1
  · rfl
  · simp only [PTransform.units, PTransform.mul_r, Mat3.mulVec_smul, smul_add]

theorem PTransform.units_inv (L : K) (X : PTransform K) : X.inv.units L = (X.units L).inv := by
  ext1
  · rfl
  · simp only [PTransform.units, PTransform.inv, Mat3.mulVec_smul, smul_neg]

theorem PTransform.units_mulMotion (L c : K) (X : PTransform K) (v : MotionVec K) :
    (X.units L).mulMotion (v.units L c) = (X.mulMotion v).units L c := by
  ext1
  · simp only [PTransform.units, MotionVec.units, PTransform.mulMotion, Mat3.mulVec_smul]
  · simp only [PTransform.units, MotionVec.units, PTransform.mulMotion, ← Mat3.mulVec_smul]
    congr 1
    ext <;> simp <;> ring

theorem PTransform.units_dualMul (L c : K) (X : PTransform K) (f : ForceVec K) :
    (X.units L).dualMul (f.units L c) = (X.dualMul f).units L c := by
  ext1
  · simp only [PTransform.units, ForceVec.units, PTransform.dualMul, ← Mat3.mulVec_smul]
    congr 1
    ext <;> simp <;> ring
  · simp only [PTransform.units, ForceVec.units, PTransform.dualMul, Mat3.mulVec_smul]

theorem PTransform.units_transMul (L c : K) (X : PTransform K) (f : ForceVec K) :
    (X.units L).transMul (f.units L c) = (X.transMul f).units L c := by
  ext1
  · simp only [PTransform.units, ForceVec.units, PTransform.transMul, Mat3.mulVec_smul]
    ext <;> simp <;> ring
  · simp only [PTransform.units, ForceVec.units, PTransform.transMul, Mat3.mulVec_smul]

theorem MotionVec.units_cross (L c d : K) (v w : MotionVec K) : (v.units L c).cross (w.units L d) = (v.cross w).units L (c * d) := by
  ext <;> simp [MotionVec.units, MotionVec.cross] <;> ring

theorem MotionVec.units_crossDual (L c d : K) (v : MotionVec K) (f : ForceVec K) :
    (v.units L c).crossDual (f.units L d) = (v.crossDual f).units L (c * d) := by
  ext <;> simp [MotionVec.units, ForceVec.units, MotionVec.crossDual] <;> ring

theorem MotionVec.units_dot (L c d : K) (v : MotionVec K) (f : ForceVec K) : (v.units L c).dot (f.units L d) = c * d * L * v.dot f := by
  simp [MotionVec.units, ForceVec.units, MotionVec.dot, Vec3.dot]
  ring

theorem RBInertia.units_mulMotion (L M c : K) (I : RBInertia K) (v : MotionVec K) :
    (I.units L M).mulMotion (v.units L c) = (I.mulMotion v).units L (M * L * c) := by
  ext <;> simp [RBInertia.units, MotionVec.units, ForceVec.units, RBInertia.mulMotion, Sym3.toMat, Mat3.mulVec] <;> ring

theorem MotionVec.units_zero (L c : K) : (0 : MotionVec K).units L c = 0 := by
  ext1 <;> simp [MotionVec.units]

theorem MotionVec.units_add (L c : K) (v w : MotionVec K) : (v + w).units L c = v.units L c + w.units L c := by
  ext1 <;> simp [MotionVec.units]

theorem MotionVec.units_smul (L c s : K) (v : MotionVec K) : (s • v).units L c = s • v.units L c := by
  ext1 <;> simp [MotionVec.units, smul_smul, mul_comm]

theorem ForceVec.units_zero (L c : K) : (0 : ForceVec K).units L c = 0 := by
  ext1 <;> simp [ForceVec.units]

theorem ForceVec.units_add (L c : K) (v w : ForceVec K) : (v + w).units L c = v.units L c + w.units L c := by
  ext1 <;> simp [ForceVec.units]

theorem ForceVec.units_sub (L c : K) (v w : ForceVec K) : (v - w).units L c = v.units L c - w.units L c := by
  ext1 <;> simp [ForceVec.units, smul_sub]

theorem MotionVec.units_sum {ι : Type} (L c : K) (s : Finset ι) (f : ι → MotionVec K) :
    (∑ k ∈ s, f k).units L c = ∑ k ∈ s, (f k).units L c := by
  classical
  induction s using Finset.induction_on with
  | empty => exact units_zero L c
  | insert a s ha ih => rw [Finset.sum_insert ha, Finset.sum_insert ha, units_add, ih]

theorem ForceVec.units_sum {ι : Type} (L c : K) (s : Finset ι) (f : ι → ForceVec K) :
    (∑ k ∈ s, f k).units L c = ∑ k ∈ s, (f k).units L c := by
  classical
  induction s using Finset.induction_on with
  | empty => exact units_zero L c
  | insert a s ha ih => rw [Finset.sum_insert ha, Finset.sum_insert ha, units_add, ih]

theorem worldPoint_units (L : K) (W : PTransform K) (p : Vec3 K) : worldPoint (W.units L) (L • p) = L • worldPoint W p := by
  simp only [worldPoint, PTransform.units, Mat3.mulVec_smul, smul_add]

theorem momHom_units (L M c : K) (W : PTransform K) (com : Vec3 K) (I : RBInertia K) (v : MotionVec K) :
    momHom (W.units L) (L • com) (I.units L M) (v.units L c) = (momHom W com I v).units L (M * L * c) := by
  have e : PTransform.ofTrans (-(L • com)) = (PTransform.ofTrans (-com)).units L := by
    ext1
    · rfl
    · simp [PTransform.units, PTransform.ofTrans]
  rw [momHom_apply, momHom_apply, RBInertia.units_mulMotion, e, ← PTransform.units_mul, PTransform.units_transMul]

end RBDyn
