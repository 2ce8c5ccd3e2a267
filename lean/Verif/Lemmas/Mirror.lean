import Verif.Lemmas.Momentum
import Verif.Lemmas.CoM

/-! Mirror images: quantities seen in a mirror in the plane `y = 0`, and how the operations of SpaceVecAlg treat them. Positions, linear
velocities and forces are vectors; angular velocities and couples are pseudovectors, which also change sign. -/

namespace RBDyn
variable {K : Type} [Scalar K]
open scoped Mat3

/-- The mirror image of a vector. -/
def Vec3.mir (v : Vec3 K) : Vec3 K := ⟨v.x, -v.y, v.z⟩

/-- The mirror image of a pseudovector. -/
def Vec3.mirAx (v : Vec3 K) : Vec3 K := ⟨-v.x, v.y, -v.z⟩

/-- The mirror image of a matrix. -/
def Mat3.mir (A : Mat3 K) : Mat3 K := ⟨A.m00, -A.m01, A.m02, -A.m10, A.m11, -A.m12, A.m20, -A.m21, A.m22⟩

/-- The mirror image of a pose. -/
def PTransform.mir (X : PTransform K) : PTransform K := ⟨X.E.mir, X.r.mir⟩

/-- The mirror image of a velocity or acceleration. -/
def MotionVec.mir (v : MotionVec K) : MotionVec K := ⟨v.ang.mirAx, v.lin.mir⟩

/-- The mirror image of a force or momentum. -/
def ForceVec.mir (f : ForceVec K) : ForceVec K := ⟨f.couple.mirAx, f.force.mir⟩

/-- The mirror image of an inertia. -/
def RBInertia.mir (I : RBInertia K) : RBInertia K := ⟨I.m, I.h.mir, ⟨I.I.xx, -I.I.yx, I.I.yy, I.I.zx, -I.I.zy, I.I.zz⟩⟩

theorem Vec3.mir_mir (v : Vec3 K) : v.mir.mir = v := by ext <;> simp [Vec3.mir]
theorem Vec3.mirAx_mirAx (v : Vec3 K) : v.mirAx.mirAx = v := by ext <;> simp [Vec3.mirAx]
theorem Mat3.mir_mir (A : Mat3 K) : A.mir.mir = A := by ext <;> simp [Mat3.mir]
theorem PTransform.mir_mir (X : PTransform K) : X.mir.mir = X := by ext1 <;> simp only [PTransform.mir, Mat3.mir_mir, Vec3.mir_mir]
theorem MotionVec.mir_mir (v : MotionVec K) : v.mir.mir = v := by ext1 <;> simp only [MotionVec.mir, Vec3.mirAx_mirAx, Vec3.mir_mir]
theorem ForceVec.mir_mir (v : ForceVec K) : v.mir.mir = v := by ext1 <;> simp only [ForceVec.mir, Vec3.mirAx_mirAx, Vec3.mir_mir]
theorem RBInertia.mir_mir (I : RBInertia K) : I.mir.mir = I := by ext <;> simp [RBInertia.mir, Vec3.mir]

theorem Vec3.mir_zero : (0 : Vec3 K).mir = 0 := by ext <;> simp [Vec3.mir]
theorem Vec3.mir_add (v w : Vec3 K) : (v + w).mir = v.mir + w.mir := by ext <;> simp [Vec3.mir]; ring
theorem Vec3.mir_smul (s : K) (v : Vec3 K) : (s • v).mir = s • v.mir := by ext <;> simp [Vec3.mir]
theorem Mat3.mir_mul (A B : Mat3 K) : (A * B).mir = A.mir * B.mir := by ext <;> simp [Mat3.mir] <;> ring
theorem Mat3.mir_tr (A : Mat3 K) : A.tr.mir = A.mir.tr := by ext <;> simp [Mat3.mir, Mat3.tr]
theorem Mat3.mir_mulVec (A : Mat3 K) (v : Vec3 K) : (A *ᵥ v).mir = A.mir *ᵥ v.mir := by
  ext <;> simp [Mat3.mir, Vec3.mir, Mat3.mulVec] <;> ring
theorem Mat3.mir_mulVecAx (A : Mat3 K) (v : Vec3 K) : (A *ᵥ v).mirAx = A.mir *ᵥ v.mirAx := by
  ext <;> simp [Mat3.mir, Vec3.mirAx, Mat3.mulVec] <;> ring
theorem Mat3.mir_one : (1 : Mat3 K).mir = 1 := by ext <;> simp [Mat3.mir]

theorem PTransform.mir_one : (1 : PTransform K).mir = 1 := by
  ext1
  · exact Mat3.mir_one
  · exact Vec3.mir_zero

theorem PTransform.mir_mul (X Y : PTransform K) : (X * Y).mir = X.mir * Y.mir := by
  ext1
  · simp only [PTransform.mir, PTransform.mul_E, Mat3.mir_mul]
  · simp only [PTransform.mir, PTransform.mul_r, Vec3.mir_add, Mat3.mir_mulVec, Mat3.mir_tr]

theorem PTransform.mir_inv (X : PTransform K) : X.inv.mir = X.mir.inv := by
  ext1
  · simp only [PTransform.mir, PTransform.inv, Mat3.mir_tr]
  · simp only [PTransform.mir, PTransform.inv, ← Mat3.mir_mulVec]
    ext <;> simp [Vec3.mir]

theorem PTransform.mir_rigid {X : PTransform K} (h : IsRigid X) : IsRigid X.mir := by
  obtain ⟨h1, h2⟩ := h
  refine ⟨?_, ?_⟩
  · show X.E.mir.tr * X.E.mir = 1
    rw [← Mat3.mir_tr, ← Mat3.mir_mul, h1, Mat3.mir_one]
  · rw [← h2]
    simp only [PTransform.mir, Mat3.mir, Mat3.det]
    ring

theorem PTransform.mir_mulMotion (X : PTransform K) (v : MotionVec K) : X.mir.mulMotion v.mir = (X.mulMotion v).mir := by
  ext1
  · simp only [PTransform.mir, MotionVec.mir, PTransform.mulMotion, Mat3.mir_mulVecAx]
  · simp only [PTransform.mir, MotionVec.mir, PTransform.mulMotion, Mat3.mir_mulVec]
    congr 1
    ext <;> simp [Vec3.mir, Vec3.mirAx] <;> ring

theorem PTransform.mir_dualMul (X : PTransform K) (f : ForceVec K) : X.mir.dualMul f.mir = (X.dualMul f).mir := by
  ext1
  · simp only [PTransform.mir, ForceVec.mir, PTransform.dualMul, Mat3.mir_mulVecAx]
    congr 1
    ext <;> simp [Vec3.mir, Vec3.mirAx] <;> ring
  · simp only [PTransform.mir, ForceVec.mir, PTransform.dualMul, Mat3.mir_mulVec]

theorem PTransform.mir_transMul (X : PTransform K) (f : ForceVec K) : X.mir.transMul f.mir = (X.transMul f).mir := by
  ext1
  · simp only [PTransform.mir, ForceVec.mir, PTransform.transMul]
    ext <;> simp [Vec3.mir, Vec3.mirAx, Mat3.mir, Mat3.tr, Mat3.mulVec] <;> ring
  · simp only [PTransform.mir, ForceVec.mir, PTransform.transMul, Mat3.mir_mulVec, Mat3.mir_tr]

theorem MotionVec.mir_cross (v w : MotionVec K) : v.mir.cross w.mir = (v.cross w).mir := by
  ext <;> simp [MotionVec.mir, MotionVec.cross, Vec3.mir, Vec3.mirAx] <;> ring

theorem MotionVec.mir_crossDual (v : MotionVec K) (f : ForceVec K) : v.mir.crossDual f.mir = (v.crossDual f).mir := by
  ext <;> simp [MotionVec.mir, ForceVec.mir, MotionVec.crossDual, Vec3.mir, Vec3.mirAx] <;> ring

theorem MotionVec.mir_dot (v : MotionVec K) (f : ForceVec K) : v.mir.dot f.mir = v.dot f := by
  simp [MotionVec.mir, ForceVec.mir, MotionVec.dot, Vec3.dot, Vec3.mir, Vec3.mirAx]

theorem RBInertia.mir_mulMotion (I : RBInertia K) (v : MotionVec K) : I.mir.mulMotion v.mir = (I.mulMotion v).mir := by
  ext <;> simp [RBInertia.mir, MotionVec.mir, ForceVec.mir, RBInertia.mulMotion, Sym3.toMat, Mat3.mulVec, Vec3.mir, Vec3.mirAx] <;> ring

theorem MotionVec.mir_zero : (0 : MotionVec K).mir = 0 := by ext <;> simp [MotionVec.mir, Vec3.mir, Vec3.mirAx]
theorem MotionVec.mir_add (v w : MotionVec K) : (v + w).mir = v.mir + w.mir := by
  ext <;> simp [MotionVec.mir, Vec3.mir, Vec3.mirAx] <;> ring
theorem MotionVec.mir_smul (s : K) (v : MotionVec K) : (s • v).mir = s • v.mir := by ext <;> simp [MotionVec.mir, Vec3.mir, Vec3.mirAx]
theorem ForceVec.mir_zero : (0 : ForceVec K).mir = 0 := by ext <;> simp [ForceVec.mir, Vec3.mir, Vec3.mirAx]
theorem ForceVec.mir_add (v w : ForceVec K) : (v + w).mir = v.mir + w.mir := by
  ext <;> simp [ForceVec.mir, Vec3.mir, Vec3.mirAx] <;> ring
theorem ForceVec.mir_sub (v w : ForceVec K) : (v - w).mir = v.mir - w.mir := by
  ext <;> simp [ForceVec.mir, Vec3.mir, Vec3.mirAx] <;> ring

theorem MotionVec.mir_sum {ι : Type} (s : Finset ι) (f : ι → MotionVec K) : (∑ k ∈ s, f k).mir = ∑ k ∈ s, (f k).mir := by
  classical
  induction s using Finset.induction_on with
  | empty => exact mir_zero
  | insert a s ha ih => rw [Finset.sum_insert ha, Finset.sum_insert ha, mir_add, ih]

theorem ForceVec.mir_sum {ι : Type} (s : Finset ι) (f : ι → ForceVec K) : (∑ k ∈ s, f k).mir = ∑ k ∈ s, (f k).mir := by
  classical
  induction s using Finset.induction_on with
  | empty => exact mir_zero
  | insert a s ha ih => rw [Finset.sum_insert ha, Finset.sum_insert ha, mir_add, ih]

theorem Vec3.mir_sum {ι : Type} (s : Finset ι) (f : ι → Vec3 K) : (∑ k ∈ s, f k).mir = ∑ k ∈ s, (f k).mir := by
  classical
  induction s using Finset.induction_on with
  | empty => exact mir_zero
  | insert a s ha ih => rw [Finset.sum_insert ha, Finset.sum_insert ha, mir_add, ih]

theorem worldPoint_mir (W : PTransform K) (p : Vec3 K) : worldPoint W.mir p.mir = (worldPoint W p).mir := by
  simp only [worldPoint, PTransform.mir, Vec3.mir_add, Mat3.mir_mulVec, Mat3.mir_tr]

theorem momHom_mir (W : PTransform K) (com : Vec3 K) (I : RBInertia K) (v : MotionVec K) :
    momHom W.mir com.mir I.mir v.mir = (momHom W com I v).mir := by
  have e : PTransform.ofTrans (-com.mir) = (PTransform.ofTrans (-com)).mir := by
    ext1
    · exact Mat3.mir_one.symm
    · ext <;> simp [PTransform.mir, PTransform.ofTrans, Vec3.mir]
  rw [momHom_apply, momHom_apply, RBInertia.mir_mulMotion, e, ← PTransform.mir_mul, PTransform.mir_transMul]

/-! ### Rotations -/

theorem angleAxis_mir (θ : K) (a : Vec3 K) : angleAxis (-θ) a.mir = (angleAxis θ a).mir := by
  ext <;> simp [angleAxis, Mat3.mir, Vec3.mir] <;> ring

theorem rotZ_mir (θ : K) : rotZ (-θ) = (rotZ θ).mir := by
  ext <;> simp [rotZ, Mat3.mir]

theorem toRot_mir (a b c d : K) : (Quat.inverse ⟨a, -b, c, -d⟩ : Quat K).toRot = (Quat.inverse ⟨a, b, c, d⟩ : Quat K).toRot.mir := by
  have e : (⟨a, -b, c, -d⟩ : Quat K).normSq = (⟨a, b, c, d⟩ : Quat K).normSq := by simp [Quat.normSq]
  simp only [Quat.inverse, e]
  split <;> ext <;> simp [Quat.toRot, Mat3.mir] <;> ring

theorem quatToE_mir (a b c d : K) : Joint.quatToE a (-b) c (-d) = (Joint.quatToE a b c d).mir := by
  ext <;> simp [Joint.quatToE, Mat3.mir] <;> ring

end RBDyn
