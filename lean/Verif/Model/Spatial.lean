import Verif.Model.Scalar

/-!
Spatial vector algebra used by RBDyn.

SpaceVecAlg (`sva::`) and Eigen are external dependencies of the repository: nothing below is in `/repo`.
The definitions transcribe the documented operations that the RBDyn sources call.  They belong to the trusted
base.  Columns of a motion vector are ordered angular then linear, of a force vector couple then force.
-/

namespace RBDyn

variable {K : Type}

/-- `Eigen::Vector3d`. -/
@[ext] structure Vec3 (K : Type) where
  x : K
  y : K
  z : K
  deriving DecidableEq, Repr

/-- `Eigen::Matrix3d`, `mij` is row `i`, column `j`. -/
@[ext] structure Mat3 (K : Type) where
  m00 : K
  m01 : K
  m02 : K
  m10 : K
  m11 : K
  m12 : K
  m20 : K
  m21 : K
  m22 : K
  deriving DecidableEq, Repr

/-- `sva::PTransformd`: rotation `E` and translation `r`. -/
@[ext] structure PTransform (K : Type) where
  E : Mat3 K
  r : Vec3 K
  deriving DecidableEq, Repr

/-- `sva::MotionVecd`. -/
@[ext] structure MotionVec (K : Type) where
  ang : Vec3 K
  lin : Vec3 K
  deriving DecidableEq, Repr

/-- `sva::ForceVecd`. -/
@[ext] structure ForceVec (K : Type) where
  couple : Vec3 K
  force : Vec3 K
  deriving DecidableEq, Repr

/-- Symmetric matrix stored as its lower triangle, as `sva::RBInertia` stores its rotational inertia. -/
@[ext] structure Sym3 (K : Type) where
  xx : K
  yx : K
  yy : K
  zx : K
  zy : K
  zz : K
  deriving DecidableEq, Repr

/-- `sva::RBInertiad`: mass, first moment of mass (spatial momentum `h = m c`), rotational inertia at the
frame origin (lower triangle stored). -/
@[ext] structure RBInertia (K : Type) where
  m : K
  h : Vec3 K
  I : Sym3 K
  deriving DecidableEq, Repr

/-! ### Vectors -/

section Vec3
variable [Field K]

namespace Vec3
instance : Zero (Vec3 K) := ⟨⟨0, 0, 0⟩⟩
instance : Add (Vec3 K) := ⟨fun a b => ⟨a.x + b.x, a.y + b.y, a.z + b.z⟩⟩
instance : Neg (Vec3 K) := ⟨fun a => ⟨-a.x, -a.y, -a.z⟩⟩
instance : Sub (Vec3 K) := ⟨fun a b => ⟨a.x - b.x, a.y - b.y, a.z - b.z⟩⟩
instance : SMul K (Vec3 K) := ⟨fun s a => ⟨s * a.x, s * a.y, s * a.z⟩⟩

@[simp] theorem zero_x : (0 : Vec3 K).x = 0 := rfl
@[simp] theorem zero_y : (0 : Vec3 K).y = 0 := rfl
@[simp] theorem zero_z : (0 : Vec3 K).z = 0 := rfl
@[simp] theorem add_x (a b : Vec3 K) : (a + b).x = a.x + b.x := rfl
@[simp] theorem add_y (a b : Vec3 K) : (a + b).y = a.y + b.y := rfl
@[simp] theorem add_z (a b : Vec3 K) : (a + b).z = a.z + b.z := rfl
@[simp] theorem sub_x (a b : Vec3 K) : (a - b).x = a.x - b.x := rfl
@[simp] theorem sub_y (a b : Vec3 K) : (a - b).y = a.y - b.y := rfl
@[simp] theorem sub_z (a b : Vec3 K) : (a - b).z = a.z - b.z := rfl
@[simp] theorem neg_x (a : Vec3 K) : (-a).x = -a.x := rfl
@[simp] theorem neg_y (a : Vec3 K) : (-a).y = -a.y := rfl
@[simp] theorem neg_z (a : Vec3 K) : (-a).z = -a.z := rfl
@[simp] theorem smul_x (s : K) (a : Vec3 K) : (s • a).x = s * a.x := rfl
@[simp] theorem smul_y (s : K) (a : Vec3 K) : (s • a).y = s * a.y := rfl
@[simp] theorem smul_z (s : K) (a : Vec3 K) : (s • a).z = s * a.z := rfl

instance : AddCommGroup (Vec3 K) where
  add_assoc a b c := by ext <;> simp [add_assoc]
  zero_add a := by ext <;> simp
  add_zero a := by ext <;> simp
  add_comm a b := by ext <;> simp [add_comm]
  neg_add_cancel a := by ext <;> simp
  sub_eq_add_neg a b := by ext <;> simp [sub_eq_add_neg]
  nsmul := nsmulRec
  zsmul := zsmulRec

instance : Module K (Vec3 K) where
  one_smul a := by ext <;> simp
  mul_smul s t a := by ext <;> simp [mul_assoc]
  smul_zero s := by ext <;> simp
  smul_add s a b := by ext <;> simp [mul_add]
  add_smul s t a := by ext <;> simp [add_mul]
  zero_smul a := by ext <;> simp

/-- `Eigen::Vector3d::dot`. -/
def dot (a b : Vec3 K) : K := a.x * b.x + a.y * b.y + a.z * b.z
/-- `Eigen::Vector3d::cross`. -/
def cross (a b : Vec3 K) : Vec3 K :=
  ⟨a.y * b.z - a.z * b.y, a.z * b.x - a.x * b.z, a.x * b.y - a.y * b.x⟩

@[simp] theorem cross_x (a b : Vec3 K) : (cross a b).x = a.y * b.z - a.z * b.y := rfl
@[simp] theorem cross_y (a b : Vec3 K) : (cross a b).y = a.z * b.x - a.x * b.z := rfl
@[simp] theorem cross_z (a b : Vec3 K) : (cross a b).z = a.x * b.y - a.y * b.x := rfl

/-- `Eigen::Vector3d::UnitX()`. -/
def unitX : Vec3 K := ⟨1, 0, 0⟩
/-- `Eigen::Vector3d::UnitY()`. -/
def unitY : Vec3 K := ⟨0, 1, 0⟩
/-- `Eigen::Vector3d::UnitZ()`. -/
def unitZ : Vec3 K := ⟨0, 0, 1⟩

/-- `Eigen::Vector3d::squaredNorm`. -/
def normSq (a : Vec3 K) : K := dot a a
end Vec3

/-! ### Matrices -/

namespace Mat3
instance : Zero (Mat3 K) := ⟨⟨0, 0, 0, 0, 0, 0, 0, 0, 0⟩⟩
instance : One (Mat3 K) := ⟨⟨1, 0, 0, 0, 1, 0, 0, 0, 1⟩⟩
instance : Add (Mat3 K) := ⟨fun a b => ⟨a.m00 + b.m00, a.m01 + b.m01, a.m02 + b.m02,
  a.m10 + b.m10, a.m11 + b.m11, a.m12 + b.m12, a.m20 + b.m20, a.m21 + b.m21, a.m22 + b.m22⟩⟩
instance : Sub (Mat3 K) := ⟨fun a b => ⟨a.m00 - b.m00, a.m01 - b.m01, a.m02 - b.m02,
  a.m10 - b.m10, a.m11 - b.m11, a.m12 - b.m12, a.m20 - b.m20, a.m21 - b.m21, a.m22 - b.m22⟩⟩
instance : Neg (Mat3 K) := ⟨fun a => ⟨-a.m00, -a.m01, -a.m02, -a.m10, -a.m11, -a.m12, -a.m20, -a.m21, -a.m22⟩⟩
instance : SMul K (Mat3 K) := ⟨fun s a => ⟨s * a.m00, s * a.m01, s * a.m02,
  s * a.m10, s * a.m11, s * a.m12, s * a.m20, s * a.m21, s * a.m22⟩⟩
instance : Mul (Mat3 K) := ⟨fun a b =>
  ⟨a.m00 * b.m00 + a.m01 * b.m10 + a.m02 * b.m20, a.m00 * b.m01 + a.m01 * b.m11 + a.m02 * b.m21,
   a.m00 * b.m02 + a.m01 * b.m12 + a.m02 * b.m22,
   a.m10 * b.m00 + a.m11 * b.m10 + a.m12 * b.m20, a.m10 * b.m01 + a.m11 * b.m11 + a.m12 * b.m21,
   a.m10 * b.m02 + a.m11 * b.m12 + a.m12 * b.m22,
   a.m20 * b.m00 + a.m21 * b.m10 + a.m22 * b.m20, a.m20 * b.m01 + a.m21 * b.m11 + a.m22 * b.m21,
   a.m20 * b.m02 + a.m21 * b.m12 + a.m22 * b.m22⟩⟩

/-- Matrix times vector. -/
def mulVec (a : Mat3 K) (v : Vec3 K) : Vec3 K :=
  ⟨a.m00 * v.x + a.m01 * v.y + a.m02 * v.z, a.m10 * v.x + a.m11 * v.y + a.m12 * v.z,
   a.m20 * v.x + a.m21 * v.y + a.m22 * v.z⟩
@[inherit_doc] scoped infixr:73 " *ᵥ " => mulVec
/-- `transpose()`. -/
def tr (a : Mat3 K) : Mat3 K := ⟨a.m00, a.m10, a.m20, a.m01, a.m11, a.m21, a.m02, a.m12, a.m22⟩
/-- determinant -/
def det (a : Mat3 K) : K :=
  a.m00 * (a.m11 * a.m22 - a.m12 * a.m21) - a.m01 * (a.m10 * a.m22 - a.m12 * a.m20)
    + a.m02 * (a.m10 * a.m21 - a.m11 * a.m20)
/-- `sva::vector3ToCrossMatrix`. -/
def crossMat (v : Vec3 K) : Mat3 K := ⟨0, -v.z, v.y, v.z, 0, -v.x, -v.y, v.x, 0⟩

end Mat3
open Mat3 (mulVec)
open scoped Mat3

namespace Mat3
@[simp] theorem zero_m00 : (0 : Mat3 K).m00 = 0 := rfl
@[simp] theorem one_m00 : (1 : Mat3 K).m00 = 1 := rfl
@[simp] theorem add_m00 (a b : Mat3 K) : (a + b).m00 = a.m00 + b.m00 := rfl
@[simp] theorem sub_m00 (a b : Mat3 K) : (a - b).m00 = a.m00 - b.m00 := rfl
@[simp] theorem neg_m00 (a : Mat3 K) : (-a).m00 = -a.m00 := rfl
@[simp] theorem smul_m00 (s : K) (a : Mat3 K) : (s • a).m00 = s * a.m00 := rfl
omit [Field K] in
@[simp] theorem tr_m00 (a : Mat3 K) : (tr a).m00 = a.m00 := rfl
@[simp] theorem mul_m00 (a b : Mat3 K) :
    (a * b).m00 = a.m00 * b.m00 + a.m01 * b.m10 + a.m02 * b.m20 := rfl
@[simp] theorem zero_m01 : (0 : Mat3 K).m01 = 0 := rfl
@[simp] theorem one_m01 : (1 : Mat3 K).m01 = 0 := rfl
@[simp] theorem add_m01 (a b : Mat3 K) : (a + b).m01 = a.m01 + b.m01 := rfl
@[simp] theorem sub_m01 (a b : Mat3 K) : (a - b).m01 = a.m01 - b.m01 := rfl
@[simp] theorem neg_m01 (a : Mat3 K) : (-a).m01 = -a.m01 := rfl
@[simp] theorem smul_m01 (s : K) (a : Mat3 K) : (s • a).m01 = s * a.m01 := rfl
omit [Field K] in
@[simp] theorem tr_m01 (a : Mat3 K) : (tr a).m01 = a.m10 := rfl
@[simp] theorem mul_m01 (a b : Mat3 K) :
    (a * b).m01 = a.m00 * b.m01 + a.m01 * b.m11 + a.m02 * b.m21 := rfl
@[simp] theorem zero_m02 : (0 : Mat3 K).m02 = 0 := rfl
@[simp] theorem one_m02 : (1 : Mat3 K).m02 = 0 := rfl
@[simp] theorem add_m02 (a b : Mat3 K) : (a + b).m02 = a.m02 + b.m02 := rfl
@[simp] theorem sub_m02 (a b : Mat3 K) : (a - b).m02 = a.m02 - b.m02 := rfl
@[simp] theorem neg_m02 (a : Mat3 K) : (-a).m02 = -a.m02 := rfl
@[simp] theorem smul_m02 (s : K) (a : Mat3 K) : (s • a).m02 = s * a.m02 := rfl
omit [Field K] in
@[simp] theorem tr_m02 (a : Mat3 K) : (tr a).m02 = a.m20 := rfl
@[simp] theorem mul_m02 (a b : Mat3 K) :
    (a * b).m02 = a.m00 * b.m02 + a.m01 * b.m12 + a.m02 * b.m22 := rfl
@[simp] theorem zero_m10 : (0 : Mat3 K).m10 = 0 := rfl
@[simp] theorem one_m10 : (1 : Mat3 K).m10 = 0 := rfl
@[simp] theorem add_m10 (a b : Mat3 K) : (a + b).m10 = a.m10 + b.m10 := rfl
@[simp] theorem sub_m10 (a b : Mat3 K) : (a - b).m10 = a.m10 - b.m10 := rfl
@[simp] theorem neg_m10 (a : Mat3 K) : (-a).m10 = -a.m10 := rfl
@[simp] theorem smul_m10 (s : K) (a : Mat3 K) : (s • a).m10 = s * a.m10 := rfl
omit [Field K] in
@[simp] theorem tr_m10 (a : Mat3 K) : (tr a).m10 = a.m01 := rfl
@[simp] theorem mul_m10 (a b : Mat3 K) :
    (a * b).m10 = a.m10 * b.m00 + a.m11 * b.m10 + a.m12 * b.m20 := rfl
@[simp] theorem zero_m11 : (0 : Mat3 K).m11 = 0 := rfl
@[simp] theorem one_m11 : (1 : Mat3 K).m11 = 1 := rfl
@[simp] theorem add_m11 (a b : Mat3 K) : (a + b).m11 = a.m11 + b.m11 := rfl
@[simp] theorem sub_m11 (a b : Mat3 K) : (a - b).m11 = a.m11 - b.m11 := rfl
@[simp] theorem neg_m11 (a : Mat3 K) : (-a).m11 = -a.m11 := rfl
@[simp] theorem smul_m11 (s : K) (a : Mat3 K) : (s • a).m11 = s * a.m11 := rfl
omit [Field K] in
@[simp] theorem tr_m11 (a : Mat3 K) : (tr a).m11 = a.m11 := rfl
@[simp] theorem mul_m11 (a b : Mat3 K) :
    (a * b).m11 = a.m10 * b.m01 + a.m11 * b.m11 + a.m12 * b.m21 := rfl
@[simp] theorem zero_m12 : (0 : Mat3 K).m12 = 0 := rfl
@[simp] theorem one_m12 : (1 : Mat3 K).m12 = 0 := rfl
@[simp] theorem add_m12 (a b : Mat3 K) : (a + b).m12 = a.m12 + b.m12 := rfl
@[simp] theorem sub_m12 (a b : Mat3 K) : (a - b).m12 = a.m12 - b.m12 := rfl
@[simp] theorem neg_m12 (a : Mat3 K) : (-a).m12 = -a.m12 := rfl
@[simp] theorem smul_m12 (s : K) (a : Mat3 K) : (s • a).m12 = s * a.m12 := rfl
omit [Field K] in
@[simp] theorem tr_m12 (a : Mat3 K) : (tr a).m12 = a.m21 := rfl
@[simp] theorem mul_m12 (a b : Mat3 K) :
    (a * b).m12 = a.m10 * b.m02 + a.m11 * b.m12 + a.m12 * b.m22 := rfl
@[simp] theorem zero_m20 : (0 : Mat3 K).m20 = 0 := rfl
@[simp] theorem one_m20 : (1 : Mat3 K).m20 = 0 := rfl
@[simp] theorem add_m20 (a b : Mat3 K) : (a + b).m20 = a.m20 + b.m20 := rfl
@[simp] theorem sub_m20 (a b : Mat3 K) : (a - b).m20 = a.m20 - b.m20 := rfl
@[simp] theorem neg_m20 (a : Mat3 K) : (-a).m20 = -a.m20 := rfl
@[simp] theorem smul_m20 (s : K) (a : Mat3 K) : (s • a).m20 = s * a.m20 := rfl
omit [Field K] in
@[simp] theorem tr_m20 (a : Mat3 K) : (tr a).m20 = a.m02 := rfl
@[simp] theorem mul_m20 (a b : Mat3 K) :
    (a * b).m20 = a.m20 * b.m00 + a.m21 * b.m10 + a.m22 * b.m20 := rfl
@[simp] theorem zero_m21 : (0 : Mat3 K).m21 = 0 := rfl
@[simp] theorem one_m21 : (1 : Mat3 K).m21 = 0 := rfl
@[simp] theorem add_m21 (a b : Mat3 K) : (a + b).m21 = a.m21 + b.m21 := rfl
@[simp] theorem sub_m21 (a b : Mat3 K) : (a - b).m21 = a.m21 - b.m21 := rfl
@[simp] theorem neg_m21 (a : Mat3 K) : (-a).m21 = -a.m21 := rfl
@[simp] theorem smul_m21 (s : K) (a : Mat3 K) : (s • a).m21 = s * a.m21 := rfl
omit [Field K] in
@[simp] theorem tr_m21 (a : Mat3 K) : (tr a).m21 = a.m12 := rfl
@[simp] theorem mul_m21 (a b : Mat3 K) :
    (a * b).m21 = a.m20 * b.m01 + a.m21 * b.m11 + a.m22 * b.m21 := rfl
@[simp] theorem zero_m22 : (0 : Mat3 K).m22 = 0 := rfl
@[simp] theorem one_m22 : (1 : Mat3 K).m22 = 1 := rfl
@[simp] theorem add_m22 (a b : Mat3 K) : (a + b).m22 = a.m22 + b.m22 := rfl
@[simp] theorem sub_m22 (a b : Mat3 K) : (a - b).m22 = a.m22 - b.m22 := rfl
@[simp] theorem neg_m22 (a : Mat3 K) : (-a).m22 = -a.m22 := rfl
@[simp] theorem smul_m22 (s : K) (a : Mat3 K) : (s • a).m22 = s * a.m22 := rfl
omit [Field K] in
@[simp] theorem tr_m22 (a : Mat3 K) : (tr a).m22 = a.m22 := rfl
@[simp] theorem mul_m22 (a b : Mat3 K) :
    (a * b).m22 = a.m20 * b.m02 + a.m21 * b.m12 + a.m22 * b.m22 := rfl
@[simp] theorem crossMat_mk (v : Vec3 K) :
    crossMat v = ⟨0, -v.z, v.y, v.z, 0, -v.x, -v.y, v.x, 0⟩ := rfl
end Mat3

namespace Mat3
@[simp] theorem mulVec_x (a : Mat3 K) (v : Vec3 K) : (a *ᵥ v).x = a.m00 * v.x + a.m01 * v.y + a.m02 * v.z := rfl
@[simp] theorem mulVec_y (a : Mat3 K) (v : Vec3 K) : (a *ᵥ v).y = a.m10 * v.x + a.m11 * v.y + a.m12 * v.z := rfl
@[simp] theorem mulVec_z (a : Mat3 K) (v : Vec3 K) : (a *ᵥ v).z = a.m20 * v.x + a.m21 * v.y + a.m22 * v.z := rfl

instance : AddCommGroup (Mat3 K) where
  add_assoc a b c := by ext <;> simp [add_assoc]
  zero_add a := by ext <;> simp
  add_zero a := by ext <;> simp
  add_comm a b := by ext <;> simp [add_comm]
  neg_add_cancel a := by ext <;> simp
  sub_eq_add_neg a b := by ext <;> simp [sub_eq_add_neg]
  nsmul := nsmulRec
  zsmul := zsmulRec

instance : Module K (Mat3 K) where
  one_smul a := by ext <;> simp
  mul_smul s t a := by ext <;> simp [mul_assoc]
  smul_zero s := by ext <;> simp
  smul_add s a b := by ext <;> simp [mul_add]
  add_smul s t a := by ext <;> simp [add_mul]
  zero_smul a := by ext <;> simp
end Mat3

/-! ### Symmetric matrices -/

namespace Sym3
instance : Zero (Sym3 K) := ⟨⟨0, 0, 0, 0, 0, 0⟩⟩
instance : Add (Sym3 K) := ⟨fun a b => ⟨a.xx + b.xx, a.yx + b.yx, a.yy + b.yy, a.zx + b.zx, a.zy + b.zy, a.zz + b.zz⟩⟩
instance : Sub (Sym3 K) := ⟨fun a b => ⟨a.xx - b.xx, a.yx - b.yx, a.yy - b.yy, a.zx - b.zx, a.zy - b.zy, a.zz - b.zz⟩⟩
instance : Neg (Sym3 K) := ⟨fun a => ⟨-a.xx, -a.yx, -a.yy, -a.zx, -a.zy, -a.zz⟩⟩
instance : SMul K (Sym3 K) := ⟨fun s a => ⟨s * a.xx, s * a.yx, s * a.yy, s * a.zx, s * a.zy, s * a.zz⟩⟩

/-- `RBInertia::inertia()`: the full symmetric matrix. -/
def toMat (a : Sym3 K) : Mat3 K := ⟨a.xx, a.yx, a.zx, a.yx, a.yy, a.zy, a.zx, a.zy, a.zz⟩
/-- `triangularView<Lower>() = A`: keep the lower triangle. -/
def ofLower (a : Mat3 K) : Sym3 K := ⟨a.m00, a.m10, a.m11, a.m20, a.m21, a.m22⟩
end Sym3

namespace Sym3
@[simp] theorem zero_xx : (0 : Sym3 K).xx = 0 := rfl
@[simp] theorem add_xx (a b : Sym3 K) : (a + b).xx = a.xx + b.xx := rfl
@[simp] theorem sub_xx (a b : Sym3 K) : (a - b).xx = a.xx - b.xx := rfl
@[simp] theorem neg_xx (a : Sym3 K) : (-a).xx = -a.xx := rfl
@[simp] theorem smul_xx (s : K) (a : Sym3 K) : (s • a).xx = s * a.xx := rfl
omit [Field K] in
@[simp] theorem ofLower_xx (a : Mat3 K) : (ofLower a).xx = a.m00 := rfl
@[simp] theorem zero_yx : (0 : Sym3 K).yx = 0 := rfl
@[simp] theorem add_yx (a b : Sym3 K) : (a + b).yx = a.yx + b.yx := rfl
@[simp] theorem sub_yx (a b : Sym3 K) : (a - b).yx = a.yx - b.yx := rfl
@[simp] theorem neg_yx (a : Sym3 K) : (-a).yx = -a.yx := rfl
@[simp] theorem smul_yx (s : K) (a : Sym3 K) : (s • a).yx = s * a.yx := rfl
omit [Field K] in
@[simp] theorem ofLower_yx (a : Mat3 K) : (ofLower a).yx = a.m10 := rfl
@[simp] theorem zero_yy : (0 : Sym3 K).yy = 0 := rfl
@[simp] theorem add_yy (a b : Sym3 K) : (a + b).yy = a.yy + b.yy := rfl
@[simp] theorem sub_yy (a b : Sym3 K) : (a - b).yy = a.yy - b.yy := rfl
@[simp] theorem neg_yy (a : Sym3 K) : (-a).yy = -a.yy := rfl
@[simp] theorem smul_yy (s : K) (a : Sym3 K) : (s • a).yy = s * a.yy := rfl
omit [Field K] in
@[simp] theorem ofLower_yy (a : Mat3 K) : (ofLower a).yy = a.m11 := rfl
@[simp] theorem zero_zx : (0 : Sym3 K).zx = 0 := rfl
@[simp] theorem add_zx (a b : Sym3 K) : (a + b).zx = a.zx + b.zx := rfl
@[simp] theorem sub_zx (a b : Sym3 K) : (a - b).zx = a.zx - b.zx := rfl
@[simp] theorem neg_zx (a : Sym3 K) : (-a).zx = -a.zx := rfl
@[simp] theorem smul_zx (s : K) (a : Sym3 K) : (s • a).zx = s * a.zx := rfl
omit [Field K] in
@[simp] theorem ofLower_zx (a : Mat3 K) : (ofLower a).zx = a.m20 := rfl
@[simp] theorem zero_zy : (0 : Sym3 K).zy = 0 := rfl
@[simp] theorem add_zy (a b : Sym3 K) : (a + b).zy = a.zy + b.zy := rfl
@[simp] theorem sub_zy (a b : Sym3 K) : (a - b).zy = a.zy - b.zy := rfl
@[simp] theorem neg_zy (a : Sym3 K) : (-a).zy = -a.zy := rfl
@[simp] theorem smul_zy (s : K) (a : Sym3 K) : (s • a).zy = s * a.zy := rfl
omit [Field K] in
@[simp] theorem ofLower_zy (a : Mat3 K) : (ofLower a).zy = a.m21 := rfl
@[simp] theorem zero_zz : (0 : Sym3 K).zz = 0 := rfl
@[simp] theorem add_zz (a b : Sym3 K) : (a + b).zz = a.zz + b.zz := rfl
@[simp] theorem sub_zz (a b : Sym3 K) : (a - b).zz = a.zz - b.zz := rfl
@[simp] theorem neg_zz (a : Sym3 K) : (-a).zz = -a.zz := rfl
@[simp] theorem smul_zz (s : K) (a : Sym3 K) : (s • a).zz = s * a.zz := rfl
omit [Field K] in
@[simp] theorem ofLower_zz (a : Mat3 K) : (ofLower a).zz = a.m22 := rfl
omit [Field K] in
@[simp] theorem toMat_m00 (a : Sym3 K) : (toMat a).m00 = a.xx := rfl
omit [Field K] in
@[simp] theorem toMat_m01 (a : Sym3 K) : (toMat a).m01 = a.yx := rfl
omit [Field K] in
@[simp] theorem toMat_m02 (a : Sym3 K) : (toMat a).m02 = a.zx := rfl
omit [Field K] in
@[simp] theorem toMat_m10 (a : Sym3 K) : (toMat a).m10 = a.yx := rfl
omit [Field K] in
@[simp] theorem toMat_m11 (a : Sym3 K) : (toMat a).m11 = a.yy := rfl
omit [Field K] in
@[simp] theorem toMat_m12 (a : Sym3 K) : (toMat a).m12 = a.zy := rfl
omit [Field K] in
@[simp] theorem toMat_m20 (a : Sym3 K) : (toMat a).m20 = a.zx := rfl
omit [Field K] in
@[simp] theorem toMat_m21 (a : Sym3 K) : (toMat a).m21 = a.zy := rfl
omit [Field K] in
@[simp] theorem toMat_m22 (a : Sym3 K) : (toMat a).m22 = a.zz := rfl
end Sym3

namespace Sym3
instance : AddCommGroup (Sym3 K) where
  add_assoc a b c := by ext <;> simp [add_assoc]
  zero_add a := by ext <;> simp
  add_zero a := by ext <;> simp
  add_comm a b := by ext <;> simp [add_comm]
  neg_add_cancel a := by ext <;> simp
  sub_eq_add_neg a b := by ext <;> simp [sub_eq_add_neg]
  nsmul := nsmulRec
  zsmul := zsmulRec

instance : Module K (Sym3 K) where
  one_smul a := by ext <;> simp
  mul_smul s t a := by ext <;> simp [mul_assoc]
  smul_zero s := by ext <;> simp
  smul_add s a b := by ext <;> simp [mul_add]
  add_smul s t a := by ext <;> simp [add_mul]
  zero_smul a := by ext <;> simp
end Sym3

/-! ### Motion vectors -/

namespace MotionVec
instance : Zero (MotionVec K) := ⟨⟨0, 0⟩⟩
instance : Add (MotionVec K) := ⟨fun a b => ⟨a.ang + b.ang, a.lin + b.lin⟩⟩
instance : Sub (MotionVec K) := ⟨fun a b => ⟨a.ang - b.ang, a.lin - b.lin⟩⟩
instance : Neg (MotionVec K) := ⟨fun a => ⟨-a.ang, -a.lin⟩⟩
instance : SMul K (MotionVec K) := ⟨fun s a => ⟨s • a.ang, s • a.lin⟩⟩

@[simp] theorem zero_ang : (0 : MotionVec K).ang = 0 := rfl
@[simp] theorem zero_lin : (0 : MotionVec K).lin = 0 := rfl
@[simp] theorem add_ang (a b : MotionVec K) : (a + b).ang = a.ang + b.ang := rfl
@[simp] theorem add_lin (a b : MotionVec K) : (a + b).lin = a.lin + b.lin := rfl
@[simp] theorem sub_ang (a b : MotionVec K) : (a - b).ang = a.ang - b.ang := rfl
@[simp] theorem sub_lin (a b : MotionVec K) : (a - b).lin = a.lin - b.lin := rfl
@[simp] theorem neg_ang (a : MotionVec K) : (-a).ang = -a.ang := rfl
@[simp] theorem neg_lin (a : MotionVec K) : (-a).lin = -a.lin := rfl
@[simp] theorem smul_ang (s : K) (a : MotionVec K) : (s • a).ang = s • a.ang := rfl
@[simp] theorem smul_lin (s : K) (a : MotionVec K) : (s • a).lin = s • a.lin := rfl

instance : AddCommGroup (MotionVec K) where
  add_assoc a b c := by ext <;> simp [add_assoc]
  zero_add a := by ext <;> simp
  add_zero a := by ext <;> simp
  add_comm a b := by ext <;> simp [add_comm]
  neg_add_cancel a := by ext <;> simp
  sub_eq_add_neg a b := by ext <;> simp [sub_eq_add_neg]
  nsmul := nsmulRec
  zsmul := zsmulRec

instance : Module K (MotionVec K) where
  one_smul a := by ext <;> simp
  mul_smul s t a := by ext <;> simp [mul_assoc]
  smul_zero s := by ext <;> simp
  smul_add s a b := by ext <;> simp
  add_smul s t a := by ext <;> simp [add_mul]
  zero_smul a := by ext <;> simp

/-- `MotionVec::cross(MotionVec)`. -/
def cross (a b : MotionVec K) : MotionVec K :=
  ⟨a.ang.cross b.ang, a.ang.cross b.lin + a.lin.cross b.ang⟩
/-- `MotionVec::crossDual(ForceVec)`. -/
def crossDual (a : MotionVec K) (f : ForceVec K) : ForceVec K :=
  ⟨a.ang.cross f.couple + a.lin.cross f.force, a.ang.cross f.force⟩
/-- `mv.vector().dot(fv.vector())` (power). -/
def dot (a : MotionVec K) (f : ForceVec K) : K := a.ang.dot f.couple + a.lin.dot f.force
/-- the entries `vector()(0), ..., vector()(5)` -/
def toList (a : MotionVec K) : List K := [a.ang.x, a.ang.y, a.ang.z, a.lin.x, a.lin.y, a.lin.z]
end MotionVec

/-! ### Force vectors -/

namespace ForceVec
instance : Zero (ForceVec K) := ⟨⟨0, 0⟩⟩
instance : Add (ForceVec K) := ⟨fun a b => ⟨a.couple + b.couple, a.force + b.force⟩⟩
instance : Sub (ForceVec K) := ⟨fun a b => ⟨a.couple - b.couple, a.force - b.force⟩⟩
instance : Neg (ForceVec K) := ⟨fun a => ⟨-a.couple, -a.force⟩⟩
instance : SMul K (ForceVec K) := ⟨fun s a => ⟨s • a.couple, s • a.force⟩⟩

@[simp] theorem zero_couple : (0 : ForceVec K).couple = 0 := rfl
@[simp] theorem zero_force : (0 : ForceVec K).force = 0 := rfl
@[simp] theorem add_couple (a b : ForceVec K) : (a + b).couple = a.couple + b.couple := rfl
@[simp] theorem add_force (a b : ForceVec K) : (a + b).force = a.force + b.force := rfl
@[simp] theorem sub_couple (a b : ForceVec K) : (a - b).couple = a.couple - b.couple := rfl
@[simp] theorem sub_force (a b : ForceVec K) : (a - b).force = a.force - b.force := rfl
@[simp] theorem neg_couple (a : ForceVec K) : (-a).couple = -a.couple := rfl
@[simp] theorem neg_force (a : ForceVec K) : (-a).force = -a.force := rfl
@[simp] theorem smul_couple (s : K) (a : ForceVec K) : (s • a).couple = s • a.couple := rfl
@[simp] theorem smul_force (s : K) (a : ForceVec K) : (s • a).force = s • a.force := rfl

instance : AddCommGroup (ForceVec K) where
  add_assoc a b c := by ext <;> simp [add_assoc]
  zero_add a := by ext <;> simp
  add_zero a := by ext <;> simp
  add_comm a b := by ext <;> simp [add_comm]
  neg_add_cancel a := by ext <;> simp
  sub_eq_add_neg a b := by ext <;> simp [sub_eq_add_neg]
  nsmul := nsmulRec
  zsmul := zsmulRec

instance : Module K (ForceVec K) where
  one_smul a := by ext <;> simp
  mul_smul s t a := by ext <;> simp [mul_assoc]
  smul_zero s := by ext <;> simp
  smul_add s a b := by ext <;> simp
  add_smul s t a := by ext <;> simp [add_mul]
  zero_smul a := by ext <;> simp
end ForceVec

/-! ### Rigid body inertia -/

namespace RBInertia
instance : Zero (RBInertia K) := ⟨⟨0, 0, 0⟩⟩
instance : Add (RBInertia K) := ⟨fun a b => ⟨a.m + b.m, a.h + b.h, a.I + b.I⟩⟩
instance : Sub (RBInertia K) := ⟨fun a b => ⟨a.m - b.m, a.h - b.h, a.I - b.I⟩⟩
instance : Neg (RBInertia K) := ⟨fun a => ⟨-a.m, -a.h, -a.I⟩⟩

@[simp] theorem zero_m : (0 : RBInertia K).m = 0 := rfl
@[simp] theorem zero_h : (0 : RBInertia K).h = 0 := rfl
@[simp] theorem zero_I : (0 : RBInertia K).I = 0 := rfl
@[simp] theorem add_m (a b : RBInertia K) : (a + b).m = a.m + b.m := rfl
@[simp] theorem add_h (a b : RBInertia K) : (a + b).h = a.h + b.h := rfl
@[simp] theorem add_I (a b : RBInertia K) : (a + b).I = a.I + b.I := rfl
@[simp] theorem sub_m (a b : RBInertia K) : (a - b).m = a.m - b.m := rfl
@[simp] theorem sub_h (a b : RBInertia K) : (a - b).h = a.h - b.h := rfl
@[simp] theorem sub_I (a b : RBInertia K) : (a - b).I = a.I - b.I := rfl
@[simp] theorem neg_m (a : RBInertia K) : (-a).m = -a.m := rfl
@[simp] theorem neg_h (a : RBInertia K) : (-a).h = -a.h := rfl
@[simp] theorem neg_I (a : RBInertia K) : (-a).I = -a.I := rfl

instance : AddCommGroup (RBInertia K) where
  add_assoc a b c := by ext <;> simp [add_assoc]
  zero_add a := by ext <;> simp
  add_zero a := by ext <;> simp
  add_comm a b := by ext <;> simp [add_comm]
  neg_add_cancel a := by ext <;> simp
  sub_eq_add_neg a b := by ext <;> simp [sub_eq_add_neg]
  nsmul := nsmulRec
  zsmul := zsmulRec

/-- `RBInertia(m, h, I)`: only the lower triangle of `I` is kept. -/
def ofMat (m : K) (h : Vec3 K) (I : Mat3 K) : RBInertia K := ⟨m, h, Sym3.ofLower I⟩

/-- `RBInertia * MotionVec`. -/
def mulMotion (a : RBInertia K) (v : MotionVec K) : ForceVec K :=
  ⟨a.I.toMat *ᵥ v.ang + a.h.cross v.lin, a.m • v.lin - a.h.cross v.ang⟩
end RBInertia

/-! ### Plücker transforms -/

namespace PTransform
/-- `PTransform::Identity()`. -/
instance : One (PTransform K) := ⟨⟨1, 0⟩⟩
/-- `X1 * X2` : rotation `E1 E2`, translation `r2 + E2ᵀ r1`. -/
instance : Mul (PTransform K) := ⟨fun a b => ⟨a.E * b.E, b.r + b.E.tr *ᵥ a.r⟩⟩

@[simp] theorem one_E : (1 : PTransform K).E = 1 := rfl
@[simp] theorem one_r : (1 : PTransform K).r = 0 := rfl
@[simp] theorem mul_E (a b : PTransform K) : (a * b).E = a.E * b.E := rfl
@[simp] theorem mul_r (a b : PTransform K) : (a * b).r = b.r + b.E.tr *ᵥ a.r := rfl

/-- `PTransform(rotation)`. -/
def ofRot (E : Mat3 K) : PTransform K := ⟨E, 0⟩
/-- `PTransform(translation)`. -/
def ofTrans (r : Vec3 K) : PTransform K := ⟨1, r⟩
/-- `PTransform::inv()`. -/
def inv (X : PTransform K) : PTransform K := ⟨X.E.tr, -(X.E *ᵥ X.r)⟩
/-- `X * MotionVec`. -/
def mulMotion (X : PTransform K) (v : MotionVec K) : MotionVec K :=
  ⟨X.E *ᵥ v.ang, X.E *ᵥ (v.lin - X.r.cross v.ang)⟩
/-- `X.invMul(MotionVec)`. -/
def invMul (X : PTransform K) (v : MotionVec K) : MotionVec K :=
  ⟨X.E.tr *ᵥ v.ang, X.E.tr *ᵥ v.lin + X.r.cross (X.E.tr *ᵥ v.ang)⟩
/-- `X.angularMul(MotionVec)`: angular part of `X * v`. -/
def angularMul (X : PTransform K) (v : MotionVec K) : Vec3 K := X.E *ᵥ v.ang
/-- `X.linearMul(MotionVec)`: linear part of `X * v`. -/
def linearMul (X : PTransform K) (v : MotionVec K) : Vec3 K := X.E *ᵥ (v.lin - X.r.cross v.ang)
/-- `X.dualMul(ForceVec)`. -/
def dualMul (X : PTransform K) (f : ForceVec K) : ForceVec K :=
  ⟨X.E *ᵥ (f.couple - X.r.cross f.force), X.E *ᵥ f.force⟩
/-- `X.transMul(ForceVec)`. -/
def transMul (X : PTransform K) (f : ForceVec K) : ForceVec K :=
  ⟨X.E.tr *ᵥ f.couple + X.r.cross (X.E.tr *ᵥ f.force), X.E.tr *ᵥ f.force⟩
/-- `X.dualMul(RBInertia)`. -/
def dualMulI (X : PTransform K) (a : RBInertia K) : RBInertia K :=
  RBInertia.ofMat a.m (X.E *ᵥ (a.h - a.m • X.r))
    (X.E * (a.I.toMat + Mat3.crossMat X.r * Mat3.crossMat a.h
      + Mat3.crossMat (a.h - a.m • X.r) * Mat3.crossMat X.r) * X.E.tr)
/-- `X.transMul(RBInertia)`. -/
def transMulI (X : PTransform K) (a : RBInertia K) : RBInertia K :=
  RBInertia.ofMat a.m (X.E.tr *ᵥ a.h + a.m • X.r)
    (X.E.tr * a.I.toMat * X.E - Mat3.crossMat X.r * Mat3.crossMat (X.E.tr *ᵥ a.h)
      - Mat3.crossMat (X.E.tr *ᵥ a.h + a.m • X.r) * Mat3.crossMat X.r)
end PTransform

end Vec3

/-! ### Rotations -/

section Rot
variable [Scalar K]

/-- `Eigen::AngleAxisd(θ, a).matrix()` (the axis is used as given, it is not normalised). -/
def angleAxis (θ : K) (a : Vec3 K) : Mat3 K :=
  let s := Scalar.sin θ • a
  let c := Scalar.cos θ
  let c1 := (1 - c) • a
  ⟨c1.x * a.x + c, c1.x * a.y - s.z, c1.x * a.z + s.y,
   c1.x * a.y + s.z, c1.y * a.y + c, c1.y * a.z - s.x,
   c1.x * a.z - s.y, c1.y * a.z + s.x, c1.z * a.z + c⟩

/-- `sva::RotX`. -/
def rotX (θ : K) : Mat3 K :=
  ⟨1, 0, 0, 0, Scalar.cos θ, Scalar.sin θ, 0, -Scalar.sin θ, Scalar.cos θ⟩
/-- `sva::RotY`. -/
def rotY (θ : K) : Mat3 K :=
  ⟨Scalar.cos θ, 0, -Scalar.sin θ, 0, 1, 0, Scalar.sin θ, 0, Scalar.cos θ⟩
/-- `sva::RotZ`. -/
def rotZ (θ : K) : Mat3 K :=
  ⟨Scalar.cos θ, Scalar.sin θ, 0, -Scalar.sin θ, Scalar.cos θ, 0, 0, 0, 1⟩

/-- `Eigen::Quaterniond(w, x, y, z)`. -/
@[ext] structure Quat (K : Type) where
  w : K
  x : K
  y : K
  z : K
  deriving DecidableEq, Repr

namespace Quat
/-- `squaredNorm()`. -/
def normSq (q : Quat K) : K := q.w * q.w + q.x * q.x + q.y * q.y + q.z * q.z
/-- `inverse()`: conjugate divided by the squared norm, or zero if the norm is not positive. -/
def inverse (q : Quat K) : Quat K :=
  if 0 < q.normSq then ⟨q.w / q.normSq, -q.x / q.normSq, -q.y / q.normSq, -q.z / q.normSq⟩ else ⟨0, 0, 0, 0⟩
/-- `toRotationMatrix()` (no normalisation). -/
def toRot (q : Quat K) : Mat3 K :=
  ⟨1 - (2 * q.y * q.y + 2 * q.z * q.z), 2 * q.y * q.x - 2 * q.z * q.w, 2 * q.z * q.x + 2 * q.y * q.w,
   2 * q.y * q.x + 2 * q.z * q.w, 1 - (2 * q.x * q.x + 2 * q.z * q.z), 2 * q.z * q.y - 2 * q.x * q.w,
   2 * q.z * q.x - 2 * q.y * q.w, 2 * q.z * q.y + 2 * q.x * q.w, 1 - (2 * q.x * q.x + 2 * q.y * q.y)⟩
/-- quaternion product -/
def mul (a b : Quat K) : Quat K :=
  ⟨a.w * b.w - a.x * b.x - a.y * b.y - a.z * b.z,
   a.w * b.x + a.x * b.w + a.y * b.z - a.z * b.y,
   a.w * b.y + a.y * b.w + a.z * b.x - a.x * b.z,
   a.w * b.z + a.z * b.w + a.x * b.y - a.y * b.x⟩
end Quat

end Rot

end RBDyn
