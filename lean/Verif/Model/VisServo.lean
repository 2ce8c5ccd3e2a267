import Mathlib.Data.Matrix.Mul
import Mathlib.LinearAlgebra.Matrix.Notation
import Mathlib.Analysis.SpecialFunctions.Trigonometric.Inverse
import Mathlib.Analysis.SpecialFunctions.Trigonometric.Sinc
import Verif.Model.Spatial

/-! Model of `src/RBDyn/VisServo.cpp`. `Vector2d` is a pair; the functions with `acos` and `sinc` are over `ℝ`. -/

namespace RBDyn
variable {K : Type} [Scalar K]

/-- `imagePointJacobian(point2d, depthEstimate, jac)`, VisServo.cpp:12-17. -/
def imagePointJacobian (p : K × K) (depth : K) : Matrix (Fin 2) (Fin 6) K :=
  !![p.1 * p.2, -(1 + p.1 * p.1), p.2, -1 / depth, 0, p.1 / depth;
     1 + p.2 * p.2, -p.1 * p.2, -p.1, 0, -1 / depth, p.2 / depth]

/-- `imagePointJacobian(point3d, jac)`, VisServo.cpp:19-26. -/
def imagePointJacobian3 (p : Vec3 K) : Matrix (Fin 2) (Fin 6) K := imagePointJacobian (p.x / p.z, p.y / p.z) p.z

/-- `imagePointJacobianDot`, VisServo.cpp:28-40. -/
def imagePointJacobianDot (p s : K × K) (depth depthDot : K) : Matrix (Fin 2) (Fin 6) K :=
  let Zsq := depth * depth
  !![s.1 * p.2 + p.1 * s.2, -2 * p.1 * s.1, s.2, depthDot / Zsq, 0, (s.1 * depth - p.1 * depthDot) / Zsq;
     2 * p.2 * s.2, -s.1 * p.2 - p.1 * s.2, -s.1, 0, depthDot / Zsq, (s.2 * depth - p.2 * depthDot) / Zsq]

/-- `depthDotJacobian`, VisServo.cpp:64-69. -/
def depthDotJacobian (s : K × K) (depth : K) : Fin 6 → K := ![0, 0, -1, -s.2 * depth, s.1 * depth, 0]

/-- `getAngleAxis`, VisServo.cpp:71-78. -/
noncomputable def getAngleAxis (rotation : Mat3 ℝ) : ℝ × Vec3 ℝ :=
  let acosV := (rotation.m00 + rotation.m11 + rotation.m22 - 1) * (1 / 2)
  (Real.arccos (min (max acosV (-1)) 1),
   ⟨-rotation.m21 + rotation.m12, -rotation.m02 + rotation.m20, -rotation.m10 + rotation.m01⟩)

/-- `getSkewSym`, VisServo.cpp:80-83. -/
def getSkewSym (v : Vec3 K) : Mat3 K := ⟨0, -v.z, v.y, v.z, 0, -v.x, -v.y, v.x, 0⟩

/-- A 6×6 matrix as its 3×3 blocks. -/
structure Blocks6 (K : Type) where
  (tl tr bl br : Mat3 K)

/-- `poseJacobian`, VisServo.cpp:42-62. -/
noncomputable def poseJacobian (rotation : Mat3 ℝ) : Blocks6 ℝ :=
  let rotAngle := (getAngleAxis rotation.tr).1
  let rotAxis := (getAngleAxis rotation.tr).2
  let sincPart := Real.sinc rotAngle / Real.sinc (rotAngle / 2) ^ 2
  let axisAntisym := getSkewSym rotAxis
  let L := 1 - (rotAngle * (1 / 2)) • axisAntisym + ((1 - sincPart) • axisAntisym) * axisAntisym
  ⟨L, 0, 0, rotation.tr⟩

end RBDyn
