import Mathlib.Analysis.Calculus.Deriv.Mul
import Mathlib.Analysis.Calculus.Deriv.Pow
import Mathlib.Analysis.Calculus.Deriv.Add
import Mathlib.Analysis.SpecialFunctions.Trigonometric.Deriv
import Verif.Spec.Joint

/-! Time derivatives of poses and of joint coordinates. -/

namespace RBDyn
open scoped Mat3

/-- Entrywise derivative of a vector. -/
structure HasDerivVec (f : ℝ → Vec3 ℝ) (f' : Vec3 ℝ) (t : ℝ) : Prop where
  x : HasDerivAt (fun s => (f s).x) f'.x t
  y : HasDerivAt (fun s => (f s).y) f'.y t
  z : HasDerivAt (fun s => (f s).z) f'.z t

/-- Entrywise derivative of a matrix. -/
structure HasDerivMat (f : ℝ → Mat3 ℝ) (f' : Mat3 ℝ) (t : ℝ) : Prop where
  m00 : HasDerivAt (fun s => (f s).m00) f'.m00 t
  m01 : HasDerivAt (fun s => (f s).m01) f'.m01 t
  m02 : HasDerivAt (fun s => (f s).m02) f'.m02 t
  m10 : HasDerivAt (fun s => (f s).m10) f'.m10 t
  m11 : HasDerivAt (fun s => (f s).m11) f'.m11 t
  m12 : HasDerivAt (fun s => (f s).m12) f'.m12 t
  m20 : HasDerivAt (fun s => (f s).m20) f'.m20 t
  m21 : HasDerivAt (fun s => (f s).m21) f'.m21 t
  m22 : HasDerivAt (fun s => (f s).m22) f'.m22 t

/-- The frame `X t = (E, r)` (`E`: rotation from the reference to the moving frame, `r`: position of the moving origin in
the reference frame) moves at time `t` with angular velocity `v.ang` and velocity of its origin `v.lin`, both expressed in
the moving frame: `Ė = -ω× E`, `ṙ = Eᵀ v`. -/
structure HasSpatialVelocity (X : ℝ → PTransform ℝ) (v : MotionVec ℝ) (t : ℝ) : Prop where
  rot : HasDerivMat (fun s => (X s).E) (-(Mat3.crossMat v.ang * (X t).E)) t
  trans : HasDerivVec (fun s => (X s).r) ((X t).E.tr *ᵥ v.lin) t

/-- Derivative of a list-valued trajectory: constant length and every entry differentiable. -/
def HasDerivList (q : ℝ → List ℝ) (qd : List ℝ) (t : ℝ) : Prop :=
  (∀ s, (q s).length = qd.length) ∧ ∀ i, HasDerivAt (fun s => (q s).getD i 0) (qd.getD i 0) t

/-- The coordinate rates `q̇` that correspond to the generalized velocity `α` at configuration `q`:
`q̇ = α` for `Rev`, `Prism`, `Cylindrical`; `q̇ = ½ q∘(0,ω)` for the quaternion of `Spherical` and `Free`
(`ω` in the successor frame); the velocity of the translation of `Free` is `α` rotated to the predecessor frame; for `Planar`
the translation parameters are expressed in the rotating frame. -/
noncomputable def coordRate (ty : JointType) (q α : List ℝ) : List ℝ :=
  match ty, q, α with
  | .Spherical, [w, x, y, z], [p, q, r] =>
    [(-x * p - y * q - z * r) / 2, (w * p + y * r - z * q) / 2,
     (w * q + z * p - x * r) / 2, (w * r + x * q - y * p) / 2]
  | .Planar, [_, x, y], [ω, vx, vy] => [ω, vx + ω * y, vy - ω * x]
  | .Free, [w, x, y, z, _, _, _], [p, q, r, vx, vy, vz] =>
    [(-x * p - y * q - z * r) / 2, (w * p + y * r - z * q) / 2,
     (w * q + z * p - x * r) / 2, (w * r + x * q - y * p) / 2] ++
    ((Quat.toRot ⟨w, x, y, z⟩ *ᵥ ⟨vx, vy, vz⟩).x :: (Quat.toRot ⟨w, x, y, z⟩ *ᵥ ⟨vx, vy, vz⟩).y ::
      (Quat.toRot ⟨w, x, y, z⟩ *ᵥ ⟨vx, vy, vz⟩).z :: [])
  | _, _, α => α

end RBDyn
