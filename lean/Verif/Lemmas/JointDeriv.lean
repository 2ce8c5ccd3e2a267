import Verif.Spec.JointDeriv
import Verif.Lemmas.Joint

/-! Helper lemmas for C06. -/

namespace RBDyn
open scoped Mat3
open Joint

theorem HasDerivMat.congr {f : ℝ → Mat3 ℝ} {a b : Mat3 ℝ} {t : ℝ} (h : HasDerivMat f a t) (e : a = b) :
    HasDerivMat f b t := e ▸ h

theorem HasDerivVec.congr {f : ℝ → Vec3 ℝ} {a b : Vec3 ℝ} {t : ℝ} (h : HasDerivVec f a t) (e : a = b) :
    HasDerivVec f b t := e ▸ h

theorem HasDerivMat.const (A : Mat3 ℝ) (t : ℝ) : HasDerivMat (fun _ => A) 0 t := by
  constructor <;> exact hasDerivAt_const ..

theorem HasDerivVec.const (A : Vec3 ℝ) (t : ℝ) : HasDerivVec (fun _ => A) 0 t := by
  constructor <;> exact hasDerivAt_const ..

theorem HasDerivVec.smul_const {f : ℝ → ℝ} {f' t : ℝ} (h : HasDerivAt f f' t) (A : Vec3 ℝ) :
    HasDerivVec (fun s => f s • A) (f' • A) t := by
  constructor <;> simpa using h.mul_const _

theorem hasDeriv_angleAxis {f : ℝ → ℝ} {f' t : ℝ} (h : HasDerivAt f f' t) {a : Vec3 ℝ} (ha : IsUnit3 a) :
    HasDerivMat (fun s => angleAxis (-(f s)) a) (-(Mat3.crossMat (f' • a) * angleAxis (-(f t)) a)) t := by
  have hc : HasDerivAt (fun s => Real.cos (-(f s))) (-Real.sin (-(f t)) * (-f')) t := h.neg.cos
  have hs : HasDerivAt (fun s => Real.sin (-(f s))) (Real.cos (-(f t)) * (-f')) t := h.neg.sin
  have h1 := Scalar.cos_sq_add_sin_sq (K := ℝ) (-(f t))
  simp only [Scalar.cos, Scalar.sin] at h1
  unfold IsUnit3 at ha
  obtain ⟨x, y, z⟩ := a
  simp only at ha
  constructor
  · refine ((((hc.const_sub 1).mul_const x).mul_const x).add hc).congr_deriv ?_
    simp [angleAxis, Mat3.crossMat, Scalar.cos, Scalar.sin]; grind
  · refine ((((hc.const_sub 1).mul_const x).mul_const y).sub (hs.mul_const z)).congr_deriv ?_
    simp [angleAxis, Mat3.crossMat, Scalar.cos, Scalar.sin]; grind
  · refine ((((hc.const_sub 1).mul_const x).mul_const z).add (hs.mul_const y)).congr_deriv ?_
    simp [angleAxis, Mat3.crossMat, Scalar.cos, Scalar.sin]; grind
  · refine ((((hc.const_sub 1).mul_const x).mul_const y).add (hs.mul_const z)).congr_deriv ?_
    simp [angleAxis, Mat3.crossMat, Scalar.cos, Scalar.sin]; grind
  · refine ((((hc.const_sub 1).mul_const y).mul_const y).add hc).congr_deriv ?_
    simp [angleAxis, Mat3.crossMat, Scalar.cos, Scalar.sin]; grind
  · refine ((((hc.const_sub 1).mul_const y).mul_const z).sub (hs.mul_const x)).congr_deriv ?_
    simp [angleAxis, Mat3.crossMat, Scalar.cos, Scalar.sin]; grind
  · refine ((((hc.const_sub 1).mul_const x).mul_const z).sub (hs.mul_const y)).congr_deriv ?_
    simp [angleAxis, Mat3.crossMat, Scalar.cos, Scalar.sin]; grind
  · refine ((((hc.const_sub 1).mul_const y).mul_const z).add (hs.mul_const x)).congr_deriv ?_
    simp [angleAxis, Mat3.crossMat, Scalar.cos, Scalar.sin]; grind
  · refine ((((hc.const_sub 1).mul_const z).mul_const z).add hc).congr_deriv ?_
    simp [angleAxis, Mat3.crossMat, Scalar.cos, Scalar.sin]; grind

section quat
variable {w x y z : ℝ → ℝ} {t p q r : ℝ}

/-- The quaternion kinematics `q̇ = ½ q∘(0,ω)` rotates `quatToE q` with angular velocity `ω`. -/
theorem hasDeriv_quatToE
    (hw : HasDerivAt w ((-x t * p - y t * q - z t * r) / 2) t)
    (hx : HasDerivAt x ((w t * p + y t * r - z t * q) / 2) t)
    (hy : HasDerivAt y ((w t * q + z t * p - x t * r) / 2) t)
    (hz : HasDerivAt z ((w t * r + x t * q - y t * p) / 2) t)
    (hn : w t * w t + x t * x t + y t * y t + z t * z t = 1) :
    HasDerivMat (fun s => quatToE (w s) (x s) (y s) (z s))
      (-(Mat3.crossMat ⟨p, q, r⟩ * quatToE (w t) (x t) (y t) (z t))) t := by
  constructor
  · refine ((((hw.mul hw).add (hx.mul hx)).sub_const (1 / 2)).const_mul 2).congr_deriv ?_
    simp [quatToE, Mat3.crossMat]; grind
  · refine (((hx.mul hy).add (hw.mul hz)).const_mul 2).congr_deriv ?_
    simp [quatToE, Mat3.crossMat]; grind
  · refine (((hx.mul hz).sub (hw.mul hy)).const_mul 2).congr_deriv ?_
    simp [quatToE, Mat3.crossMat]; grind
  · refine (((hx.mul hy).sub (hw.mul hz)).const_mul 2).congr_deriv ?_
    simp [quatToE, Mat3.crossMat]; grind
  · refine ((((hw.mul hw).add (hy.mul hy)).sub_const (1 / 2)).const_mul 2).congr_deriv ?_
    simp [quatToE, Mat3.crossMat]; grind
  · refine (((hy.mul hz).add (hw.mul hx)).const_mul 2).congr_deriv ?_
    simp [quatToE, Mat3.crossMat]; grind
  · refine (((hx.mul hz).add (hw.mul hy)).const_mul 2).congr_deriv ?_
    simp [quatToE, Mat3.crossMat]; grind
  · refine (((hy.mul hz).sub (hw.mul hx)).const_mul 2).congr_deriv ?_
    simp [quatToE, Mat3.crossMat]; grind
  · refine ((((hw.mul hw).add (hz.mul hz)).sub_const (1 / 2)).const_mul 2).congr_deriv ?_
    simp [quatToE, Mat3.crossMat]; grind
end quat

theorem hasDeriv_planar {θ x y : ℝ → ℝ} {t ω vx vy : ℝ} (hθ : HasDerivAt θ ω t)
    (hx : HasDerivAt x (vx + ω * y t) t) (hy : HasDerivAt y (vy - ω * x t) t) :
    HasSpatialVelocity (fun s => ⟨rotZ (θ s), (rotZ (θ s)).tr *ᵥ ⟨x s, y s, 0⟩⟩) ⟨⟨0, 0, ω⟩, ⟨vx, vy, 0⟩⟩ t := by
  have hc : HasDerivAt (fun s => Real.cos (θ s)) (-Real.sin (θ t) * ω) t := hθ.cos
  have hs : HasDerivAt (fun s => Real.sin (θ s)) (Real.cos (θ t) * ω) t := hθ.sin
  have h1 := Scalar.cos_sq_add_sin_sq (K := ℝ) (θ t)
  simp only [Scalar.cos, Scalar.sin] at h1
  constructor
  · constructor
    · refine hc.congr_deriv ?_
      simp [rotZ, Mat3.crossMat, Scalar.cos, Scalar.sin]; grind
    · refine hs.congr_deriv ?_
      simp [rotZ, Mat3.crossMat, Scalar.cos, Scalar.sin]; grind
    · refine (hasDerivAt_const _ _).congr_deriv ?_
      simp [rotZ, Mat3.crossMat]
    · refine hs.neg.congr_deriv ?_
      simp [rotZ, Mat3.crossMat, Scalar.cos, Scalar.sin]; grind
    · refine hc.congr_deriv ?_
      simp [rotZ, Mat3.crossMat, Scalar.cos, Scalar.sin]; grind
    · refine (hasDerivAt_const _ _).congr_deriv ?_
      simp [rotZ, Mat3.crossMat]
    · refine (hasDerivAt_const _ _).congr_deriv ?_
      simp [rotZ, Mat3.crossMat]
    · refine (hasDerivAt_const _ _).congr_deriv ?_
      simp [rotZ, Mat3.crossMat]
    · refine (hasDerivAt_const _ _).congr_deriv ?_
      simp [rotZ, Mat3.crossMat]
  · constructor
    · refine ((((hc.mul hx).add (hs.neg.mul hy))).add_const 0 |>.congr_deriv ?_).congr_of_eventuallyEq
        (Filter.Eventually.of_forall fun s => ?_)
      · simp [rotZ, Scalar.cos, Scalar.sin]; grind
      · simp [rotZ, Scalar.cos, Scalar.sin]
    · refine ((((hs.mul hx).add (hc.mul hy))).add_const 0 |>.congr_deriv ?_).congr_of_eventuallyEq
        (Filter.Eventually.of_forall fun s => ?_)
      · simp [rotZ, Scalar.cos, Scalar.sin]; grind
      · simp [rotZ, Scalar.cos, Scalar.sin]
    · simpa [rotZ] using hasDerivAt_const t (0 : ℝ)

end RBDyn
