import Mathlib.Analysis.Real.Pi.Bounds
import Verif.Model.VisServo
import Verif.Lemmas.DynDeriv

/-! Property C44: visual servoing Jacobians. -/

namespace RBDyn
open scoped Mat3

/-- A spatial velocity as a vector of six numbers, angular part first (the order used by all Jacobians of the library). -/
def MotionVec.vec {K : Type} (v : MotionVec K) : Fin 6 → K := ![v.ang.x, v.ang.y, v.ang.z, v.lin.x, v.lin.y, v.lin.z]

/-- The same with the linear part first. -/
def MotionVec.vecLin {K : Type} (v : MotionVec K) : Fin 6 → K := ![v.lin.x, v.lin.y, v.lin.z, v.ang.x, v.ang.y, v.ang.z]

/-- Coordinates of the fixed world point `p` in the camera frame. -/
noncomputable def inCamera (X : PTransform ℝ) (p : Vec3 ℝ) : Vec3 ℝ := X.E *ᵥ (p - X.r)

/-- Velocity of a fixed point seen from a moving frame. -/
theorem inCamera_deriv {X : ℝ → PTransform ℝ} {V : MotionVec ℝ} {t : ℝ} (hX : HasSpatialVelocity X V t) (hr : IsRot (X t).E)
    (p : Vec3 ℝ) : HasDerivVec (fun s => inCamera (X s) p) (-(V.lin + V.ang.cross (inCamera (X t) p))) t := by
  refine (hX.rot.mulVec ((HasDerivVec.const p t).sub hX.trans)).congr ?_
  rw [zero_sub, Mat3.mulVec_neg, hr.mulVec_tr, Mat3.neg_mulVec, Mat3.mul_mulVec, Mat3.crossMat_mulVec]
  change -(V.ang.cross (inCamera (X t) p)) + -V.lin = _
  abel

/-- C44: `imagePointJacobian` maps the velocity of the camera to the velocity of the image of a fixed point. -/
theorem C44_image_point {X : ℝ → PTransform ℝ} {V : MotionVec ℝ} {t : ℝ} (hX : HasSpatialVelocity X V t) (hr : IsRot (X t).E)
    (p : Vec3 ℝ) (hz : (inCamera (X t) p).z ≠ 0) :
    HasDerivAt (fun s => (inCamera (X s) p).x / (inCamera (X s) p).z) ((imagePointJacobian3 (inCamera (X t) p)).mulVec V.vec 0) t ∧
    HasDerivAt (fun s => (inCamera (X s) p).y / (inCamera (X s) p).z) ((imagePointJacobian3 (inCamera (X t) p)).mulVec V.vec 1) t := by
  have h := inCamera_deriv hX hr p
  constructor
  · refine (h.x.div h.z hz).congr_deriv ?_
    simp [imagePointJacobian3, imagePointJacobian, MotionVec.vec, Matrix.mulVec, dotProduct, Fin.sum_univ_succ]
    field_simp
    ring
  · refine (h.y.div h.z hz).congr_deriv ?_
    simp [imagePointJacobian3, imagePointJacobian, MotionVec.vec, Matrix.mulVec, dotProduct, Fin.sum_univ_succ]
    field_simp
    ring

/-- C44: `imagePointJacobianDot` is the time derivative of `imagePointJacobian`, for arbitrary motions of the image point and of the
depth estimate. -/
theorem C44_jacobian_dot {x y Z : ℝ → ℝ} {x' y' Z' t : ℝ} (hx : HasDerivAt x x' t) (hy : HasDerivAt y y' t) (hZ : HasDerivAt Z Z' t)
    (hz : Z t ≠ 0) (i : Fin 2) (j : Fin 6) :
    HasDerivAt (fun s => imagePointJacobian (x s, y s) (Z s) i j) (imagePointJacobianDot (x t, y t) (x', y') (Z t) Z' i j) t := by
  have c0 := hasDerivAt_const t (0 : ℝ)
  have c1 := hasDerivAt_const t (-1 : ℝ)
  fin_cases i <;> fin_cases j
  · exact (hx.mul hy)
  · exact ((hx.mul hx).const_add 1).neg.congr_deriv (by simp [imagePointJacobianDot]; ring)
  · exact hy
  · exact (c1.div hZ hz).congr_deriv (by simp [imagePointJacobianDot]; ring)
  · exact c0
  · exact (hx.div hZ hz).congr_deriv (by simp [imagePointJacobianDot]; ring)
  · exact ((hy.mul hy).const_add 1).congr_deriv (by simp [imagePointJacobianDot]; ring)
  · exact (hx.neg.mul hy).congr_deriv (by simp [imagePointJacobianDot]; ring)
  · exact hx.neg
  · exact c0
  · exact (c1.div hZ hz).congr_deriv (by simp [imagePointJacobianDot]; ring)
  · exact (hy.div hZ hz).congr_deriv (by simp [imagePointJacobianDot]; ring)

/-- C44: the acceleration of the image of a fixed point is `J A + J̇ V` for camera velocity `V` and acceleration `A`. -/
theorem C44_acceleration {X : ℝ → PTransform ℝ} {V : ℝ → MotionVec ℝ} {A : MotionVec ℝ} {t : ℝ}
    (hX : ∀ s, HasSpatialVelocity X (V s) s) (hr : ∀ s, IsRot (X s).E) (hV : HasDerivMotion V A t) (p : Vec3 ℝ)
    (hz : ∀ s, (inCamera (X s) p).z ≠ 0) :
    ∃ σ : ℝ → Fin 2 → ℝ, (∀ s, HasDerivAt (fun s => (inCamera (X s) p).x / (inCamera (X s) p).z) (σ s 0) s ∧
        HasDerivAt (fun s => (inCamera (X s) p).y / (inCamera (X s) p).z) (σ s 1) s) ∧
      ∀ i, HasDerivAt (fun s => σ s i) ((imagePointJacobian3 (inCamera (X t) p)).mulVec A.vec i +
        (imagePointJacobianDot ((inCamera (X t) p).x / (inCamera (X t) p).z, (inCamera (X t) p).y / (inCamera (X t) p).z)
          (σ t 0, σ t 1) (inCamera (X t) p).z (-(V t).lin.z - ((V t).ang.cross (inCamera (X t) p)).z)).mulVec (V t).vec i) t := by
  refine ⟨fun s => (imagePointJacobian3 (inCamera (X s) p)).mulVec (V s).vec, fun s => C44_image_point (hX s) (hr s) p (hz s),
    fun i => ?_⟩
  obtain ⟨h1, h2⟩ := C44_image_point (hX t) (hr t) p (hz t)
  have h3 := (inCamera_deriv (hX t) (hr t) p).z
  have hJ : ∀ j, HasDerivAt (fun s => imagePointJacobian3 (inCamera (X s) p) i j) _ t := fun j => C44_jacobian_dot h1 h2 h3 (hz t) i j
  have hv : ∀ j, HasDerivAt (fun s => (V s).vec j) (A.vec j) t := by
    intro j
    fin_cases j
    exacts [hV.ang.x, hV.ang.y, hV.ang.z, hV.lin.x, hV.lin.y, hV.lin.z]
  have := HasDerivAt.fun_sum (u := Finset.univ) fun j _ => (hJ j).mul (hv j)
  refine this.congr_deriv ?_
  rw [Finset.sum_add_distrib, add_comm]
  have e : (-((V t).lin + (V t).ang.cross (inCamera (X t) p))).z = -(V t).lin.z - ((V t).ang.cross (inCamera (X t) p)).z := by
    simp only [Vec3.neg_z, Vec3.add_z]; ring
  rw [e]
  rfl

/-- The hypotheses of the theorems on image points are met by a camera that turns and accelerates. -/
example : ∃ (X : ℝ → PTransform ℝ) (V : ℝ → MotionVec ℝ) (p : Vec3 ℝ), (∀ s, HasSpatialVelocity X (V s) s) ∧ (∀ s, IsRot (X s).E) ∧
    (∀ t, HasDerivMotion V ⟨0, ⟨0, 0, -2⟩⟩ t) ∧ ∀ s, (inCamera (X s) p).z ≠ 0 := by
  have hu : IsUnit3 (⟨0, 0, 1⟩ : Vec3 ℝ) := by simp [IsUnit3]
  refine ⟨fun s => ⟨angleAxis (-s) ⟨0, 0, 1⟩, ⟨0, 0, -1 - s * s⟩⟩, fun s => ⟨⟨0, 0, 1⟩, ⟨0, 0, -(2 * s)⟩⟩, 0, fun s => ⟨?_, ?_⟩,
    fun s => Joint.isRot_angleAxis _ hu, fun t => ?_, fun s => ?_⟩
  · have := hasDeriv_angleAxis (hasDerivAt_id s) hu
    simpa using this
  · have h0 : HasDerivAt (fun s : ℝ => s) 1 s := hasDerivAt_id s
    refine ⟨(hasDerivAt_const s 0).congr_deriv (by simp [angleAxis]), (hasDerivAt_const s 0).congr_deriv (by simp [angleAxis]),
      ((h0.mul h0).const_sub (-1)).congr_deriv ?_⟩
    simp [angleAxis]
    ring
  · have h0 : HasDerivAt (fun s : ℝ => s) 1 t := hasDerivAt_id t
    refine ⟨HasDerivVec.const _ t, hasDerivAt_const t 0, hasDerivAt_const t 0, ?_⟩
    exact (h0.const_mul 2).neg.congr_deriv (by simp)
  · simp [inCamera, angleAxis]
    nlinarith [mul_self_nonneg s]

/-- C44 (partial): `depthDotJacobian` gives the rate of change of the depth of a fixed point if its first argument is the image point
(not its speed, as the header says) and the camera velocity has its linear part first (unlike for all other Jacobians).

Missing: the documented use, see `C44_depth_order_counterexample` and `C44_depth_speed_counterexample`. -/
theorem C44_depth_partial {X : ℝ → PTransform ℝ} {V : MotionVec ℝ} {t : ℝ} (hX : HasSpatialVelocity X V t) (hr : IsRot (X t).E)
    (p : Vec3 ℝ) (hz : (inCamera (X t) p).z ≠ 0) :
    HasDerivAt (fun s => (inCamera (X s) p).z) (depthDotJacobian ((inCamera (X t) p).x / (inCamera (X t) p).z,
      (inCamera (X t) p).y / (inCamera (X t) p).z) (inCamera (X t) p).z ⬝ᵥ V.vecLin) t := by
  refine (inCamera_deriv hX hr p).z.congr_deriv ?_
  simp [depthDotJacobian, MotionVec.vecLin, dotProduct, Fin.sum_univ_succ]
  field_simp
  ring

/-- A camera moving straight towards a point: with the angular part first, `depthDotJacobian` gives zero. -/
theorem C44_depth_order_counterexample : ∃ (X : ℝ → PTransform ℝ) (V : MotionVec ℝ) (p : Vec3 ℝ), HasSpatialVelocity X V 0 ∧
    IsRot (X 0).E ∧ inCamera (X 0) p = ⟨0, 0, 1⟩ ∧ HasDerivAt (fun s => (inCamera (X s) p).z) (-1) 0 ∧
    ∀ s depth, depthDotJacobian s depth ⬝ᵥ V.vec = 0 := by
  have hX : HasSpatialVelocity (fun s : ℝ => ⟨1, ⟨0, 0, s⟩⟩) ⟨0, ⟨0, 0, 1⟩⟩ 0 := by
    refine ⟨(HasDerivMat.const 1 0).congr ?_, hasDerivAt_const 0 _ |>.congr_deriv ?_, hasDerivAt_const 0 _ |>.congr_deriv ?_,
      (hasDerivAt_id (0 : ℝ)).congr_deriv ?_⟩
    · ext <;> simp [Mat3.crossMat]
    all_goals simp
  have hp : inCamera (⟨1, ⟨0, 0, 0⟩⟩ : PTransform ℝ) ⟨0, 0, 1⟩ = ⟨0, 0, 1⟩ := by ext <;> simp [inCamera]
  refine ⟨_, _, ⟨0, 0, 1⟩, hX, IsRot.one, hp, (inCamera_deriv hX IsRot.one _).z.congr_deriv ?_, fun s d => ?_⟩
  · simp
  · simp [depthDotJacobian, MotionVec.vec, dotProduct, Fin.sum_univ_succ]

/-- A turning camera: with the speed of the image point as first argument, `depthDotJacobian` gives the wrong rate in both orders. -/
theorem C44_depth_speed_counterexample : ∃ (X : ℝ → PTransform ℝ) (V : MotionVec ℝ) (p : Vec3 ℝ), HasSpatialVelocity X V 0 ∧
    IsRot (X 0).E ∧ inCamera (X 0) p = ⟨1, 0, 1⟩ ∧ HasDerivAt (fun s => (inCamera (X s) p).z) 1 0 ∧
    HasDerivAt (fun s => (inCamera (X s) p).x / (inCamera (X s) p).z) (-2) 0 ∧
    HasDerivAt (fun s => (inCamera (X s) p).y / (inCamera (X s) p).z) 0 0 ∧
    depthDotJacobian (-2, 0) 1 ⬝ᵥ V.vecLin ≠ 1 ∧ depthDotJacobian (-2, 0) 1 ⬝ᵥ V.vec ≠ 1 := by
  have hu : IsUnit3 (⟨0, 1, 0⟩ : Vec3 ℝ) := by simp [IsUnit3]
  have hX : HasSpatialVelocity (fun s : ℝ => ⟨angleAxis (-s) ⟨0, 1, 0⟩, 0⟩) ⟨⟨0, 1, 0⟩, 0⟩ 0 := by
    refine ⟨by simpa using hasDeriv_angleAxis (hasDerivAt_id (0 : ℝ)) hu, (HasDerivVec.const 0 0).congr ?_⟩
    ext <;> simp
  have hp : inCamera (⟨angleAxis (-0) ⟨0, 1, 0⟩, 0⟩ : PTransform ℝ) ⟨1, 0, 1⟩ = ⟨1, 0, 1⟩ := by
    ext <;> simp [inCamera, angleAxis, Scalar.cos, Scalar.sin]
  have hr := Joint.isRot_angleAxis (-0) hu
  obtain ⟨h1, h2⟩ := C44_image_point hX hr ⟨1, 0, 1⟩ (by rw [hp]; norm_num)
  refine ⟨_, _, ⟨1, 0, 1⟩, hX, hr, hp, (inCamera_deriv hX hr _).z.congr_deriv ?_, h1.congr_deriv ?_, h2.congr_deriv ?_, ?_, ?_⟩
  · rw [hp]; simp
  · rw [hp]; simp [imagePointJacobian3, imagePointJacobian, MotionVec.vec, Matrix.mulVec, dotProduct, Fin.sum_univ_succ]; norm_num
  · rw [hp]; simp [imagePointJacobian3, imagePointJacobian, MotionVec.vec, Matrix.mulVec, dotProduct, Fin.sum_univ_succ]
  · simp [depthDotJacobian, MotionVec.vecLin, dotProduct, Fin.sum_univ_succ]; norm_num
  · simp [depthDotJacobian, MotionVec.vec, dotProduct, Fin.sum_univ_succ]

theorem getSkewSym_eq (v : Vec3 ℝ) : getSkewSym v = Mat3.crossMat v := rfl

/-- `getAngleAxis` of a rotation by `θ` about the unit vector `u`: the angle is right; the axis is `-2 sin θ` times `u` (with the
transposed convention of the library, `E = AngleAxis(-θ, u)`, it is `2 sin θ u`). -/
theorem C44_angle_axis {θ : ℝ} (h0 : 0 ≤ θ) (h1 : θ ≤ Real.pi) {u : Vec3 ℝ} (hu : IsUnit3 u) :
    getAngleAxis (angleAxis θ u) = (θ, (-(2 * Real.sin θ)) • u) ∧ getAngleAxis (angleAxis (-θ) u) = (θ, (2 * Real.sin θ) • u) := by
  unfold IsUnit3 at hu
  have e : ((angleAxis θ u).m00 + (angleAxis θ u).m11 + (angleAxis θ u).m22 - 1) * (1 / 2) = Real.cos θ := by
    simp [angleAxis, Scalar.cos, Scalar.sin]
    linear_combination (1 - Real.cos θ) * hu / 2
  have e' : ((angleAxis (-θ) u).m00 + (angleAxis (-θ) u).m11 + (angleAxis (-θ) u).m22 - 1) * (1 / 2) = Real.cos θ := by
    simp [angleAxis, Scalar.cos, Scalar.sin]
    linear_combination (1 - Real.cos θ) * hu / 2
  have ha : Real.arccos (min (max (Real.cos θ) (-1)) 1) = θ := by
    rw [max_eq_left (Real.neg_one_le_cos θ), min_eq_left (Real.cos_le_one θ), Real.arccos_cos h0 h1]
  unfold getAngleAxis
  simp only [e, e', ha]
  constructor <;>
  · congr 1
    ext <;> simp [angleAxis, Scalar.cos, Scalar.sin] <;> ring

/-- The axis returned by `getAngleAxis` is not a unit vector. -/
theorem C44_axis_not_unit_counterexample : ∃ u : Vec3 ℝ, IsUnit3 u ∧ getAngleAxis (angleAxis (-(Real.pi / 2)) u) = (Real.pi / 2, (2 : ℝ) • u) := by
  have hu : IsUnit3 (⟨1, 0, 0⟩ : Vec3 ℝ) := by simp [IsUnit3]
  refine ⟨⟨1, 0, 0⟩, hu, ?_⟩
  have := (C44_angle_axis (θ := Real.pi / 2) (by positivity) (by linarith [Real.pi_pos]) hu).2
  rw [Real.sin_pi_div_two, mul_one] at this
  exact this

/-- C44 (partial): `poseJacobian` of the orientation of a frame that turns about a fixed axis maps its body velocity to the rate of
change of the rotation vector `θ u` and of the position.

Missing: other angular velocities, for which the result is wrong (`C44_pose_counterexample`). -/
theorem C44_pose_partial {X : ℝ → PTransform ℝ} {θ : ℝ → ℝ} {θ' t : ℝ} {u v : Vec3 ℝ} (hu : IsUnit3 u) (hθ : HasDerivAt θ θ' t)
    (h0 : 0 ≤ θ t) (h1 : θ t ≤ Real.pi) (hE : ∀ s, (X s).E = angleAxis (-(θ s)) u)
    (hr : HasDerivVec (fun s => (X s).r) ((X t).E.tr *ᵥ v) t) :
    HasSpatialVelocity X ⟨θ' • u, v⟩ t ∧
    HasDerivVec (fun s => θ s • u) ((poseJacobian (X t).E).tl *ᵥ (θ' • u) + (poseJacobian (X t).E).tr *ᵥ v) t ∧
    HasDerivVec (fun s => (X s).r) ((poseJacobian (X t).E).bl *ᵥ (θ' • u) + (poseJacobian (X t).E).br *ᵥ v) t := by
  refine ⟨⟨?_, hr⟩, ?_, ?_⟩
  · simp only [hE]
    exact hasDeriv_angleAxis hθ hu
  · have e : (X t).E.tr = angleAxis (θ t) u := by
      rw [hE]; ext <;> simp [angleAxis, Scalar.cos, Scalar.sin] <;> ring
    have h2 : (poseJacobian (X t).E).tr = 0 := rfl
    refine (HasDerivVec.smul_const hθ u).congr ?_
    rw [h2]
    unfold poseJacobian
    simp only [e, (C44_angle_axis h0 h1 hu).1]
    rw [getSkewSym_eq]
    ext <;> simp [Mat3.crossMat] <;> ring
  · have h2 : (poseJacobian (X t).E).bl = 0 := rfl
    refine hr.congr ?_
    rw [h2]
    ext <;> simp [poseJacobian]

/-- A frame at ninety degrees about an axis that turns in the horizontal plane: the rotation part of `poseJacobian` applied to the body
angular velocity is not the rate of change of the rotation vector. -/
theorem C44_pose_counterexample : ∃ (X : ℝ → PTransform ℝ) (u : ℝ → Vec3 ℝ) (V : MotionVec ℝ) (φ' : Vec3 ℝ),
    (∀ s, IsUnit3 (u s)) ∧ (∀ s, (X s).E = angleAxis (-(Real.pi / 2)) (u s)) ∧ HasSpatialVelocity X V 0 ∧
    HasDerivVec (fun s => (Real.pi / 2) • u s) φ' 0 ∧ (poseJacobian (X 0).E).tl *ᵥ V.ang ≠ φ' := by
  have hu : ∀ s : ℝ, IsUnit3 (⟨Real.cos s, Real.sin s, 0⟩ : Vec3 ℝ) := fun s => by
    have := Real.cos_sq_add_sin_sq s
    simp only [IsUnit3]
    linarith
  have hc : HasDerivAt Real.cos 0 0 := (Real.hasDerivAt_cos 0).congr_deriv (by simp)
  have hs : HasDerivAt Real.sin 1 0 := (Real.hasDerivAt_sin 0).congr_deriv (by simp)
  have e : ∀ s : ℝ, angleAxis (-(Real.pi / 2)) ⟨Real.cos s, Real.sin s, 0⟩ =
      ⟨Real.cos s * Real.cos s, Real.cos s * Real.sin s, -Real.sin s, Real.cos s * Real.sin s, Real.sin s * Real.sin s, Real.cos s,
        Real.sin s, -Real.cos s, 0⟩ := by
    intro s
    ext <;> simp [angleAxis, Scalar.cos, Scalar.sin]
  refine ⟨fun s => ⟨angleAxis (-(Real.pi / 2)) ⟨Real.cos s, Real.sin s, 0⟩, 0⟩, fun s => ⟨Real.cos s, Real.sin s, 0⟩,
    ⟨⟨0, 1, -1⟩, 0⟩, ⟨0, Real.pi / 2, 0⟩, hu, fun s => rfl, ⟨?_, ?_⟩, ?_, ?_⟩
  · simp only [e]
    constructor
    · exact (hc.mul hc).congr_deriv (by simp [Mat3.crossMat])
    · exact (hc.mul hs).congr_deriv (by simp [Mat3.crossMat])
    · exact hs.neg.congr_deriv (by simp [Mat3.crossMat])
    · exact (hc.mul hs).congr_deriv (by simp [Mat3.crossMat])
    · exact (hs.mul hs).congr_deriv (by simp [Mat3.crossMat])
    · exact hc.congr_deriv (by simp [Mat3.crossMat])
    · exact hs.congr_deriv (by simp [Mat3.crossMat])
    · exact hc.neg.congr_deriv (by simp [Mat3.crossMat])
    · exact (hasDerivAt_const 0 0).congr_deriv (by simp [Mat3.crossMat])
  · refine (HasDerivVec.const 0 0).congr ?_
    ext <;> simp
  · exact ⟨(hc.const_mul (Real.pi / 2)).congr_deriv (by simp), (hs.const_mul (Real.pi / 2)).congr_deriv (by simp),
      by simpa using hasDerivAt_const (0 : ℝ) (0 : ℝ)⟩
  · intro h
    have h1 := congrArg Vec3.y h
    have e1 : (angleAxis (-(Real.pi / 2)) ⟨Real.cos 0, Real.sin 0, 0⟩).tr = angleAxis (Real.pi / 2) ⟨Real.cos 0, Real.sin 0, 0⟩ := by
      ext <;> simp [angleAxis, Scalar.cos, Scalar.sin]
    have hsi : Real.sinc (Real.pi / 2) / Real.sinc (Real.pi / 2 / 2) ^ 2 = Real.pi / 4 := by
      have hp := Real.pi_pos
      rw [Real.sinc_of_ne_zero (by positivity), Real.sinc_of_ne_zero (by positivity), Real.sin_pi_div_two,
        show Real.pi / 2 / 2 = Real.pi / 4 by ring, Real.sin_pi_div_four]
      have h2 : √(2 : ℝ) ^ 2 = 2 := Real.sq_sqrt (by norm_num)
      field_simp
      rw [h2]
      norm_num
    unfold poseJacobian at h1
    simp only [e1, (C44_angle_axis (θ := Real.pi / 2) (by positivity) (by linarith [Real.pi_pos]) (hu 0)).1, hsi, getSkewSym_eq] at h1
    simp [Mat3.crossMat] at h1
    have := Real.pi_gt_three
    linarith

end RBDyn
