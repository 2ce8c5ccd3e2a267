import Verif.Props.VisServo

/-! Property C44: the rotations for which `poseJacobian` is right. -/

namespace RBDyn
open scoped Mat3

theorem angleAxis_moving {θ : ℝ → ℝ} {u : ℝ → Vec3 ℝ} {θ' t : ℝ} {u' : Vec3 ℝ} (hθ : HasDerivAt θ θ' t) (hu : HasDerivVec u u' t)
    (h1 : IsUnit3 (u t)) (h2 : (u t).x * u'.x + (u t).y * u'.y + (u t).z * u'.z = 0) :
    HasDerivMat (fun s => angleAxis (-(θ s)) (u s)) (-(Mat3.crossMat (θ' • u t + Real.sin (θ t) • u' - (1 - Real.cos (θ t)) • (u t).cross u') *
      angleAxis (-(θ t)) (u t))) t := by
  have hc : HasDerivAt (fun s => Real.cos (θ s)) (-Real.sin (θ t) * θ') t := hθ.cos
  have hs : HasDerivAt (fun s => Real.sin (θ s)) (Real.cos (θ t) * θ') t := hθ.sin
  have hcs := Real.cos_sq_add_sin_sq (θ t)
  unfold IsUnit3 at h1
  have e : ∀ s, angleAxis (-(θ s)) (u s) = ⟨(1 - Real.cos (θ s)) * (u s).x * (u s).x + Real.cos (θ s),
      (1 - Real.cos (θ s)) * (u s).x * (u s).y + Real.sin (θ s) * (u s).z, (1 - Real.cos (θ s)) * (u s).x * (u s).z - Real.sin (θ s) * (u s).y,
      (1 - Real.cos (θ s)) * (u s).x * (u s).y - Real.sin (θ s) * (u s).z, (1 - Real.cos (θ s)) * (u s).y * (u s).y + Real.cos (θ s),
      (1 - Real.cos (θ s)) * (u s).y * (u s).z + Real.sin (θ s) * (u s).x, (1 - Real.cos (θ s)) * (u s).x * (u s).z + Real.sin (θ s) * (u s).y,
      (1 - Real.cos (θ s)) * (u s).y * (u s).z - Real.sin (θ s) * (u s).x, (1 - Real.cos (θ s)) * (u s).z * (u s).z + Real.cos (θ s)⟩ := by
    intro s
    ext <;> simp [angleAxis, Scalar.cos, Scalar.sin] <;> ring
  simp only [e]
  have hc1 := (hasDerivAt_const t (1 : ℝ)).sub hc
  constructor
  · refine (((hc1.mul hu.x).mul hu.x).add hc).congr_deriv ?_
    simp [Mat3.crossMat, Vec3.cross]
    generalize Real.cos (θ t) = c at *
    generalize Real.sin (θ t) = s at *
    generalize u t = v at *
    clear e hc1 hc hs hθ hu
    grind
  · refine (((hc1.mul hu.x).mul hu.y).add (hs.mul hu.z)).congr_deriv ?_
    simp [Mat3.crossMat, Vec3.cross]
    generalize Real.cos (θ t) = c at *
    generalize Real.sin (θ t) = s at *
    generalize u t = v at *
    clear e hc1 hc hs hθ hu
    grind
  · refine (((hc1.mul hu.x).mul hu.z).sub (hs.mul hu.y)).congr_deriv ?_
    simp [Mat3.crossMat, Vec3.cross]
    generalize Real.cos (θ t) = c at *
    generalize Real.sin (θ t) = s at *
    generalize u t = v at *
    clear e hc1 hc hs hθ hu
    grind
  · refine (((hc1.mul hu.x).mul hu.y).sub (hs.mul hu.z)).congr_deriv ?_
    simp [Mat3.crossMat, Vec3.cross]
    generalize Real.cos (θ t) = c at *
    generalize Real.sin (θ t) = s at *
    generalize u t = v at *
    clear e hc1 hc hs hθ hu
    grind
  · refine (((hc1.mul hu.y).mul hu.y).add hc).congr_deriv ?_
    simp [Mat3.crossMat, Vec3.cross]
    generalize Real.cos (θ t) = c at *
    generalize Real.sin (θ t) = s at *
    generalize u t = v at *
    clear e hc1 hc hs hθ hu
    grind
  · refine (((hc1.mul hu.y).mul hu.z).add (hs.mul hu.x)).congr_deriv ?_
    simp [Mat3.crossMat, Vec3.cross]
    generalize Real.cos (θ t) = c at *
    generalize Real.sin (θ t) = s at *
    generalize u t = v at *
    clear e hc1 hc hs hθ hu
    grind
  · refine (((hc1.mul hu.x).mul hu.z).add (hs.mul hu.y)).congr_deriv ?_
    simp [Mat3.crossMat, Vec3.cross]
    generalize Real.cos (θ t) = c at *
    generalize Real.sin (θ t) = s at *
    generalize u t = v at *
    clear e hc1 hc hs hθ hu
    grind
  · refine (((hc1.mul hu.y).mul hu.z).sub (hs.mul hu.x)).congr_deriv ?_
    simp [Mat3.crossMat, Vec3.cross]
    generalize Real.cos (θ t) = c at *
    generalize Real.sin (θ t) = s at *
    generalize u t = v at *
    clear e hc1 hc hs hθ hu
    grind
  · refine (((hc1.mul hu.z).mul hu.z).add hc).congr_deriv ?_
    simp [Mat3.crossMat, Vec3.cross]
    generalize Real.cos (θ t) = c at *
    generalize Real.sin (θ t) = s at *
    generalize u t = v at *
    clear e hc1 hc hs hθ hu
    grind

theorem unit_orth {u : ℝ → Vec3 ℝ} {u' : Vec3 ℝ} {t : ℝ} (hu : HasDerivVec u u' t) (h1 : ∀ s, IsUnit3 (u s)) :
    (u t).x * u'.x + (u t).y * u'.y + (u t).z * u'.z = 0 := by
  have h2 := ((hu.x.mul hu.x).add (hu.y.mul hu.y)).add (hu.z.mul hu.z)
  have h3 : HasDerivAt (fun s => (u s).x * (u s).x + (u s).y * (u s).y + (u s).z * (u s).z) 0 t := by
    have : (fun s => (u s).x * (u s).x + (u s).y * (u s).y + (u s).z * (u s).z) = fun _ => (1 : ℝ) := funext fun s => h1 s
    rw [this]
    exact hasDerivAt_const t 1
  have := h2.unique h3
  linarith

theorem rate_unique {E : ℝ → Mat3 ℝ} {t : ℝ} {a b : Vec3 ℝ} (hr : IsRot (E t)) (h : HasDerivMat E (-(Mat3.crossMat a * E t)) t)
    (h' : HasDerivMat E (-(Mat3.crossMat b * E t)) t) : a = b := by
  have e : -(Mat3.crossMat a * E t) = -(Mat3.crossMat b * E t) := by
    ext
    · exact h.m00.unique h'.m00
    · exact h.m01.unique h'.m01
    · exact h.m02.unique h'.m02
    · exact h.m10.unique h'.m10
    · exact h.m11.unique h'.m11
    · exact h.m12.unique h'.m12
    · exact h.m20.unique h'.m20
    · exact h.m21.unique h'.m21
    · exact h.m22.unique h'.m22
  have e2 : Mat3.crossMat a = Mat3.crossMat b := by
    have := congrArg (· * (E t).tr) (neg_injective e)
    simpa only [Mat3.mul_assoc', hr.mul_tr, Mat3.mul_one'] using this
  ext
  · have := congrArg Mat3.m21 e2; simpa [Mat3.crossMat] using this
  · have := congrArg Mat3.m02 e2; simpa [Mat3.crossMat] using this
  · have := congrArg Mat3.m10 e2; simpa [Mat3.crossMat] using this

theorem sinc_ratio {θ : ℝ} (h0 : 0 < θ) (h1 : θ < Real.pi) :
    Real.sinc θ / Real.sinc (θ / 2) ^ 2 = θ * Real.sin θ / (2 * (1 - Real.cos θ)) := by
  have hs : 0 < Real.sin (θ / 2) := Real.sin_pos_of_pos_of_lt_pi (by linarith) (by linarith)
  have e : 1 - Real.cos θ = 2 * Real.sin (θ / 2) ^ 2 := by
    have h2 := Real.cos_sq_add_sin_sq (θ / 2)
    have h3 := Real.cos_two_mul (θ / 2)
    rw [show 2 * (θ / 2) = θ by ring] at h3
    linarith
  rw [Real.sinc_of_ne_zero h0.ne', Real.sinc_of_ne_zero (by linarith), e]
  field_simp

/-- The rotational part of `poseJacobian`. -/
theorem pose_apply {θ : ℝ} (h0 : 0 < θ) (h1 : θ < Real.pi) {u : Vec3 ℝ} (hu : IsUnit3 u) (w : Vec3 ℝ) :
    (poseJacobian (angleAxis (-θ) u)).tl *ᵥ w = w + (θ * Real.sin θ) • u.cross w +
      (4 * Real.sin θ ^ 2 * (1 - θ * Real.sin θ / (2 * (1 - Real.cos θ)))) • u.cross (u.cross w) := by
  have e : (angleAxis (-θ) u).tr = angleAxis θ u := by
    ext <;> simp [angleAxis, Scalar.cos, Scalar.sin] <;> ring
  unfold poseJacobian
  simp only [e, (C44_angle_axis h0.le h1.le hu).1, sinc_ratio h0 h1, getSkewSym_eq]
  generalize θ * Real.sin θ / (2 * (1 - Real.cos θ)) = r
  generalize Real.sin θ = s
  ext <;> simp [Mat3.crossMat, Vec3.cross] <;> ring

theorem pose_moving {θ θ' : ℝ} (h0 : 0 < θ) (h1 : θ < Real.pi) {u u' : Vec3 ℝ} (hu : IsUnit3 u)
    (ho : u.x * u'.x + u.y * u'.y + u.z * u'.z = 0) :
    (poseJacobian (angleAxis (-θ) u)).tl *ᵥ (θ' • u + Real.sin θ • u' - (1 - Real.cos θ) • u.cross u') =
      θ' • u + θ • u' + ((1 - 2 * Real.sin θ) * (Real.sin θ * (1 + 2 * Real.sin θ) - θ * (Real.sin θ + 1 + Real.sin θ * Real.cos θ))) • u' +
        ((1 - 2 * Real.sin θ) * (θ * Real.sin θ ^ 2 - (1 - Real.cos θ) * (1 + 2 * Real.sin θ))) • u.cross u' := by
  rw [pose_apply h0 h1 hu]
  have hc : 1 - Real.cos θ ≠ 0 := by
    have := Real.cos_lt_cos_of_nonneg_of_le_pi le_rfl h1.le h0
    rw [Real.cos_zero] at this
    linarith
  have hcs := Real.cos_sq_add_sin_sq θ
  have hr : θ * Real.sin θ / (2 * (1 - Real.cos θ)) * (1 - Real.cos θ) = θ * Real.sin θ / 2 := by
    field_simp
  have hr2 : Real.sin θ * (θ * Real.sin θ / (2 * (1 - Real.cos θ))) = θ * (1 + Real.cos θ) / 2 := by
    field_simp
    linear_combination hcs
  generalize θ * Real.sin θ / (2 * (1 - Real.cos θ)) = r at *
  generalize Real.cos θ = c at *
  generalize Real.sin θ = s at *
  unfold IsUnit3 at hu
  have c1 : u.cross u = 0 := by ext <;> simp [Vec3.cross] <;> ring
  have c2 : u.cross (u.cross u') = -u' := by
    ext <;> simp [Vec3.cross] <;> grind
  have c3 : u.cross (θ' • u + s • u' - (1 - c) • u.cross u') = s • u.cross u' + (1 - c) • u' := by
    have : u.cross (θ' • u + s • u' - (1 - c) • u.cross u') = θ' • u.cross u + s • u.cross u' - (1 - c) • u.cross (u.cross u') := by
      ext <;> simp [Vec3.cross] <;> ring
    rw [this, c1, c2]
    module
  have c4 : u.cross (s • u.cross u' + (1 - c) • u') = -(s • u') + (1 - c) • u.cross u' := by
    have : u.cross (s • u.cross u' + (1 - c) • u') = s • u.cross (u.cross u') + (1 - c) • u.cross u' := by
      ext <;> simp [Vec3.cross] <;> ring
    rw [this, c2]
    module
  rw [c3, c4]
  have e1 : s + θ * s * (1 - c) - 4 * s ^ 2 * (1 - r) * s =
      θ + (1 - 2 * s) * (s * (1 + 2 * s) - θ * (s + 1 + s * c)) := by grind
  have e2 : -(1 - c) + θ * s * s + 4 * s ^ 2 * (1 - r) * (1 - c) =
      (1 - 2 * s) * (θ * s ^ 2 - (1 - c) * (1 + 2 * s)) := by grind
  have : θ' • u + s • u' - (1 - c) • u.cross u' + (θ * s) • (s • u.cross u' + (1 - c) • u') +
      (4 * s ^ 2 * (1 - r)) • (-(s • u') + (1 - c) • u.cross u') = θ' • u + (s + θ * s * (1 - c) - 4 * s ^ 2 * (1 - r) * s) • u' +
      (-(1 - c) + θ * s * s + 4 * s ^ 2 * (1 - r) * (1 - c)) • u.cross u' := by module
  rw [this, e1, e2]
  module

theorem exists_orth {u : Vec3 ℝ} (hu : IsUnit3 u) : ∃ w : Vec3 ℝ, IsUnit3 w ∧ u.x * w.x + u.y * w.y + u.z * w.z = 0 := by
  unfold IsUnit3 at *
  by_cases h : u.x * u.x + u.y * u.y = 0
  · have hx : u.x = 0 := by nlinarith [mul_self_nonneg u.x, mul_self_nonneg u.y]
    exact ⟨⟨1, 0, 0⟩, by norm_num, by simp [hx]⟩
  · have hp : 0 < u.x * u.x + u.y * u.y := lt_of_le_of_ne (add_nonneg (mul_self_nonneg _) (mul_self_nonneg _)) (Ne.symm h)
    have hq := Real.mul_self_sqrt hp.le
    have hq0 : √(u.x * u.x + u.y * u.y) ≠ 0 := (Real.sqrt_pos.2 hp).ne'
    generalize √(u.x * u.x + u.y * u.y) = r at *
    refine ⟨⟨-u.y / r, u.x / r, 0⟩, ?_, ?_⟩
    · dsimp only
      field_simp
      linear_combination -hq
    · dsimp only
      field_simp
      ring

/-- C44: the rotational part of `poseJacobian` at a rotation by `θ` gives the rate of change of the rotation vector along every motion
through that rotation exactly when `sin θ = 1 / 2`: the axis it uses has length `2 sin θ`. -/
theorem C44_pose_iff {θ : ℝ} (h0 : 0 < θ) (h1 : θ < Real.pi) {u : Vec3 ℝ} (hu : IsUnit3 u) :
    (∀ (X : ℝ → PTransform ℝ) (V : MotionVec ℝ) (φ : ℝ → ℝ) (a : ℝ → Vec3 ℝ) (φ' : ℝ) (a' : Vec3 ℝ), φ 0 = θ → a 0 = u →
      HasDerivAt φ φ' 0 → HasDerivVec a a' 0 → (∀ s, IsUnit3 (a s)) → (∀ s, (X s).E = angleAxis (-(φ s)) (a s)) →
      HasSpatialVelocity X V 0 → HasDerivVec (fun s : ℝ => φ s • a s) ((poseJacobian (X 0).E).tl *ᵥ V.ang) 0) ↔ Real.sin θ = 1 / 2 := by
  have hrate : ∀ {φ : ℝ → ℝ} {a : ℝ → Vec3 ℝ} {φ' : ℝ} {a' : Vec3 ℝ}, HasDerivAt φ φ' 0 → HasDerivVec a a' 0 →
      HasDerivVec (fun s : ℝ => φ s • a s) (φ' • a 0 + φ 0 • a') 0 := by
    intro φ a φ' a' hφ ha
    exact ⟨(hφ.mul ha.x).congr_deriv (by simp), (hφ.mul ha.y).congr_deriv (by simp), (hφ.mul ha.z).congr_deriv (by simp)⟩
  constructor
  · intro h
    by_contra hs
    obtain ⟨w, hw, ho⟩ := exists_orth hu
    unfold IsUnit3 at hu hw
    have hc0 : HasDerivAt Real.cos 0 0 := (Real.hasDerivAt_cos 0).congr_deriv (by simp)
    have hs0 : HasDerivAt Real.sin 1 0 := (Real.hasDerivAt_sin 0).congr_deriv (by simp)
    let a : ℝ → Vec3 ℝ := fun s => Real.cos s • u + Real.sin s • w
    have ha0 : a 0 = u := by simp [a]
    have ha : HasDerivVec a w 0 :=
      ⟨((hc0.mul_const u.x).add (hs0.mul_const w.x)).congr_deriv (by simp), ((hc0.mul_const u.y).add (hs0.mul_const w.y)).congr_deriv (by simp),
        ((hc0.mul_const u.z).add (hs0.mul_const w.z)).congr_deriv (by simp)⟩
    have hau : ∀ s, IsUnit3 (a s) := by
      intro s
      have := Real.cos_sq_add_sin_sq s
      simp only [IsUnit3, a, Vec3.add_x, Vec3.add_y, Vec3.add_z, Vec3.smul_x, Vec3.smul_y, Vec3.smul_z]
      linear_combination Real.cos s ^ 2 * hu + Real.sin s ^ 2 * hw + 2 * Real.cos s * Real.sin s * ho + this
    have hθ := hasDerivAt_const (0 : ℝ) θ
    have hm := angleAxis_moving hθ ha (hau 0) (by rw [ha0]; exact ho)
    have hX : HasSpatialVelocity (fun s : ℝ => (⟨angleAxis (-θ) (a s), 0⟩ : PTransform ℝ))
        ⟨(0 : ℝ) • a 0 + Real.sin θ • w - (1 - Real.cos θ) • (a 0).cross w, 0⟩ 0 :=
      ⟨hm, (HasDerivVec.const 0 0).congr (by ext <;> simp)⟩
    have h2 := h _ _ _ _ _ _ rfl ha0 hθ ha hau (fun _ => rfl) hX
    have h3 := hrate hθ ha
    dsimp only at h2 h3
    rw [ha0, pose_moving h0 h1 hu ho] at h2
    rw [ha0] at h3
    have e : (0 : ℝ) • u + θ • w + ((1 - 2 * Real.sin θ) * (Real.sin θ * (1 + 2 * Real.sin θ) - θ * (Real.sin θ + 1 + Real.sin θ * Real.cos θ))) • w +
        ((1 - 2 * Real.sin θ) * (θ * Real.sin θ ^ 2 - (1 - Real.cos θ) * (1 + 2 * Real.sin θ))) • u.cross w = (0 : ℝ) • u + θ • w := by
      ext
      · exact h2.x.unique h3.x
      · exact h2.y.unique h3.y
      · exact h2.z.unique h3.z
    have hsp := Real.sin_pos_of_pos_of_lt_pi h0 h1
    have hcs := Real.cos_sq_add_sin_sq θ
    have hc : Real.cos θ < 1 := by
      have := Real.cos_lt_cos_of_nonneg_of_le_pi le_rfl h1.le h0
      rwa [Real.cos_zero] at this
    have hs' : 1 - 2 * Real.sin θ ≠ 0 := fun h => hs (by linarith)
    have ex := congrArg Vec3.x e
    have ey := congrArg Vec3.y e
    have ez := congrArg Vec3.z e
    simp only [Vec3.add_x, Vec3.add_y, Vec3.add_z, Vec3.smul_x, Vec3.smul_y, Vec3.smul_z, Vec3.cross] at ex ey ez
    have k1 : (1 - 2 * Real.sin θ) * (Real.sin θ * (1 + 2 * Real.sin θ) - θ * (Real.sin θ + 1 + Real.sin θ * Real.cos θ)) = 0 := by
      linear_combination w.x * ex + w.y * ey + w.z * ez - ((1 - 2 * Real.sin θ) * (Real.sin θ * (1 + 2 * Real.sin θ) - θ * (Real.sin θ + 1 + Real.sin θ * Real.cos θ))) * hw
    have k2 : (1 - 2 * Real.sin θ) * (θ * Real.sin θ ^ 2 - (1 - Real.cos θ) * (1 + 2 * Real.sin θ)) = 0 := by
      rw [k1] at ex ey ez
      generalize (1 - 2 * Real.sin θ) * (θ * Real.sin θ ^ 2 - (1 - Real.cos θ) * (1 + 2 * Real.sin θ)) = k at *
      have hn : (u.y * w.z - u.z * w.y) ^ 2 + (u.z * w.x - u.x * w.z) ^ 2 + (u.x * w.y - u.y * w.x) ^ 2 = 1 := by
        linear_combination (w.x * w.x + w.y * w.y + w.z * w.z) * hu + hw - (u.x * w.x + u.y * w.y + u.z * w.z) * ho
      linear_combination (u.y * w.z - u.z * w.y) * ex + (u.z * w.x - u.x * w.z) * ey + (u.x * w.y - u.y * w.x) * ez - k * hn
    have k3 := (mul_eq_zero.1 k1).resolve_left hs'
    have k4 := (mul_eq_zero.1 k2).resolve_left hs'
    have k5 : (1 + 2 * Real.sin θ) * (1 - Real.cos θ) = 0 := by
      have : Real.sin θ ^ 2 * (Real.sin θ * (1 + 2 * Real.sin θ)) = (1 - Real.cos θ) * (1 + 2 * Real.sin θ) * (Real.sin θ + 1 + Real.sin θ * Real.cos θ) := by
        linear_combination Real.sin θ ^ 2 * k3 + (Real.sin θ + 1 + Real.sin θ * Real.cos θ) * k4
      linear_combination -this + Real.sin θ * (1 + 2 * Real.sin θ) * hcs
    rcases mul_eq_zero.1 k5 with h | h <;> linarith
  · intro hs X V φ a φ' a' hφ0 ha0 hφ ha hau hE hX
    have ho := unit_orth ha hau
    have hm := angleAxis_moving hφ ha (hau 0) ho
    have hrot : IsRot (X 0).E := by rw [hE]; exact Joint.isRot_angleAxis _ (hau 0)
    have hX' := hX.rot
    have : (fun s => (X s).E) = fun s => angleAxis (-(φ s)) (a s) := funext hE
    rw [← this, ← hE 0] at hm
    have hw := rate_unique (E := fun s => (X s).E) hrot hX' hm
    refine (hrate hφ ha).congr ?_
    rw [hw, hE 0, hφ0, ha0, pose_moving h0 h1 hu (by rw [← ha0]; exact ho), hs]
    module

/-- The angle of thirty degrees is right, the right angle is not. -/
example : Real.sin (Real.pi / 6) = 1 / 2 ∧ Real.sin (Real.pi / 2) ≠ 1 / 2 := by
  rw [Real.sin_pi_div_six, Real.sin_pi_div_two]
  norm_num

end RBDyn
