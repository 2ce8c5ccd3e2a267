import Verif.Lemmas.Joint

/-! Properties C01-C05 of `Joint`. -/

namespace RBDyn
variable {K : Type} [Scalar K]
open Joint

/-! ### C01 -/

/-- C01: a joint that is not a mimic joint has the identity pose at its neutral configuration and does not
move at its neutral velocity; the neutral vectors have the sizes the joint declares. -/
theorem C01_neutral_pose (t : JointType) (axis : Vec3 K) (fwd : Bool) (name : String) :
    let j := Joint.mk' t axis fwd name
    j.pose j.zeroParam = .ok 1 ∧ j.motion j.zeroDof = .ok 0 ∧ j.tanAccel j.zeroDof = .ok 0 ∧
      j.zeroParam.length = j.params ∧ j.zeroDof.length = j.dof := by
  intro j
  have hz : j.zeroParam = ZeroParam t := rfl
  have hm : j.motion j.zeroDof = .ok 0 := by
    rw [motion_eq_applyCols (Built.mk ..) (by cases t <;> rfl)]
    cases t <;> simp [j, applyCols, zeroDof, ZeroDof, mk', mkS]
  refine ⟨?_, hm, by rw [tanAccel_eq_motion, hm], by cases t <;> rfl, by cases t <;> rfl⟩
  rw [hz]
  cases t with
  | Rev =>
    refine (pose_rev ..).trans ?_
    congr 1
    ext <;> simp [angleAxis]
  | Prism =>
    refine (pose_prism ..).trans ?_
    congr 1
    ext <;> simp
  | Spherical =>
    refine (pose_spherical ..).trans ?_
    rw [inverse_of_unit (by simp [Quat.normSq])]
    congr 1
    ext <;> simp [Quat.toRot]
  | Planar =>
    refine (pose_planar ..).trans ?_
    congr 1
    split <;> ext <;> simp [rotZ, PTransform.inv]
  | Cylindrical =>
    refine (pose_cylindrical ..).trans ?_
    congr 1
    ext <;> simp [angleAxis]
  | Free =>
    have h2 : (2 : K) * (1 - 2⁻¹) = 1 := by field_simp; norm_num
    refine (pose_free ..).trans ?_
    congr 1
    split <;> ext <;> simp [quatToE, PTransform.inv, h2]
  | Fixed => exact pose_fixed ..

/-- C01, compatibility constructor `Joint(OldType, ...)`. -/
theorem C01_neutral_pose_old (t : OldType) (fwd : Bool) (name : String) :
    let j : Joint K := Joint.mkOld t fwd name
    j.pose j.zeroParam = .ok 1 ∧ j.motion j.zeroDof = .ok 0 := by
  cases t <;> exact ⟨(C01_neutral_pose ..).1, (C01_neutral_pose ..).2.1⟩

/-- The exclusion of mimic joints is needed: `zeroParam` adds the mimic offset to every parameter, also to the
four quaternion entries, and a mimic `Spherical` joint with offset 1 is not even at a rotation. -/
theorem C01_mimic_spherical_counterexample :
    let j := (Joint.mk' .Spherical ⟨0, 0, 1⟩ true "j" : Joint ℚ).makeMimic "m" 1 1
    ∃ X, j.pose j.zeroParam = .ok X ∧ X ≠ 1 ∧ ¬ IsRigid X :=
  ⟨_, rfl, by decide +kernel, by unfold IsRigid IsRot; decide +kernel⟩

/-! ### C02 -/

/-- C02: the pose of a reversed joint is the two-sided inverse of the pose of the forward joint. -/
theorem C02_reversed_pose {t : JointType} {axis : Vec3 K} (ha : ValidAxis t axis) (name : String)
    {q : List K} (hq : ValidParam t q) :
    ∃ X Y, (Joint.mk' t axis true name).pose q = .ok X ∧ (Joint.mk' t axis false name).pose q = .ok Y ∧
      X * Y = 1 ∧ Y * X = 1 := by
  obtain ⟨X, h1, h2⟩ := pose_mk'_reverse ha name name hq
  obtain ⟨X', h3, hr⟩ := pose_mk'_rigid ha true name hq
  rw [h1] at h3
  cases h3
  exact ⟨X, X.inv, h1, h2, PTransform.mul_inv hr, PTransform.inv_mul hr⟩

/-- C02 is not vacuous: a cylindrical joint about a slanted unit axis, turned and moved. -/
example : ValidAxis .Cylindrical (⟨3 / 5, 0, 4 / 5⟩ : Vec3 ℚ) ∧ ValidParam .Cylindrical [(1 : ℚ), 5] ∧
    (Joint.mk' .Cylindrical (⟨3 / 5, 0, 4 / 5⟩ : Vec3 ℚ) true "j").pose [1, 5] ≠ .ok 1 := by
  refine ⟨?_, ⟨rfl, trivial⟩, by decide +kernel⟩
  show IsUnit3 _
  unfold IsUnit3
  norm_num

/-- C02 is not vacuous: a free joint with a slanted unit quaternion. -/
example : ValidParam .Free [(1 / 2 : ℚ), 1 / 2, 1 / 2, 1 / 2, 1, 2, 3] ∧
    (Joint.mk' .Free (⟨0, 0, 1⟩ : Vec3 ℚ) true "j").pose [1 / 2, 1 / 2, 1 / 2, 1 / 2, 1, 2, 3] ≠ .ok 1 :=
  ⟨⟨rfl, by norm_num⟩, by decide +kernel⟩

/-! ### C03 -/

/-- C03: the pose of every joint obtained through the API with a unit axis is, at every valid configuration,
defined and a proper rigid transform. -/
theorem C03_pose_rigid {j : Joint K} (hj : j.BuiltUnit) {q : List K} (hq : ValidParam j.type q) :
    ∃ X, j.pose q = .ok X ∧ X.E.tr * X.E = 1 ∧ X.E * X.E.tr = 1 ∧ X.E.det = 1 := by
  obtain ⟨t, a, f, n, ha, rfl | ⟨mn, m, o, rfl⟩⟩ := hj.exists_mk
  · obtain ⟨X, h, hr⟩ := pose_mk'_rigid ha f n hq
    exact ⟨X, h, hr.1, IsRot.mul_tr hr, hr.2⟩
  · obtain ⟨X, h, hr⟩ := pose_mk'_rigid ha f n hq
    exact ⟨X, h, hr.1, IsRot.mul_tr hr, hr.2⟩

/-- C03 is not vacuous: a reversed, mimicking revolute joint about a slanted axis. -/
example : (((Joint.mk' .Rev (⟨3 / 5, 0, 4 / 5⟩ : Vec3 ℚ) true "j").setForward false).makeMimic "k" 2 1).BuiltUnit
    ∧ ValidParam .Rev [(3 : ℚ)] :=
  ⟨.makeMimic _ _ _ _ (.setForward _ _ (.mk _ _ _ _ (by show IsUnit3 _; unfold IsUnit3; norm_num))), rfl, trivial⟩

/-! ### C04 -/

/-- C04: after any sequence of `forward(bool)` calls the joint is the joint constructed with the last requested
direction (all fields, hence every observable). -/
theorem C04_setForward_sequence (t : JointType) (axis : Vec3 K) (fwd : Bool) (name : String) (calls : List Bool) :
    calls.foldl Joint.setForward (Joint.mk' t axis fwd name) =
      Joint.mk' t axis ((fwd :: calls).getLast (by simp)) name := by
  induction calls generalizing fwd with
  | nil => rfl
  | cons g l ih =>
    rw [List.foldl_cons, setForward_mk', ih]
    simp [List.getLast_cons]

/-- C04 for mimic joints: direction changes and `makeMimic` do not interfere. -/
theorem C04_setForward_sequence_mimic (t : JointType) (axis : Vec3 K) (fwd : Bool) (name mimicked : String) (m o : K)
    (calls : List Bool) :
    calls.foldl Joint.setForward ((Joint.mk' t axis fwd name).makeMimic mimicked m o) =
      (Joint.mk' t axis ((fwd :: calls).getLast (by simp)) name).makeMimic mimicked m o := by
  have : ∀ (l : List Bool) (j : Joint K), l.foldl Joint.setForward (j.makeMimic mimicked m o) =
      (l.foldl Joint.setForward j).makeMimic mimicked m o := by
    intro l
    induction l with
    | nil => intro j; rfl
    | cons g l ih => intro j; rw [List.foldl_cons, List.foldl_cons, setForward_makeMimic, ih]
  rw [this, C04_setForward_sequence]

/-- C04: `forward()` reports the last requested direction. -/
theorem C04_forward_reported (t : JointType) (axis : Vec3 K) (fwd : Bool) (name : String) (calls : List Bool) :
    (calls.foldl Joint.setForward (Joint.mk' t axis fwd name)).isForward = (fwd :: calls).getLast (by simp) := by
  rw [C04_setForward_sequence, isForward_mk']

/-! ### C05 -/

/-- C05: velocity and tangential acceleration are the motion subspace applied to the generalized velocity
(acceleration). -/
theorem C05_motion_subspace {j : Joint K} (hj : j.Built) {a : List K} (ha : a.length = j.dof) :
    j.motion a = .ok (applyCols j.S a) ∧ j.tanAccel a = .ok (applyCols j.S a) := by
  have := motion_eq_applyCols hj ha
  exact ⟨this, by rw [tanAccel_eq_motion, this]⟩

/-- C05: the motion subspace has exactly `dof` columns. -/
theorem C05_subspace_columns {j : Joint K} (hj : j.Built) : j.S.length = j.dof := by
  obtain ⟨t, a, f, n, rfl | ⟨mn, m, o, rfl⟩⟩ := hj.exists_mk <;> exact mkS_length ..

/-- C05: the checked variants throw `domain_error` exactly on a wrong size, are otherwise the unchecked variants,
and always return or throw `domain_error` (never undefined behaviour). -/
theorem C05_checked {j : Joint K} (hj : j.Built) (q a : List K) :
    (j.sPose q = .error .domainError ↔ q.length ≠ j.params) ∧
    (j.sMotion a = .error .domainError ↔ a.length ≠ j.dof) ∧
    (j.sTanAccel a = .error .domainError ↔ a.length ≠ j.dof) ∧
    (q.length = j.params → j.sPose q = j.pose q ∧ ∃ X, j.pose q = .ok X) ∧
    (a.length = j.dof → j.sMotion a = j.motion a ∧ ∃ v, j.motion a = .ok v) ∧
    (a.length = j.dof → j.sTanAccel a = j.tanAccel a ∧ ∃ v, j.tanAccel a = .ok v) := by
  have hp : q.length = j.params → ∃ X, j.pose q = .ok X := by
    intro h
    obtain ⟨t, ax, f, n, rfl | ⟨mn, m, o, rfl⟩⟩ := hj.exists_mk
    all_goals
      try simp only [pose_makeMimic]
      replace h : q.length = nParams t := h
      cases t
      case Rev => obtain ⟨q0, rfl⟩ := List.length_eq_one_iff.1 h; exact ⟨_, pose_rev ..⟩
      case Prism => obtain ⟨q0, rfl⟩ := List.length_eq_one_iff.1 h; exact ⟨_, pose_prism ..⟩
      case Spherical =>
        match q, h with
        | [_, _, _, _], _ => exact ⟨_, pose_spherical ..⟩
      case Planar => obtain ⟨q0, q1, q2, rfl⟩ := List.length_eq_three.1 h; exact ⟨_, pose_planar ..⟩
      case Cylindrical => obtain ⟨q0, q1, rfl⟩ := List.length_eq_two.1 h; exact ⟨_, pose_cylindrical ..⟩
      case Free =>
        match q, h with
        | [_, _, _, _, _, _, _], _ => exact ⟨_, pose_free ..⟩
      case Fixed => exact ⟨_, pose_fixed ..⟩
  have hm := fun h : a.length = j.dof => C05_motion_subspace hj h
  refine ⟨⟨?_, ?_⟩, ⟨?_, ?_⟩, ⟨?_, ?_⟩, ?_, ?_, ?_⟩
  · intro h hl
    obtain ⟨X, hX⟩ := hp hl
    simp [sPose, hl, hX] at h
  · intro h; simp [sPose, h]
  · intro h hl; simp [sMotion, hl, (hm hl).1] at h
  · intro h; simp [sMotion, h]
  · intro h hl; simp [sTanAccel, hl, (hm hl).2] at h
  · intro h; simp [sTanAccel, h]
  · intro h; exact ⟨by simp [sPose, h], hp h⟩
  · intro h; exact ⟨by simp [sMotion, h], _, (hm h).1⟩
  · intro h; exact ⟨by simp [sTanAccel, h], _, (hm h).2⟩

/-- C05 is not vacuous: a free joint moving in all its coordinates. -/
example : (Joint.mk' .Free (⟨0, 0, 1⟩ : Vec3 ℚ) false "j").motion [1, 2, 3, 4, 5, 6] =
    .ok ⟨⟨-1, -2, -3⟩, ⟨-4, -5, -6⟩⟩ := by decide +kernel

end RBDyn
