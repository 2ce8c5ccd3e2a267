import Verif.Model.ZMP
import Verif.Lemmas.Spatial

/-! Property C43: the zero moment point. -/

namespace RBDyn
variable {K : Type} [Scalar K]

/-- The moment about `p` of the force `f` applied at `com` together with the couple `n`. -/
def momentAt (p com f n : Vec3 K) : Vec3 K := n + (com - p).cross f

/-- `p` is the point of the horizontal plane at the given altitude about which the wrench (`f` at `com`, couple `n`) has no horizontal
moment. -/
def IsZMP (com f n : Vec3 K) (altitude : K) (p : Vec3 K) : Prop :=
  p.z = altitude ∧ (momentAt p com f n).x = 0 ∧ (momentAt p com f n).y = 0

/-- With a non-zero vertical force there is exactly one such point. -/
theorem isZMP_iff {com f n p : Vec3 K} {altitude : K} (hf : f.z ≠ 0) : IsZMP com f n altitude p ↔
    p = ⟨com.x - (n.y + (com.z - altitude) * f.x) / f.z, com.y + (n.x - (com.z - altitude) * f.y) / f.z, altitude⟩ := by
  unfold IsZMP momentAt
  constructor
  · rintro ⟨rfl, h1, h2⟩
    simp at h1 h2
    ext
    · simp only
      field_simp
      linear_combination h2
    · simp only
      field_simp
      linear_combination -h1
    · rfl
  · rintro rfl
    refine ⟨rfl, ?_, ?_⟩
    · simp
      field_simp
      ring
    · simp
      field_simp
      ring

/-- C43: with vertical gravity, `computeCentroidalZMP` is the only point of the plane where the ground reaction, `mass` times the
acceleration without free fall, has no horizontal moment. -/
theorem C43_zmp (mbc : MBC K) (com comA : Vec3 K) {mass : K} (altitude : K) (hm : mass ≠ 0) (hg : mbc.gravity.x = 0 ∧ mbc.gravity.y = 0)
    (hz : comA.z + mbc.gravity.z ≠ 0) (p : Vec3 K) :
    IsZMP com (mass • (comA + mbc.gravity)) 0 altitude p ↔ p = computeCentroidalZMP mbc com comA altitude := by
  rw [isZMP_iff (mul_ne_zero hm hz)]
  refine Eq.congr_right ?_
  ext
  · simp [computeCentroidalZMP, hg.1]; field_simp
  · simp [computeCentroidalZMP, hg.2]; field_simp; ring
  · rfl

/-- C43, exactly: with any gravity `computeCentroidalZMP` is the zero moment point iff gravity is vertical or the centre of mass is in the plane. -/
theorem C43_zmp_iff (mbc : MBC K) (com comA : Vec3 K) {mass : K} (altitude : K) (hm : mass ≠ 0) (hz : comA.z + mbc.gravity.z ≠ 0) :
    IsZMP com (mass • (comA + mbc.gravity)) 0 altitude (computeCentroidalZMP mbc com comA altitude) ↔
      com.z = altitude ∨ mbc.gravity.x = 0 ∧ mbc.gravity.y = 0 := by
  rw [isZMP_iff (mul_ne_zero hm hz), Vec3.ext_iff]
  simp only [computeCentroidalZMP, Vec3.smul_x, Vec3.smul_y, Vec3.smul_z, Vec3.add_x, Vec3.add_y, Vec3.add_z, Vec3.zero_x, Vec3.zero_y, zero_add,
    zero_sub, and_true]
  have e1 : com.x - (com.z - altitude) * comA.x / (comA.z + mbc.gravity.z) =
      com.x - (com.z - altitude) * (mass * (comA.x + mbc.gravity.x)) / (mass * (comA.z + mbc.gravity.z)) ↔
      (com.z - altitude) * mbc.gravity.x = 0 := by
    rw [← sub_eq_zero]
    have : com.x - (com.z - altitude) * comA.x / (comA.z + mbc.gravity.z) -
      (com.x - (com.z - altitude) * (mass * (comA.x + mbc.gravity.x)) / (mass * (comA.z + mbc.gravity.z))) =
      (com.z - altitude) * mbc.gravity.x / (comA.z + mbc.gravity.z) := by field_simp; ring
    rw [this, div_eq_zero_iff]
    simp [hz]
  have e2 : com.y - (com.z - altitude) * comA.y / (comA.z + mbc.gravity.z) =
      com.y + -((com.z - altitude) * (mass * (comA.y + mbc.gravity.y))) / (mass * (comA.z + mbc.gravity.z)) ↔
      (com.z - altitude) * mbc.gravity.y = 0 := by
    rw [← sub_eq_zero]
    have : com.y - (com.z - altitude) * comA.y / (comA.z + mbc.gravity.z) -
      (com.y + -((com.z - altitude) * (mass * (comA.y + mbc.gravity.y))) / (mass * (comA.z + mbc.gravity.z))) =
      (com.z - altitude) * mbc.gravity.y / (comA.z + mbc.gravity.z) := by field_simp; ring
    rw [this, div_eq_zero_iff]
    simp [hz]
  rw [e1, e2]
  simp only [mul_eq_zero, sub_eq_zero]
  tauto

/-- C43: `computeCentroidalZMPNoGravity`, whose acceleration already contains gravity. -/
theorem C43_noGravity (com comA : Vec3 K) {mass : K} (altitude : K) (hm : mass ≠ 0) (hz : comA.z ≠ 0) (p : Vec3 K) :
    IsZMP com (mass • comA) 0 altitude p ↔ p = computeCentroidalZMPNoGravity com comA altitude := by
  rw [isZMP_iff (mul_ne_zero hm hz)]
  refine Eq.congr_right ?_
  ext
  · simp [computeCentroidalZMPNoGravity]; field_simp
  · simp [computeCentroidalZMPNoGravity]; field_simp; ring
  · rfl

/-- C43: the first two functions agree, the second one being given the acceleration with gravity. -/
theorem C43_agree (mbc : MBC K) (com comA : Vec3 K) (altitude : K) (hg : mbc.gravity.x = 0 ∧ mbc.gravity.y = 0) :
    computeCentroidalZMP mbc com comA altitude = computeCentroidalZMPNoGravity com (comA + mbc.gravity) altitude := by
  ext <;> simp [computeCentroidalZMP, computeCentroidalZMPNoGravity, hg.1, hg.2]

/-- C43: without external wrench the third function agrees with the second one. -/
theorem C43_complete_no_wrench (mbc : MBC K) (com comA : Vec3 K) (altitude : K) {mass : K} (hm : mass ≠ 0) (hg : mbc.gravity.z ≠ 0) :
    computeCentroidalZMPComplete mbc com comA altitude 0 mass = computeCentroidalZMPNoGravity com comA altitude := by
  ext
  · simp [computeCentroidalZMPComplete, computeCentroidalZMPNoGravity, div_self (mul_ne_zero hm hg)]
  · simp [computeCentroidalZMPComplete, computeCentroidalZMPNoGravity, div_self (mul_ne_zero hm hg)]
  · rfl

/-- C43 (partial): with an external wrench (at the centre of mass) the ground reaction is `mass • comA` minus the external force, with
the opposite of the external couple.  `computeCentroidalZMPComplete` is its zero moment point if the centre of mass has no vertical
acceleration and if the altitude or the horizontal external force vanishes.

Missing: all other cases, where the function returns something else (`C43_complete_altitude_counterexample`,
`C43_complete_vertical_counterexample`). -/
theorem C43_complete_partial (mbc : MBC K) (com comA : Vec3 K) {mass : K} (altitude : K) (wr : ForceVec K)
    (hg : mbc.gravity.z ≠ 0) (hA : comA.z = mbc.gravity.z) (hz : mass * mbc.gravity.z - wr.force.z ≠ 0)
    (ha : altitude = 0 ∨ wr.force.x = 0 ∧ wr.force.y = 0) (p : Vec3 K) :
    IsZMP com (mass • comA - wr.force) (-wr.couple) altitude p ↔ p = computeCentroidalZMPComplete mbc com comA altitude wr mass := by
  rw [isZMP_iff (by simp [hA, hz])]
  refine Eq.congr_right ?_
  have h1 : altitude * wr.force.x = 0 := by rcases ha with h | h <;> simp [h]
  have h2 : altitude * wr.force.y = 0 := by rcases ha with h | h <;> simp [h]
  ext
  · simp only [computeCentroidalZMPComplete, Vec3.sub_x, Vec3.sub_y, Vec3.sub_z, Vec3.smul_x, Vec3.smul_y, Vec3.smul_z, Vec3.neg_x, Vec3.neg_y, hA]
    field_simp
    linear_combination -h1
  · simp only [computeCentroidalZMPComplete, Vec3.sub_x, Vec3.sub_y, Vec3.sub_z, Vec3.smul_x, Vec3.smul_y, Vec3.smul_z, Vec3.neg_x, Vec3.neg_y, hA]
    field_simp
    linear_combination -h2
  · rfl

/-- C43, exactly: with an external wrench the result of `computeCentroidalZMPComplete` is the zero moment point iff these two polynomials vanish.
The first term comes from the vertical acceleration of the centre of mass, the second one from the altitude of the plane. -/
theorem C43_complete_iff (mbc : MBC K) (com comA : Vec3 K) {mass : K} (altitude : K) (wr : ForceVec K) (hA : comA.z ≠ 0)
    (hw : mass * mbc.gravity.z - wr.force.z ≠ 0) (hz : mass * comA.z - wr.force.z ≠ 0) :
    IsZMP com (mass • comA - wr.force) (-wr.couple) altitude (computeCentroidalZMPComplete mbc com comA altitude wr mass) ↔
      mass * (comA.z - mbc.gravity.z) * (comA.z * (wr.couple.y + com.z * wr.force.x) - (com.z - altitude) * comA.x * wr.force.z) +
        altitude * wr.force.x * comA.z * (mass * mbc.gravity.z - wr.force.z) = 0 ∧
      mass * (comA.z - mbc.gravity.z) * (comA.z * (-wr.couple.x + com.z * wr.force.y) - (com.z - altitude) * comA.y * wr.force.z) +
        altitude * wr.force.y * comA.z * (mass * mbc.gravity.z - wr.force.z) = 0 := by
  rw [isZMP_iff (by simpa using hz), Vec3.ext_iff]
  simp only [computeCentroidalZMPComplete, Vec3.sub_x, Vec3.sub_y, Vec3.sub_z, Vec3.smul_x, Vec3.smul_y, Vec3.smul_z, Vec3.neg_x, Vec3.neg_y,
    and_true]
  generalize comA.z = az at *
  generalize mbc.gravity.z = g at *
  generalize wr.force.z = fz at *
  refine and_congr ?_ ?_
  · rw [← sub_eq_zero]
    have : com.x - (com.z - altitude) * comA.x * (mass * g / (mass * g - fz)) / az + wr.couple.y / (mass * g - fz) +
        com.z * wr.force.x / (mass * g - fz) -
        (com.x - (-wr.couple.y + (com.z - altitude) * (mass * comA.x - wr.force.x)) / (mass * az - fz)) =
        (mass * (az - g) * (az * (wr.couple.y + com.z * wr.force.x) - (com.z - altitude) * comA.x * fz) +
        altitude * wr.force.x * az * (mass * g - fz)) / (az * (mass * g - fz) * (mass * az - fz)) := by
      field_simp
      ring
    rw [this, div_eq_zero_iff]
    simp [hA, hw, hz]
  · rw [← sub_eq_zero]
    have : com.y - (com.z - altitude) * comA.y * (mass * g / (mass * g - fz)) / az - wr.couple.x / (mass * g - fz) +
        com.z * wr.force.y / (mass * g - fz) -
        (com.y + (-wr.couple.x - (com.z - altitude) * (mass * comA.y - wr.force.y)) / (mass * az - fz)) =
        (mass * (az - g) * (az * (-wr.couple.x + com.z * wr.force.y) - (com.z - altitude) * comA.y * fz) +
        altitude * wr.force.y * az * (mass * g - fz)) / (az * (mass * g - fz) * (mass * az - fz)) := by
      field_simp
      ring
    rw [this, div_eq_zero_iff]
    simp [hA, hw, hz]

namespace Sample

/-- A configuration of which only gravity matters. -/
def gravityMbc (g : Vec3 ℚ) : MBC ℚ :=
  { q := [], alpha := [], alphaD := [], force := [], jointConfig := [], jointVelocity := [], jointTorque := [], motionSubspace := [],
    bodyPosW := [], parentToSon := [], bodyVelW := [], bodyVelB := [], bodyAccB := [], gravity := g }

end Sample

/-- C43 applies to an accelerating robot on raised ground; the zero moment point is not below the centre of mass. -/
example : computeCentroidalZMP (Sample.gravityMbc ⟨0, 0, 10⟩) ⟨1, 2, 3⟩ ⟨2, 1, 6⟩ 1 = ⟨3 / 4, 15 / 8, 1⟩ ∧
    IsZMP (⟨1, 2, 3⟩ : Vec3 ℚ) ((5 : ℚ) • ((⟨2, 1, 6⟩ : Vec3 ℚ) + ⟨0, 0, 10⟩)) 0 1 ⟨3 / 4, 15 / 8, 1⟩ := by
  refine ⟨by decide +kernel, (C43_zmp (Sample.gravityMbc ⟨0, 0, 10⟩) ⟨1, 2, 3⟩ ⟨2, 1, 6⟩ (mass := 5) 1 (by norm_num) ⟨rfl, rfl⟩ (by decide +kernel) _).2 (by decide +kernel)⟩

/-- C43 (partial) applies to a robot pushed at its centre of mass on the ground of altitude zero. -/
example : IsZMP (⟨1, 2, 3⟩ : Vec3 ℚ) ((5 : ℚ) • ⟨2, 1, 10⟩ - ⟨1, 2, 3⟩) (-⟨4, 5, 6⟩) 0
    (computeCentroidalZMPComplete (Sample.gravityMbc ⟨0, 0, 10⟩) ⟨1, 2, 3⟩ ⟨2, 1, 10⟩ 0 ⟨⟨4, 5, 6⟩, ⟨1, 2, 3⟩⟩ 5) :=
  (C43_complete_partial (Sample.gravityMbc ⟨0, 0, 10⟩) ⟨1, 2, 3⟩ ⟨2, 1, 10⟩ 0 ⟨⟨4, 5, 6⟩, ⟨1, 2, 3⟩⟩ (by decide +kernel)
    (by decide +kernel) (by decide +kernel) (.inl rfl) _).2 rfl

/-- The hypotheses of the exact conditions can hold with and without the conclusion. -/
example : (2 : ℚ) + (Sample.gravityMbc ⟨1, 0, 10⟩).gravity.z ≠ 0 ∧ (5 : ℚ) * 10 - 3 ≠ 0 ∧ (5 : ℚ) * 11 - 3 ≠ 0 ∧
    IsZMP (⟨1, 2, 1⟩ : Vec3 ℚ) ((5 : ℚ) • ((⟨2, 1, 2⟩ : Vec3 ℚ) + ⟨1, 0, 10⟩)) 0 1
      (computeCentroidalZMP (Sample.gravityMbc ⟨1, 0, 10⟩) ⟨1, 2, 1⟩ ⟨2, 1, 2⟩ 1) := by
  refine ⟨by decide +kernel, by norm_num, by norm_num, ?_⟩
  exact (C43_zmp_iff (Sample.gravityMbc ⟨1, 0, 10⟩) ⟨1, 2, 1⟩ ⟨2, 1, 2⟩ (mass := 5) 1 (by norm_num) (by decide +kernel)).2 (.inl rfl)

/-- Horizontal components of gravity are ignored. -/
theorem C43_gravity_counterexample : ¬ IsZMP (⟨0, 0, 1⟩ : Vec3 ℚ) ((1 : ℚ) • (0 + (⟨1, 0, 10⟩ : Vec3 ℚ))) 0 0
    (computeCentroidalZMP (Sample.gravityMbc ⟨1, 0, 10⟩) ⟨0, 0, 1⟩ 0 0) := by
  unfold IsZMP; decide +kernel

/-- On ground of non-zero altitude the lever arm of the external force is wrong (`com(2)` instead of `com(2) - altitude`). -/
theorem C43_complete_altitude_counterexample : ¬ IsZMP (⟨0, 0, 2⟩ : Vec3 ℚ) ((1 : ℚ) • ⟨0, 0, 10⟩ - ⟨1, 0, 0⟩) (-0) 1
    (computeCentroidalZMPComplete (Sample.gravityMbc ⟨0, 0, 10⟩) ⟨0, 0, 2⟩ ⟨0, 0, 10⟩ 1 ⟨0, ⟨1, 0, 0⟩⟩ 1) := by
  unfold IsZMP; decide +kernel

/-- With vertical acceleration of the centre of mass the external wrench is divided by the weight instead of the vertical reaction. -/
theorem C43_complete_vertical_counterexample : ¬ IsZMP (⟨0, 0, 2⟩ : Vec3 ℚ) ((1 : ℚ) • ⟨0, 0, 11⟩ - ⟨1, 0, 0⟩) (-0) 0
    (computeCentroidalZMPComplete (Sample.gravityMbc ⟨0, 0, 10⟩) ⟨0, 0, 2⟩ ⟨0, 0, 11⟩ 0 ⟨0, ⟨1, 0, 0⟩⟩ 1) := by
  unfold IsZMP; decide +kernel

end RBDyn
