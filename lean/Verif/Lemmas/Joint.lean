import Verif.Spec.Joint
import Verif.Lemmas.Spatial

/-! Helper lemmas about joints. -/

namespace RBDyn
variable {K : Type} [Scalar K]
open scoped Mat3

namespace Joint

theorem mkS_neg (d : K) (t : JointType) (a : Vec3 K) :
    (mkS d t a).map (fun c => (-1 : K) • c) = mkS (-d) t a := by
  cases t <;> simp [mkS]

theorem one_ne_neg_one : (1 : K) ≠ -1 := by
  intro h
  have : (1 : K) + 1 = 0 := by linear_combination h
  have h2 : (0 : K) < 1 + 1 := by positivity
  exact (ne_of_gt h2) this

theorem isForward_mk' (t : JointType) (a : Vec3 K) (f : Bool) (n : String) :
    (mk' t a f n : Joint K).isForward = f := by
  cases f
  · simp [isForward, mk', (one_ne_neg_one (K := K)).symm]
  · simp [isForward, mk']

theorem setForward_mk' (t : JointType) (a : Vec3 K) (f g : Bool) (n : String) :
    (mk' t a f n : Joint K).setForward g = mk' t a g n := by
  unfold setForward
  rw [isForward_mk']
  cases f <;> cases g <;> simp [mk']
  · simpa using mkS_neg (K := K) (-1) t a
  · simpa using mkS_neg (K := K) 1 t a

theorem setForward_makeMimic (j : Joint K) (n : String) (m o : K) (g : Bool) :
    (j.makeMimic n m o).setForward g = (j.setForward g).makeMimic n m o := rfl

theorem mkS_length (d : K) (t : JointType) (a : Vec3 K) : (mkS d t a).length = nDof t := by
  cases t <;> rfl

/-- Structure of all joints obtainable through the API. -/
theorem Built.exists_mk {j : Joint K} (h : Built j) :
    ∃ t a f n, j = mk' t a f n ∨ ∃ mn m o, j = (mk' t a f n).makeMimic mn m o := by
  induction h with
  | mk t a f n => exact ⟨t, a, f, n, Or.inl rfl⟩
  | setForward j g _ ih =>
    obtain ⟨t, a, f, n, rfl | ⟨mn, m, o, rfl⟩⟩ := ih
    · exact ⟨t, a, g, n, Or.inl (setForward_mk' ..)⟩
    · exact ⟨t, a, g, n, Or.inr ⟨mn, m, o, by rw [setForward_makeMimic, setForward_mk']⟩⟩
  | makeMimic j mn m o _ ih =>
    obtain ⟨t, a, f, n, rfl | ⟨mn', m', o', rfl⟩⟩ := ih
    · exact ⟨t, a, f, n, Or.inr ⟨mn, m, o, rfl⟩⟩
    · exact ⟨t, a, f, n, Or.inr ⟨mn, m, o, rfl⟩⟩

theorem BuiltUnit.exists_mk {j : Joint K} (h : BuiltUnit j) :
    ∃ t a f n, ValidAxis t a ∧ (j = mk' t a f n ∨ ∃ mn m o, j = (mk' t a f n).makeMimic mn m o) := by
  induction h with
  | mk t a f n hv => exact ⟨t, a, f, n, hv, Or.inl rfl⟩
  | setForward j g _ ih =>
    obtain ⟨t, a, f, n, hv, rfl | ⟨mn, m, o, rfl⟩⟩ := ih
    · exact ⟨t, a, g, n, hv, Or.inl (setForward_mk' ..)⟩
    · exact ⟨t, a, g, n, hv, Or.inr ⟨mn, m, o, by rw [setForward_makeMimic, setForward_mk']⟩⟩
  | makeMimic j mn m o _ ih =>
    obtain ⟨t, a, f, n, hv, rfl | ⟨mn', m', o', rfl⟩⟩ := ih
    · exact ⟨t, a, f, n, hv, Or.inr ⟨mn, m, o, rfl⟩⟩
    · exact ⟨t, a, f, n, hv, Or.inr ⟨mn, m, o, rfl⟩⟩

theorem BuiltUnit.built {j : Joint K} (h : BuiltUnit j) : Built j := by
  induction h with
  | mk t a f n _ => exact .mk t a f n
  | setForward j g _ ih => exact .setForward j g ih
  | makeMimic j n m o _ ih => exact .makeMimic j n m o ih

theorem pose_makeMimic (j : Joint K) (n : String) (m o : K) (q : List K) :
    (j.makeMimic n m o).pose q = j.pose q := rfl
theorem motion_makeMimic (j : Joint K) (n : String) (m o : K) (q : List K) :
    (j.makeMimic n m o).motion q = j.motion q := rfl
theorem tanAccel_makeMimic (j : Joint K) (n : String) (m o : K) (q : List K) :
    (j.makeMimic n m o).tanAccel q = j.tanAccel q := rfl

/-! ### Rotation matrices -/

theorem isRot_angleAxis (θ : K) {a : Vec3 K} (ha : IsUnit3 a) : IsRot (angleAxis θ a) := by
  have h := Scalar.cos_sq_add_sin_sq θ
  unfold IsUnit3 at ha
  generalize hc : Scalar.cos θ = c at h
  generalize hs : Scalar.sin θ = s at h
  obtain ⟨x, y, z⟩ := a
  simp only at ha
  constructor
  · ext <;> simp [angleAxis, hc, hs] <;> grind
  · simp [angleAxis, hc, hs, Mat3.det]; grind

theorem isRot_rotZ (θ : K) : IsRot (rotZ θ) := by
  have h := Scalar.cos_sq_add_sin_sq θ
  constructor
  · ext <;> simp [rotZ] <;> grind
  · simp [rotZ, Mat3.det]; grind

theorem isRot_quatToE {w x y z : K} (h : w * w + x * x + y * y + z * z = 1) : IsRot (quatToE w x y z) := by
  have h2 : (2 : K) * 2⁻¹ = 1 := by field_simp
  constructor
  · ext <;> simp [quatToE] <;> grind
  · simp [quatToE, Mat3.det]; grind

theorem isRot_toRot {q : Quat K} (h : q.normSq = 1) : IsRot q.toRot := by
  unfold Quat.normSq at h
  constructor
  · ext <;> simp [Quat.toRot] <;> grind
  · simp [Quat.toRot, Mat3.det]; grind

theorem inverse_of_unit {q : Quat K} (h : q.normSq = 1) : q.inverse = ⟨q.w, -q.x, -q.y, -q.z⟩ := by
  simp [Quat.inverse, h]

theorem quatToE_eq_toRot {w x y z : K} (h : w * w + x * x + y * y + z * z = 1) :
    quatToE w x y z = Quat.toRot ⟨w, -x, -y, -z⟩ := by
  have h2 : (2 : K) * 2⁻¹ = 1 := by field_simp
  ext <;> simp [quatToE, Quat.toRot] <;> grind

/-- The direction sign of a joint. -/
def sgn (f : Bool) : K := if f then 1 else -1

theorem sgn_sq (f : Bool) : (sgn f : K) * sgn f = 1 := by cases f <;> simp [sgn]

theorem sgn_eq_one_iff (f : Bool) : (sgn f : K) = 1 ↔ f = true := by
  cases f
  · simp [sgn, (one_ne_neg_one (K := K)).symm]
  · simp [sgn]

/-! ### Closed forms of `pose` for joints built through the API -/

theorem pose_rev (a : Vec3 K) (f : Bool) (n : String) (q0 : K) :
    (mk' .Rev a f n).pose [q0] = .ok ⟨angleAxis (-q0) (sgn (K := K) f • a), 0⟩ := rfl

theorem pose_prism (a : Vec3 K) (f : Bool) (n : String) (q0 : K) :
    (mk' .Prism a f n).pose [q0] = .ok ⟨1, q0 • (sgn (K := K) f • a)⟩ := rfl

theorem pose_spherical (a : Vec3 K) (f : Bool) (n : String) (w x y z : K) :
    (mk' .Spherical a f n).pose [w, x, y, z] =
      .ok ⟨Quat.toRot (Quat.inverse ⟨w, sgn (K := K) f * x, sgn (K := K) f * y, sgn (K := K) f * z⟩), 0⟩ := rfl

theorem pose_planar (a : Vec3 K) (f : Bool) (n : String) (q0 q1 q2 : K) :
    (mk' .Planar a f n).pose [q0, q1, q2] =
      .ok (if f then ⟨rotZ q0, (rotZ q0).tr *ᵥ ⟨q1, q2, 0⟩⟩
        else PTransform.inv ⟨rotZ q0, (rotZ q0).tr *ᵥ ⟨q1, q2, 0⟩⟩) := by
  cases f
  · simp [pose, mk', rd, (one_ne_neg_one (K := K)).symm]
  · simp [pose, mk', rd]

theorem pose_cylindrical (a : Vec3 K) (f : Bool) (n : String) (q0 q1 : K) :
    (mk' .Cylindrical a f n).pose [q0, q1] =
      .ok ⟨angleAxis (-q0) (sgn (K := K) f • a), q1 • (sgn (K := K) f • a)⟩ := rfl

theorem pose_free (a : Vec3 K) (f : Bool) (n : String) (w x y z r0 r1 r2 : K) :
    (mk' .Free a f n).pose [w, x, y, z, r0, r1, r2] =
      .ok (if f then ⟨quatToE w x y z, ⟨r0, r1, r2⟩⟩ else PTransform.inv ⟨quatToE w x y z, ⟨r0, r1, r2⟩⟩) := by
  cases f
  · simp [pose, mk', rd, (one_ne_neg_one (K := K)).symm]
  · simp [pose, mk', rd]

theorem pose_fixed (a : Vec3 K) (f : Bool) (n : String) (q : List K) :
    (mk' .Fixed a f n).pose q = .ok 1 := rfl

theorem angleAxis_neg_axis (θ : K) (a : Vec3 K) : angleAxis θ (-a) = (angleAxis θ a).tr := by
  ext <;> simp [angleAxis] <;> ring

theorem angleAxis_fixes (θ : K) {a : Vec3 K} (ha : IsUnit3 a) : angleAxis θ a *ᵥ a = a := by
  unfold IsUnit3 at ha
  ext <;> simp [angleAxis] <;> grind

theorem isUnit3_sgn (f : Bool) {a : Vec3 K} (ha : IsUnit3 a) : IsUnit3 (sgn (K := K) f • a) := by
  unfold IsUnit3 at *
  have := sgn_sq (K := K) f
  simp; grind

/-- Destructuring a valid parameter vector. -/
theorem _root_.RBDyn.ValidParam.spherical {q : List K} (h : ValidParam .Spherical q) :
    ∃ w x y z, q = [w, x, y, z] ∧ w * w + x * x + y * y + z * z = 1 := by
  obtain ⟨hl, h⟩ := h
  match q, hl, h with
  | [w, x, y, z], _, h => exact ⟨w, x, y, z, rfl, h⟩

theorem _root_.RBDyn.ValidParam.free {q : List K} (h : ValidParam .Free q) :
    ∃ w x y z a b c, q = [w, x, y, z, a, b, c] ∧ w * w + x * x + y * y + z * z = 1 := by
  obtain ⟨hl, h⟩ := h
  match q, hl, h with
  | [w, x, y, z, a, b, c], _, h => exact ⟨w, x, y, z, a, b, c, rfl, h⟩

/-- The pose at a valid configuration exists and is rigid. -/
theorem pose_mk'_rigid {t : JointType} {a : Vec3 K} (ha : ValidAxis t a) (f : Bool) (n : String) {q : List K}
    (hq : ValidParam t q) : ∃ X, (mk' t a f n).pose q = .ok X ∧ IsRigid X := by
  cases t with
  | Rev =>
    obtain ⟨q0, rfl⟩ := List.length_eq_one_iff.1 hq.1
    exact ⟨_, pose_rev .., isRot_angleAxis _ (isUnit3_sgn f ha)⟩
  | Prism =>
    obtain ⟨q0, rfl⟩ := List.length_eq_one_iff.1 hq.1
    exact ⟨_, pose_prism .., IsRot.one⟩
  | Spherical =>
    obtain ⟨w, x, y, z, rfl, h⟩ := hq.spherical
    have hn : Quat.normSq ⟨w, sgn (K := K) f * x, sgn (K := K) f * y, sgn (K := K) f * z⟩ = 1 := by
      have := sgn_sq (K := K) f
      simp only [Quat.normSq]; grind
    refine ⟨_, pose_spherical .., ?_⟩
    rw [inverse_of_unit hn]
    refine isRot_toRot (q := ⟨_, _, _, _⟩) ?_
    simp only [Quat.normSq] at hn ⊢; grind
  | Planar =>
    obtain ⟨q0, q1, q2, rfl⟩ := List.length_eq_three.1 hq.1
    refine ⟨_, pose_planar .., ?_⟩
    split
    · exact isRot_rotZ _
    · exact IsRigid.inv (isRot_rotZ _)
  | Cylindrical =>
    obtain ⟨q0, q1, rfl⟩ := List.length_eq_two.1 hq.1
    exact ⟨_, pose_cylindrical .., isRot_angleAxis _ (isUnit3_sgn f ha)⟩
  | Free =>
    obtain ⟨w, x, y, z, r0, r1, r2, rfl, h⟩ := hq.free
    refine ⟨_, pose_free .., ?_⟩
    split
    · exact isRot_quatToE h
    · exact IsRigid.inv (isRot_quatToE h)
  | Fixed => exact ⟨1, pose_fixed .., IsRot.one⟩

/-- The reversed joint has the inverse pose. -/
theorem pose_mk'_reverse {t : JointType} {a : Vec3 K} (ha : ValidAxis t a) (n m : String) {q : List K}
    (hq : ValidParam t q) : ∃ X, (mk' t a true n).pose q = .ok X ∧ (mk' t a false m).pose q = .ok X.inv := by
  cases t with
  | Rev =>
    obtain ⟨q0, rfl⟩ := List.length_eq_one_iff.1 hq.1
    refine ⟨_, pose_rev .., ?_⟩
    rw [pose_rev]
    simp [sgn, PTransform.inv, angleAxis_neg_axis]
  | Prism =>
    obtain ⟨q0, rfl⟩ := List.length_eq_one_iff.1 hq.1
    refine ⟨_, pose_prism .., ?_⟩
    rw [pose_prism]
    simp [sgn, PTransform.inv]
  | Spherical =>
    obtain ⟨w, x, y, z, rfl, h⟩ := hq.spherical
    refine ⟨_, pose_spherical .., ?_⟩
    rw [pose_spherical, inverse_of_unit, inverse_of_unit]
    · congr 1
      ext <;> simp [sgn, PTransform.inv, Quat.toRot] <;> ring
    · simpa [sgn, Quat.normSq] using h
    · simpa [sgn, Quat.normSq] using h
  | Planar =>
    obtain ⟨q0, q1, q2, rfl⟩ := List.length_eq_three.1 hq.1
    exact ⟨_, pose_planar .., by rw [pose_planar]; simp⟩
  | Cylindrical =>
    obtain ⟨q0, q1, rfl⟩ := List.length_eq_two.1 hq.1
    refine ⟨_, pose_cylindrical .., ?_⟩
    rw [pose_cylindrical]
    have := angleAxis_fixes (-q0) (a := a) ha
    simp [sgn, PTransform.inv, angleAxis_neg_axis, this, Mat3.mulVec_smul]
  | Free =>
    obtain ⟨w, x, y, z, r0, r1, r2, rfl, h⟩ := hq.free
    exact ⟨_, pose_free .., by rw [pose_free]; simp⟩
  | Fixed => exact ⟨1, pose_fixed .., by rw [pose_fixed]; simp [PTransform.inv_one]⟩

theorem motion_eq_applyCols {j : Joint K} (h : Built j) {al : List K} (hl : al.length = j.dof) :
    j.motion al = .ok (applyCols j.S al) := by
  obtain ⟨t, a, f, n, rfl | ⟨mn, m, o, rfl⟩⟩ := h.exists_mk
  all_goals
    simp only [makeMimic, mk'] at hl
    cases t
    case Rev =>
      obtain ⟨q0, rfl⟩ := List.length_eq_one_iff.1 hl
      cases f <;> simp [motion, mk', mkS, rd, applyCols, makeMimic] <;> ext <;> simp
    case Prism =>
      obtain ⟨q0, rfl⟩ := List.length_eq_one_iff.1 hl
      cases f <;> simp [motion, mk', mkS, rd, applyCols, makeMimic] <;> ext <;> simp
    case Spherical =>
      obtain ⟨q0, q1, q2, rfl⟩ := List.length_eq_three.1 hl
      simp [motion, mk', mkS, rd, applyCols, makeMimic, add_assoc]
    case Planar =>
      obtain ⟨q0, q1, q2, rfl⟩ := List.length_eq_three.1 hl
      simp [motion, mk', mkS, rd, applyCols, makeMimic, add_assoc]
    case Cylindrical =>
      obtain ⟨q0, q1, rfl⟩ := List.length_eq_two.1 hl
      simp [motion, mk', mkS, rd, applyCols, makeMimic]
    case Free =>
      match al, hl with
      | [a0, a1, a2, a3, a4, a5], _ =>
      simp [motion, mk', mkS, rd, applyCols, makeMimic, add_assoc]
    case Fixed =>
      have := List.length_eq_zero_iff.1 hl
      subst this
      simp [motion, mk', mkS, applyCols, makeMimic]

theorem tanAccel_eq_motion (j : Joint K) (al : List K) : j.tanAccel al = j.motion al := by
  unfold tanAccel motion
  rfl

end Joint
end RBDyn
