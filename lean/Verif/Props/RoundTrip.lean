import Verif.Lemmas.RoundTripX
import Verif.Lemmas.Euler
import Verif.Props.Readers

/-! **C47**, **C48**: writing a robot and reading it back.

Neither claim holds as stated. What holds is `C47_urdf_round_trip_partial` and `C48_yaml_round_trip_partial`: under
conditions on the links, the joints and the frames the whole robot is recovered, not only its frames and its inertias. The
other theorems show that each condition is needed. -/

namespace RBDyn
open Graph
open scoped Mat3
variable {K : Type} [Scalar K]

/-! ### What holds -/

/-- **C48**, the part that holds. A robot the graph of which is a tree traversed from its base along the joints is
recovered with its bodies, its joints, its static transforms, the order of its bodies and its configuration, if
* every body has a mass and an inertia matrix, or nothing (`Body.Writable`);
* the first body has a name;
* every joint but the root one is revolute or prismatic with an axis the tolerance does not round to zero, or fixed, or
  free without limits and not called `..._spherical`; it does not mimic another one (`Joint.Writable`);
* the angles Eigen finds give the rotation back and the tolerance does not round the frame (`PTransform.Writable`).

The limits of the joints with one degree of freedom are recovered unless the joint is continuous. -/
theorem C48_yaml_round_trip_partial {env : ParserEnv K} (he : 0 ≤ env.eps) {r : PResult K} {base : String} {fixed : Bool}
    (S : r.Standard env base fixed) (hb : ∀ b ∈ r.mb.bodies, b.Writable env)
    (hb0 : ∀ b, r.mb.bodies[0]? = some b → b.name ≠ "")
    (hj : ∀ j ∈ r.mb.joints.tail, j.Writable env ∧ r.limits.Filled j.name ∧
      (j.type = .Free → hasLimits r.limits j.name = false))
    (hX : ∀ X ∈ r.mb.Xt.tail, X.Writable env) :
    ∃ (doc : YRobot K) (r' : PResult K), toYAML env r = .ok doc ∧
      fromYAML env (some doc) { fixed := fixed } = .ok r' ∧ r'.name = r.name ∧ r'.mb = r.mb ∧ r'.mbc = r.mbc ∧
      ∀ j ∈ r.mb.joints.tail, ∀ lo up ef ve : Lim K, j.dof = 1 → r.limits.lower.find j.name = some [lo] →
        r.limits.upper.find j.name = some [up] → r.limits.torque.find j.name = some [ef] →
        r.limits.velocity.find j.name = some [ve] → ¬ (lo = .ninf ∧ up = .inf) →
        r'.limits.lower.find j.name = some [lo] ∧ r'.limits.upper.find j.name = some [up] ∧
        r'.limits.torque.find j.name = some [ef] ∧ r'.limits.velocity.find j.name = some [ve] :=
  yaml_round_trip he S hb hb0 hj hX

/-- **C47**, the part that holds. The conditions are those of C48, with
* numbers that six digits print exactly;
* axes of norm 1;
* frames the rotation of which the reader of URDF gets from the angles: see `C47_frame_partial`;
* mimic joints are recovered. -/
theorem C47_urdf_round_trip_partial {env : ParserEnv K} (he : 0 ≤ env.eps) {r : PResult K} {base : String} {fixed : Bool}
    (S : r.Standard env base fixed) (hb : ∀ b ∈ r.mb.bodies, b.Writable env ∧ env.Prints b.numbers)
    (hj : ∀ j ∈ r.mb.joints.tail, j.WritableX env ∧ r.limits.Filled j.name)
    (hX : ∀ X ∈ r.mb.Xt.tail, X.WritableX env) :
    ∃ (doc : XRobot K) (r' : PResult K), toURDF env r = .ok doc ∧
      fromURDF env (some doc) { fixed := fixed } = .ok r' ∧ r'.name = r.name ∧ r'.mb = r.mb ∧ r'.mbc = r.mbc ∧
      ∀ j ∈ r.mb.joints.tail, ∀ lo up ef ve : List (Lim K), j.type ≠ .Fixed → r.limits.lower.find j.name = some lo →
        r.limits.upper.find j.name = some up → r.limits.torque.find j.name = some ef →
        r.limits.velocity.find j.name = some ve → env.PrintsLims lo → env.PrintsLims up → env.PrintsLims ef →
        env.PrintsLims ve →
        r'.limits.lower.find j.name = some lo ∧ r'.limits.upper.find j.name = some up ∧
        r'.limits.torque.find j.name = some ef ∧ r'.limits.velocity.find j.name = some ve :=
  urdf_round_trip he S hb hj hX

/-! ### Frames -/

/-- The contract of Eigen's `eulerAngles(0, 1, 2)` can be met: with some choice of the angles and no tolerance, every
rigid transform can be written in YAML. -/
theorem C48_frame : ∃ euler : Mat3 ℝ → Vec3 ℝ, ∀ env : ParserEnv ℝ, env.euler = euler → env.eps = 0 →
    ∀ X : PTransform ℝ, IsRigid X → X.Writable env ∧
      ∃ p, yamlFrame env false (writeFrame env X) = .ok p ∧ (⟨yamlRPY p.2.x p.2.y p.2.z, p.1⟩ : PTransform ℝ) = X := by
  classical
  have sharp : ∀ v : Vec3 ℝ, v.Sharp 0 := by
    intro v h
    simp only [Vec3.isZeroE, Bool.and_eq_true, decide_eq_true_eq, abs_nonpos_iff] at h
    exact Vec3.ext h.1.1 h.1.2 h.2
  refine ⟨fun M => if h : IsRot M then (exists_euler h).choose else 0, fun env he h0 X hX => ?_⟩
  have hr : IsRot X.E.tr := IsRot.tr hX
  have W : X.Writable env := by
    refine ⟨by rw [h0]; exact sharp _, by rw [h0]; exact sharp _, ?_⟩
    rw [he]
    simp only [hr, dif_pos]
    exact (exists_euler hr).choose_spec
  refine ⟨W, (X.r, env.euler X.E.tr), ?_, ?_⟩
  · have := yamlFrame_write W
    have hw : ([X].filterMap (writeFrame env)).head? = writeFrame env X := by
      rw [List.filterMap_cons]
      cases writeFrame env X <;> rfl
    rwa [hw] at this
  · have := W.euler
    have h : yamlRPY (env.euler X.E.tr).x (env.euler X.E.tr).y (env.euler X.E.tr).z = X.E := by
      unfold yamlRPY
      rw [this]
      exact Mat3.tr_tr _
    dsimp only
    rw [h]

/-- Reading back a frame from URDF, with exact printing and without tolerance: the writer prints the angles about the
moving axes `x`, `y`, `z`, the reader takes them about the fixed axes. If two of the angles are zero (or whole turns) the
frame is recovered. If it is recovered then one of the three entries `(0, 1)`, `(0, 2)`, `(1, 2)` of the rotation is
zero. -/
theorem C47_frame_partial (env : ParserEnv ℝ) (h0 : env.eps = 0) (hp : ∀ x, env.print x = x) (X : PTransform ℝ)
    (hE : angleAxis (env.euler X.E.tr).x ⟨1, 0, 0⟩ * angleAxis (env.euler X.E.tr).y ⟨0, 1, 0⟩ *
      angleAxis (env.euler X.E.tr).z ⟨0, 0, 1⟩ = X.E.tr) :
    ((Real.cos (env.euler X.E.tr).x = 1 ∧ Real.cos (env.euler X.E.tr).y = 1 ∨
      Real.cos (env.euler X.E.tr).x = 1 ∧ Real.cos (env.euler X.E.tr).z = 1 ∨
      Real.cos (env.euler X.E.tr).y = 1 ∧ Real.cos (env.euler X.E.tr).z = 1) →
      X.WritableX env ∧ urdfOrigin (writeOrigin env X) = .ok X) ∧
    (urdfOrigin (writeOrigin env X) = .ok X → X.E.m10 = 0 ∨ X.E.m20 = 0 ∨ X.E.m21 = 0) := by
  have sharp : ∀ v : Vec3 ℝ, v.Sharp 0 := by
    intro v h
    simp only [Vec3.isZeroE, Bool.and_eq_true, decide_eq_true_eq, abs_nonpos_iff] at h
    exact Vec3.ext h.1.1 h.1.2 h.2
  have hyaml : yamlRPY (env.euler X.E.tr).x (env.euler X.E.tr).y (env.euler X.E.tr).z = X.E := by
    unfold yamlRPY
    rw [hE]
    exact Mat3.tr_tr _
  have hw : ([X].filterMap (writeOrigin env)).head? = writeOrigin env X := by
    rw [List.filterMap_cons]
    cases writeOrigin env X <;> rfl
  constructor
  · intro h
    have W : X.WritableX env := by
      refine ⟨by rw [h0]; exact sharp _, by rw [h0]; exact sharp _, ?_, fun x _ => hp x⟩
      rw [(C49_rpy_partial _ _ _).1 h, hyaml]
    refine ⟨W, ?_⟩
    rw [← hw]
    exact urdfOrigin_write W
  · intro h
    -- the reader finds `urdfRPY` of the angles in all cases
    have hread : ∃ r, urdfOrigin (writeOrigin env X) =
        .ok ⟨urdfRPY (env.euler X.E.tr).x (env.euler X.E.tr).y (env.euler X.E.tr).z, r⟩ := by
      unfold writeOrigin
      dsimp only
      simp only [hp, h0]
      cases h1 : X.r.isZeroE 0 <;> cases h2 : (env.euler X.E.tr).isZeroE 0
      · exact ⟨_, rfl⟩
      · rw [sharp _ h2]
        exact ⟨_, rfl⟩
      · exact ⟨_, rfl⟩
      · refine ⟨0, ?_⟩
        rw [sharp _ h2]
        show Except.ok (1 : PTransform ℝ) = _
        have : urdfRPY (0 : Vec3 ℝ).x (0 : Vec3 ℝ).y (0 : Vec3 ℝ).z = 1 := urdfRPY_zero
        rw [this]
        rfl
    obtain ⟨r, hr⟩ := hread
    rw [h] at hr
    have hEq : urdfRPY (env.euler X.E.tr).x (env.euler X.E.tr).y (env.euler X.E.tr).z =
        yamlRPY (env.euler X.E.tr).x (env.euler X.E.tr).y (env.euler X.E.tr).z := by
      rw [hyaml]
      exact (congrArg PTransform.E (Except.ok.inj hr)).symm
    have hM := hE
    rw [angleAxis_xyz] at hM
    generalize env.euler X.E.tr = v at hM hEq
    have m01 := congrArg Mat3.m01 hM
    have m02 := congrArg Mat3.m02 hM
    have m12 := congrArg Mat3.m12 hM
    simp only [Mat3.tr] at m01 m02 m12
    rcases (C49_rpy_partial _ _ _).2 hEq with h | h | h
    · right; right
      rw [← m12]
      have : Real.sin v.x = 0 := h
      rw [this]; simp
    · right; left
      rw [← m02]
      exact h
    · left
      rw [← m01]
      have : Real.sin v.z = 0 := h
      rw [this]; simp

/-- **C47** for frames, exactly (exact printing, no tolerance): a frame written in URDF is read back iff it is a rotation about one of the three axes
of coordinates. For a rotation about `y` the angles that `eulerAngles` chooses matter: when the angle is a quarter turn there are several, and the
first one has to be a multiple of a half turn. -/
theorem C47_frame_iff (env : ParserEnv ℝ) (h0 : env.eps = 0) (hp : ∀ x, env.print x = x) (X : PTransform ℝ)
    (hE : angleAxis (env.euler X.E.tr).x ⟨1, 0, 0⟩ * angleAxis (env.euler X.E.tr).y ⟨0, 1, 0⟩ *
      angleAxis (env.euler X.E.tr).z ⟨0, 0, 1⟩ = X.E.tr) :
    urdfOrigin (writeOrigin env X) = .ok X ↔
      X.E.m00 = 1 ∨ X.E.m22 = 1 ∨ X.E.m11 = 1 ∧ Real.sin (env.euler X.E.tr).x = 0 := by
  have sharp : ∀ v : Vec3 ℝ, v.Sharp 0 := by
    intro v h
    simp only [Vec3.isZeroE, Bool.and_eq_true, decide_eq_true_eq, abs_nonpos_iff] at h
    exact Vec3.ext h.1.1 h.1.2 h.2
  have hyaml : yamlRPY (env.euler X.E.tr).x (env.euler X.E.tr).y (env.euler X.E.tr).z = X.E := by
    unfold yamlRPY
    rw [hE]
    exact Mat3.tr_tr _
  have hread : urdfOrigin (writeOrigin env X) =
      .ok ⟨urdfRPY (env.euler X.E.tr).x (env.euler X.E.tr).y (env.euler X.E.tr).z, X.r⟩ := by
    unfold writeOrigin
    dsimp only
    simp only [hp, h0]
    have hz : urdfRPY (0 : Vec3 ℝ).x (0 : Vec3 ℝ).y (0 : Vec3 ℝ).z = 1 := urdfRPY_zero
    cases h1 : X.r.isZeroE 0 <;> cases h2 : (env.euler X.E.tr).isZeroE 0
    · rfl
    · rw [sharp _ h2]; rfl
    · rw [sharp _ h1]; rfl
    · rw [sharp _ h2, sharp _ h1, hz]; rfl
  have key : urdfOrigin (writeOrigin env X) = .ok X ↔
      urdfRPY (env.euler X.E.tr).x (env.euler X.E.tr).y (env.euler X.E.tr).z =
      yamlRPY (env.euler X.E.tr).x (env.euler X.E.tr).y (env.euler X.E.tr).z := by
    rw [hread, hyaml]
    constructor
    · intro h
      exact congrArg PTransform.E (Except.ok.inj h)
    · intro h
      rw [h]
  have hM := hE
  rw [angleAxis_xyz] at hM
  rw [key, C49_rpy_iff]
  clear key hread hyaml hE
  generalize env.euler X.E.tr = v at *
  have m00 := congrArg Mat3.m00 hM
  have m11 := congrArg Mat3.m11 hM
  have m22 := congrArg Mat3.m22 hM
  simp only [Mat3.tr] at m00 m11 m22
  rw [← m00, ← m11, ← m22]
  clear hM m00 m11 m22
  simp only [Scalar.cos, Scalar.sin]
  have ha := Real.cos_sq_add_sin_sq v.x
  have hb := Real.cos_sq_add_sin_sq v.y
  have hc := Real.cos_sq_add_sin_sq v.z
  generalize Real.cos v.x = ca at *
  generalize Real.cos v.y = cb at *
  generalize Real.cos v.z = cc at *
  generalize Real.sin v.x = sa at *
  generalize Real.sin v.y = sb at *
  generalize Real.sin v.z = sc at *
  have prod : ∀ {c s d t : ℝ}, c ^ 2 + s ^ 2 = 1 → d ^ 2 + t ^ 2 = 1 → c * d = 1 → s = 0 ∧ t = 0 ∧ c = d := by
    intro c s d t h1 h2 h3
    have hcd : c = d := by
      have : (c - d) ^ 2 + s ^ 2 + t ^ 2 = 0 := by linear_combination h1 + h2 - 2 * h3
      nlinarith [sq_nonneg (c - d), sq_nonneg s, sq_nonneg t]
    have h4 : (c - d) ^ 2 + s ^ 2 + t ^ 2 = 0 := by linear_combination h1 + h2 - 2 * h3
    have hs : s ^ 2 = 0 := by nlinarith [sq_nonneg (c - d), sq_nonneg s, sq_nonneg t]
    have ht : t ^ 2 = 0 := by nlinarith [sq_nonneg (c - d), sq_nonneg s, sq_nonneg t]
    exact ⟨pow_eq_zero_iff (by norm_num) |>.1 hs, pow_eq_zero_iff (by norm_num) |>.1 ht, hcd⟩
  constructor
  · rintro (⟨rfl, rfl, rfl⟩ | ⟨rfl, rfl, rfl⟩ | ⟨rfl, rfl, rfl⟩)
    · right; left; linear_combination ha
    · left; linear_combination hb
    · right; right; exact ⟨by linear_combination ha, rfl⟩
  · rintro (h | h | ⟨h, hs⟩)
    · right; left
      exact prod hb hc (by linear_combination h)
    · left
      exact prod ha hb (by linear_combination h)
    · right; right
      have := prod ha hc (by rw [hs] at h; linear_combination h)
      exact ⟨this.1, this.2.1, this.2.2⟩

/-- A rotation that `to_urdf` and `from_urdf` do not keep, whatever angles `eulerAngles` chooses. -/
theorem C47_not_frame : ∃ X : PTransform ℝ, IsRigid X ∧ ∀ env : ParserEnv ℝ, env.eps = 0 → (∀ x, env.print x = x) →
    angleAxis (env.euler X.E.tr).x ⟨1, 0, 0⟩ * angleAxis (env.euler X.E.tr).y ⟨0, 1, 0⟩ *
      angleAxis (env.euler X.E.tr).z ⟨0, 0, 1⟩ = X.E.tr → urdfOrigin (writeOrigin env X) ≠ .ok X := by
  refine ⟨⟨⟨2 / 3, 2 / 3, -1 / 3, -1 / 3, 2 / 3, 2 / 3, 2 / 3, -1 / 3, 2 / 3⟩, 0⟩, ?_, ?_⟩
  · constructor
    · ext <;> norm_num [Mat3.tr]
    · norm_num [Mat3.det]
  · intro env h0 hp hE h
    have := (C47_frame_partial env h0 hp _ hE).2 h
    norm_num at this

/-! ### Links -/

/-- A point mass at the origin of its link: `to_urdf` writes no `<inertia>`, and `from_urdf` then dereferences a null
pointer. -/
theorem C47_not_point_mass (env : ParserEnv K) (he : 0 ≤ env.eps) (params : ParserParams) (m : K) (hm : 0 < m)
    (n : String) : urdfBody params (writeXLink env ⟨⟨m, 0, 0⟩, n⟩) = .error .ub := by
  unfold writeXLink urdfBody
  have h1 : (0 : Sym3 K).isZeroE env.eps = true := Sym3.isZeroE_zero he
  have h2 : writeCom (⟨m, 0, 0⟩ : RBInertia K) = 0 := by
    unfold writeCom
    rw [if_pos hm]
    ext <;> simp
  have h3 : (0 : Vec3 K).isZeroE env.eps = true := Vec3.isZeroE_zero he
  simp only [h1, h2, h3, hm, decide_true, Bool.true_or, if_true, Bool.not_true, Bool.false_eq_true, if_false]
  rfl

/-- A point mass at the origin of its link: `to_yaml` writes no `inertia`, and `from_yaml` then takes the identity. -/
theorem C48_not_point_mass (env : ParserEnv K) (he : 0 ≤ env.eps) (m : K) (hm : 0 < m) (n : String) :
    yamlBody env {} false n (writeYLink env ⟨⟨m, 0, 0⟩, n⟩).inertial = .ok ⟨⟨m, 0, ⟨1, 0, 1, 0, 0, 1⟩⟩, n⟩ := by
  unfold writeYLink
  have h1 : (0 : Sym3 K).isZeroE env.eps = true := Sym3.isZeroE_zero he
  have h2 : writeCom (⟨m, 0, 0⟩ : RBInertia K) = 0 := by
    unfold writeCom
    rw [if_pos hm]
    ext <;> simp
  have h3 : (0 : Vec3 K).isZeroE env.eps = true := Vec3.isZeroE_zero he
  simp only [h1, h2, h3, hm, decide_true, Bool.true_or, if_true, Bool.not_true, Bool.false_eq_true, if_false]
  unfold yamlBody
  show Except.ok _ = _
  congr 1
  have h0 : yamlRPY (0 : Vec3 K).x (0 : Vec3 K).y (0 : Vec3 K).z = 1 := yamlRPY_zero
  rw [if_pos rfl, h0]
  unfold Body.ofCom RBInertia.ofMat
  congr 2
  · ext <;> simp
  · ext <;> simp [Sym3.ofLower, inertiaToOrigin, yamlInertia, Mat3.tr, Mat3.crossMat]

/-! ### Robots -/

/-- Angles for the rotations of the examples, about the moving axes `x`, `y`, `z`, in quarter turns. -/
def Sample.euler (M : Mat3 ℚ) : Vec3 ℚ :=
  if M = 1 then 0 else if M = angleAxis 1 ⟨0, 0, 1⟩ then ⟨0, 0, 1⟩ else ⟨1, 0, 3⟩

/-- An environment with exact printing, no tolerance and the angles above. -/
def Sample.envR : ParserEnv ℚ := { Sample.env with euler := Sample.euler }

/-- Two links joined by a prismatic joint with this frame. -/
def Sample.two (o : XOrigin ℚ) : XRobot ℚ :=
  let i : Option (XInertial ℚ) := some ⟨none, some (some 2), some ⟨some 1, none, none, some 1, none, some 1⟩⟩
  { name := some "r"
    links := [⟨"a", i⟩, ⟨"b", i⟩]
    joints := [⟨"j", "prismatic", "a", "b", some o, none,
      some ⟨some [.val 0], some [.val 1], some [.val 1], some [.val 1]⟩, none⟩] }

/-- The whole programs on a robot with a rotated frame: the angles `eulerAngles` gives are right, the numbers are printed
exactly, and the static transform read back is another one. -/
theorem C47_not_rotated : ∃ r doc r', fromURDF Sample.envR (some (Sample.two ⟨none, some [1, 1, 0]⟩)) {} = .ok r ∧
    (∀ X ∈ r.mb.Xt, X.Writable Sample.envR) ∧ toURDF Sample.envR r = .ok doc ∧
    fromURDF Sample.envR (some doc) {} = .ok r' ∧ r'.mb.Xt ≠ r.mb.Xt := by
  have h : (match fromURDF Sample.envR (some (Sample.two ⟨none, some [1, 1, 0]⟩)) {} with
    | .ok r => decide (∀ X ∈ r.mb.Xt,
        (angleAxis (Sample.euler X.E.tr).x ⟨1, 0, 0⟩ * angleAxis (Sample.euler X.E.tr).y ⟨0, 1, 0⟩ *
          angleAxis (Sample.euler X.E.tr).z ⟨0, 0, 1⟩ = X.E.tr)) &&
        (match toURDF Sample.envR r with
        | .ok doc => (match fromURDF Sample.envR (some doc) {} with
          | .ok r' => decide (r'.mb.Xt ≠ r.mb.Xt)
          | .error _ => false)
        | .error _ => false)
    | .error _ => false) = true := by decide +kernel
  have sharp : ∀ v : Vec3 ℚ, v.Sharp 0 := by
    intro v h
    simp only [Vec3.isZeroE, Bool.and_eq_true, decide_eq_true_eq, abs_nonpos_iff] at h
    exact Vec3.ext h.1.1 h.1.2 h.2
  split at h
  · rename_i r hr
    rw [Bool.and_eq_true] at h
    obtain ⟨h1, h2⟩ := h
    split at h2
    · rename_i doc hdoc
      split at h2
      · rename_i r' hr'
        exact ⟨r, doc, r', hr, fun X hX => ⟨sharp _, sharp _, of_decide_eq_true h1 X hX⟩, hdoc, hr', of_decide_eq_true h2⟩
      · simp at h2
    · simp at h2
  · simp at h

/-- Three links, `b` and `c` on `a`; the frame of `b` is a translation. -/
def Sample.three : XRobot ℚ :=
  let i : Option (XInertial ℚ) := some ⟨none, some (some 2), some ⟨some 1, none, none, some 1, none, some 1⟩⟩
  { name := some "r"
    links := [⟨"a", i⟩, ⟨"b", i⟩, ⟨"c", i⟩]
    joints := [⟨"j", "fixed", "a", "b", some ⟨some [1, 0, 0], none⟩, none, none, none⟩,
      ⟨"k", "fixed", "a", "c", none, none, none, none⟩] }

/-- The base link is `b`, so that the first joint is traversed against its direction. The frame of `c` in the
`MultiBody` is then not its frame in the graph, which is the one the writers print: reading back, the static transform is
another one. -/
theorem C47_C48_not_rerooted : ∃ r docX rX docY rY,
    fromURDF Sample.envR (some Sample.three) { baseLink := "b" } = .ok r ∧
    toURDF Sample.envR r = .ok docX ∧ fromURDF Sample.envR (some docX) {} = .ok rX ∧
    rX.mb.bodies = r.mb.bodies ∧ rX.mb.Xt ≠ r.mb.Xt ∧
    toYAML Sample.envR r = .ok docY ∧ fromYAML Sample.envR (some docY) {} = .ok rY ∧
    rY.mb.bodies = r.mb.bodies ∧ rY.mb.Xt ≠ r.mb.Xt := by
  have h : (match fromURDF Sample.envR (some Sample.three) { baseLink := "b" } with
    | .ok r => (match toURDF Sample.envR r with
        | .ok doc => (match fromURDF Sample.envR (some doc) {} with
          | .ok r' => decide (r'.mb.bodies = r.mb.bodies ∧ r'.mb.Xt ≠ r.mb.Xt)
          | .error _ => false)
        | .error _ => false) && (match toYAML Sample.envR r with
        | .ok doc => (match fromYAML Sample.envR (some doc) {} with
          | .ok r' => decide (r'.mb.bodies = r.mb.bodies ∧ r'.mb.Xt ≠ r.mb.Xt)
          | .error _ => false)
        | .error _ => false)
    | .error _ => false) = true := by decide +kernel
  split at h
  · rename_i r hr
    rw [Bool.and_eq_true] at h
    obtain ⟨h1, h2⟩ := h
    split at h1
    · rename_i docX hdocX
      split at h1
      · rename_i rX hrX
        split at h2
        · rename_i docY hdocY
          split at h2
          · rename_i rY hrY
            obtain ⟨a, b⟩ := of_decide_eq_true h1
            obtain ⟨c, d⟩ := of_decide_eq_true h2
            exact ⟨r, docX, rX, docY, rY, hr, hdocX, hrX, a, b, hdocY, hrY, c, d⟩
          · simp at h2
        · simp at h2
      · simp at h1
    · simp at h1
  · simp at h

/-- `to_urdf` and `to_yaml` throw on a robot with a spherical joint, which `from_yaml` can read and `from_urdf` too
(as a floating joint with a suffix). -/
theorem C47_C48_not_spherical (env : ParserEnv K) (r : PResult K) (j : Joint K) (hj : j.type = .Spherical) :
    writeXJoint env r j = .error .invalidArgument ∧ writeYJoint env r j = .error .invalidArgument := by
  have h : jointInfo r j = .error .invalidArgument := by
    unfold jointInfo writeType
    rw [hj]
    rfl
  constructor
  · unfold writeXJoint
    rw [h]
    rfl
  · unfold writeYJoint
    rw [h]
    rfl

/-- A floating joint with the limits `from_urdf` gives to it: `to_yaml` prints a sequence in a sequence, which `from_yaml`
refuses. -/
theorem C48_not_floating : ∃ r doc,
    fromURDF Sample.envR (some { name := some "r", links := [⟨"a", none⟩, ⟨"b", none⟩]
                                 joints := [⟨"j", "floating", "a", "b", none, none, none, none⟩] }) {} = .ok r ∧
    toYAML Sample.envR r = .ok doc ∧ fromYAML Sample.envR (some doc) {} = .error .runtimeError := by
  have h : (match fromURDF Sample.envR (some { name := some "r", links := [⟨"a", none⟩, ⟨"b", none⟩]
                                               joints := [⟨"j", "floating", "a", "b", none, none, none, none⟩] }) {} with
    | .ok r => (match toYAML Sample.envR r with
        | .ok doc => (match fromYAML Sample.envR (some doc) {} with
          | .ok _ => false
          | .error e => decide (e = .runtimeError))
        | .error _ => false)
    | .error _ => false) = true := by decide +kernel
  split at h
  · rename_i r hr
    split at h
    · rename_i doc hdoc
      split at h
      · simp at h
      · rename_i e he
        rw [decide_eq_true_eq] at h
        subst h
        exact ⟨r, doc, hr, hdoc, he⟩
    · simp at h
  · simp at h

/-! ### Example for the positive part -/

/-- The robot read from a document with a prismatic joint, limits and a rotated frame meets all the conditions. -/
theorem Sample.two_ready : ∃ r : PResult ℚ,
    fromURDF Sample.envR (some (Sample.two ⟨some [1, 2, 3], some [0, 0, 1]⟩)) {} = .ok r ∧ r.Standard Sample.envR "a" true ∧ r.mb.bodies.length = 2 ∧
    (∀ b ∈ r.mb.bodies, b.Writable Sample.envR ∧ b.name ≠ "") ∧
    r.mb.joints.tail = [Joint.mk' .Prism ⟨0, 0, 1⟩ true "j"] ∧
    r.limits.lower.find "j" = some [.val 0] ∧ r.limits.upper.find "j" = some [.val 1] ∧
    ∀ X ∈ r.mb.Xt.tail, X.Writable Sample.envR ∧ X.WritableX Sample.envR := by
  have T := C55_urdf_tree (env := Sample.envR) (params := {}) (robot := Sample.two ⟨some [1, 2, 3], some [0, 0, 1]⟩) rfl
    rfl rfl rfl (by decide +kernel) (by decide +kernel)
    (by
      intro l hl i hi
      have : ∀ l ∈ (Sample.two ⟨some [1, 2, 3], some [0, 0, 1]⟩).links, ∀ i ∈ l.inertial,
          i.mass ≠ none ∧ i.inertia ≠ none ∧ i.origin = none := by decide +kernel
      obtain ⟨h1, h2, h3⟩ := this l hl i hi
      exact ⟨h1, h2, fun o ho => by rw [h3] at ho; cases ho⟩)
    (by
      intro j hj o ho v hv
      have : ∀ j ∈ (Sample.two ⟨some [1, 2, 3], some [0, 0, 1]⟩).joints, ∀ o ∈ j.origin, ∀ v ∈ o.rpy, v.length = 3 := by
        decide +kernel
      exact this j hj o ho v hv)
    (by decide +kernel)
    { root := by decide +kernel
      once := by decide +kernel
      top := by decide +kernel
      below := by decide +kernel
      rank := ⟨fun n => ["a", "b"].idxOf n, by decide +kernel⟩ }
  obtain ⟨r, h1, -, -, h4⟩ := T
  have hS := h4 (by decide +kernel)
  have h : (match fromURDF Sample.envR (some (Sample.two ⟨some [1, 2, 3], some [0, 0, 1]⟩)) {} with
    | .ok r => decide (r.mb.bodies.length = 2) &&
        decide (∀ b ∈ r.mb.bodies, (0 < b.inertia.m ∧ b.inertia.I.isZeroE 0 = false) ∧ b.name ≠ "") &&
        decide (r.mb.joints.tail = [Joint.mk' .Prism ⟨0, 0, 1⟩ true "j"]) &&
        decide (r.limits.lower.find "j" = some [.val 0]) && decide (r.limits.upper.find "j" = some [.val 1]) &&
        decide (∀ X ∈ r.mb.Xt.tail,
        (angleAxis (Sample.euler X.E.tr).x ⟨1, 0, 0⟩ * angleAxis (Sample.euler X.E.tr).y ⟨0, 1, 0⟩ *
          angleAxis (Sample.euler X.E.tr).z ⟨0, 0, 1⟩ = X.E.tr) ∧
        urdfRPY (Sample.euler X.E.tr).x (Sample.euler X.E.tr).y (Sample.euler X.E.tr).z = X.E)
    | .error _ => false) = true := by decide +kernel
  have sharp : ∀ v : Vec3 ℚ, v.Sharp 0 := by
    intro v h
    simp only [Vec3.isZeroE, Bool.and_eq_true, decide_eq_true_eq, abs_nonpos_iff] at h
    exact Vec3.ext h.1.1 h.1.2 h.2
  rw [h1] at h
  dsimp only at h
  simp only [Bool.and_eq_true, decide_eq_true_eq] at h
  obtain ⟨⟨⟨⟨⟨a1, a2⟩, a3⟩, a4⟩, a5⟩, a6⟩ := h
  refine ⟨r, h1, hS, a1, fun b hb => ⟨.inl ⟨(a2 b hb).1.1, (a2 b hb).1.2, sharp _⟩, (a2 b hb).2⟩, a3, a4, a5, fun X hX => ?_⟩
  exact ⟨⟨sharp _, sharp _, (a6 X hX).1⟩, ⟨sharp _, sharp _, (a6 X hX).2, fun x _ => rfl⟩⟩

example : ∃ (r : PResult ℚ) (doc : YRobot ℚ) (r' : PResult ℚ), r.mb.bodies.length = 2 ∧ toYAML Sample.envR r = .ok doc ∧
    fromYAML Sample.envR (some doc) {} = .ok r' ∧ r'.mb = r.mb := by
  obtain ⟨r, -, S, hn, hb, hj, hlo, hup, hX⟩ := Sample.two_ready
  obtain ⟨doc, r', h1, h2, -, h3, -⟩ := C48_yaml_round_trip_partial (le_refl _) S (fun b h => (hb b h).1)
    (fun b h => (hb b (List.mem_of_getElem? h)).2)
    (by
      rw [hj]
      intro j hj'
      rw [List.mem_singleton] at hj'
      subst hj'
      refine ⟨.inl ⟨_, _, by decide +kernel, .inr rfl⟩, ?_, fun h => by cases h⟩
      intro x hx
      rcases hx with hx | hx
      · have := hlo.symm.trans hx
        simp at this
        simp [← this]
      · have := hup.symm.trans hx
        simp at this
        simp [← this])
    (fun X h => (hX X h).1)
  exact ⟨r, doc, r', hn, h1, h2, h3⟩

example : ∃ (r : PResult ℚ) (doc : XRobot ℚ) (r' : PResult ℚ), r.mb.bodies.length = 2 ∧ toURDF Sample.envR r = .ok doc ∧
    fromURDF Sample.envR (some doc) {} = .ok r' ∧ r'.mb = r.mb := by
  obtain ⟨r, -, S, hn, hb, hj, hlo, hup, hX⟩ := Sample.two_ready
  obtain ⟨doc, r', h1, h2, -, h3, -⟩ := C47_urdf_round_trip_partial (le_refl _) S
    (fun b h => ⟨(hb b h).1, fun x _ => rfl⟩)
    (by
      rw [hj]
      intro j hj'
      rw [List.mem_singleton] at hj'
      subst hj'
      refine ⟨⟨⟨_, .inl ⟨_, _, by decide +kernel, .inr rfl⟩, .inl rfl⟩, fun _ a _ => ⟨rfl, fun x _ => rfl⟩⟩, ?_⟩
      intro x hx
      rcases hx with hx | hx
      · have := hlo.symm.trans hx
        simp at this
        simp [← this]
      · have := hup.symm.trans hx
        simp at this
        simp [← this])
    (fun X h => (hX X h).2)
  exact ⟨r, doc, r', hn, h1, h2, h3⟩

end RBDyn
