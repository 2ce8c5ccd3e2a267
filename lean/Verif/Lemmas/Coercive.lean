import Verif.Lemmas.StateDiff
import Verif.Props.Simulate
import Mathlib.Analysis.Normed.Module.FiniteDimension

/-! Bounds for the velocities of the bodies and joints by the kinetic energy, uniform in the configuration. -/

namespace RBDyn
open scoped Mat3
variable {mb : MultiBody ℝ}

/-- All coordinates are at most `b` in absolute value. -/
def Vec3.Small (b : ℝ) (v : Vec3 ℝ) : Prop := |v.x| ≤ b ∧ |v.y| ≤ b ∧ |v.z| ≤ b

/-- All coordinates are at most `b` in absolute value. -/
def MotionVec.Small (b : ℝ) (v : MotionVec ℝ) : Prop := v.ang.Small b ∧ v.lin.Small b

/-- All coordinates are at most `b` in absolute value. -/
def ForceVec.Small (b : ℝ) (f : ForceVec ℝ) : Prop := f.couple.Small b ∧ f.force.Small b

theorem Vec3.Small.nonneg {b : ℝ} {v : Vec3 ℝ} (h : v.Small b) : 0 ≤ b := (abs_nonneg _).trans h.1

theorem Vec3.Small.mono {b c : ℝ} {v : Vec3 ℝ} (h : v.Small b) (hc : b ≤ c) : v.Small c := ⟨h.1.trans hc, h.2.1.trans hc, h.2.2.trans hc⟩

theorem Vec3.small_exists (v : Vec3 ℝ) : v.Small (|v.x| + |v.y| + |v.z|) := by
  have h1 := abs_nonneg v.x
  have h2 := abs_nonneg v.y
  have h3 := abs_nonneg v.z
  exact ⟨by linarith, by linarith, by linarith⟩

theorem Vec3.Small.add {b c : ℝ} {u v : Vec3 ℝ} (h : u.Small b) (h' : v.Small c) : (u + v).Small (b + c) :=
  ⟨(abs_add_le _ _).trans (add_le_add h.1 h'.1), (abs_add_le _ _).trans (add_le_add h.2.1 h'.2.1), (abs_add_le _ _).trans (add_le_add h.2.2 h'.2.2)⟩

theorem Vec3.Small.sub {b c : ℝ} {u v : Vec3 ℝ} (h : u.Small b) (h' : v.Small c) : (u - v).Small (b + c) :=
  ⟨(abs_sub _ _).trans (add_le_add h.1 h'.1), (abs_sub _ _).trans (add_le_add h.2.1 h'.2.1), (abs_sub _ _).trans (add_le_add h.2.2 h'.2.2)⟩

theorem Vec3.Small.smul {b : ℝ} {v : Vec3 ℝ} (h : v.Small b) (s : ℝ) : (s • v).Small (|s| * b) := by
  refine ⟨?_, ?_, ?_⟩
  · show |s * v.x| ≤ _
    rw [abs_mul]; exact mul_le_mul_of_nonneg_left h.1 (abs_nonneg s)
  · show |s * v.y| ≤ _
    rw [abs_mul]; exact mul_le_mul_of_nonneg_left h.2.1 (abs_nonneg s)
  · show |s * v.z| ≤ _
    rw [abs_mul]; exact mul_le_mul_of_nonneg_left h.2.2 (abs_nonneg s)

theorem abs_mul_le {x y b c : ℝ} (hx : |x| ≤ b) (hy : |y| ≤ c) : |x * y| ≤ b * c := by
  rw [abs_mul]
  exact mul_le_mul hx hy (abs_nonneg _) ((abs_nonneg _).trans hx)

theorem Vec3.Small.dot {b c : ℝ} {u v : Vec3 ℝ} (h : u.Small b) (h' : v.Small c) : |u.dot v| ≤ 3 * (b * c) := by
  show |u.x * v.x + u.y * v.y + u.z * v.z| ≤ _
  have h1 := abs_mul_le h.1 h'.1
  have h2 := abs_mul_le h.2.1 h'.2.1
  have h3 := abs_mul_le h.2.2 h'.2.2
  have h4 := abs_add_le (u.x * v.x + u.y * v.y) (u.z * v.z)
  have h5 := abs_add_le (u.x * v.x) (u.y * v.y)
  linarith

theorem Vec3.Small.cross {b c : ℝ} {u v : Vec3 ℝ} (h : u.Small b) (h' : v.Small c) : (u.cross v).Small (2 * (b * c)) := by
  have k : ∀ {x y z w : ℝ}, |x| ≤ b → |y| ≤ c → |z| ≤ b → |w| ≤ c → |x * y - z * w| ≤ 2 * (b * c) := fun h1 h2 h3 h4 => by
    have := (abs_sub _ _).trans (add_le_add (abs_mul_le h1 h2) (abs_mul_le h3 h4))
    linarith
  exact ⟨k h.2.1 h'.2.2 h.2.2 h'.2.1, k h.2.2 h'.1 h.1 h'.2.2, k h.1 h'.2.1 h.2.1 h'.1⟩

/-- Bounds of the image of a vector under a matrix. -/
theorem Mat3.small_mulVec (M : Mat3 ℝ) : ∃ c, 0 ≤ c ∧ ∀ b v, Vec3.Small b v → (M *ᵥ v).Small (c * b) := by
  refine ⟨3 * (|M.m00| + |M.m01| + |M.m02| + |M.m10| + |M.m11| + |M.m12| + |M.m20| + |M.m21| + |M.m22|), by positivity, fun b v h => ?_⟩
  set S := |M.m00| + |M.m01| + |M.m02| + |M.m10| + |M.m11| + |M.m12| + |M.m20| + |M.m21| + |M.m22| with hS
  have p1 := abs_nonneg M.m00
  have p2 := abs_nonneg M.m01
  have p3 := abs_nonneg M.m02
  have p4 := abs_nonneg M.m10
  have p5 := abs_nonneg M.m11
  have p6 := abs_nonneg M.m12
  have p7 := abs_nonneg M.m20
  have p8 := abs_nonneg M.m21
  have p9 := abs_nonneg M.m22
  have k : ∀ r : Vec3 ℝ, r.Small S → |r.dot v| ≤ 3 * S * b := fun r hr => by have := hr.dot h; linarith
  exact ⟨k ⟨M.m00, M.m01, M.m02⟩ ⟨by dsimp only; linarith, by dsimp only; linarith, by dsimp only; linarith⟩,
    k ⟨M.m10, M.m11, M.m12⟩ ⟨by dsimp only; linarith, by dsimp only; linarith, by dsimp only; linarith⟩,
    k ⟨M.m20, M.m21, M.m22⟩ ⟨by dsimp only; linarith, by dsimp only; linarith, by dsimp only; linarith⟩⟩

/-- A rotation does not enlarge the coordinates by more than three times. -/
theorem IsRot.small {E : Mat3 ℝ} (h : IsRot E) {b : ℝ} {v : Vec3 ℝ} (hv : v.Small b) : (E *ᵥ v).Small (3 * b) := by
  have h1 : E.m00 * E.m00 + E.m01 * E.m01 + E.m02 * E.m02 = 1 := by simpa [Mat3.tr] using congrArg Mat3.m00 (IsRot.mul_tr h)
  have h2 : E.m10 * E.m10 + E.m11 * E.m11 + E.m12 * E.m12 = 1 := by simpa [Mat3.tr] using congrArg Mat3.m11 (IsRot.mul_tr h)
  have h3 : E.m20 * E.m20 + E.m21 * E.m21 + E.m22 * E.m22 = 1 := by simpa [Mat3.tr] using congrArg Mat3.m22 (IsRot.mul_tr h)
  have k : ∀ r : Vec3 ℝ, r.x * r.x + r.y * r.y + r.z * r.z = 1 → |r.dot v| ≤ 3 * b := fun r hr => by
    have hs : r.Small 1 := ⟨abs_le_one_iff_mul_self_le_one.2 (by nlinarith), abs_le_one_iff_mul_self_le_one.2 (by nlinarith),
      abs_le_one_iff_mul_self_le_one.2 (by nlinarith)⟩
    have := hs.dot hv
    linarith
  exact ⟨k ⟨_, _, _⟩ h1, k ⟨_, _, _⟩ h2, k ⟨_, _, _⟩ h3⟩

theorem MotionVec.Small.nonneg {b : ℝ} {v : MotionVec ℝ} (h : v.Small b) : 0 ≤ b := h.1.nonneg

theorem MotionVec.Small.mono {b c : ℝ} {v : MotionVec ℝ} (h : v.Small b) (hc : b ≤ c) : v.Small c := ⟨h.1.mono hc, h.2.mono hc⟩

theorem ForceVec.Small.mono {b c : ℝ} {v : ForceVec ℝ} (h : v.Small b) (hc : b ≤ c) : v.Small c := ⟨h.1.mono hc, h.2.mono hc⟩

theorem MotionVec.Small.dot {b c : ℝ} {v : MotionVec ℝ} {f : ForceVec ℝ} (h : v.Small b) (h' : f.Small c) : |v.dot f| ≤ 6 * (b * c) := by
  have h1 := h.1.dot h'.1
  have h2 := h.2.dot h'.2
  have h3 := abs_add_le (v.ang.dot f.couple) (v.lin.dot f.force)
  show |v.ang.dot f.couple + v.lin.dot f.force| ≤ _
  linarith

theorem ForceVec.small_exists (f : ForceVec ℝ) : ∃ c, 0 ≤ c ∧ f.Small c :=
  ⟨_, add_nonneg f.couple.small_exists.nonneg f.force.small_exists.nonneg,
    f.couple.small_exists.mono (le_add_of_nonneg_right f.force.small_exists.nonneg),
    f.force.small_exists.mono (le_add_of_nonneg_left f.couple.small_exists.nonneg)⟩

/-- Bounds of the momentum by the velocity. -/
theorem RBInertia.small_mulMotion (I : RBInertia ℝ) : ∃ c, 0 ≤ c ∧ ∀ b v, MotionVec.Small b v → (I.mulMotion v).Small (c * b) := by
  obtain ⟨c1, h1, k1⟩ := I.I.toMat.small_mulVec
  have hh := I.h.small_exists
  set d := |I.h.x| + |I.h.y| + |I.h.z|
  have hd : 0 ≤ d := hh.nonneg
  refine ⟨c1 + 2 * d + |I.m|, by positivity, fun b v hv => ⟨?_, ?_⟩⟩
  · refine ((k1 b _ hv.1).add (hh.cross hv.2)).mono ?_
    have := mul_nonneg (abs_nonneg I.m) hv.nonneg
    nlinarith
  · refine ((hv.2.smul I.m).sub (hh.cross hv.1)).mono ?_
    have := mul_nonneg h1 hv.nonneg
    nlinarith

/-- Bounds of a transformed velocity. -/
theorem PTransform.small_mulMotion {X : PTransform ℝ} (h : IsRigid X) : ∃ c, 0 ≤ c ∧ ∀ b v, MotionVec.Small b v → (X.mulMotion v).Small (c * b) := by
  have hr := X.r.small_exists
  set d := |X.r.x| + |X.r.y| + |X.r.z|
  have hd : 0 ≤ d := hr.nonneg
  refine ⟨3 + 6 * d, by positivity, fun b v hv => ⟨?_, ?_⟩⟩
  · refine (IsRot.small h hv.1).mono ?_
    have := mul_nonneg hd hv.nonneg
    nlinarith
  · refine (IsRot.small h (hv.2.sub (hr.cross hv.1))).mono (le_of_eq ?_)
    ring

/-- A continuous quadratic function that is positive away from zero is bounded below by a multiple of the square of the norm. -/
theorem quadratic_coercive {ι : Type} [Fintype ι] {f : (ι → ℝ) → ℝ} (hc : Continuous f) (hh : ∀ (s : ℝ) x, f (s • x) = s ^ 2 * f x)
    (hp : ∀ x, x ≠ 0 → 0 < f x) : ∃ c, 0 < c ∧ ∀ x, c * ‖x‖ ^ 2 ≤ f x := by
  by_cases hne : (Metric.sphere (0 : ι → ℝ) 1).Nonempty
  · obtain ⟨z, hz, hm⟩ := (isCompact_sphere (0 : ι → ℝ) 1).exists_isMinOn hne hc.continuousOn
    have hz0 : z ≠ 0 := by
      intro h
      rw [h] at hz
      simp at hz
    refine ⟨f z, hp z hz0, fun x => ?_⟩
    by_cases hx : x = 0
    · have := hh 0 x
      rw [hx] at this ⊢
      simp at this
      simp [this]
    · have hn : ‖x‖ ≠ 0 := norm_ne_zero_iff.2 hx
      have h1 : ‖x‖⁻¹ • x ∈ Metric.sphere (0 : ι → ℝ) 1 := by
        rw [mem_sphere_zero_iff_norm, norm_smul, norm_inv, norm_norm, inv_mul_cancel₀ hn]
      have h2 : f z ≤ f (‖x‖⁻¹ • x) := hm h1
      have h3 := hh ‖x‖ (‖x‖⁻¹ • x)
      rw [smul_smul, mul_inv_cancel₀ hn, one_smul] at h3
      rw [h3]
      nlinarith [sq_nonneg ‖x‖]
  · refine ⟨1, one_pos, fun x => ?_⟩
    have hx : x = 0 := by
      by_contra hx
      have hn : ‖x‖ ≠ 0 := norm_ne_zero_iff.2 hx
      exact hne ⟨‖x‖⁻¹ • x, by rw [mem_sphere_zero_iff_norm, norm_smul, norm_inv, norm_norm, inv_mul_cancel₀ hn]⟩
    have := hh 0 x
    rw [hx] at this ⊢
    simp at this
    simp [this]

/-- The velocity of a massive body is bounded by the square root of its kinetic energy. -/
theorem RBInertia.coercive {I : RBInertia ℝ} (hI : ∀ v : MotionVec ℝ, v ≠ 0 → 0 < v.dot (I.mulMotion v)) :
    ∃ c, 0 ≤ c ∧ ∀ v : MotionVec ℝ, v.Small (c * √(v.dot (I.mulMotion v))) := by
  let g : (Fin 6 → ℝ) → MotionVec ℝ := fun x => ⟨⟨x 0, x 1, x 2⟩, ⟨x 3, x 4, x 5⟩⟩
  have hcont : Continuous fun x => (g x).dot (I.mulMotion (g x)) := by
    simp only [g, MotionVec.dot, RBInertia.mulMotion, Vec3.dot, Mat3.mulVec, Vec3.cross]
    simp
    fun_prop
  have hhom : ∀ (s : ℝ) x, (g (s • x)).dot (I.mulMotion (g (s • x))) = s ^ 2 * (g x).dot (I.mulMotion (g x)) := by
    intro s x
    have e : g (s • x) = s • g x := by ext <;> simp [g]
    rw [e, RBInertia.mulMotion_smul, MotionVec.smul_dot, MotionVec.dot_smul]
    ring
  obtain ⟨c, hc, hb⟩ := quadratic_coercive hcont hhom fun x hx => hI _ fun h => hx (by
    have h1 := congrArg (fun v : MotionVec ℝ => v.ang.x) h
    have h2 := congrArg (fun v : MotionVec ℝ => v.ang.y) h
    have h3 := congrArg (fun v : MotionVec ℝ => v.ang.z) h
    have h4 := congrArg (fun v : MotionVec ℝ => v.lin.x) h
    have h5 := congrArg (fun v : MotionVec ℝ => v.lin.y) h
    have h6 := congrArg (fun v : MotionVec ℝ => v.lin.z) h
    funext i
    fin_cases i
    · exact h1
    · exact h2
    · exact h3
    · exact h4
    · exact h5
    · exact h6)
  refine ⟨√c⁻¹, Real.sqrt_nonneg _, fun v => ?_⟩
  let x : Fin 6 → ℝ := ![v.ang.x, v.ang.y, v.ang.z, v.lin.x, v.lin.y, v.lin.z]
  have hx : g x = v := by ext <;> rfl
  have h1 := hb x
  rw [hx] at h1
  have h2 : ‖x‖ ≤ √c⁻¹ * √(v.dot (I.mulMotion v)) := by
    rw [← Real.sqrt_mul (by positivity)]
    refine Real.le_sqrt_of_sq_le ?_
    rw [inv_mul_eq_div, le_div_iff₀ hc]
    linarith
  have h3 : ∀ i, |x i| ≤ √c⁻¹ * √(v.dot (I.mulMotion v)) := fun i => (norm_le_pi_norm x i).trans h2
  exact ⟨⟨h3 0, h3 1, h3 2⟩, ⟨h3 3, h3 4, h3 5⟩⟩

/-! ### Reading a joint velocity off the velocities of the bodies -/

theorem IsRot.dot_fixed {E : Mat3 ℝ} (h : IsRot E) {a : Vec3 ℝ} (ha : E *ᵥ a = a) (v : Vec3 ℝ) : (E *ᵥ v).dot a = v.dot a := by
  have e : E.tr *ᵥ a = a := by
    conv_lhs => rw [← ha]
    rw [← Mat3.mul_mulVec, h.1, Mat3.one_mulVec]
  rw [Vec3.dot_comm, Mat3.dot_mulVec, e, Vec3.dot_comm]

theorem single_cases {x : List ℝ} (h : x.length = 1) : ∃ u, x = [u] := List.length_eq_one_iff.1 h

/-- For each degree of freedom of a revolute, prismatic or cylindrical joint there is a force that the joint does not transmit differently in
different positions, and whose power along the joint is its velocity. -/
theorem axis_probe (wf : mb.WF) (hr : mb.Rigid) (hS : ∀ j ∈ mb.joints, ∀ c ∈ j.S, c ≠ 0) {i a : Nat}
    (hi : i < mb.bodies.length) (ha : a < mb.dofAt i) {j : Joint ℝ} (hj : mb.joints[i]? = some j) (hty : j.type.Plain) :
    ∃ φ : ForceVec ℝ, (∀ q : List (List ℝ), i < q.length → ((q[i]?).getD []).length = mb.dofAt i → ∀ u, ((mb.poseAt q i).mulMotion u).dot φ = u.dot φ) ∧
      ∀ α, SizedDof mb α → (mb.jointMotion α i).dot φ = entry α i a := by
  have hm := List.mem_of_getElem? hj
  obtain ⟨t, ax, f, n, hv, hjj⟩ := (hr.joints j hm).exists_mk
  have hpose : ∀ x, j.pose x = (Joint.mk' t ax f n).pose x := fun x => by
    rcases hjj with rfl | ⟨mn, m, o, rfl⟩
    · rfl
    · rfl
  have hjS : j.S = Joint.mkS (Joint.sgn f) t ax := by
    rcases hjj with rfl | ⟨mn, m, o, rfl⟩ <;> rfl
  have hjt : j.type = t := by
    rcases hjj with rfl | ⟨mn, m, o, rfl⟩ <;> rfl
  have hjd : mb.dofAt i = Joint.nDof t := by
    have : mb.dofAt i = j.dof := by simp [MultiBody.dofAt, hj]
    rw [this]
    rcases hjj with rfl | ⟨mn, m, o, rfl⟩ <;> rfl
  have hposeAt : ∀ q : List (List ℝ), i < q.length → mb.poseAt q i = ((Joint.mk' t ax f n).pose ((q[i]?).getD [])).toOption.getD 1 := fun q hl => by
    unfold MultiBody.poseAt
    rw [hj, List.getElem?_eq_getElem hl]
    exact congrArg (fun r => Option.getD (Except.toOption r) 1) (hpose _)
  have hjm : ∀ α, mb.jointMotion α i = applyCols (Joint.mkS (Joint.sgn f) t ax) ((α[i]?).getD []) := fun α => by
    unfold MultiBody.jointMotion MultiBody.SAt
    rw [hj]
    show applyCols j.S _ = _
    rw [hjS]
  have hlen : ∀ q, SizedDof mb q → ((q[i]?).getD []).length = Joint.nDof t := fun q hq => (hq.getD_length wf hi).trans hjd
  have hent : ∀ α : List (List ℝ), entry α i a = ((α[i]?).getD []).getD a 0 := fun _ => rfl
  have hne : ∀ c ∈ Joint.mkS (Joint.sgn (K := ℝ) f) t ax, c ≠ 0 := fun c hc => hS j hm c (hjS ▸ hc)
  rw [hjd] at ha
  have hsq := Joint.sgn_sq (K := ℝ) f
  rw [hjt] at hty
  rcases hty with rfl | rfl | rfl | rfl
  · have hu : IsUnit3 ax := hv
    have hu' := Joint.isUnit3_sgn f hu
    have ha0 : a = 0 := by simp [Joint.nDof] at ha; omega
    subst ha0
    refine ⟨⟨Joint.sgn (K := ℝ) f • ax, 0⟩, fun q hl hq u => ?_, fun α hα => ?_⟩
    · obtain ⟨x, hx⟩ := single_cases (hq.trans hjd)
      rw [hposeAt q hl, hx, Joint.pose_rev]
      show (angleAxis (-x) (Joint.sgn (K := ℝ) f • ax) *ᵥ u.ang).dot (Joint.sgn (K := ℝ) f • ax) + Vec3.dot _ 0 = _ + Vec3.dot _ 0
      rw [IsRot.dot_fixed (Joint.isRot_angleAxis _ hu') (Joint.angleAxis_fixes _ hu')]
      simp [Vec3.dot]
    · obtain ⟨x, hx⟩ := single_cases (hlen α hα)
      rw [hjm, hent, hx]
      unfold IsUnit3 at hu'
      simp [applyCols, Joint.mkS, MotionVec.dot, Vec3.dot]
      simp at hu'
      linear_combination x * hu'
  · have ha0 : a = 0 := by simp [Joint.nDof] at ha; omega
    subst ha0
    have hax : ax.dot ax ≠ 0 := by
      intro h0
      refine hne (Joint.sgn (K := ℝ) f • ⟨0, ax⟩) (by simp [Joint.mkS]) ?_
      have h1 : ax.x * ax.x + ax.y * ax.y + ax.z * ax.z = 0 := h0
      have hx : ax.x = 0 := by nlinarith [mul_self_nonneg ax.x, mul_self_nonneg ax.y, mul_self_nonneg ax.z]
      have hy : ax.y = 0 := by nlinarith [mul_self_nonneg ax.x, mul_self_nonneg ax.y, mul_self_nonneg ax.z]
      have hz : ax.z = 0 := by nlinarith [mul_self_nonneg ax.x, mul_self_nonneg ax.y, mul_self_nonneg ax.z]
      ext <;> simp [hx, hy, hz]
    refine ⟨⟨0, ((ax.dot ax)⁻¹ * Joint.sgn (K := ℝ) f) • ax⟩, fun q hl hq u => ?_, fun α hα => ?_⟩
    · obtain ⟨x, hx⟩ := single_cases (hq.trans hjd)
      rw [hposeAt q hl, hx, Joint.pose_prism]
      simp [Except.toOption, PTransform.mulMotion, MotionVec.dot, Vec3.dot]
      ring
    · obtain ⟨x, hx⟩ := single_cases (hlen α hα)
      rw [hjm, hent, hx]
      have h1 : (ax.dot ax)⁻¹ * (ax.x * ax.x + ax.y * ax.y + ax.z * ax.z) = 1 := inv_mul_cancel₀ hax
      simp [applyCols, Joint.mkS, MotionVec.dot]
      simp [Vec3.dot] at h1 ⊢
      linear_combination x * h1 * (Joint.sgn (K := ℝ) f * Joint.sgn (K := ℝ) f) + x * hsq
  · have hu : IsUnit3 ax := hv
    have hu' := Joint.isUnit3_sgn f hu
    have hfix : ∀ (x y : ℝ) (u : MotionVec ℝ) (b c : ℝ), (PTransform.mulMotion ⟨angleAxis (-x) (Joint.sgn (K := ℝ) f • ax), y • (Joint.sgn (K := ℝ) f • ax)⟩ u).dot
        ⟨b • Joint.sgn (K := ℝ) f • ax, c • Joint.sgn (K := ℝ) f • ax⟩ = u.dot ⟨b • Joint.sgn (K := ℝ) f • ax, c • Joint.sgn (K := ℝ) f • ax⟩ := by
      intro x y u b c
      generalize Joint.sgn (K := ℝ) f • ax = w at hu' ⊢
      have hE := Joint.isRot_angleAxis (-x) hu'
      have hF := Joint.angleAxis_fixes (-x) hu'
      have e1 : ∀ (b : ℝ) (v : Vec3 ℝ), v.dot (b • w) = b * v.dot w := fun b v => by simp [Vec3.dot]; ring
      show (angleAxis (-x) w *ᵥ u.ang).dot (b • w) + (angleAxis (-x) w *ᵥ (u.lin - (y • w).cross u.ang)).dot (c • w) =
        u.ang.dot (b • w) + u.lin.dot (c • w)
      rw [e1, e1, e1, e1, IsRot.dot_fixed hE hF, IsRot.dot_fixed hE hF]
      simp [Vec3.dot]
      left
      ring
    have hpair : ∀ x : List ℝ, x.length = 2 → ∃ u v, x = [u, v] := fun x hx => List.length_eq_two.1 hx
    have hcase : a = 0 ∨ a = 1 := by simp [Joint.nDof] at ha; omega
    rcases hcase with rfl | rfl
    · refine ⟨⟨(1 : ℝ) • Joint.sgn (K := ℝ) f • ax, (0 : ℝ) • Joint.sgn (K := ℝ) f • ax⟩, fun q hl hq u => ?_, fun α hα => ?_⟩
      · obtain ⟨x, y, hx⟩ := hpair _ (hq.trans hjd)
        rw [hposeAt q hl, hx, Joint.pose_cylindrical]
        exact hfix x y u 1 0
      · obtain ⟨x, y, hx⟩ := hpair _ (hlen α hα)
        rw [hjm, hent, hx]
        unfold IsUnit3 at hu'
        simp [applyCols, Joint.mkS, MotionVec.dot, Vec3.dot]
        simp at hu'
        linear_combination x * hu'
    · refine ⟨⟨(0 : ℝ) • Joint.sgn (K := ℝ) f • ax, (1 : ℝ) • Joint.sgn (K := ℝ) f • ax⟩, fun q hl hq u => ?_, fun α hα => ?_⟩
      · obtain ⟨x, y, hx⟩ := hpair _ (hq.trans hjd)
        rw [hposeAt q hl, hx, Joint.pose_cylindrical]
        exact hfix x y u 0 1
      · obtain ⟨x, y, hx⟩ := hpair _ (hlen α hα)
        rw [hjm, hent, hx]
        unfold IsUnit3 at hu'
        simp [applyCols, Joint.mkS, MotionVec.dot, Vec3.dot]
        simp at hu'
        linear_combination y * hu'
  · simp [Joint.nDof] at ha

end RBDyn
