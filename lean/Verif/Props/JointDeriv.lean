import Verif.Lemmas.JointDeriv

/-! Property C06. -/

namespace RBDyn
open scoped Mat3
open Joint

/-- C06: along every differentiable trajectory of valid configurations whose coordinate rates correspond to the
generalized velocity `α`, the pose of the joint moves with spatial velocity `motion(α)`.  Covers every joint type built
forward, and `Rev`, `Prism`, `Cylindrical`, `Fixed` in both directions. -/
theorem C06_motion_is_derivative {ty : JointType} {axis : Vec3 ℝ} (ha : ValidAxis ty axis) {fwd : Bool}
    (hdir : fwd = true ∨ ty = .Rev ∨ ty = .Prism ∨ ty = .Cylindrical ∨ ty = .Fixed) (name : String)
    {q : ℝ → List ℝ} {α : List ℝ} {t : ℝ} (hα : α.length = (Joint.mk' ty axis fwd name).dof)
    (hq : ∀ s, ValidParam ty (q s)) (hd : HasDerivList q (coordRate ty (q t) α) t) :
    ∃ (X : ℝ → PTransform ℝ) (v : MotionVec ℝ), (∀ s, (Joint.mk' ty axis fwd name).pose (q s) = .ok (X s)) ∧
      (Joint.mk' ty axis fwd name).motion α = .ok v ∧ HasSpatialVelocity X v t := by
  obtain ⟨-, hd⟩ := hd
  rw [motion_eq_applyCols (Built.mk ..) hα]
  replace hα : α.length = nDof ty := hα
  cases ty with
  | Rev =>
    obtain ⟨a0, rfl⟩ := List.length_eq_one_iff.1 hα
    have e : ∀ s, q s = [(q s).getD 0 0] := fun s => by
      obtain ⟨q0, h⟩ := List.length_eq_one_iff.1 (hq s).1
      rw [h]; rfl
    have h0 := hd 0
    have hS : applyCols (mk' JointType.Rev axis fwd name).S [a0] = ⟨a0 • sgn (K := ℝ) fwd • axis, 0⟩ := by
      cases fwd <;> ext <;> simp [applyCols, mk', mkS, sgn]
    refine ⟨fun s => ⟨angleAxis (-((q s).getD 0 0)) (sgn fwd • axis), 0⟩, _, fun s => by rw [e s]; rfl, rfl, ?_, ?_⟩
    · rw [hS]
      exact hasDeriv_angleAxis h0 (isUnit3_sgn fwd ha)
    · rw [hS]
      simpa using HasDerivVec.const 0 t
  | Prism =>
    obtain ⟨a0, rfl⟩ := List.length_eq_one_iff.1 hα
    have e : ∀ s, q s = [(q s).getD 0 0] := fun s => by
      obtain ⟨q0, h⟩ := List.length_eq_one_iff.1 (hq s).1
      rw [h]; rfl
    have h0 := hd 0
    have hS : applyCols (mk' JointType.Prism axis fwd name).S [a0] = ⟨0, a0 • sgn (K := ℝ) fwd • axis⟩ := by
      cases fwd <;> ext <;> simp [applyCols, mk', mkS, sgn]
    refine ⟨fun s => ⟨1, ((q s).getD 0 0) • (sgn (K := ℝ) fwd • axis)⟩, _, fun s => by rw [e s]; rfl, rfl, ?_, ?_⟩
    · rw [hS]
      exact (HasDerivMat.const 1 t).congr (by ext <;> simp [Mat3.crossMat])
    · rw [hS]
      exact (HasDerivVec.smul_const h0 (sgn (K := ℝ) fwd • axis)).congr (by simp [coordRate])
  | Cylindrical =>
    obtain ⟨a0, a1, rfl⟩ := List.length_eq_two.1 hα
    have e : ∀ s, q s = [(q s).getD 0 0, (q s).getD 1 0] := fun s => by
      obtain ⟨q0, q1, h⟩ := List.length_eq_two.1 (hq s).1
      rw [h]; rfl
    have h0 := hd 0
    have h1 := hd 1
    have hS : applyCols (mk' JointType.Cylindrical axis fwd name).S [a0, a1] = ⟨a0 • sgn (K := ℝ) fwd • axis, a1 • sgn (K := ℝ) fwd • axis⟩ := by
      cases fwd <;> ext <;> simp [applyCols, mk', mkS, sgn]
    have hu := isUnit3_sgn (K := ℝ) fwd ha
    generalize hb : sgn (K := ℝ) fwd • axis = b at hu hS
    refine ⟨fun s => ⟨angleAxis (-((q s).getD 0 0)) b, ((q s).getD 1 0) • b⟩, _,
      fun s => by rw [e s, ← hb]; rfl, rfl, ?_, ?_⟩
    · rw [hS]
      exact hasDeriv_angleAxis h0 hu
    · rw [hS]
      refine (HasDerivVec.smul_const h1 b).congr ?_
      have h3 := angleAxis_fixes (-((q t).getD 0 0)) hu
      have h4 := IsRot.tr_mulVec (isRot_angleAxis (-((q t).getD 0 0)) hu) b
      rw [h3] at h4
      simp only [Mat3.mulVec_smul, h4]
      simp [coordRate]
  | Fixed =>
    obtain rfl := List.length_eq_zero_iff.1 hα
    have hS : applyCols (mk' JointType.Fixed axis fwd name).S [] = 0 := by simp [applyCols]
    refine ⟨fun _ => 1, _, fun s => rfl, rfl, ?_, ?_⟩
    · rw [hS]
      exact (HasDerivMat.const 1 t).congr (by ext <;> simp [Mat3.crossMat])
    · rw [hS]
      simpa using HasDerivVec.const 0 t
  | Spherical =>
    obtain rfl : fwd = true := by simpa using hdir
    obtain ⟨a0, a1, a2, rfl⟩ := List.length_eq_three.1 hα
    have e : ∀ s, q s = [(q s).getD 0 0, (q s).getD 1 0, (q s).getD 2 0, (q s).getD 3 0] := fun s => by
      obtain ⟨q0, q1, q2, q3, h, -⟩ := (hq s).spherical
      rw [h]; rfl
    have hn : ∀ s, (q s).getD 0 0 * (q s).getD 0 0 + (q s).getD 1 0 * (q s).getD 1 0 + (q s).getD 2 0 * (q s).getD 2 0
        + (q s).getD 3 0 * (q s).getD 3 0 = 1 := fun s => by
      obtain ⟨q0, q1, q2, q3, h, h1⟩ := (hq s).spherical
      rw [h]; simpa using h1
    have h0 := hd 0
    have h1 := hd 1
    have h2 := hd 2
    have h3 := hd 3
    rw [e t] at h0 h1 h2 h3
    simp only [coordRate] at h0 h1 h2 h3
    have key := hasDeriv_quatToE (w := fun s => (q s).getD 0 0) (x := fun s => (q s).getD 1 0)
      (y := fun s => (q s).getD 2 0) (z := fun s => (q s).getD 3 0) (t := t) (p := a0) (q := a1) (r := a2) h0 h1 h2 h3 (hn t)
    refine ⟨fun s => ⟨quatToE ((q s).getD 0 0) ((q s).getD 1 0) ((q s).getD 2 0) ((q s).getD 3 0), 0⟩, _,
      fun s => ?_, rfl, ?_, ?_⟩
    · conv_lhs => rw [e s]
      rw [pose_spherical, inverse_of_unit (by simpa [sgn, Quat.normSq] using hn s)]
      simp only [quatToE_eq_toRot (hn s)]
      simp [sgn]
    · have h5 : (applyCols (mk' JointType.Spherical axis true name).S [a0, a1, a2]).ang = ⟨a0, a1, a2⟩ := by
        ext <;> simp [applyCols, mk', mkS]
      rw [h5]
      exact key
    · have := HasDerivVec.const 0 t
      have h5 : (applyCols (mk' JointType.Spherical axis true name).S [a0, a1, a2]).lin = 0 := by
        ext <;> simp [applyCols, mk', mkS]
      rw [h5]
      simpa using this
  | Planar =>
    obtain rfl : fwd = true := by simpa using hdir
    obtain ⟨a0, a1, a2, rfl⟩ := List.length_eq_three.1 hα
    have e : ∀ s, q s = [(q s).getD 0 0, (q s).getD 1 0, (q s).getD 2 0] := fun s => by
      obtain ⟨q0, q1, q2, h⟩ := List.length_eq_three.1 (hq s).1
      rw [h]; rfl
    have h0 := hd 0
    have h1 := hd 1
    have h2 := hd 2
    rw [e t] at h0 h1 h2
    simp only [coordRate] at h0 h1 h2
    have key := hasDeriv_planar (θ := fun s => (q s).getD 0 0) (x := fun s => (q s).getD 1 0)
      (y := fun s => (q s).getD 2 0) (t := t) (ω := a0) (vx := a1) (vy := a2) h0 h1 h2
    refine ⟨fun s => ⟨rotZ ((q s).getD 0 0), (rotZ ((q s).getD 0 0)).tr *ᵥ ⟨(q s).getD 1 0, (q s).getD 2 0, 0⟩⟩, _,
      fun s => ?_, rfl, ?_⟩
    · conv_lhs => rw [e s]
      rw [pose_planar]; rfl
    · have h5 : (applyCols (mk' JointType.Planar axis true name).S [a0, a1, a2]) = ⟨⟨0, 0, a0⟩, ⟨a1, a2, 0⟩⟩ := by
        ext <;> simp [applyCols, mk', mkS]
      rw [h5]
      exact key
  | Free =>
    obtain rfl : fwd = true := by simpa using hdir
    have e : ∀ s, q s = [(q s).getD 0 0, (q s).getD 1 0, (q s).getD 2 0, (q s).getD 3 0, (q s).getD 4 0,
        (q s).getD 5 0, (q s).getD 6 0] := fun s => by
      obtain ⟨q0, q1, q2, q3, q4, q5, q6, h, -⟩ := (hq s).free
      rw [h]; rfl
    have hn : ∀ s, (q s).getD 0 0 * (q s).getD 0 0 + (q s).getD 1 0 * (q s).getD 1 0 + (q s).getD 2 0 * (q s).getD 2 0
        + (q s).getD 3 0 * (q s).getD 3 0 = 1 := fun s => by
      obtain ⟨q0, q1, q2, q3, q4, q5, q6, h, h1⟩ := (hq s).free
      rw [h]; simpa using h1
    match α, hα with
    | [a0, a1, a2, a3, a4, a5], _ =>
    have h0 := hd 0
    have h1 := hd 1
    have h2 := hd 2
    have h3 := hd 3
    have h4 := hd 4
    have h5 := hd 5
    have h6 := hd 6
    rw [e t] at h0 h1 h2 h3 h4 h5 h6
    simp only [coordRate] at h0 h1 h2 h3 h4 h5 h6
    have key := hasDeriv_quatToE (w := fun s => (q s).getD 0 0) (x := fun s => (q s).getD 1 0)
      (y := fun s => (q s).getD 2 0) (z := fun s => (q s).getD 3 0) (t := t) (p := a0) (q := a1) (r := a2) h0 h1 h2 h3 (hn t)
    have hS : (applyCols (mk' JointType.Free axis true name).S [a0, a1, a2, a3, a4, a5]) =
        ⟨⟨a0, a1, a2⟩, ⟨a3, a4, a5⟩⟩ := by
      ext <;> simp [applyCols, mk', mkS]
    refine ⟨fun s => ⟨quatToE ((q s).getD 0 0) ((q s).getD 1 0) ((q s).getD 2 0) ((q s).getD 3 0),
      ⟨(q s).getD 4 0, (q s).getD 5 0, (q s).getD 6 0⟩⟩, _, fun s => ?_, rfl, ?_⟩
    · conv_lhs => rw [e s]
      rw [pose_free]; rfl
    · rw [hS]
      refine ⟨key, ?_⟩
      have h8 : (quatToE ((q t).getD 0 0) ((q t).getD 1 0) ((q t).getD 2 0) ((q t).getD 3 0)).tr =
          Quat.toRot ⟨(q t).getD 0 0, (q t).getD 1 0, (q t).getD 2 0, (q t).getD 3 0⟩ := by
        rw [quatToE_eq_toRot (hn t)]
        ext <;> simp [Quat.toRot] <;> ring
      show HasDerivVec _ ((quatToE _ _ _ _).tr *ᵥ _) t
      rw [h8]
      exact ⟨h4, h5, h6⟩

/-- C06 is not vacuous: a spherical joint turning about its own z axis. -/
example : (∀ s : ℝ, ValidParam .Spherical [Real.cos s, 0, 0, Real.sin s]) ∧
    ∀ t, HasDerivList (fun s => [Real.cos s, 0, 0, Real.sin s])
      (coordRate .Spherical [Real.cos t, 0, 0, Real.sin t] [0, 0, 2]) t := by
  refine ⟨fun s => ⟨rfl, ?_⟩, fun t => ⟨fun s => rfl, ?_⟩⟩
  · have := Real.cos_sq_add_sin_sq s
    simp only
    nlinarith
  · intro i
    match i with
    | 0 => exact (Real.hasDerivAt_cos t).congr_deriv (by simp [coordRate, neg_div])
    | 1 => exact (hasDerivAt_const _ _).congr_deriv (by simp [coordRate])
    | 2 => exact (hasDerivAt_const _ _).congr_deriv (by simp [coordRate])
    | 3 => exact (Real.hasDerivAt_sin t).congr_deriv (by simp [coordRate])
    | n + 4 => exact (hasDerivAt_const _ _).congr_deriv (by simp [coordRate])

/-- The restriction to forward joints is needed: a reversed planar joint at translation `(1, 0)` that only turns (coordinate
rates `(1, 0, 0)`, generalized velocity `(1, 0, 1)`) does not move with velocity `motion(1, 0, 1)`. -/
theorem C06_reversed_planar_counterexample (name : String) :
    HasDerivList (fun s : ℝ => [s, 1, 0]) (coordRate .Planar [0, 1, 0] [1, 0, 1]) 0 ∧
    ∃ (X : ℝ → PTransform ℝ) (v : MotionVec ℝ),
      (∀ s, (Joint.mk' .Planar (⟨0, 0, 1⟩ : Vec3 ℝ) false name).pose [s, 1, 0] = .ok (X s)) ∧
      (Joint.mk' .Planar (⟨0, 0, 1⟩ : Vec3 ℝ) false name).motion [1, 0, 1] = .ok v ∧
      ¬ HasSpatialVelocity X v 0 := by
  refine ⟨⟨fun s => rfl, fun i => ?_⟩, fun s => PTransform.inv ⟨rotZ s, (rotZ s).tr *ᵥ ⟨1, 0, 0⟩⟩, _,
    fun s => by rw [pose_planar]; rfl, motion_eq_applyCols (Built.mk ..) rfl, fun h => ?_⟩
  · match i with
    | 0 => exact (hasDerivAt_id (0 : ℝ)).congr_deriv (by simp [coordRate])
    | 1 => exact (hasDerivAt_const _ _).congr_deriv (by simp [coordRate])
    | 2 => exact (hasDerivAt_const _ _).congr_deriv (by simp [coordRate])
    | n + 3 => exact (hasDerivAt_const _ _).congr_deriv (by simp [coordRate])
  · have h1 := h.trans.y
    have h2 : HasDerivAt (fun s : ℝ => (PTransform.inv ⟨rotZ s, (rotZ s).tr *ᵥ ⟨1, 0, 0⟩⟩ : PTransform ℝ).r.y) 0 0 := by
      have : (fun s : ℝ => (PTransform.inv ⟨rotZ s, (rotZ s).tr *ᵥ ⟨1, 0, 0⟩⟩ : PTransform ℝ).r.y) = fun _ => 0 := by
        funext s
        simp [PTransform.inv, IsRot.mulVec_tr (isRot_rotZ s)]
      rw [this]
      exact hasDerivAt_const _ _
    have h3 := h1.unique h2
    simp [applyCols, mk', mkS, PTransform.inv, rotZ] at h3

end RBDyn
