import Verif.Lemmas.StepJoint

/-! One step of the integration of a joint of any type is one Euler step, up to a constant times the square of the step. -/

namespace RBDyn
open scoped Mat3

/-- A step and the parameters, velocities and accelerations of a joint. -/
abbrev StepX : Type := ℝ × List ℝ × List ℝ × List ℝ

/-- Bounded steps from bounded states. -/
def StepS (B : ℝ) : Set StepX :=
  {p | (0 ≤ p.1 ∧ p.1 ≤ 1) ∧ (∀ i, |p.2.1.getD i 0| ≤ B) ∧ (∀ i, |p.2.2.1.getD i 0| ≤ B) ∧ ∀ i, |p.2.2.2.getD i 0| ≤ B}

variable {B : ℝ} {φ : StepX → ℝ}

theorem near_step : Near (StepS B) φ (fun p => p.1) fun p => p.1 :=
  .of_bound zero_le_one fun p hp => by rw [abs_of_nonneg hp.1.1]; exact hp.1.2

theorem near_x (hB : 0 ≤ B) (i : Nat) : Near (StepS B) φ (fun p => p.2.1.getD i 0) fun p => p.2.1.getD i 0 := .of_bound hB fun _ hp => hp.2.1 i
theorem near_a (hB : 0 ≤ B) (i : Nat) : Near (StepS B) φ (fun p => p.2.2.1.getD i 0) fun p => p.2.2.1.getD i 0 := .of_bound hB fun _ hp => hp.2.2.1 i
theorem near_b (hB : 0 ≤ B) (i : Nat) : Near (StepS B) φ (fun p => p.2.2.2.getD i 0) fun p => p.2.2.2.getD i 0 := .of_bound hB fun _ hp => hp.2.2.2 i

/-- Three consecutive numbers of a list. -/
def vecAt (l : List ℝ) (k : Nat) : Vec3 ℝ := ⟨l.getD k 0, l.getD (k + 1) 0, l.getD (k + 2) 0⟩

/-- The first four numbers of a list. -/
def quatAt (l : List ℝ) : Quat ℝ := ⟨l.getD 0 0, l.getD 1 0, l.getD 2 0, l.getD 3 0⟩

theorem near_xv (hB : 0 ≤ B) (k : Nat) : NearV (StepS B) φ (fun p => vecAt p.2.1 k) fun p => vecAt p.2.1 k := ⟨near_x hB _, near_x hB _, near_x hB _⟩
theorem near_av (hB : 0 ≤ B) (k : Nat) : NearV (StepS B) φ (fun p => vecAt p.2.2.1 k) fun p => vecAt p.2.2.1 k := ⟨near_a hB _, near_a hB _, near_a hB _⟩
theorem near_bv (hB : 0 ≤ B) (k : Nat) : NearV (StepS B) φ (fun p => vecAt p.2.2.2 k) fun p => vecAt p.2.2.2 k := ⟨near_b hB _, near_b hB _, near_b hB _⟩
theorem near_xq (hB : 0 ≤ B) : NearQ (StepS B) φ (fun p => quatAt p.2.1) fun p => quatAt p.2.1 := ⟨near_x hB _, near_x hB _, near_x hB _, near_x hB _⟩

/-- The turned quaternion. -/
noncomputable def stepQuat (p : StepX) (re ae : ℝ) : Quat ℝ :=
  (quatAt p.2.1).mul (qexp ((1 / 2 : ℝ) • (magnusExpansion (vecAt p.2.2.1 0) (vecAt p.2.2.2 0) p.1 re ae).1))

/-- The quaternion turned halfway. -/
noncomputable def stepQuatHalf (p : StepX) (re ae : ℝ) : Quat ℝ :=
  (quatAt p.2.1).mul (qexp ((1 / 2 : ℝ) • (magnusExpansion (vecAt p.2.2.1 0) (vecAt p.2.2.2 0) (p.1 / 2) re ae).1))

theorem stepQuat_near (hB : 0 ≤ B) (re ae : ℝ) : NearQ (StepS B) (fun p => p.1 ^ 2) (fun p => stepQuat p re ae) fun p =>
    (quatAt p.2.1).mul ⟨1, p.1 * (vecAt p.2.2.1 0).x / 2, p.1 * (vecAt p.2.2.1 0).y / 2, p.1 * (vecAt p.2.2.1 0).z / 2⟩ :=
  so3_near (φ := fun _ => 0) (h := fun p : StepX => p.1) (re := fun _ => re) (ae := fun _ => ae) near_step (near_xq hB) (near_av hB 0) (near_bv hB 0)

theorem Near.step_zero : Near (StepS B) (fun p => p.1) (fun p => p.1) fun _ => 0 :=
  ⟨1, zero_le_one, fun p hp => ⟨by rw [sub_zero, one_mul], by rw [abs_of_nonneg hp.1.1]; exact hp.1.2, by rw [abs_zero]; exact zero_le_one⟩⟩

/-- First order: turned quaternions are near where they started. -/
theorem stepQuat_first (hB : 0 ≤ B) (re ae : ℝ) : NearQ (StepS B) (fun p => p.1) (fun p => stepQuat p re ae) fun p => quatAt p.2.1 := by
  refine (NearQ.lower (near_step (φ := fun _ => 0)) (stepQuat_near hB re ae)).trans ?_
  have h0 : ∀ {c : StepX → ℝ}, Near (StepS B) (fun p => p.1) c c → Near (StepS B) (fun p => p.1) (fun p => p.1 * c p / 2) fun _ => 0 := fun hc =>
    ((Near.step_zero.mul hc).div 2).congr (fun _ => rfl) fun _ => by ring
  have hv := near_av (φ := fun p : StepX => p.1) hB 0
  have := (near_xq (φ := fun p : StepX => p.1) hB).mul (v := fun p => ⟨1, p.1 * (vecAt p.2.2.1 0).x / 2, p.1 * (vecAt p.2.2.1 0).y / 2, p.1 * (vecAt p.2.2.1 0).z / 2⟩) (v' := fun _ => ⟨1, 0, 0, 0⟩)
    ⟨.const 1, h0 hv.x, h0 hv.y, h0 hv.z⟩
  simpa only [Quat.mul_one] using this

theorem stepQuatHalf_first (hB : 0 ≤ B) (re ae : ℝ) : NearQ (StepS B) (fun p => p.1) (fun p => stepQuatHalf p re ae) fun p => quatAt p.2.1 := by
  have h1 := so3_near (S := StepS B) (φ := fun _ => 0) (h := fun p : StepX => p.1 / 2) (re := fun _ => re) (ae := fun _ => ae) (near_step.div 2)
    (near_xq hB) (near_av hB 0) (near_bv hB 0)
  have h2 : NearQ (StepS B) (fun p => p.1 / 2) (fun p => stepQuatHalf p re ae) fun p => (quatAt p.2.1).mul
      ⟨1, p.1 / 2 * (vecAt p.2.2.1 0).x / 2, p.1 / 2 * (vecAt p.2.2.1 0).y / 2, p.1 / 2 * (vecAt p.2.2.1 0).z / 2⟩ :=
    NearQ.lower (φ := fun _ => 0) (near_step.div 2) h1
  have h3 : ∀ {f g : StepX → ℝ}, Near (StepS B) (fun p => p.1 / 2) f g → Near (StepS B) (fun p => p.1) f g := fun ⟨K, hK, h⟩ =>
    ⟨K, hK, fun x hx => ⟨(h x hx).1.trans (mul_le_mul_of_nonneg_left (by
      rw [abs_div, abs_of_pos (show (0 : ℝ) < 2 by norm_num)]
      linarith [abs_nonneg x.1]) hK), (h x hx).2⟩⟩
  refine NearQ.trans ⟨h3 h2.w, h3 h2.x, h3 h2.y, h3 h2.z⟩ ?_
  have h0 : ∀ {c : StepX → ℝ}, Near (StepS B) (fun p => p.1) c c → Near (StepS B) (fun p => p.1) (fun p => p.1 / 2 * c p / 2) fun _ => 0 := fun hc =>
    (((Near.step_zero.div 2).mul hc).div 2).congr (fun _ => rfl) fun _ => by ring
  have hv := near_av (φ := fun p : StepX => p.1) hB 0
  have := (near_xq (φ := fun p : StepX => p.1) hB).mul (v := fun p => ⟨1, p.1 / 2 * (vecAt p.2.2.1 0).x / 2, p.1 / 2 * (vecAt p.2.2.1 0).y / 2,
    p.1 / 2 * (vecAt p.2.2.1 0).z / 2⟩) (v' := fun _ => ⟨1, 0, 0, 0⟩) ⟨.const 1, h0 hv.x, h0 hv.y, h0 hv.z⟩
  simpa only [Quat.mul_one] using this

/-! ### Free joints -/

/-- The translation after one undivided step. -/
noncomputable def freeMoved (p : StepX) (prec : ℝ) : Vec3 ℝ :=
  (1 / 6 : ℝ) • ((6 : ℝ) • vecAt p.2.1 4 + p.1 • ((quatAt p.2.1).toRot *ᵥ vecAt p.2.2.1 3) +
    p.1 • ((4 : ℝ) • ((stepQuatHalf p (1 / 10 ^ 12) dblEps).toRot *ᵥ (vecAt p.2.2.1 3 + (p.1 / 2) • vecAt p.2.2.2 3)) +
      (stepQuat p prec prec).toRot *ᵥ (vecAt p.2.2.1 3 + p.1 • vecAt p.2.2.2 3)))

theorem free_near (hB : 0 ≤ B) (prec : ℝ) : NearV (StepS B) (fun p => p.1 ^ 2) (fun p => freeMoved p prec)
    fun p => vecAt p.2.1 4 + p.1 • ((quatAt p.2.1).toRot *ᵥ vecAt p.2.2.1 3) := by
  have v0 : NearV (StepS B) (fun p => p.1) (fun p => vecAt p.2.2.1 3) fun p => vecAt p.2.2.1 3 := near_av hB 3
  have vh : NearV (StepS B) (fun p => p.1) (fun p => vecAt p.2.2.1 3 + (p.1 / 2) • vecAt p.2.2.2 3) fun p => vecAt p.2.2.1 3 :=
    (v0.add (.smul (Near.step_zero.div 2) (near_bv hB 3))).congr (fun _ => rfl) fun _ => by simp
  have vf : NearV (StepS B) (fun p => p.1) (fun p => vecAt p.2.2.1 3 + p.1 • vecAt p.2.2.2 3) fun p => vecAt p.2.2.1 3 :=
    (v0.add (.smul Near.step_zero (near_bv hB 3))).congr (fun _ => rfl) fun _ => by simp
  have m := (NearV.smul (.const (4 : ℝ)) ((stepQuatHalf_first hB (1 / 10 ^ 12) dblEps).rotate vh)).add ((stepQuat_first hB prec prec).rotate vf)
  have r := NearV.raise (h := fun p : StepX => p.1) (near_step (φ := fun _ => 0)) m
  have r0 : NearV (StepS B) (fun p => p.1 ^ 2) (fun p => p.1 • ((quatAt p.2.1).toRot *ᵥ vecAt p.2.2.1 3)) fun p =>
      p.1 • ((quatAt p.2.1).toRot *ᵥ vecAt p.2.2.1 3) := .smul near_step ((near_xq hB).rotate (near_av hB 3))
  have x0 : NearV (StepS B) (fun p => p.1 ^ 2) (fun p => (6 : ℝ) • vecAt p.2.1 4) fun p => (6 : ℝ) • vecAt p.2.1 4 := .smul (.const 6) (near_xv hB 4)
  refine (NearV.smul (.const (1 / 6 : ℝ)) ((x0.add r0).add r)).congr (fun _ => rfl) fun p => ?_
  generalize (quatAt p.2.1).toRot *ᵥ vecAt p.2.2.1 3 = y
  ext <;> simp <;> ring

theorem fourth_free_near {v w dv dw : StepX → Vec3 ℝ} {ψ : StepX → ℝ} (hv : NearV (StepS B) ψ v v) (hw : NearV (StepS B) ψ w w) (hdv : NearV (StepS B) ψ dv dv)
    (hdw : NearV (StepS B) ψ dw dw) : Near (StepS B) ψ (fun p => fourthDerivativeSquaredNormFree (v p) (w p) (dv p) (dw p))
      fun p => fourthDerivativeSquaredNormFree (v p) (w p) (dv p) (dw p) := by
  have nw2 := hw.normSq
  have ndw2 := hdw.normSq
  have wv := hw.dot hv
  have wdw := hw.dot hdw
  have dwv := hdw.dot hv
  have wdv := hw.dot hdv
  have dwdv := hdw.dot hdv
  exact (((((NearV.smul ((nw2.mul nw2).sub ((Near.const 3).mul ndw2)) hv).sub (.smul ((Near.const 12).mul wdw) hdv)).add
    (.smul (((Near.const 4).mul dwdv).sub (nw2.mul wv)) hw)).add (.smul (((Near.const 3).mul dwv).add ((Near.const 8).mul wdv)) hdw)).sub
    (hw.cross ((NearV.smul ((Near.const 5).mul wdw) hv).add (.smul ((Near.const 4).mul nw2) hdv)))).sub
    (hdw.cross ((NearV.smul ((Near.const 2).mul wv) hw).add (.smul nw2 hv))) |>.normSq

/-- Functions bounded on bounded steps, and what they are at most. -/
theorem Near.upper {f g : StepX → ℝ} {ψ : StepX → ℝ} (h : Near (StepS B) ψ f g) : ∃ E, 0 ≤ E ∧ ∀ p ∈ StepS B, f p ≤ E ^ 2 := by
  obtain ⟨K, hK, h⟩ := h
  refine ⟨K + 1, by positivity, fun p hp => ?_⟩
  have := (le_abs_self _).trans (h p hp).2.1
  nlinarith

theorem free_step (hB : 0 ≤ B) {prec : ℝ} (hp : 0 < prec) : ∃ h₀ : ℝ, 0 < h₀ ∧ h₀ ≤ 1 ∧ ∀ p ∈ StepS B, p.1 ≤ h₀ → ∀ fuel, 1 ≤ fuel →
    freeJointIntegration fuel (quatAt p.2.1) (vecAt p.2.1 4) (vecAt p.2.2.1 0) (vecAt p.2.2.1 3) (vecAt p.2.2.2 0) (vecAt p.2.2.2 3) p.1 prec =
      .ok (stepQuat p prec prec, freeMoved p prec) := by
  obtain ⟨h1, h1p, H1⟩ := magnus_flag (B := B) hp
  have nv := near_av (φ := fun p : StepX => p.1) hB 3
  have nw := near_av (φ := fun p : StepX => p.1) hB 0
  have nvD := near_bv (φ := fun p : StepX => p.1) hB 3
  have nwD := near_bv (φ := fun p : StepX => p.1) hB 0
  obtain ⟨E1, hE1, k1⟩ := (fourth_free_near nv nw nvD nwD).upper
  obtain ⟨E2, hE2, k2⟩ := (fourth_free_near (nv.add (.smul near_step nvD)) (nw.add (.smul near_step nwD)) nvD nwD).upper
  obtain ⟨h2, h2p, H2⟩ := subSteps_one (E := E1 + E2) (by positivity) hp
  refine ⟨min 1 (min h1 h2), by positivity, min_le_left _ _, fun p hS hle fuel hf => ?_⟩
  obtain ⟨fuel, rfl⟩ : ∃ f, fuel = f + 1 := ⟨fuel - 1, by omega⟩
  have hm : (magnusExpansion (vecAt p.2.2.1 0) (vecAt p.2.2.2 0) p.1 prec prec).2 = false :=
    H1 _ _ _ ⟨hS.2.2.1 _, hS.2.2.1 _, hS.2.2.1 _⟩ ⟨hS.2.2.2 _, hS.2.2.2 _, hS.2.2.2 _⟩
      (by rw [abs_of_nonneg hS.1.1]; exact hle.trans ((min_le_right _ _).trans (min_le_left _ _)))
  have hs := H2 (√(max (fourthDerivativeSquaredNormFree (vecAt p.2.2.1 3) (vecAt p.2.2.1 0) (vecAt p.2.2.2 3) (vecAt p.2.2.2 0))
    (fourthDerivativeSquaredNormFree (vecAt p.2.2.1 3 + p.1 • vecAt p.2.2.2 3) (vecAt p.2.2.1 0 + p.1 • vecAt p.2.2.2 0) (vecAt p.2.2.2 3) (vecAt p.2.2.2 0))))
    p.1 (Real.sqrt_nonneg _) (Real.sqrt_le_iff.2 ⟨by positivity, max_le ((k1 p hS).trans (by nlinarith)) ((k2 p hS).trans (by nlinarith))⟩) hS.1.1
    (hle.trans ((min_le_right _ _).trans (min_le_right _ _)))
  rw [freeJointIntegration]
  rw [so3_eq]
  simp only [hm, Bool.not_false, if_true]
  unfold freeJointIntegration_
  dsimp only
  rw [hs, Res.bind_ok]
  simp only [Int.cast_one, div_one, sub_self, Int.toNat_zero, List.range_zero, List.foldl_nil]
  rfl

/-! ### Planar joints -/

/-- The turn of a planar joint. -/
noncomputable def planarTurn (p : StepX) : ℝ := p.2.2.1.getD 0 0 * p.1 + p.2.2.2.getD 0 0 * (p.1 * (p.1 / 2))

/-- The turn of a planar joint from the middle to the end of a step. -/
noncomputable def planarRest (p : StepX) : ℝ :=
  planarTurn p - (p.2.2.1.getD 0 0 * (p.1 / 2) + p.2.2.2.getD 0 0 * (p.1 / 2 * (p.1 / 2) / 2))

noncomputable def planarV (p : StepX) : ℝ × ℝ := (p.2.2.1.getD 1 0, p.2.2.1.getD 2 0)
noncomputable def planarVD (p : StepX) : ℝ × ℝ := (p.2.2.2.getD 1 0, p.2.2.2.getD 2 0)
noncomputable def planarX (p : StepX) : ℝ × ℝ := (p.2.1.getD 1 0, p.2.1.getD 2 0)

theorem rot2_turn (a b : ℝ) (u : ℝ × ℝ) : rot2T a (rot2 b u) = rot2T (a - b) u := by
  unfold rot2T rot2
  rw [Real.cos_sub, Real.sin_sub]
  ext <;> simp <;> ring

theorem rot2T_add (a : ℝ) (u v : ℝ × ℝ) : rot2T a (u + v) = rot2T a u + rot2T a v := by
  unfold rot2T
  ext <;> simp <;> ring

theorem rot2T_smul (a c : ℝ) (u : ℝ × ℝ) : rot2T a (c • u) = c • rot2T a u := by
  unfold rot2T
  ext <;> simp <;> ring

theorem rot2T_zero (u : ℝ × ℝ) : rot2T 0 u = u := by
  unfold rot2T
  ext <;> simp

/-- The translation after one undivided step. -/
noncomputable def planarMoved (p : StepX) : ℝ × ℝ :=
  (1 / 6 : ℝ) • (rot2T (planarTurn p) ((6 : ℝ) • planarX p + p.1 • planarV p) +
    p.1 • ((4 : ℝ) • rot2T (planarRest p) (planarV p + (p.1 / 2) • planarVD p) + (planarV p + p.1 • planarVD p)))

theorem planar_fourth_near {v1 v2 w d1 d2 dw : StepX → ℝ} {ψ : StepX → ℝ} (a : Near (StepS B) ψ v1 v1) (b : Near (StepS B) ψ v2 v2) (c : Near (StepS B) ψ w w)
    (d : Near (StepS B) ψ d1 d1) (e : Near (StepS B) ψ d2 d2) (f : Near (StepS B) ψ dw dw) :
    Near (StepS B) ψ (fun p => fourthDerivativeSquaredNormPlanar (v1 p, v2 p) (w p) (d1 p, d2 p) (dw p))
      fun p => fourthDerivativeSquaredNormPlanar (v1 p, v2 p) (w p) (d1 p, d2 p) (dw p) := by
  unfold fourthDerivativeSquaredNormPlanar fourthDerivativePlanar
  dsimp only
  repeat' first | assumption | apply Near.const | apply Near.sub | apply Near.add | apply Near.mul | apply Near.neg

theorem planar_step (hB : 0 ≤ B) {prec : ℝ} (hp : 0 < prec) : ∃ h₀ : ℝ, 0 < h₀ ∧ h₀ ≤ 1 ∧ ∀ p ∈ StepS B, p.1 ≤ h₀ →
    planarJointIntegration (p.2.1.getD 0 0) (planarX p) (p.2.2.1.getD 0 0) (planarV p) (p.2.2.2.getD 0 0) (planarVD p) p.1 prec =
      .ok (p.2.1.getD 0 0 + planarTurn p, planarMoved p) := by
  have n := near_step (φ := fun p : StepX => p.1) (B := B)
  have na := fun i => near_a (φ := fun p : StepX => p.1) hB i
  have nb := fun i => near_b (φ := fun p : StepX => p.1) hB i
  obtain ⟨E1, hE1, k1⟩ := (planar_fourth_near (na 1) (na 2) (na 0) (nb 1) (nb 2) (nb 0)).upper
  obtain ⟨E2, hE2, k2⟩ := (planar_fourth_near ((na 1).add (n.mul (nb 1))) ((na 2).add (n.mul (nb 2))) ((na 0).add (n.mul (nb 0))) (nb 1) (nb 2) (nb 0)).upper
  obtain ⟨h2, h2p, H2⟩ := subSteps_one (E := E1 + E2) (by positivity) hp
  refine ⟨min 1 h2, by positivity, min_le_left _ _, fun p hS hle => ?_⟩
  have hs := H2 (√(max (fourthDerivativeSquaredNormPlanar (planarV p) (p.2.2.1.getD 0 0) (planarVD p) (p.2.2.2.getD 0 0))
    (fourthDerivativeSquaredNormPlanar (planarV p + p.1 • planarVD p) (p.2.2.1.getD 0 0 + p.1 * p.2.2.2.getD 0 0) (planarVD p) (p.2.2.2.getD 0 0))))
    p.1 (Real.sqrt_nonneg _) (Real.sqrt_le_iff.2 ⟨by positivity, max_le ((k1 p hS).trans (by nlinarith)) ((k2 p hS).trans (by nlinarith))⟩) hS.1.1
    (hle.trans (min_le_right _ _))
  unfold planarJointIntegration
  dsimp only
  rw [hs, Res.bind_ok]
  simp only [Int.cast_one, div_one, sub_self, Int.toNat_zero, List.range_zero, List.foldl_nil]
  refine congrArg Except.ok (Prod.ext rfl ?_)
  dsimp only
  rw [rot2T_smul, rot2T_add, rot2T_smul, rot2T_add, rot2T_smul, rot2_turn, rot2_turn, rot2_turn, sub_self, rot2T_zero]
  unfold planarMoved
  have e1 : p.2.1.getD 0 0 + (p.2.2.1.getD 0 0 * p.1 + p.2.2.2.getD 0 0 * (p.1 * (p.1 / 2))) - p.2.1.getD 0 0 = planarTurn p := by
    unfold planarTurn; ring
  have e2 : p.2.1.getD 0 0 + (p.2.2.1.getD 0 0 * p.1 + p.2.2.2.getD 0 0 * (p.1 * (p.1 / 2))) -
      (p.2.1.getD 0 0 + p.2.2.1.getD 0 0 * (p.1 / 2) + p.2.2.2.getD 0 0 * (p.1 / 2 * (p.1 / 2) / 2)) = planarRest p := by
    unfold planarRest planarTurn; ring
  rw [e1, e2]

theorem planarTurn_near (hB : 0 ≤ B) : Near (StepS B) (fun p => p.1 ^ 2) planarTurn fun p => p.1 * p.2.2.1.getD 0 0 := by
  have h2 := Near.sq (S := StepS B) (φ := fun _ => 0) (h := fun p : StepX => p.1) near_step
  refine ((near_step.mul (near_a hB 0)).add ((h2.mul (near_b hB 0)).div 2)).congr (fun p => ?_) fun p => ?_
  · unfold planarTurn; ring
  · ring

theorem square_near {c d : StepX → ℝ} (hc : Near (StepS B) (fun p => p.1 ^ 2) c c) (hd : ∀ p, d p = p.1 * c p) :
    Near (StepS B) (fun p => p.1 ^ 2) (fun p => d p * d p) fun _ => 0 := by
  have h2 := Near.sq (S := StepS B) (φ := fun _ => 0) (h := fun p : StepX => p.1) near_step
  refine (h2.mul (hc.mul hc)).congr (fun p => ?_) fun p => ?_
  · rw [hd]; ring
  · ring

theorem planar_near (hB : 0 ≤ B) :
    Near (StepS B) (fun p => p.1 ^ 2) (fun p => (planarMoved p).1) (fun p => p.2.1.getD 1 0 + p.1 * (p.2.2.1.getD 1 0 + p.2.2.1.getD 0 0 * p.2.1.getD 2 0)) ∧
    Near (StepS B) (fun p => p.1 ^ 2) (fun p => (planarMoved p).2) fun p => p.2.1.getD 2 0 + p.1 * (p.2.2.1.getD 2 0 - p.2.2.1.getD 0 0 * p.2.1.getD 1 0) := by
  have n2 := near_step (φ := fun p : StepX => p.1 ^ 2) (B := B)
  have a2 := fun i => near_a (φ := fun p : StepX => p.1 ^ 2) hB i
  have b2 := fun i => near_b (φ := fun p : StepX => p.1 ^ 2) hB i
  have x2 := fun i => near_x (φ := fun p : StepX => p.1 ^ 2) hB i
  have a1 := fun i => near_a (φ := fun p : StepX => p.1) hB i
  have b1 := fun i => near_b (φ := fun p : StepX => p.1) hB i
  have ht := planarTurn_near hB
  have cT : Near (StepS B) (fun p => p.1 ^ 2) (fun p => planarTurn p * planarTurn p) fun _ => 0 :=
    square_near (c := fun p => p.2.2.1.getD 0 0 + p.2.2.2.getD 0 0 * (p.1 / 2)) ((a2 0).add ((b2 0).mul (n2.div 2))) fun p => by unfold planarTurn; ring
  have cR : Near (StepS B) (fun p => p.1 ^ 2) (fun p => planarRest p * planarRest p) fun _ => 0 :=
    square_near (c := fun p => p.2.2.1.getD 0 0 / 2 + p.2.2.2.getD 0 0 * (p.1 * (3 / 8))) (((a2 0).div 2).add ((b2 0).mul (n2.mul (.const (3 / 8))))) fun p => by
      unfold planarRest planarTurn; ring
  have hcT := Near.cos (h := fun p : StepX => p.1) cT
  have hsT := (Near.sin (h := fun p : StepX => p.1) (φ := fun p : StepX => p.1 ^ 2) cT ht.bounded_left).trans ht
  have hcR := Near.lower (h := fun p : StepX => p.1) (near_step (φ := fun _ => 0)) (Near.cos (h := fun p : StepX => p.1) cR)
  have hR0 : Near (StepS B) (fun p => p.1) planarRest fun _ => 0 :=
    (Near.step_zero.mul (((a1 0).div 2).add ((b1 0).mul (near_step.mul (.const (3 / 8)))))).congr (fun p => by unfold planarRest planarTurn; ring) fun p => by ring
  have hsR := (Near.lower (h := fun p : StepX => p.1) (near_step (φ := fun _ => 0))
    (Near.sin (h := fun p : StepX => p.1) (φ := fun p : StepX => p.1 ^ 2) cR hR0.bounded_left)).trans hR0
  have vh := fun i => ((a1 i).add ((Near.step_zero.div 2).mul (b1 i)))
  have vf := fun i => ((a1 i).add (Near.step_zero.mul (b1 i)))
  have u := fun i => ((Near.const 6).mul (x2 i)).add (n2.mul (a2 i))
  have h2 := Near.sq (S := StepS B) (φ := fun _ => 0) (h := fun p : StepX => p.1) near_step
  have z : ∀ {f g : StepX → ℝ}, (∃ c : StepX → ℝ, Near (StepS B) (fun p => p.1 ^ 2) c c ∧ ∀ p, f p = g p + p.1 * p.1 * c p) →
      Near (StepS B) (fun p => p.1 ^ 2) g g → Near (StepS B) (fun p => p.1 ^ 2) f g := fun ⟨c, hc, e⟩ hg =>
    (hg.add (h2.mul hc)).congr e fun p => by ring
  constructor
  · have m := Near.raise (h := fun p : StepX => p.1) (near_step (φ := fun _ => 0)) (((Near.const 4).mul ((hcR.mul (vh 1)).add (hsR.mul (vh 2)))).add (vf 1))
    have t := (hcT.mul (u 1)).add (hsT.mul (u 2))
    refine Near.trans ((Near.const (1 / 6)).mul (t.add m)) (z ⟨fun p => p.2.2.1.getD 0 0 * p.2.2.1.getD 2 0 / 6, ((a2 0).mul (a2 2)).div 6, fun p => ?_⟩
      ((x2 1).add (n2.mul ((a2 1).add ((a2 0).mul (x2 2))))))
    ring
  · have m := Near.raise (h := fun p : StepX => p.1) (near_step (φ := fun _ => 0)) (((Near.const 4).mul ((hsR.neg.mul (vh 1)).add (hcR.mul (vh 2)))).add (vf 2))
    have t := (hsT.neg.mul (u 1)).add (hcT.mul (u 2))
    refine Near.trans ((Near.const (1 / 6)).mul (t.add m)) (z ⟨fun p => -(p.2.2.1.getD 0 0 * p.2.2.1.getD 1 0 / 6), (((a2 0).mul (a2 1)).div 6).neg, fun p => ?_⟩
      ((x2 2).add (n2.mul ((a2 2).sub ((a2 0).mul (x2 1))))))
    ring

/-! ### Joints of all types -/

/-- One step of a joint is an Euler step. -/
def StepOf (t : JointType) (B prec : ℝ) : Prop :=
  ∃ K h₀ : ℝ, 0 ≤ K ∧ 0 < h₀ ∧ ∀ (h : ℝ) (x a b : List ℝ), 0 ≤ h → h ≤ h₀ → a.length = Joint.nDof t → b.length = Joint.nDof t → ValidParam t x →
    (∀ i, |x.getD i 0| ≤ B) → (∀ i, |a.getD i 0| ≤ B) → (∀ i, |b.getD i 0| ≤ B) →
    ∃ y, (∀ fuel, 1 ≤ fuel → jointIntegration fuel t a b h x prec = .ok y) ∧
      ∀ i, |y.getD i 0 - x.getD i 0 - h * (coordRate t x a).getD i 0| ≤ K * h ^ 2

theorem one_error {x a b h : ℝ} (hb : |b| ≤ B) : |x + (a * h + b * (h * h) / 2) - x - h * a| ≤ B * h ^ 2 := by
  have e : x + (a * h + b * (h * h) / 2) - x - h * a = b / 2 * h ^ 2 := by ring
  rw [e, abs_mul, abs_div, abs_of_pos (show (0 : ℝ) < 2 by norm_num), abs_of_nonneg (sq_nonneg h)]
  exact mul_le_mul_of_nonneg_right (by linarith [abs_nonneg b]) (sq_nonneg h)

/-- The difference of two families, in one constant. -/
theorem Near.le {f g : StepX → ℝ} {K : ℝ} (h : ∀ p ∈ StepS B, |f p - g p| ≤ K * |p.1 ^ 2| ∧ |f p| ≤ K ∧ |g p| ≤ K) {L : ℝ} (hL : K ≤ L) {p : StepX}
    (hp : p ∈ StepS B) {y x r : ℝ} (hf : f p = y) (hg : g p = x + p.1 * r) : |y - x - p.1 * r| ≤ L * p.1 ^ 2 := by
  have h1 := (h p hp).1
  rw [hf, hg, abs_of_nonneg (sq_nonneg p.1), ← sub_sub] at h1
  exact h1.trans (mul_le_mul_of_nonneg_right hL (sq_nonneg _))

theorem step_of_one {t : JointType} (ht : t = .Rev ∨ t = .Prism) (hB : 0 ≤ B) (prec : ℝ) : StepOf t B prec := by
  refine ⟨B, 1, hB, one_pos, fun h x a b h0 h1 ha hb hx bx ba bb => ?_⟩
  have hd : Joint.nDof t = 1 ∧ Joint.nParams t = 1 := by rcases ht with rfl | rfl <;> exact ⟨rfl, rfl⟩
  obtain ⟨a0, rfl⟩ := List.length_eq_one_iff.1 (ha.trans hd.1)
  obtain ⟨b0, rfl⟩ := List.length_eq_one_iff.1 (hb.trans hd.1)
  obtain ⟨x0, rfl⟩ := List.length_eq_one_iff.1 (hx.1.trans hd.2)
  refine ⟨[x0 + (a0 * h + b0 * (h * h) / 2)], ?_, fun i => ?_⟩
  · rcases ht with rfl | rfl <;> exact fun _ _ => rfl
  · have e : coordRate t [x0] [a0] = [a0] := by rcases ht with rfl | rfl <;> rfl
    rw [e]
    match i with
    | 0 => exact one_error (bb 0)
    | i + 1 => simp; positivity

theorem step_of_cylindrical (hB : 0 ≤ B) (prec : ℝ) : StepOf .Cylindrical B prec := by
  refine ⟨B, 1, hB, one_pos, fun h x a b h0 h1 ha hb hx bx ba bb => ?_⟩
  obtain ⟨a0, a1, rfl⟩ := List.length_eq_two.1 ha
  obtain ⟨b0, b1, rfl⟩ := List.length_eq_two.1 hb
  obtain ⟨x0, x1, rfl⟩ := List.length_eq_two.1 hx.1
  refine ⟨[x0 + (a0 * h + b0 * (h * h) / 2), x1 + (a1 * h + b1 * (h * h) / 2)], fun _ _ => rfl, fun i => ?_⟩
  match i with
  | 0 => exact one_error (bb 0)
  | 1 => exact one_error (bb 1)
  | i + 2 => simp [coordRate]; positivity

theorem step_of_fixed (hB : 0 ≤ B) (prec : ℝ) : StepOf .Fixed B prec := by
  refine ⟨B, 1, hB, one_pos, fun h x a b h0 h1 ha hb hx bx ba bb => ?_⟩
  obtain rfl := List.length_eq_zero_iff.1 ha
  refine ⟨x, fun _ _ => rfl, fun i => ?_⟩
  have e : coordRate .Fixed x [] = [] := by unfold coordRate; rfl
  simp [e]
  positivity

theorem step_of_spherical (hB : 0 ≤ B) {prec : ℝ} (hp : 0 < prec) : StepOf .Spherical B prec := by
  obtain ⟨h₀, h₀p, H⟩ := magnus_flag (B := B) hp
  obtain ⟨⟨K0, k0, n0⟩, ⟨K1, k1, n1⟩, ⟨K2, k2, n2⟩, ⟨K3, k3, n3⟩⟩ := stepQuat_near hB prec prec
  refine ⟨K0 + K1 + K2 + K3, min 1 h₀, by positivity, by positivity, fun h x a b h0 h1 ha hb hx bx ba bb => ?_⟩
  obtain ⟨a0, a1, a2, rfl⟩ := list3 ha
  obtain ⟨b0, b1, b2, rfl⟩ := list3 hb
  obtain ⟨x0, x1, x2, x3, rfl⟩ := list4 hx.1
  have hS : ((h, [x0, x1, x2, x3], [a0, a1, a2], [b0, b1, b2]) : StepX) ∈ StepS B := ⟨⟨h0, h1.trans (min_le_left _ _)⟩, bx, ba, bb⟩
  have hm : (magnusExpansion ⟨a0, a1, a2⟩ ⟨b0, b1, b2⟩ h prec prec).2 = false :=
    H _ _ _ ⟨ba 0, ba 1, ba 2⟩ ⟨bb 0, bb 1, bb 2⟩ (by rw [abs_of_nonneg h0]; exact h1.trans (min_le_right _ _))
  set p : StepX := (h, [x0, x1, x2, x3], [a0, a1, a2], [b0, b1, b2]) with hpd
  have hn : (stepQuat p prec prec).normSq = 1 := by
    unfold stepQuat
    rw [Quat.normSq_mul, normSq_qexp, mul_one]
    exact hx.2
  refine ⟨[(stepQuat p prec prec).w, (stepQuat p prec prec).x, (stepQuat p prec prec).y, (stepQuat p prec prec).z], fun fuel hf => ?_, fun i => ?_⟩
  · obtain ⟨fuel, rfl⟩ : ∃ f, fuel = f + 1 := ⟨fuel - 1, by omega⟩
    have e : sphericalJointIntegration (fuel + 1) ⟨x0, x1, x2, x3⟩ ⟨a0, a1, a2⟩ ⟨b0, b1, b2⟩ h prec = .ok (stepQuat p prec prec) := by
      rw [sphericalJointIntegration, so3_break, hm]
      rfl
    rw [spherical_list, e, Res.bind_ok, hn]
    simp
  · match i with
    | 0 => exact Near.le n0 (by linarith) hS rfl (by simp [hpd, quatAt, vecAt, Quat.mul, coordRate]; ring)
    | 1 => exact Near.le n1 (by linarith) hS rfl (by simp [hpd, quatAt, vecAt, Quat.mul, coordRate]; ring)
    | 2 => exact Near.le n2 (by linarith) hS rfl (by simp [hpd, quatAt, vecAt, Quat.mul, coordRate]; ring)
    | 3 => exact Near.le n3 (by linarith) hS rfl (by simp [hpd, quatAt, vecAt, Quat.mul, coordRate]; ring)
    | i + 4 => simp [coordRate]; positivity

theorem step_of_planar (hB : 0 ≤ B) {prec : ℝ} (hp : 0 < prec) : StepOf .Planar B prec := by
  obtain ⟨h₀, h₀p, h₀1, H⟩ := planar_step hB hp
  obtain ⟨K0, k0, n0⟩ := planarTurn_near hB
  obtain ⟨⟨K1, k1, n1⟩, ⟨K2, k2, n2⟩⟩ := planar_near hB
  refine ⟨K0 + K1 + K2, h₀, by positivity, h₀p, fun h x a b h0 h1 ha hb hx bx ba bb => ?_⟩
  obtain ⟨a0, a1, a2, rfl⟩ := list3 ha
  obtain ⟨b0, b1, b2, rfl⟩ := list3 hb
  obtain ⟨x0, x1, x2, rfl⟩ := list3 hx.1
  have hS : ((h, [x0, x1, x2], [a0, a1, a2], [b0, b1, b2]) : StepX) ∈ StepS B := ⟨⟨h0, h1.trans h₀1⟩, bx, ba, bb⟩
  have e := H _ hS h1
  set p : StepX := (h, [x0, x1, x2], [a0, a1, a2], [b0, b1, b2]) with hpd
  refine ⟨[x0 + planarTurn p, (planarMoved p).1, (planarMoved p).2], fun fuel hf => ?_, fun i => ?_⟩
  · rw [planar_list]
    exact (congrArg (· >>= fun H : ℝ × (ℝ × ℝ) => Except.ok [H.1, H.2.1, H.2.2]) e).trans rfl
  · match i with
    | 0 =>
      have := Near.le n0 (show K0 ≤ K0 + K1 + K2 by linarith) hS (y := planarTurn p) (x := 0) (r := a0) rfl (by simp [hpd])
      have e : x0 + planarTurn p - x0 - h * a0 = planarTurn p - 0 - h * a0 := by ring
      simpa [coordRate, e] using this
    | 1 => exact Near.le n1 (by linarith) hS rfl rfl
    | 2 => exact Near.le n2 (by linarith) hS rfl rfl
    | i + 3 => simp [coordRate]; positivity

theorem step_of_free (hB : 0 ≤ B) {prec : ℝ} (hp : 0 < prec) : StepOf .Free B prec := by
  obtain ⟨h₀, h₀p, h₀1, H⟩ := free_step hB hp
  obtain ⟨⟨K0, k0, n0⟩, ⟨K1, k1, n1⟩, ⟨K2, k2, n2⟩, ⟨K3, k3, n3⟩⟩ := stepQuat_near hB prec prec
  obtain ⟨⟨K4, k4, n4⟩, ⟨K5, k5, n5⟩, ⟨K6, k6, n6⟩⟩ := free_near hB prec
  refine ⟨K0 + K1 + K2 + K3 + K4 + K5 + K6, h₀, by positivity, h₀p, fun h x a b h0 h1 ha hb hx bx ba bb => ?_⟩
  obtain ⟨a0, a1, a2, a3, a4, a5, rfl⟩ := list6 ha
  obtain ⟨b0, b1, b2, b3, b4, b5, rfl⟩ := list6 hb
  obtain ⟨x0, x1, x2, x3, x4, x5, x6, rfl⟩ := list7 hx.1
  have hS : ((h, [x0, x1, x2, x3, x4, x5, x6], [a0, a1, a2, a3, a4, a5], [b0, b1, b2, b3, b4, b5]) : StepX) ∈ StepS B :=
    ⟨⟨h0, h1.trans h₀1⟩, bx, ba, bb⟩
  have e := H _ hS h1
  set p : StepX := (h, [x0, x1, x2, x3, x4, x5, x6], [a0, a1, a2, a3, a4, a5], [b0, b1, b2, b3, b4, b5]) with hpd
  have hn : (stepQuat p prec prec).normSq = 1 := by
    unfold stepQuat
    rw [Quat.normSq_mul, normSq_qexp, mul_one]
    exact hx.2
  refine ⟨[(stepQuat p prec prec).w, (stepQuat p prec prec).x, (stepQuat p prec prec).y, (stepQuat p prec prec).z, (freeMoved p prec).x,
    (freeMoved p prec).y, (freeMoved p prec).z], fun fuel hf => ?_, fun i => ?_⟩
  · have e' : freeJointIntegration fuel ⟨x0, x1, x2, x3⟩ ⟨x4, x5, x6⟩ ⟨a0, a1, a2⟩ ⟨a3, a4, a5⟩ ⟨b0, b1, b2⟩ ⟨b3, b4, b5⟩ h prec =
      .ok (stepQuat p prec prec, freeMoved p prec) := e fuel hf
    rw [free_list, e', Res.bind_ok, hn]
    simp
  · match i with
    | 0 => exact Near.le n0 (by linarith) hS rfl (by simp [hpd, quatAt, vecAt, Quat.mul, coordRate]; ring)
    | 1 => exact Near.le n1 (by linarith) hS rfl (by simp [hpd, quatAt, vecAt, Quat.mul, coordRate]; ring)
    | 2 => exact Near.le n2 (by linarith) hS rfl (by simp [hpd, quatAt, vecAt, Quat.mul, coordRate]; ring)
    | 3 => exact Near.le n3 (by linarith) hS rfl (by simp [hpd, quatAt, vecAt, Quat.mul, coordRate]; ring)
    | 4 => exact Near.le n4 (by linarith) hS rfl rfl
    | 5 => exact Near.le n5 (by linarith) hS rfl rfl
    | 6 => exact Near.le n6 (by linarith) hS rfl rfl
    | i + 7 => simp [coordRate]; positivity

/-- One step of the integration of a joint of any type is an Euler step up to a constant times the square of the step, uniformly in bounded states. -/
theorem step_of (t : JointType) (hB : 0 ≤ B) {prec : ℝ} (hp : 0 < prec) : StepOf t B prec := by
  cases t
  · exact step_of_one (.inl rfl) hB prec
  · exact step_of_one (.inr rfl) hB prec
  · exact step_of_spherical hB hp
  · exact step_of_planar hB hp
  · exact step_of_cylindrical hB prec
  · exact step_of_free hB hp
  · exact step_of_fixed hB prec

end RBDyn
