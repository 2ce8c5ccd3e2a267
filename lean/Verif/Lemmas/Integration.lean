import Mathlib.Analysis.SpecificLimits.Basic
import Verif.Model.Integration
import Verif.Lemmas.Kinematics
import Verif.Spec.JointDeriv

/-! Lemmas about numerical integration. -/

namespace RBDyn
open scoped Mat3

theorem Quat.normSq_mul {K : Type} [Scalar K] (a b : Quat K) : (a.mul b).normSq = a.normSq * b.normSq := by
  simp only [Quat.mul, Quat.normSq]; ring

theorem Quat.mul_one {K : Type} [Scalar K] (a : Quat K) : a.mul ⟨1, 0, 0, 0⟩ = a := by
  ext <;> simp [Quat.mul]

theorem Vec3.normSq_nonneg {K : Type} [Scalar K] (v : Vec3 K) : 0 ≤ v.normSq := by
  unfold Vec3.normSq Vec3.dot
  have := mul_self_nonneg v.x
  have := mul_self_nonneg v.y
  have := mul_self_nonneg v.z
  linarith

theorem Vec3.normSq_smul {K : Type} [Scalar K] (c : K) (v : Vec3 K) : (c • v).normSq = c * c * v.normSq := by
  simp [Vec3.normSq, Vec3.dot]; ring

/-- The quaternion `exp(O)`, NumericalIntegration.cpp:268-270. -/
noncomputable def qexp (O : Vec3 ℝ) : Quat ℝ :=
  ⟨Real.cos (√O.normSq), Real.sinc (√O.normSq) * O.x, Real.sinc (√O.normSq) * O.y, Real.sinc (√O.normSq) * O.z⟩

theorem sinc_mul (x : ℝ) : Real.sinc x * x = Real.sin x := by
  by_cases h : x = 0
  · simp [h]
  · rw [Real.sinc_of_ne_zero h, div_mul_cancel₀ _ h]

theorem normSq_qexp (O : Vec3 ℝ) : (qexp O).normSq = 1 := by
  have h1 : √O.normSq * √O.normSq = O.normSq := Real.mul_self_sqrt O.normSq_nonneg
  have h2 := sinc_mul (√O.normSq)
  have h3 := Real.cos_sq_add_sin_sq (√O.normSq)
  have h4 : O.normSq = O.x * O.x + O.y * O.y + O.z * O.z := rfl
  simp only [qexp, Quat.normSq]
  generalize √O.normSq = n at *
  generalize Real.sinc n = s at *
  generalize Real.cos n = c at *
  generalize Real.sin n = d at *
  have : s * O.x * (s * O.x) + s * O.y * (s * O.y) + s * O.z * (s * O.z) = d * d := by
    rw [← h2]; rw [h4] at h1; linear_combination -(s * s) * h1
  nlinarith

/-- Along a fixed unit axis `exp(θ u) = (cos θ, sin θ u)`. -/
theorem qexp_axis {u : Vec3 ℝ} (hu : u.normSq = 1) (θ : ℝ) :
    qexp (θ • u) = ⟨Real.cos θ, Real.sin θ * u.x, Real.sin θ * u.y, Real.sin θ * u.z⟩ := by
  have h1 : √(θ • u).normSq = |θ| := by
    rw [Vec3.normSq_smul, hu, _root_.mul_one, Real.sqrt_mul_self_eq_abs]
  have h2 : Real.sinc |θ| * θ = Real.sin θ := by
    rcases abs_cases θ with ⟨e, -⟩ | ⟨e, -⟩ <;> rw [e]
    · exact sinc_mul θ
    · rw [Real.sinc_neg]; exact sinc_mul θ
  unfold qexp
  rw [h1, Real.cos_abs]
  ext
  · rfl
  all_goals
    simp only [Vec3.smul_x, Vec3.smul_y, Vec3.smul_z]
    rw [← mul_assoc, h2]

theorem so3_eq (qi : Quat ℝ) (wi wD : Vec3 ℝ) (step re ae : ℝ) :
    SO3Integration qi wi wD step re ae =
      (qi.mul (qexp ((1 / 2 : ℝ) • (magnusExpansion wi wD step re ae).1)), (magnusExpansion wi wD step re ae).2) := rfl

theorem so3_break (qi : Quat ℝ) (wi wD : Vec3 ℝ) (step re ae : ℝ) :
    SO3Integration qi wi wD step re ae true = if (magnusExpansion wi wD step re ae).2 then (qi, true)
      else (qi.mul (qexp ((1 / 2 : ℝ) • (magnusExpansion wi wD step re ae).1)), false) := by
  unfold SO3Integration
  cases h : (magnusExpansion wi wD step re ae).2 <;> simp [qexp, h]

/-! The Magnus expansion. -/

theorem magnus_parallel {w wD : Vec3 ℝ} (h : w.cross wD = 0) (step re ae : ℝ) :
    (magnusExpansion w wD step re ae).1 = step • w + (step * step / 2) • wD := by
  have h1 : (step / 2) • (w + (w + step • wD)) = step • w + (step * step / 2) • wD := by
    ext <;> simp <;> ring
  have h2 : w.cross (w + step • wD) = 0 := by
    have hx := congrArg Vec3.x h
    have hy := congrArg Vec3.y h
    have hz := congrArg Vec3.z h
    simp at hx hy hz
    ext <;> simp
    · linear_combination step * hx
    · linear_combination step * hy
    · linear_combination step * hz
  have h3 : wD.cross (0 : Vec3 ℝ) = 0 := by ext <;> simp
  have h4 : (0 : Vec3 ℝ).normSq = 0 := by simp [Vec3.normSq, Vec3.dot]
  unfold magnusExpansion
  simp only [h1, h2, smul_zero, h3, h4]
  split
  · rfl
  · generalize min (if 0 < (step • w + (step * step / 2) • wD).normSq then
      re * re * (step • w + (step * step / 2) • wD).normSq else 1) (ae * ae) = e
    by_cases h5 : wD.normSq * (step * step) * (step * step) * 0 / 400 < e ∧
        (step • w + (step * step / 2) • wD).normSq * (step • w + (step * step / 2) • wD).normSq * 0 / 3600 < e
    · rw [if_pos h5]; simp
    · rw [if_neg h5]
      split <;> simp

theorem eps2_pos {a b c : ℝ} (ha : a ≠ 0) (hb : b ≠ 0) : 0 < min (if 0 < c then a * a * c else 1) (b * b) := by
  refine lt_min ?_ (mul_self_pos.2 hb)
  split
  · exact mul_pos (mul_self_pos.2 ha) ‹_›
  · exact one_pos

theorem magnus_parallel_ok {w wD : Vec3 ℝ} (h : w.cross wD = 0) (step : ℝ) {re ae : ℝ} (hr : re ≠ 0) (ha : ae ≠ 0) :
    (magnusExpansion w wD step re ae).2 = false := by
  have h2 : w.cross (w + step • wD) = 0 := by
    have hx := congrArg Vec3.x h
    have hy := congrArg Vec3.y h
    have hz := congrArg Vec3.z h
    simp at hx hy hz
    ext <;> simp
    · linear_combination step * hx
    · linear_combination step * hy
    · linear_combination step * hz
  have h3 : wD.cross (0 : Vec3 ℝ) = 0 := by ext <;> simp
  have h4 : (0 : Vec3 ℝ).normSq = 0 := by simp [Vec3.normSq, Vec3.dot]
  unfold magnusExpansion
  simp only [h2, smul_zero, h3, h4]
  split
  · rfl
  · rw [if_pos]
    have := eps2_pos (c := ((step / 2) • (w + (w + step • wD))).normSq) hr ha
    exact ⟨by simpa using this, by simpa using this⟩

/-- With precision zero the expansion always warns. -/
theorem magnus_zero_prec (w wD : Vec3 ℝ) (step : ℝ) : (magnusExpansion w wD step 0 0).2 = true := by
  have h0 : ∀ c : ℝ, min (if 0 < c then (0 : ℝ) * 0 * c else 1) (0 * 0) ≤ 0 := by
    intro c
    exact (min_le_right _ _).trans (by simp)
  unfold magnusExpansion
  rw [if_neg (not_lt.2 wD.normSq_nonneg), if_neg, if_neg]
  · have h1 := ((step / 2) • (w + (w + step • wD))).normSq_nonneg
    have h2 := ((step * step / 12) • w.cross (w + step • wD)).normSq_nonneg
    have h3 := wD.normSq_nonneg
    refine not_lt.2 ((h0 _).trans ?_)
    generalize ((step / 2) • (w + (w + step • wD))).normSq = a at *
    generalize ((step * step / 12) • w.cross (w + step • wD)).normSq = b at *
    generalize wD.normSq = c at *
    have := mul_self_nonneg step
    positivity
  · rintro ⟨h, -⟩
    have h2 := ((step * step / 12) • w.cross (w + step • wD)).normSq_nonneg
    have h3 := wD.normSq_nonneg
    refine absurd h (not_lt.2 ((h0 _).trans ?_))
    have := mul_self_nonneg step
    positivity

/-- Bound of the fifth term: there is a constant for a whole segment of angular velocities. -/
theorem magnus_bound (w0 wD : Vec3 ℝ) (T : ℝ) : ∃ C M : ℝ, 0 ≤ C ∧ 0 ≤ M ∧
    ∀ (s h : ℝ), |s| ≤ |T| → |h| ≤ |T| → ∀ re ae : ℝ, re ≠ 0 → ae ≠ 0 →
      C * (h * h) < re * re → C * (h * h) * M < ae * ae →
      (magnusExpansion (w0 + s • wD) wD h re ae).2 = false := by
  let D := wD.normSq
  let B := 2 * w0.normSq + 2 * (T * T) * D
  let M := T * T * (2 * B + T * T * D)
  let S2 := T * T * (T * T * (T * T)) * (w0.cross wD).normSq
  let P := D * (T * T) * (T * T) * M + 8 * √(D * (T * T) * (T * T) * M * S2) + 16 * S2
  have hD : 0 ≤ D := wD.normSq_nonneg
  have hW : 0 ≤ w0.normSq := w0.normSq_nonneg
  have hT : 0 ≤ T * T := mul_self_nonneg T
  have hc : 0 ≤ (w0.cross wD).normSq := Vec3.normSq_nonneg _
  have hB : 0 ≤ B := by positivity
  have hM : 0 ≤ M := by positivity
  have hS2 : 0 ≤ S2 := by positivity
  have hP : 0 ≤ P := by positivity
  refine ⟨P * (T * T * (T * T) * (w0.cross wD).normSq), M, by positivity, hM, ?_⟩
  intro s h hs hh re ae hre hae h1 h2
  have hs2 : s * s ≤ T * T := abs_le_iff_mul_self_le.1 hs
  have hh2 : h * h ≤ T * T := abs_le_iff_mul_self_le.1 hh
  have hh0 : 0 ≤ h * h := mul_self_nonneg h
  have hs0 : 0 ≤ s * s := mul_self_nonneg s
  let w := w0 + s • wD
  have hw : w.normSq ≤ B := by
    have e1 : w.normSq + (w0 - s • wD).normSq = 2 * w0.normSq + 2 * (s * s) * D := by
      simp [w, D, Vec3.normSq, Vec3.dot]; ring
    have e2 := (w0 - s • wD).normSq_nonneg
    have e3 : (s * s) * D ≤ T * T * D := mul_le_mul_of_nonneg_right hs2 hD
    have : B = 2 * w0.normSq + 2 * (T * T) * D := rfl
    linarith
  have n1 : ((h / 2) • (w + (w + h • wD))).normSq ≤ M := by
    have e1 : ((h / 2) • (w + (w + h • wD))).normSq + (h * h) * (w - (h / 2) • wD).normSq
        = h * h * (2 * w.normSq + h * h * D / 2) := by
      simp [D, Vec3.normSq, Vec3.dot]; ring
    have e2 : 0 ≤ (h * h) * (w - (h / 2) • wD).normSq := mul_nonneg hh0 (Vec3.normSq_nonneg _)
    have e3 : h * h * (2 * w.normSq + h * h * D / 2) ≤ T * T * (2 * B + T * T * D) := by
      refine mul_le_mul hh2 ?_ ?_ hT
      · have : h * h * D ≤ T * T * D := mul_le_mul_of_nonneg_right hh2 hD
        have : 0 ≤ h * h * D := mul_nonneg hh0 hD
        linarith
      · have : 0 ≤ w.normSq := Vec3.normSq_nonneg _
        have : 0 ≤ h * h * D := mul_nonneg hh0 hD
        linarith
    have : M = T * T * (2 * B + T * T * D) := rfl
    linarith
  have n2e : ((h * h / 12) • w.cross (w + h • wD)).normSq = h * h * (h * h * (h * h)) * (w0.cross wD).normSq / 144 := by
    simp [w, Vec3.normSq, Vec3.dot]; ring
  have n20 : 0 ≤ ((h * h / 12) • w.cross (w + h • wD)).normSq := Vec3.normSq_nonneg _
  have h4 : h * h * (h * h) ≤ T * T * (T * T) := mul_le_mul hh2 hh2 hh0 hT
  have n2a : ((h * h / 12) • w.cross (w + h • wD)).normSq ≤ h * h * (T * T * (T * T) * (w0.cross wD).normSq) := by
    have e : h * h * (h * h) * (h * h * (w0.cross wD).normSq) ≤ T * T * (T * T) * (h * h * (w0.cross wD).normSq) :=
      mul_le_mul_of_nonneg_right h4 (mul_nonneg hh0 hc)
    rw [n2e]
    have : 0 ≤ h * h * (h * h) * (h * h * (w0.cross wD).normSq) := by positivity
    nlinarith
  have n2b : ((h * h / 12) • w.cross (w + h • wD)).normSq ≤ S2 := by
    refine n2a.trans ?_
    have : h * h * (T * T * (T * T) * (w0.cross wD).normSq) ≤ T * T * (T * T * (T * T) * (w0.cross wD).normSq) :=
      mul_le_mul_of_nonneg_right hh2 (by positivity)
    refine this.trans (le_of_eq ?_)
    simp only [S2]; ring
  have n10 : 0 ≤ ((h / 2) • (w + (w + h • wD))).normSq := Vec3.normSq_nonneg _
  have nd : D * (h * h) * (h * h) ≤ D * (T * T) * (T * T) := by
    rw [mul_assoc D, mul_assoc D]
    exact mul_le_mul_of_nonneg_left h4 hD
  have nd0 : 0 ≤ D * (h * h) * (h * h) := by positivity
  show (magnusExpansion w wD h re ae).2 = false
  unfold magnusExpansion
  change (if D < ae then _ else _ : Vec3 ℝ × Bool).2 = false
  by_cases hc1 : D < ae
  · rw [if_pos hc1]
  rw [if_neg hc1]
  dsimp only
  rw [apply_ite Prod.snd]
  refine (ite_eq_left_iff.2 fun _ => ?_)
  rw [if_pos]
  change (D * (h * h) * (h * h) * _ + 8 * √(D * (h * h) * (h * h) * _ * _) + 16 * _) * _ * _ / _ < _
  generalize ((h * h / 12) • w.cross (w + h • wD)).normSq = b at *
  generalize ((h / 2) • (w + (w + h • wD))).normSq = a at *
  generalize D * (h * h) * (h * h) = d at *
  have hPb : d * a + 8 * √(d * a * b) + 16 * b ≤ P := by
    have e1 : d * a ≤ D * (T * T) * (T * T) * M := mul_le_mul nd n1 n10 (nd0.trans nd)
    have e2 : √(d * a * b) ≤ √(D * (T * T) * (T * T) * M * S2) :=
      Real.sqrt_le_sqrt (mul_le_mul e1 n2b n20 ((mul_nonneg nd0 n10).trans e1))
    have : P = D * (T * T) * (T * T) * M + 8 * √(D * (T * T) * (T * T) * M * S2) + 16 * S2 := rfl
    linarith
  have hP0 : 0 ≤ d * a + 8 * √(d * a * b) + 16 * b := by positivity
  generalize d * a + 8 * √(d * a * b) + 16 * b = p at *
  have key : p * a * b / (840 * 840) ≤ P * (T * T * (T * T) * (w0.cross wD).normSq) * (h * h) * a := by
    have e1 : p * b ≤ P * (h * h * (T * T * (T * T) * (w0.cross wD).normSq)) := mul_le_mul hPb n2a n20 hP
    have e2 : p * b * a ≤ P * (h * h * (T * T * (T * T) * (w0.cross wD).normSq)) * a := mul_le_mul_of_nonneg_right e1 n10
    have e3 : 0 ≤ p * b * a := by positivity
    rw [div_le_iff₀ (by norm_num)]
    nlinarith
  have hC : 0 ≤ P * (T * T * (T * T) * (w0.cross wD).normSq) := by positivity
  generalize P * (T * T * (T * T) * (w0.cross wD).normSq) = C at *
  refine lt_min ?_ ?_
  · split
    · rename_i ha
      exact key.trans_lt (mul_lt_mul_of_pos_right h1 ha)
    · rename_i ha
      have : a = 0 := le_antisymm (not_lt.1 ha) n10
      rw [this] at key
      rw [this]
      simp
  · refine key.trans_lt (lt_of_le_of_lt ?_ h2)
    exact mul_le_mul_of_nonneg_left n1 (mul_nonneg hC hh0)

theorem magnus_small (w0 wD : Vec3 ℝ) (T : ℝ) {prec : ℝ} (hp : prec ≠ 0) :
    ∃ N : Nat, ∀ d, N ≤ d → ∀ s, |s| ≤ |T| → (magnusExpansion (w0 + s • wD) wD (T / 2 ^ d) prec prec).2 = false := by
  obtain ⟨C, M, hC, hM, H⟩ := magnus_bound w0 wD T
  have hpp : 0 < prec * prec := mul_self_pos.2 hp
  have hlim : Filter.Tendsto (fun d : ℕ => C * (T * T) * (1 + M) * (1 / 2 : ℝ) ^ d) Filter.atTop (nhds 0) := by
    have := (tendsto_pow_atTop_nhds_zero_of_lt_one (r := (1 / 2 : ℝ)) (by norm_num) (by norm_num)).const_mul
      (C * (T * T) * (1 + M))
    simpa using this
  obtain ⟨N, hN⟩ := Filter.eventually_atTop.1 (hlim.eventually (gt_mem_nhds hpp))
  refine ⟨N, fun d hd s hs => ?_⟩
  have h1 := hN d hd
  have hx0 : (0 : ℝ) < (1 / 2) ^ d := by positivity
  have hx1 : (1 / 2 : ℝ) ^ d ≤ 1 := pow_le_one₀ (by norm_num) (by norm_num)
  have hTd : T / 2 ^ d = T * (1 / 2) ^ d := by rw [one_div, inv_pow]; rfl
  generalize hx : (1 / 2 : ℝ) ^ d = x at *
  have hTT : 0 ≤ T * T := mul_self_nonneg T
  have hCT : 0 ≤ C * (T * T) := mul_nonneg hC hTT
  have key : C * (T * x * (T * x)) ≤ C * (T * T) * x := by
    have : C * (T * T) * (x * x) ≤ C * (T * T) * x := mul_le_mul_of_nonneg_left (by nlinarith) hCT
    calc C * (T * x * (T * x)) = C * (T * T) * (x * x) := by ring
      _ ≤ _ := this
  have hk0 : 0 ≤ C * (T * T) * x := mul_nonneg hCT hx0.le
  rw [hTd]
  refine H s (T * x) hs ?_ prec prec hp hp ?_ ?_
  · rw [abs_mul, abs_of_pos hx0]
    exact mul_le_of_le_one_right (abs_nonneg T) hx1
  · refine (key.trans ?_).trans_lt h1
    nlinarith [mul_nonneg hk0 hM]
  · refine (mul_le_mul_of_nonneg_right key hM).trans_lt (lt_of_le_of_lt ?_ h1)
    nlinarith

theorem so3_normSq (qi : Quat ℝ) (wi wD : Vec3 ℝ) (step re ae : ℝ) (b : Bool) :
    (SO3Integration qi wi wD step re ae b).1.normSq = qi.normSq := by
  cases b
  · rw [so3_eq]
    show (qi.mul _).normSq = _
    rw [Quat.normSq_mul, normSq_qexp, mul_one]
  · rw [so3_break]
    split
    · rfl
    · show (qi.mul _).normSq = _
      rw [Quat.normSq_mul, normSq_qexp, mul_one]

theorem seg_half {s T : ℝ} {d : Nat} (h : |s| + |T| / 2 ^ d ≤ |T|) :
    |s| + |T| / 2 ^ (d + 1) ≤ |T| ∧ |s + T / 2 ^ d / 2| + |T| / 2 ^ (d + 1) ≤ |T| := by
  have e : |T| / 2 ^ (d + 1) = |T| / 2 ^ d / 2 := by rw [pow_succ]; field_simp
  have e2 : |T / 2 ^ d / 2| = |T| / 2 ^ d / 2 := by
    rw [abs_div, abs_div, abs_of_pos (show (0 : ℝ) < 2 ^ d by positivity), abs_of_pos (show (0 : ℝ) < 2 by norm_num)]
  have h0 : 0 ≤ |T| / 2 ^ d := by positivity
  have h1 := abs_add_le s (T / 2 ^ d / 2)
  rw [e]
  rw [e2] at h1
  constructor <;> linarith

theorem halfStep_pow (T : ℝ) (d : Nat) : T / 2 ^ d / 2 = T / 2 ^ (d + 1) := by
  rw [pow_succ, div_div]

theorem spherical_ok {w0 wD : Vec3 ℝ} {T prec : ℝ} {N : Nat}
    (hN : ∀ d, N ≤ d → ∀ s, |s| ≤ |T| → (magnusExpansion (w0 + s • wD) wD (T / 2 ^ d) prec prec).2 = false) (k : Nat) :
    ∀ (d : Nat) (s : ℝ) (qi : Quat ℝ), N ≤ d + k → |s| + |T| / 2 ^ d ≤ |T| → ∃ q : Quat ℝ, q.normSq = qi.normSq ∧
      ∀ fuel, k + 1 ≤ fuel → sphericalJointIntegration fuel qi (w0 + s • wD) wD (T / 2 ^ d) prec = .ok q := by
  induction k with
  | zero =>
    intro d s qi hd hs
    have hw := hN d hd s (by have : 0 ≤ |T| / 2 ^ d := by positivity
                             linarith)
    refine ⟨(SO3Integration qi (w0 + s • wD) wD (T / 2 ^ d) prec prec true).1, so3_normSq .., ?_⟩
    intro fuel hf
    obtain ⟨fuel, rfl⟩ : ∃ f, fuel = f + 1 := ⟨fuel - 1, by omega⟩
    rw [sphericalJointIntegration]
    have : (SO3Integration qi (w0 + s • wD) wD (T / 2 ^ d) prec prec true).2 = false := by rw [so3_break, hw]; rfl
    simp [this]
  | succ k ih =>
    intro d s qi hd hs
    cases hw : (magnusExpansion (w0 + s • wD) wD (T / 2 ^ d) prec prec).2 with
    | false =>
      refine ⟨(SO3Integration qi (w0 + s • wD) wD (T / 2 ^ d) prec prec true).1, so3_normSq .., ?_⟩
      intro fuel hf
      obtain ⟨fuel, rfl⟩ : ∃ f, fuel = f + 1 := ⟨fuel - 1, by omega⟩
      rw [sphericalJointIntegration]
      have : (SO3Integration qi (w0 + s • wD) wD (T / 2 ^ d) prec prec true).2 = false := by rw [so3_break, hw]; rfl
      simp [this]
    | true =>
      obtain ⟨h1, h2⟩ := seg_half hs
      obtain ⟨q1, n1, e1⟩ := ih (d + 1) s qi (by omega) h1
      obtain ⟨q2, n2, e2⟩ := ih (d + 1) (s + T / 2 ^ d / 2) q1 (by omega) h2
      refine ⟨q2, n2.trans n1, ?_⟩
      intro fuel hf
      obtain ⟨fuel, rfl⟩ : ∃ f, fuel = f + 1 := ⟨fuel - 1, by omega⟩
      rw [sphericalJointIntegration]
      have h3 : (SO3Integration qi (w0 + s • wD) wD (T / 2 ^ d) prec prec true).2 = true := by rw [so3_break, hw]; rfl
      have h4 : w0 + s • wD + (T / 2 ^ d / 2) • wD = w0 + (s + T / 2 ^ d / 2) • wD := by rw [add_smul, add_assoc]
      simp only [h3, Bool.not_true, Bool.false_eq_true, if_false]
      have e2' := e2 fuel (by omega)
      have e1' := e1 fuel (by omega)
      rw [← halfStep_pow] at e1' e2'
      rw [e1', Res.bind_ok, h4]
      exact e2'

theorem subSteps_ok {e step prec : ℝ} (he : 0 ≤ e) (hs : 0 ≤ step) (hp : 0 < prec) :
    ∃ n : Int, 1 ≤ n ∧ subSteps e step prec = .ok n := by
  have h1 : ¬ e * step / (180 * prec) < 0 := not_lt.2 (by positivity)
  unfold subSteps
  rw [if_neg hp.ne', if_neg h1]
  dsimp only
  split
  · exact ⟨1, le_refl 1, rfl⟩
  · rename_i hne
    refine ⟨_, ?_, rfl⟩
    have : 0 ≤ ⌈step / 2 * √(√(e * step / (180 * prec)))⌉ := Int.ceil_nonneg (by positivity)
    omega

theorem free_base_ok (qi : Quat ℝ) (xi : Vec3 ℝ) (qf : Quat ℝ) (wi vi wD vD : Vec3 ℝ) {step prec : ℝ} (hs : 0 ≤ step)
    (hp : 0 < prec) : ∃ x, freeJointIntegration_ qi xi qf wi vi wD vD step prec = .ok (qf, x) := by
  obtain ⟨n, -, e⟩ := subSteps_ok (e := √(max (fourthDerivativeSquaredNormFree vi wi vD wD)
    (fourthDerivativeSquaredNormFree (vi + step • vD) (wi + step • wD) vD wD))) (Real.sqrt_nonneg _) hs hp
  unfold freeJointIntegration_
  dsimp only
  rw [e, Res.bind_ok]
  exact ⟨_, rfl⟩

theorem planar_ok (qi : ℝ) (xi : ℝ × ℝ) (wi : ℝ) (vi : ℝ × ℝ) (wD : ℝ) (vD : ℝ × ℝ) {step prec : ℝ} (hs : 0 ≤ step)
    (hp : 0 < prec) : ∃ H, planarJointIntegration qi xi wi vi wD vD step prec = .ok H := by
  obtain ⟨n, -, e⟩ := subSteps_ok (e := √(max (fourthDerivativeSquaredNormPlanar vi wi vD wD)
    (fourthDerivativeSquaredNormPlanar (vi + step • vD) (wi + step * wD) vD wD))) (Real.sqrt_nonneg _) hs hp
  unfold planarJointIntegration
  dsimp only
  rw [e, Res.bind_ok]
  exact ⟨_, rfl⟩

theorem free_ok {w0 wD : Vec3 ℝ} (v0 vD : Vec3 ℝ) {T prec : ℝ} (hT : 0 ≤ T) (hp : 0 < prec) {N : Nat}
    (hN : ∀ d, N ≤ d → ∀ s, |s| ≤ |T| → (magnusExpansion (w0 + s • wD) wD (T / 2 ^ d) prec prec).2 = false) (k : Nat) :
    ∀ (d : Nat) (s : ℝ) (qi : Quat ℝ) (xi : Vec3 ℝ) (vi : Vec3 ℝ), N ≤ d + k → |s| + |T| / 2 ^ d ≤ |T| →
      ∃ H : Quat ℝ × Vec3 ℝ, H.1.normSq = qi.normSq ∧
      ∀ fuel, k + 1 ≤ fuel → freeJointIntegration fuel qi xi (w0 + s • wD) vi wD vD (T / 2 ^ d) prec = .ok H := by
  have base : ∀ (d : Nat) (s : ℝ) (qi : Quat ℝ) (xi vi : Vec3 ℝ),
      (magnusExpansion (w0 + s • wD) wD (T / 2 ^ d) prec prec).2 = false →
      ∃ H : Quat ℝ × Vec3 ℝ, H.1.normSq = qi.normSq ∧
      ∀ fuel, 1 ≤ fuel → freeJointIntegration fuel qi xi (w0 + s • wD) vi wD vD (T / 2 ^ d) prec = .ok H := by
    intro d s qi xi vi hw
    obtain ⟨x, hx⟩ := free_base_ok qi xi (SO3Integration qi (w0 + s • wD) wD (T / 2 ^ d) prec prec).1
      (w0 + s • wD) vi wD vD (step := T / 2 ^ d) (by positivity) hp
    refine ⟨((SO3Integration qi (w0 + s • wD) wD (T / 2 ^ d) prec prec).1, x),
      so3_normSq qi (w0 + s • wD) wD (T / 2 ^ d) prec prec false, fun fuel hf => ?_⟩
    obtain ⟨fuel, rfl⟩ : ∃ f, fuel = f + 1 := ⟨fuel - 1, by omega⟩
    rw [freeJointIntegration]
    have : (SO3Integration qi (w0 + s • wD) wD (T / 2 ^ d) prec prec).2 = false := hw
    simp only [this, Bool.not_false, if_true]
    exact hx
  induction k with
  | zero =>
    intro d s qi xi vi hd hs
    have hw := hN d hd s (by have : 0 ≤ |T| / 2 ^ d := by positivity
                             linarith)
    exact base d s qi xi vi hw
  | succ k ih =>
    intro d s qi xi vi hd hs
    cases hw : (magnusExpansion (w0 + s • wD) wD (T / 2 ^ d) prec prec).2 with
    | false =>
      obtain ⟨H, h1, h2⟩ := base d s qi xi vi hw
      exact ⟨H, h1, fun fuel hf => h2 fuel (by omega)⟩
    | true =>
      obtain ⟨h1, h2⟩ := seg_half hs
      obtain ⟨H1, n1, e1⟩ := ih (d + 1) s qi xi vi (by omega) h1
      obtain ⟨H2, n2, e2⟩ := ih (d + 1) (s + T / 2 ^ d / 2) H1.1 H1.2 (vi + (T / 2 ^ d / 2) • vD) (by omega) h2
      refine ⟨H2, n2.trans n1, ?_⟩
      intro fuel hf
      obtain ⟨fuel, rfl⟩ : ∃ f, fuel = f + 1 := ⟨fuel - 1, by omega⟩
      rw [freeJointIntegration]
      have h3 : (SO3Integration qi (w0 + s • wD) wD (T / 2 ^ d) prec prec).2 = true := hw
      have h4 : w0 + s • wD + (T / 2 ^ d / 2) • wD = w0 + (s + T / 2 ^ d / 2) • wD := by rw [add_smul, add_assoc]
      have e2' := e2 fuel (by omega)
      have e1' := e1 fuel (by omega)
      rw [← halfStep_pow] at e1' e2'
      simp only [h3, Bool.not_true, Bool.false_eq_true, if_false]
      rw [e1', Res.bind_ok, h4]
      exact e2'

/-! The joints. -/

theorem spherical_list (fuel : Nat) (w x y z a0 a1 a2 b0 b1 b2 step prec : ℝ) :
    jointIntegration fuel .Spherical [a0, a1, a2] [b0, b1, b2] step [w, x, y, z] prec =
      (sphericalJointIntegration fuel ⟨w, x, y, z⟩ ⟨a0, a1, a2⟩ ⟨b0, b1, b2⟩ step prec >>= fun qf =>
        .ok (if 0 < qf.normSq then [qf.w / √qf.normSq, qf.x / √qf.normSq, qf.y / √qf.normSq, qf.z / √qf.normSq]
          else [qf.w, qf.x, qf.y, qf.z])) := by
  unfold jointIntegration
  dsimp only [rd]
  simp only [List.getElem?_cons_zero, List.getElem?_cons_succ, Res.bind_ok]
  congr 1
  funext qf
  split <;> rfl

theorem free_list (fuel : Nat) (w x y z p0 p1 p2 a0 a1 a2 a3 a4 a5 b0 b1 b2 b3 b4 b5 step prec : ℝ) :
    jointIntegration fuel .Free [a0, a1, a2, a3, a4, a5] [b0, b1, b2, b3, b4, b5] step [w, x, y, z, p0, p1, p2] prec =
      (freeJointIntegration fuel ⟨w, x, y, z⟩ ⟨p0, p1, p2⟩ ⟨a0, a1, a2⟩ ⟨a3, a4, a5⟩ ⟨b0, b1, b2⟩ ⟨b3, b4, b5⟩ step prec
        >>= fun H => .ok [H.1.w / √H.1.normSq, H.1.x / √H.1.normSq, H.1.y / √H.1.normSq, H.1.z / √H.1.normSq,
          H.2.x, H.2.y, H.2.z]) := by
  unfold jointIntegration
  dsimp only [rd]
  simp only [List.getElem?_cons_zero, List.getElem?_cons_succ, Res.bind_ok]
  rfl

theorem planar_list (fuel : Nat) (x y z a0 a1 a2 b0 b1 b2 step prec : ℝ) :
    jointIntegration fuel .Planar [a0, a1, a2] [b0, b1, b2] step [x, y, z] prec =
      (planarJointIntegration x (y, z) a0 (a1, a2) b0 (b1, b2) step prec >>= fun H => .ok [H.1, H.2.1, H.2.2]) := by
  unfold jointIntegration
  dsimp only [rd]
  simp only [List.getElem?_cons_zero, List.getElem?_cons_succ, Res.bind_ok]
  rfl

theorem list3 {α : Type} {l : List α} (h : l.length = 3) : ∃ a b c, l = [a, b, c] := List.length_eq_three.1 h
theorem list4 {α : Type} {l : List α} (h : l.length = 4) : ∃ a b c d, l = [a, b, c, d] :=
  match l, h with | [a, b, c, d], _ => ⟨a, b, c, d, rfl⟩
theorem list6 {α : Type} {l : List α} (h : l.length = 6) : ∃ a b c d e f, l = [a, b, c, d, e, f] :=
  match l, h with | [a, b, c, d, e, f], _ => ⟨a, b, c, d, e, f, rfl⟩
theorem list7 {α : Type} {l : List α} (h : l.length = 7) : ∃ a b c d e f g, l = [a, b, c, d, e, f, g] :=
  match l, h with | [a, b, c, d, e, f, g], _ => ⟨a, b, c, d, e, f, g, rfl⟩

/-- With a positive precision (and a non-negative step for the joints that are integrated by quadrature) the integration of
a joint returns, keeps the size of the configuration, and keeps unit quaternions. -/
theorem joint_ok (t : JointType) {a b x : List ℝ} (ha : a.length = Joint.nDof t) (hb : b.length = Joint.nDof t)
    (hx : x.length = Joint.nParams t) {step prec : ℝ} (hp : 0 < prec) (hs : 0 ≤ step ∨ t ≠ .Free ∧ t ≠ .Planar) :
    ∃ (y : List ℝ) (N : Nat), y.length = Joint.nParams t ∧ (ValidParam t x → ValidParam t y) ∧
      ∀ fuel, N ≤ fuel → jointIntegration fuel t a b step x prec = .ok y := by
  cases t with
  | Rev =>
    obtain ⟨a0, rfl⟩ := List.length_eq_one_iff.1 ha
    obtain ⟨b0, rfl⟩ := List.length_eq_one_iff.1 hb
    obtain ⟨x0, rfl⟩ := List.length_eq_one_iff.1 hx
    exact ⟨[_], 0, rfl, fun _ => ⟨rfl, trivial⟩, fun _ _ => rfl⟩
  | Prism =>
    obtain ⟨a0, rfl⟩ := List.length_eq_one_iff.1 ha
    obtain ⟨b0, rfl⟩ := List.length_eq_one_iff.1 hb
    obtain ⟨x0, rfl⟩ := List.length_eq_one_iff.1 hx
    exact ⟨[_], 0, rfl, fun _ => ⟨rfl, trivial⟩, fun _ _ => rfl⟩
  | Cylindrical =>
    obtain ⟨a0, a1, rfl⟩ := List.length_eq_two.1 ha
    obtain ⟨b0, b1, rfl⟩ := List.length_eq_two.1 hb
    obtain ⟨x0, x1, rfl⟩ := List.length_eq_two.1 hx
    exact ⟨[_, _], 0, rfl, fun _ => ⟨rfl, trivial⟩, fun _ _ => rfl⟩
  | Fixed => exact ⟨x, 0, hx, id, fun _ _ => rfl⟩
  | Planar =>
    obtain ⟨a0, a1, a2, rfl⟩ := list3 ha
    obtain ⟨b0, b1, b2, rfl⟩ := list3 hb
    obtain ⟨x0, x1, x2, rfl⟩ := list3 hx
    obtain ⟨H, e⟩ := planar_ok x0 (x1, x2) a0 (a1, a2) b0 (b1, b2) (step := step) (by simpa using hs) hp
    exact ⟨[H.1, H.2.1, H.2.2], 0, rfl, fun _ => ⟨rfl, trivial⟩, fun fuel _ => by rw [planar_list, e]; rfl⟩
  | Spherical =>
    obtain ⟨a0, a1, a2, rfl⟩ := list3 ha
    obtain ⟨b0, b1, b2, rfl⟩ := list3 hb
    obtain ⟨x0, x1, x2, x3, rfl⟩ := list4 hx
    obtain ⟨N, hN⟩ := magnus_small ⟨a0, a1, a2⟩ ⟨b0, b1, b2⟩ step hp.ne'
    obtain ⟨q, hq, e⟩ := spherical_ok hN N 0 0 ⟨x0, x1, x2, x3⟩ (by omega) (by simp)
    simp only [zero_smul, add_zero, pow_zero, div_one] at e
    refine ⟨if 0 < q.normSq then [q.w / √q.normSq, q.x / √q.normSq, q.y / √q.normSq, q.z / √q.normSq]
          else [q.w, q.x, q.y, q.z], N + 1, ?_, ?_, fun fuel hf => ?_⟩
    · split <;> rfl
    · rintro ⟨-, h⟩
      have h1 : q.normSq = 1 := hq.trans h
      simp only [h1, Real.sqrt_one, div_one, zero_lt_one, if_true]
      exact ⟨rfl, h1⟩
    · rw [spherical_list, e fuel hf]; rfl
  | Free =>
    obtain ⟨a0, a1, a2, a3, a4, a5, rfl⟩ := list6 ha
    obtain ⟨b0, b1, b2, b3, b4, b5, rfl⟩ := list6 hb
    obtain ⟨x0, x1, x2, x3, x4, x5, x6, rfl⟩ := list7 hx
    obtain ⟨N, hN⟩ := magnus_small ⟨a0, a1, a2⟩ ⟨b0, b1, b2⟩ step hp.ne'
    obtain ⟨H, hq, e⟩ := free_ok ⟨a3, a4, a5⟩ ⟨b3, b4, b5⟩ (by simpa using hs) hp hN N 0 0 ⟨x0, x1, x2, x3⟩ ⟨x4, x5, x6⟩
      ⟨a3, a4, a5⟩ (by omega) (by simp)
    simp only [zero_smul, add_zero, pow_zero, div_one] at e
    refine ⟨[H.1.w / √H.1.normSq, H.1.x / √H.1.normSq, H.1.y / √H.1.normSq, H.1.z / √H.1.normSq,
          H.2.x, H.2.y, H.2.z], N + 1, rfl, ?_, fun fuel hf => ?_⟩
    · rintro ⟨-, h⟩
      have h1 : H.1.normSq = 1 := hq.trans h
      simp only [h1, Real.sqrt_one, div_one]
      exact ⟨rfl, h1⟩
    · rw [free_list, e fuel hf]; rfl

/-! The loops. -/

theorem vel_loop {a b : List ℝ} (h : b.length = a.length) (step : ℝ) :
    (List.range a.length).foldlM (velStep b step) a = .ok (List.zipWith (fun x y => x + y * step) a b) := by
  refine (foldlM_range_inv (velStep b step) (fun i s => s.length = a.length ∧
    ∀ k, s[k]? = if k < i then (List.zipWith (fun x y => x + y * step) a b)[k]? else a[k]?) a.length a ?_ ?_).elim ?_
  · exact ⟨rfl, fun k => by simp⟩
  · rintro i s hi ⟨hl, hs⟩
    have h1 : s[i]? = some a[i] := by rw [hs i, if_neg (by omega), List.getElem?_eq_getElem hi]
    have hib : i < b.length := by omega
    refine ⟨s.set i (a[i] + b[i] * step), ?_, by simpa using hl, ?_⟩
    · rw [velStep, rd_of_getElem? h1, Res.bind_ok, rd_ok hib, Res.bind_ok, wr_ok (by omega)]
    · intro k
      rw [List.getElem?_set]
      by_cases hk : i = k
      · subst hk
        rw [if_pos rfl, if_pos (by omega), if_pos (by omega)]
        simp [List.getElem?_zipWith, List.getElem?_eq_getElem hi, List.getElem?_eq_getElem hib]
      · rw [if_neg hk, hs k]
        by_cases hk2 : k < i
        · rw [if_pos hk2, if_pos (by omega)]
        · rw [if_neg hk2, if_neg (by omega)]
  · rintro s ⟨e, hl, hs⟩
    rw [e]
    congr 1
    refine List.ext_getElem? fun k => ?_
    rw [hs k]
    split
    · rfl
    · rw [List.getElem?_eq_none (by omega), List.getElem?_eq_none (by simp; omega)]

/-- What a step of integration does to the joints. -/
structure Integrated (mb : MultiBody ℝ) (step prec : ℝ) (fuel : Nat) (mbc mbc' : MBC ℝ) : Prop where
  rest : mbc' = { mbc with q := mbc'.q, alpha := mbc'.alpha }
  nq : mbc'.q.length = mbc.q.length
  nalpha : mbc'.alpha.length = mbc.alpha.length
  joint : ∀ (i : Nat) (j : Joint ℝ) (x a b : List ℝ), mb.joints[i]? = some j → mbc.q[i]? = some x → mbc.alpha[i]? = some a →
    mbc.alphaD[i]? = some b → mbc'.alpha[i]? = some (List.zipWith (fun u v => u + v * step) a b) ∧
      ∃ y, mbc'.q[i]? = some y ∧ jointIntegration fuel j.type a b step x prec = .ok y

theorem integration_loop {mb : MultiBody ℝ} {mbc : MBC ℝ} (hq : SizedQ mb mbc.q)
    (ha : SizedDof mb mbc.alpha) (hd : SizedDof mb mbc.alphaD) {step prec : ℝ} {fuel : Nat}
    (H : ∀ (i : Nat) (j : Joint ℝ) (x a b : List ℝ), mb.joints[i]? = some j → mbc.q[i]? = some x → mbc.alpha[i]? = some a →
      mbc.alphaD[i]? = some b → ∃ y, jointIntegration fuel j.type a b step x prec = .ok y) :
    ∃ mbc', integration fuel mb mbc step prec = .ok mbc' ∧ Integrated mb step prec fuel mbc mbc' := by
  have lq := hq.length
  have la := ha.length
  have ld := hd.length
  refine (foldlM_range_inv (integrationStep fuel mb step prec) (fun n s =>
    s = { mbc with q := s.q, alpha := s.alpha } ∧ s.q.length = mbc.q.length ∧ s.alpha.length = mbc.alpha.length ∧
    (∀ i, n ≤ i → s.q[i]? = mbc.q[i]? ∧ s.alpha[i]? = mbc.alpha[i]?) ∧
    ∀ (i : Nat) (j : Joint ℝ) (x a b : List ℝ), i < n → mb.joints[i]? = some j → mbc.q[i]? = some x →
      mbc.alpha[i]? = some a → mbc.alphaD[i]? = some b →
      s.alpha[i]? = some (List.zipWith (fun u v => u + v * step) a b) ∧
        ∃ y, s.q[i]? = some y ∧ jointIntegration fuel j.type a b step x prec = .ok y) mb.joints.length mbc ?_ ?_).elim ?_
  · exact ⟨rfl, rfl, rfl, fun _ _ => ⟨rfl, rfl⟩, fun i j x a b hi => absurd hi (by omega)⟩
  · rintro n s hn ⟨h0, h1, h2, h3, h4⟩
    have hj : mb.joints[n]? = some mb.joints[n] := List.getElem?_eq_getElem hn
    have hx : mbc.q[n]? = some (mbc.q[n]'(by omega)) := List.getElem?_eq_getElem (by omega)
    have hal : mbc.alpha[n]? = some (mbc.alpha[n]'(by omega)) := List.getElem?_eq_getElem (by omega)
    have had : mbc.alphaD[n]? = some (mbc.alphaD[n]'(by omega)) := List.getElem?_eq_getElem (by omega)
    obtain ⟨y, hy⟩ := H n _ _ _ _ hj hx hal had
    have l1 := ha.get hal hj
    have l2 := hd.get had hj
    generalize mb.joints[n] = j at *
    generalize mbc.q[n]'(by omega) = x at *
    generalize mbc.alpha[n]'(by omega) = a at *
    generalize mbc.alphaD[n]'(by omega) = b at *
    obtain ⟨g1, g2⟩ := h3 n (le_refl n)
    have had' : s.alphaD = mbc.alphaD := by rw [h0]
    have hv := vel_loop (a := a) (b := b) (by omega) step
    rw [l1] at hv
    refine ⟨{ s with q := s.q.set n y, alpha := s.alpha.set n (List.zipWith (fun u v => u + v * step) a b) }, ?_, ?_, ?_, ?_, ?_, ?_⟩
    · rw [integrationStep, rd_of_getElem? hj, Res.bind_ok, rd_of_getElem? (g2.trans hal), Res.bind_ok, had',
        rd_of_getElem? had, Res.bind_ok, rd_of_getElem? (g1.trans hx), Res.bind_ok, hy, Res.bind_ok,
        wr_ok (by omega), Res.bind_ok, hv, Res.bind_ok, wr_ok (by omega), Res.bind_ok]
      rfl
    · rw [h0]
    · simpa using h1
    · simpa using h2
    · intro i hi
      have hne : n ≠ i := by omega
      obtain ⟨k1, k2⟩ := h3 i (by omega)
      exact ⟨by simpa [List.getElem?_set, hne] using k1, by simpa [List.getElem?_set, hne] using k2⟩
    · intro i j' x' a' b' hi hj' hx' ha' hb'
      by_cases hin : n = i
      · subst hin
        obtain rfl := Option.some_inj.1 (hj.symm.trans hj')
        obtain rfl := Option.some_inj.1 (hx.symm.trans hx')
        obtain rfl := Option.some_inj.1 (hal.symm.trans ha')
        obtain rfl := Option.some_inj.1 (had.symm.trans hb')
        refine ⟨?_, y, ?_, hy⟩
        · show (s.alpha.set n _)[n]? = _
          rw [List.getElem?_set, if_pos rfl, if_pos (by omega)]
        · show (s.q.set n _)[n]? = _
          rw [List.getElem?_set, if_pos rfl, if_pos (by omega)]
      · obtain ⟨k1, y', k2, k3⟩ := h4 i j' x' a' b' (by omega) hj' hx' ha' hb'
        refine ⟨?_, y', ?_, k3⟩
        · show (s.alpha.set n _)[i]? = _
          rw [List.getElem?_set, if_neg hin, k1]
        · show (s.q.set n _)[i]? = _
          rw [List.getElem?_set, if_neg hin, k2]
  · rintro s ⟨e, h0, h1, h2, -, h4⟩
    refine ⟨s, e, h0, h1, h2, ?_⟩
    intro i j x a b hj hx ha hb
    exact h4 i j x a b ((List.getElem?_eq_some_iff.1 hj).1) hj hx ha hb

end RBDyn
