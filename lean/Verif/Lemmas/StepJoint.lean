import Verif.Lemmas.StepError
import Verif.Spec.JointDeriv

/-! One step of the integration of a joint of any type, for small steps: it is one Euler step, up to a constant times the square of the step, uniformly
in bounded states. -/

namespace RBDyn
open scoped Mat3

/-! ### Small steps need no splitting -/

/-- The Magnus expansion is accurate enough for small steps. -/
theorem magnus_flag {B prec : ℝ} (hp : 0 < prec) : ∃ h₀ : ℝ, 0 < h₀ ∧ ∀ (w wD : Vec3 ℝ) (h : ℝ), w.Small B → wD.Small B → |h| ≤ h₀ →
    (magnusExpansion w wD h prec prec).2 = false := by
  set d : ℝ := 12 * B ^ 2 + 1 with hd
  have d1 : 1 ≤ d := by nlinarith [sq_nonneg B]
  refine ⟨min 1 (prec / (d ^ 2 + 1)), by positivity, fun w wD h hw hD hh => ?_⟩
  have h1 : |h| ≤ 1 := hh.trans (min_le_left _ _)
  have h2 : |h| * (d ^ 2 + 1) ≤ prec := (le_div_iff₀ (by positivity)).1 (hh.trans (min_le_right _ _))
  have hsq : h ^ 2 ≤ 1 := by rw [← sq_abs]; nlinarith [abs_nonneg h]
  have hsmall : d ^ 4 * h ^ 2 < prec ^ 2 := by
    rcases (abs_nonneg h).eq_or_lt with e | e
    · have : h = 0 := abs_eq_zero.1 e.symm
      rw [this]
      have := sq_pos_of_pos hp
      simpa using this
    · have a1 : |h| * d ^ 2 < prec := by nlinarith
      have a2 : (|h| * d ^ 2) ^ 2 < prec ^ 2 := pow_lt_pow_left₀ a1 (by positivity) (by norm_num)
      rw [mul_pow, sq_abs] at a2
      nlinarith
  have bnd : ∀ {x c : ℝ}, |x| ≤ c → x ^ 2 ≤ c ^ 2 := fun hx => by
    rw [← sq_abs]
    exact pow_le_pow_left₀ (abs_nonneg _) hx 2
  have hDn : wD.normSq ≤ d := by
    have a1 := bnd hD.1
    have a2 := bnd hD.2.1
    have a3 := bnd hD.2.2
    have : wD.normSq = wD.x ^ 2 + wD.y ^ 2 + wD.z ^ 2 := by simp [Vec3.normSq, Vec3.dot]; ring
    nlinarith [sq_nonneg B]
  have hD0 := Vec3.normSq_nonneg wD
  set u : Vec3 ℝ := w + (h / 2) • wD with hu
  have hun : u.normSq ≤ d := by
    have key : ∀ {p r : ℝ}, |p| ≤ B → |r| ≤ B → (p + h / 2 * r) ^ 2 ≤ 4 * B ^ 2 := fun {p r} hp hr => by
      have b0 : 0 ≤ B := (abs_nonneg _).trans hp
      have e1 : |p + h / 2 * r| ≤ 2 * B := by
        refine (abs_add_le _ _).trans ?_
        rw [abs_mul, abs_div, abs_of_pos (show (0 : ℝ) < 2 by norm_num)]
        have := mul_le_mul h1 hr (abs_nonneg _) zero_le_one
        linarith
      have := bnd e1
      linarith
    have a1 := key hw.1 hD.1
    have a2 := key hw.2.1 hD.2.1
    have a3 := key hw.2.2 hD.2.2
    have : u.normSq = (w.x + h / 2 * wD.x) ^ 2 + (w.y + h / 2 * wD.y) ^ 2 + (w.z + h / 2 * wD.z) ^ 2 := by simp [hu, Vec3.normSq, Vec3.dot]; ring
    linarith
  have hu0 := Vec3.normSq_nonneg u
  have hO1 : (h / 2) • (w + (w + h • wD)) = h • u := by ext <;> simp [hu] <;> ring
  have hO2 : (h * h / 12) • w.cross (w + h • wD) = (h ^ 3 / 12) • u.cross wD := by ext <;> simp [hu] <;> ring
  have hcr : (u.cross wD).normSq ≤ u.normSq * wD.normSq := by
    have : (u.cross wD).normSq = u.normSq * wD.normSq - u.dot wD ^ 2 := by simp [Vec3.normSq, Vec3.dot]; ring
    nlinarith [sq_nonneg (u.dot wD)]
  have n1 : (h • u).normSq = h ^ 2 * u.normSq := by rw [Vec3.normSq_smul]; ring
  have n2 : ((h ^ 3 / 12) • u.cross wD).normSq ≤ h ^ 2 * (h ^ 2 * u.normSq) * d := by
    rw [Vec3.normSq_smul]
    have a0 := Vec3.normSq_nonneg (u.cross wD)
    have a1 : (u.cross wD).normSq ≤ u.normSq * d := hcr.trans (mul_le_mul_of_nonneg_left hDn hu0)
    have a2 : h ^ 3 / 12 * (h ^ 3 / 12) ≤ h ^ 2 * h ^ 2 := by
      have : h ^ 3 / 12 * (h ^ 3 / 12) = h ^ 2 * h ^ 2 * (h ^ 2 / 144) := by ring
      rw [this]
      exact mul_le_of_le_one_right (by positivity) (by linarith)
    calc _ ≤ h ^ 2 * h ^ 2 * (u.normSq * d) := mul_le_mul a2 a1 a0 (by positivity)
      _ = _ := by ring
  have n20 := Vec3.normSq_nonneg ((h ^ 3 / 12) • u.cross wD)
  unfold magnusExpansion
  dsimp only
  by_cases c1 : wD.normSq < prec
  · rw [if_pos c1]
  rw [if_neg c1, hO1, hO2, n1]
  set s1 := h ^ 2 * u.normSq with hs1
  set s2 := ((h ^ 3 / 12) • u.cross wD).normSq with hs2
  have s10 : 0 ≤ s1 := by positivity
  have s1d : s1 ≤ d := by nlinarith
  have b3 : wD.normSq * (h * h) * (h * h) * s2 / 400 ≤ d ^ 3 * h ^ 2 * s1 := by
    have a1 : wD.normSq * (h * h) * (h * h) ≤ d := by
      have : wD.normSq * (h * h) * (h * h) = wD.normSq * (h ^ 2 * h ^ 2) := by ring
      rw [this]
      have : h ^ 2 * h ^ 2 ≤ 1 := by nlinarith [sq_nonneg h]
      have := mul_le_mul hDn this (by positivity) (by linarith)
      linarith
    have a2 := mul_le_mul a1 n2 n20 (by linarith)
    have a3 : 0 ≤ h ^ 2 * s1 := by positivity
    have a4 : d ^ 2 * (h ^ 2 * s1) ≤ d ^ 3 * (h ^ 2 * s1) := mul_le_mul_of_nonneg_right (pow_le_pow_right₀ d1 (by norm_num)) a3
    nlinarith
  have b4 : s1 * s1 * s2 / 3600 ≤ d ^ 3 * h ^ 2 * s1 := by
    have a1 : s1 * s1 ≤ d * d := mul_le_mul s1d s1d s10 (by linarith)
    have a2 := mul_le_mul a1 n2 n20 (by positivity)
    have a3 : 0 ≤ h ^ 2 * s1 := by positivity
    have a4 : 0 ≤ d ^ 3 * (h ^ 2 * s1) := by positivity
    nlinarith
  have b5 : d ^ 3 * h ^ 2 * s1 < min (if 0 < s1 then prec * prec * s1 else 1) (prec * prec) := by
    rcases s10.eq_or_lt with e | e
    · rw [← e, mul_zero]
      exact eps2_pos hp.ne' hp.ne'
    · rw [if_pos e]
      have c3 : d ^ 3 * h ^ 2 ≤ d ^ 4 * h ^ 2 := mul_le_mul_of_nonneg_right (pow_le_pow_right₀ d1 (by norm_num)) (sq_nonneg h)
      refine lt_min (mul_lt_mul_of_pos_right (by nlinarith) e) ?_
      have : d ^ 3 * h ^ 2 * s1 ≤ d ^ 3 * h ^ 2 * d := mul_le_mul_of_nonneg_left s1d (by positivity)
      nlinarith
  rw [if_pos ⟨b3.trans_lt b5, b4.trans_lt b5⟩]

/-- Small steps are not divided. -/
theorem subSteps_one {E prec : ℝ} (hE : 0 ≤ E) (hp : 0 < prec) : ∃ h₀ : ℝ, 0 < h₀ ∧ ∀ e h : ℝ, 0 ≤ e → e ≤ E → 0 ≤ h → h ≤ h₀ →
    subSteps e h prec = .ok 1 := by
  refine ⟨min 1 (180 * prec / (E + 1)), by positivity, fun e h he heE h0 hh => ?_⟩
  have h1 : h ≤ 1 := hh.trans (min_le_left _ _)
  have h2 : h * (E + 1) ≤ 180 * prec := (le_div_iff₀ (by positivity)).1 (hh.trans (min_le_right _ _))
  have hx : e * h / (180 * prec) ≤ 1 := by
    rw [div_le_one (by positivity)]
    nlinarith
  have hr : √(√(e * h / (180 * prec))) ≤ 1 := Real.sqrt_le_one.2 (Real.sqrt_le_one.2 hx)
  have hr0 := Real.sqrt_nonneg (√(e * h / (180 * prec)))
  unfold subSteps
  rw [if_neg hp.ne', if_neg (not_lt.2 (by positivity))]
  dsimp only
  have hc1 : ⌈h / 2 * √(√(e * h / (180 * prec)))⌉ ≤ 1 := Int.ceil_le.2 (by push_cast; nlinarith)
  have hc0 : 0 ≤ ⌈h / 2 * √(√(e * h / (180 * prec)))⌉ := Int.ceil_nonneg (by positivity)
  split
  · rfl
  · rename_i hne
    congr 1
    omega

end RBDyn
