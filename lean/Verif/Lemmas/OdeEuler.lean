import Mathlib.Analysis.ODE.ExistUnique
import Mathlib.Analysis.Calculus.MeanValue
import Mathlib.Analysis.Calculus.ContDiff.Basic
import Mathlib.Analysis.SpecialFunctions.Exp
import Mathlib.Topology.MetricSpace.Bounded
import Mathlib.Analysis.Normed.Module.FiniteDimension

/-! Solutions of differential equations with a continuously differentiable right-hand side are unique, and Euler's method (with second order
corrections) converges to them. -/

namespace RBDyn
open Set Metric

variable {W : Type} [NormedAddCommGroup W] [NormedSpace ℝ W] [FiniteDimensional ℝ W]

/-- A continuous function is bounded on balls. -/
theorem bounded_on_ball {F : Type} [NormedAddCommGroup F] {g : W → F} (hg : Continuous g) (R : ℝ) : ∃ M, 0 ≤ M ∧ ∀ y, ‖y‖ ≤ R → ‖g y‖ ≤ M := by
  haveI := FiniteDimensional.proper ℝ W
  obtain ⟨M, hM⟩ := (isCompact_closedBall (0 : W) R).exists_bound_of_continuousOn hg.continuousOn
  exact ⟨max M 0, le_max_right _ _, fun y hy => (hM y (by simpa using hy)).trans (le_max_left _ _)⟩

/-- A continuously differentiable function is Lipschitz on balls. -/
theorem lipschitz_on_ball {G : W → W} (hG : ContDiff ℝ 1 G) (R : ℝ) : ∃ L, 0 ≤ L ∧ ∀ y z, ‖y‖ ≤ R → ‖z‖ ≤ R → ‖G y - G z‖ ≤ L * ‖y - z‖ := by
  obtain ⟨L, h0, hL⟩ := bounded_on_ball (hG.continuous_fderiv (by simp)) R
  refine ⟨L, h0, fun y z hy hz => ?_⟩
  exact (convex_closedBall (0 : W) R).norm_image_sub_le_of_norm_fderiv_le (𝕜 := ℝ) (fun x _ => (hG.differentiable (by simp)) x)
    (fun x hx => hL x (by simpa using hx)) (by simpa using hz) (by simpa using hy)

/-- A motion on an interval stays in a ball. -/
theorem motion_bounded {x : ℝ → W} {a b : ℝ} (hx : ContinuousOn x (Icc a b)) : ∃ R, 0 ≤ R ∧ ∀ t ∈ Icc a b, ‖x t‖ ≤ R := by
  obtain ⟨M, hM⟩ := isCompact_Icc.exists_bound_of_continuousOn hx
  exact ⟨max M 0, le_max_right _ _, fun t ht => (hM t ht).trans (le_max_left _ _)⟩

/-- Solutions with the same start are the same. -/
theorem solution_unique {G : W → W} (hG : ContDiff ℝ 1 G) {x y : ℝ → W} {a b : ℝ} (hx : ∀ t ∈ Icc a b, HasDerivAt x (G (x t)) t)
    (hy : ∀ t ∈ Icc a b, HasDerivAt y (G (y t)) t) (h0 : x a = y a) : EqOn x y (Icc a b) := by
  have cx : ContinuousOn x (Icc a b) := fun t ht => (hx t ht).continuousAt.continuousWithinAt
  have cy : ContinuousOn y (Icc a b) := fun t ht => (hy t ht).continuousAt.continuousWithinAt
  obtain ⟨R1, -, h1⟩ := motion_bounded cx
  obtain ⟨R2, -, h2⟩ := motion_bounded cy
  obtain ⟨L, hL0, hL⟩ := lipschitz_on_ball hG (max R1 R2)
  refine ODE_solution_unique_of_mem_Icc_right (v := fun _ => G) (s := fun _ => closedBall 0 (max R1 R2)) (K := ⟨L, hL0⟩) (fun t _ => ?_) cx
    (fun t ht => (hx t (Ico_subset_Icc_self ht)).hasDerivWithinAt) (fun t ht => by simpa using Or.inl (h1 t (Ico_subset_Icc_self ht))) cy
    (fun t ht => (hy t (Ico_subset_Icc_self ht)).hasDerivWithinAt) (fun t ht => by simpa using Or.inr (h2 t (Ico_subset_Icc_self ht))) h0
  exact LipschitzOnWith.of_dist_le_mul fun u hu w hw => by
    rw [dist_eq_norm, dist_eq_norm]
    exact hL u w (by simpa using hu) (by simpa using hw)

/-- The same, backwards in time. -/
theorem solution_unique_back {G : W → W} (hG : ContDiff ℝ 1 G) {x y : ℝ → W} {a b : ℝ} (hx : ∀ t ∈ Icc a b, HasDerivAt x (G (x t)) t)
    (hy : ∀ t ∈ Icc a b, HasDerivAt y (G (y t)) t) (h0 : x b = y b) : EqOn x y (Icc a b) := by
  have key : ∀ z : ℝ → W, (∀ t ∈ Icc a b, HasDerivAt z (G (z t)) t) → ∀ t ∈ Icc (-b) (-a), HasDerivAt (fun s => z (-s)) (-G (z (-t))) t := by
    intro z hz t ht
    have := (hz (-t) ⟨by linarith [ht.2], by linarith [ht.1]⟩).scomp t (hasDerivAt_neg t)
    simpa [Function.comp_def] using this
  have := solution_unique (G := fun w => -G w) hG.neg (key x hx) (key y hy) (by simpa using h0)
  intro t ht
  simpa using this (show -t ∈ Icc (-b) (-a) from ⟨by linarith [ht.2], by linarith [ht.1]⟩)

/-- One step of a solution differs from an Euler step by the square of the step. -/
theorem euler_local {G : W → W} {x : ℝ → W} {T R L M : ℝ} (hx : ∀ t ∈ Icc 0 T, HasDerivAt x (G (x t)) t) (hR : ∀ t ∈ Icc 0 T, ‖x t‖ ≤ R)
    (hL0 : 0 ≤ L) (hL : ∀ y z, ‖y‖ ≤ R → ‖z‖ ≤ R → ‖G y - G z‖ ≤ L * ‖y - z‖) (hM0 : 0 ≤ M) (hM : ∀ y, ‖y‖ ≤ R → ‖G y‖ ≤ M) {t h : ℝ} (h0 : 0 ≤ h)
    (ht : 0 ≤ t) (hT : t + h ≤ T) : ‖x (t + h) - x t - h • G (x t)‖ ≤ L * M * h ^ 2 := by
  have mem : ∀ s ∈ Icc t (t + h), s ∈ Icc 0 T := fun s hs => ⟨ht.trans hs.1, hs.2.trans hT⟩
  have lip : ∀ s ∈ Icc t (t + h), ‖x s - x t‖ ≤ M * (s - t) :=
    norm_image_sub_le_of_norm_deriv_le_segment' (f' := fun s => G (x s)) (fun s hs => (hx s (mem s hs)).hasDerivWithinAt)
      (fun s hs => hM _ (hR s (mem s (Ico_subset_Icc_self hs))))
  have key := norm_image_sub_le_of_norm_deriv_le_segment' (f := fun s => x s - (s - t) • G (x t)) (f' := fun s => G (x s) - G (x t)) (a := t)
    (b := t + h) (C := L * (M * h)) (fun s hs => by
      have h1 := (hx s (mem s hs)).hasDerivWithinAt (s := Icc t (t + h))
      have h2 : HasDerivWithinAt (fun s : ℝ => (s - t) • G (x t)) ((1 : ℝ) • G (x t)) (Icc t (t + h)) s :=
        (((hasDerivAt_id s).sub_const t).smul_const (G (x t))).hasDerivWithinAt
      rw [one_smul] at h2
      exact h1.sub h2)
    (fun s hs => by
      have hs' := Ico_subset_Icc_self hs
      refine (hL _ _ (hR s (mem s hs')) (hR t (mem t ⟨le_rfl, by linarith⟩))).trans (mul_le_mul_of_nonneg_left ?_ hL0)
      exact (lip s hs').trans (mul_le_mul_of_nonneg_left (by linarith [hs'.2]) hM0))
    (t + h) ⟨by linarith, le_rfl⟩
  have e : x (t + h) - (t + h - t) • G (x t) - (x t - (t - t) • G (x t)) = x (t + h) - x t - h • G (x t) := by
    rw [add_sub_cancel_left, sub_self, zero_smul, sub_zero]; abel
  rw [e] at key
  refine key.trans (le_of_eq ?_)
  ring

/-- Euler's method with errors of second order in every step, started near the solution, stays within a constant times the step and the error of the
start. The steps need to be near Euler steps only in a ball around the solution. -/
theorem euler_converges_near {G : W → W} (hG : ContDiff ℝ 1 G) {x : ℝ → W} {T : ℝ} (hT : 0 ≤ T)
    (hx : ∀ t ∈ Icc 0 T, HasDerivAt x (G (x t)) t) :
    ∃ R : ℝ, 0 ≤ R ∧ ∀ M' : ℝ, 0 ≤ M' → ∃ C h₀ : ℝ, 0 < C ∧ 0 < h₀ ∧ ∀ (h δ : ℝ) (y : ℕ → W), 0 < h → h ≤ h₀ → δ ≤ h₀ → ‖y 0 - x 0‖ ≤ δ →
      (∀ n : ℕ, (n + 1 : ℝ) * h ≤ T → ‖y n‖ ≤ R → ‖y (n + 1) - y n - h • G (y n)‖ ≤ h ^ 2 * M') →
      ∀ n : ℕ, (n : ℝ) * h ≤ T → ‖y n - x (n * h)‖ ≤ C * (δ + h) := by
  obtain ⟨R, hR0, hR⟩ := motion_bounded (x := x) (a := 0) (b := T) fun t ht => (hx t ht).continuousAt.continuousWithinAt
  obtain ⟨L, hL0, hL⟩ := lipschitz_on_ball hG (R + 1)
  obtain ⟨M, hM0, hM⟩ := bounded_on_ball hG.continuous (R + 1)
  have hR' : ∀ t ∈ Icc 0 T, ‖x t‖ ≤ R + 1 := fun t ht => (hR t ht).trans (by linarith)
  refine ⟨R + 1, by positivity, fun M' hM'0 => ?_⟩
  set c := L * M + M' with hc
  have hc0 : 0 ≤ c := by positivity
  set C := (1 + c * T) * Real.exp (L * T) with hC
  have hCpos : 0 < C := by positivity
  refine ⟨C, 1 / (2 * C), hCpos, by positivity, fun h δ y hh hh0 hδ hy0 hy n hn => ?_⟩
  have hδ0 : 0 ≤ δ := (norm_nonneg _).trans hy0
  have hsmall : C * (δ + h) ≤ 1 := by
    have : δ + h ≤ 1 / C := by
      have e : 1 / (2 * C) + 1 / (2 * C) = 1 / C := by field_simp; norm_num
      linarith
    calc C * (δ + h) ≤ C * (1 / C) := mul_le_mul_of_nonneg_left this hCpos.le
      _ = 1 := by field_simp
  have hpow : ∀ n : ℕ, (n : ℝ) * h ≤ T → (δ + c * h ^ 2 * n) * (1 + L * h) ^ n ≤ C * (δ + h) := by
    intro n hn
    have e1 : (1 + L * h) ^ n ≤ Real.exp (L * T) := by
      calc (1 + L * h) ^ n ≤ Real.exp (L * h) ^ n := pow_le_pow_left₀ (by positivity) (by linarith [Real.add_one_le_exp (L * h)]) n
        _ = Real.exp (n * (L * h)) := (Real.exp_nat_mul _ _).symm
        _ ≤ Real.exp (L * T) := Real.exp_le_exp.2 (by nlinarith)
    have e2 : δ + c * h ^ 2 * n ≤ (1 + c * T) * (δ + h) := by
      have : c * h ^ 2 * n = c * h * (n * h) := by ring
      rw [this]
      have a1 : c * h * (n * h) ≤ c * h * T := mul_le_mul_of_nonneg_left hn (by positivity)
      have a2 : 0 ≤ c * T * δ := by positivity
      nlinarith
    calc (δ + c * h ^ 2 * n) * (1 + L * h) ^ n ≤ ((1 + c * T) * (δ + h)) * Real.exp (L * T) :=
          mul_le_mul e2 e1 (by positivity) (by positivity)
      _ = C * (δ + h) := by rw [hC]; ring
  have key : ∀ n : ℕ, (n : ℝ) * h ≤ T → ‖y n - x (n * h)‖ ≤ (δ + c * h ^ 2 * n) * (1 + L * h) ^ n := by
    intro n
    induction n with
    | zero => intro _; simpa using hy0
    | succ n ih =>
      intro hn
      push_cast at hn
      have hn' : (n : ℝ) * h ≤ T := by nlinarith
      have hmem : (n : ℝ) * h ∈ Icc 0 T := ⟨by positivity, hn'⟩
      have he := ih hn'
      have hyR : ‖y n‖ ≤ R + 1 := by
        have a1 : ‖y n‖ ≤ ‖y n - x (n * h)‖ + ‖x (n * h)‖ := by simpa using norm_add_le (y n - x (n * h)) (x (n * h))
        have a2 := he.trans (hpow n hn')
        linarith [hR _ hmem]
      have hloc := euler_local hx hR' hL0 hL hM0 hM hh.le hmem.1 (by linarith : (n : ℝ) * h + h ≤ T)
      have e : y (n + 1) - x ((n + 1 : ℕ) * h) = (y n - x (n * h)) + h • (G (y n) - G (x (n * h))) + (y (n + 1) - y n - h • G (y n)) -
          (x (n * h + h) - x (n * h) - h • G (x (n * h))) := by
        have : ((n + 1 : ℕ) : ℝ) * h = n * h + h := by push_cast; ring
        rw [this, smul_sub]
        abel
      rw [e]
      have b1 : ‖h • (G (y n) - G (x (n * h)))‖ ≤ h * (L * ‖y n - x (n * h)‖) := by
        rw [norm_smul, Real.norm_of_nonneg hh.le]
        exact mul_le_mul_of_nonneg_left (hL _ _ hyR (hR' _ hmem)) hh.le
      have b2 := hy n hn hyR
      have b3 : ‖(y n - x (n * h)) + h • (G (y n) - G (x (n * h))) + (y (n + 1) - y n - h • G (y n)) - (x (n * h + h) - x (n * h) - h • G (x (n * h)))‖ ≤
          (1 + L * h) * ‖y n - x (n * h)‖ + c * h ^ 2 := by
        refine (norm_sub_le _ _).trans ?_
        refine (add_le_add ((norm_add_le _ _).trans (add_le_add ((norm_add_le _ _).trans (add_le_add le_rfl b1)) b2)) hloc).trans (le_of_eq ?_)
        rw [hc]; ring
      refine b3.trans ?_
      have hq : 1 ≤ (1 + L * h) ^ (n + 1) := one_le_pow₀ (by nlinarith [mul_nonneg hL0 hh.le])
      have b4 : (1 + L * h) * ‖y n - x (n * h)‖ ≤ (1 + L * h) * ((δ + c * h ^ 2 * n) * (1 + L * h) ^ n) :=
        mul_le_mul_of_nonneg_left he (by positivity)
      have b5 : c * h ^ 2 ≤ c * h ^ 2 * (1 + L * h) ^ (n + 1) := le_mul_of_one_le_right (by positivity) hq
      push_cast
      calc _ ≤ (1 + L * h) * ((δ + c * h ^ 2 * n) * (1 + L * h) ^ n) + c * h ^ 2 * (1 + L * h) ^ (n + 1) := add_le_add b4 b5
        _ = _ := by rw [pow_succ]; ring
  exact (key n hn).trans (hpow n hn)

/-- Euler's method with second order corrections, started near the solution, stays within a constant times the step and the error of the start. -/
theorem euler_converges {G B : W → W} (hG : ContDiff ℝ 1 G) (hB : Continuous B) {x : ℝ → W} {T : ℝ} (hT : 0 ≤ T)
    (hx : ∀ t ∈ Icc 0 T, HasDerivAt x (G (x t)) t) :
    ∃ C h₀ : ℝ, 0 < C ∧ 0 < h₀ ∧ ∀ (h δ : ℝ) (y : ℕ → W), 0 < h → h ≤ h₀ → δ ≤ h₀ → ‖y 0 - x 0‖ ≤ δ →
      (∀ n : ℕ, (n + 1 : ℝ) * h ≤ T → y (n + 1) = y n + h • G (y n) + h ^ 2 • B (y n)) →
      ∀ n : ℕ, (n : ℝ) * h ≤ T → ‖y n - x (n * h)‖ ≤ C * (δ + h) := by
  obtain ⟨R, -, key⟩ := euler_converges_near hG hT hx
  obtain ⟨M', hM'0, hM'⟩ := bounded_on_ball hB R
  obtain ⟨C, h₀, hC, hh, key⟩ := key M' hM'0
  refine ⟨C, h₀, hC, hh, fun h δ y h1 h2 h3 h4 hy => key h δ y h1 h2 h3 h4 fun n hn hR => ?_⟩
  have e : y (n + 1) - y n - h • G (y n) = h ^ 2 • B (y n) := by rw [hy n hn]; abel
  rw [e, norm_smul, Real.norm_of_nonneg (by positivity)]
  exact mul_le_mul_of_nonneg_left (hM' _ hR) (by positivity)

end RBDyn
