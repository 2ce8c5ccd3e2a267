import Verif.Lemmas.OdeGlobal
import Verif.Lemmas.OdeEuler

/-! Solutions of differential equations with near starts stay near. -/

namespace RBDyn
open Set Metric

variable {W : Type} [NormedAddCommGroup W] [NormedSpace ℝ W]

theorem solution_depends_dir {G : W → W} {x y : ℝ → W} {T R L : ℝ} (hL0 : 0 ≤ L) (hL : ∀ u v, ‖u‖ ≤ R → ‖v‖ ≤ R → ‖G u - G v‖ ≤ L * ‖u - v‖)
    (hx : ∀ t ∈ Icc 0 T, HasDerivAt x (G (x t)) t) (hy : ∀ t ∈ Icc 0 T, HasDerivAt y (G (y t)) t)
    (hR : ∀ t ∈ Icc 0 T, ‖x t‖ ≤ R ∧ ‖y t‖ ≤ R) : ∀ t ∈ Icc 0 T, ‖x t - y t‖ ≤ ‖x 0 - y 0‖ * Real.exp (L * T) := by
  intro t ht
  have h := dist_le_of_trajectories_ODE_of_mem (v := fun _ => G) (s := fun _ => closedBall 0 R) (K := ⟨L, hL0⟩) (f := x) (g := y) (a := 0) (b := T)
    (δ := ‖x 0 - y 0‖) (fun t _ => LipschitzOnWith.of_dist_le_mul fun u hu w hw => by
      rw [dist_eq_norm, dist_eq_norm]
      exact hL u w (by simpa using hu) (by simpa using hw))
    (fun t ht => (hx t ht).continuousAt.continuousWithinAt) (fun t ht => (hx t (Ico_subset_Icc_self ht)).hasDerivWithinAt)
    (fun t ht => by simpa using (hR t (Ico_subset_Icc_self ht)).1)
    (fun t ht => (hy t ht).continuousAt.continuousWithinAt) (fun t ht => (hy t (Ico_subset_Icc_self ht)).hasDerivWithinAt)
    (fun t ht => by simpa using (hR t (Ico_subset_Icc_self ht)).2) (dist_eq_norm _ _).le t ht
  rw [dist_eq_norm, sub_zero] at h
  refine h.trans (mul_le_mul_of_nonneg_left (Real.exp_le_exp.2 ?_) (norm_nonneg _))
  exact mul_le_mul_of_nonneg_left ht.2 hL0

/-- The distance of two solutions grows at most exponentially, before and after `t₀`. -/
theorem solution_depends {G : W → W} {x y : ℝ → W} {t₀ T R L : ℝ} (hL0 : 0 ≤ L)
    (hL : ∀ u v, ‖u‖ ≤ R → ‖v‖ ≤ R → ‖G u - G v‖ ≤ L * ‖u - v‖) (hx : ∀ t, HasDerivAt x (G (x t)) t) (hy : ∀ t, HasDerivAt y (G (y t)) t)
    (hR : ∀ t, |t - t₀| ≤ T → ‖x t‖ ≤ R ∧ ‖y t‖ ≤ R) {t : ℝ} (ht : |t - t₀| ≤ T) : ‖x t - y t‖ ≤ ‖x t₀ - y t₀‖ * Real.exp (L * T) := by
  have ft : ∀ z : ℝ → W, (∀ t, HasDerivAt z (G (z t)) t) → ∀ s, HasDerivAt (fun s => z (t₀ + s)) (G (z (t₀ + s))) s := fun z hz s =>
    (hz (t₀ + s)).comp_const_add t₀ s
  have bt : ∀ z : ℝ → W, (∀ t, HasDerivAt z (G (z t)) t) → ∀ s, HasDerivAt (fun s => z (t₀ - s)) (-G (z (t₀ - s))) s := fun z hz s =>
    (hz (t₀ - s)).comp_const_sub t₀ s
  rcases le_total t₀ t with hc | hc
  · have := solution_depends_dir hL0 hL (x := fun s => x (t₀ + s)) (y := fun s => y (t₀ + s)) (T := T) (fun s _ => ft x hx s) (fun s _ => ft y hy s)
      (fun s hs => hR _ (by rw [add_sub_cancel_left, abs_of_nonneg hs.1]; exact hs.2)) (t - t₀) ⟨sub_nonneg.2 hc, (le_abs_self _).trans ht⟩
    simpa using this
  · have := solution_depends_dir (G := fun w => -G w) hL0 (fun u v hu hv => by
        rw [neg_sub_neg, norm_sub_rev]; exact hL u v hu hv) (x := fun s => x (t₀ - s)) (y := fun s => y (t₀ - s)) (T := T) (fun s _ => bt x hx s)
      (fun s _ => bt y hy s)
      (fun s hs => hR _ (by rw [show t₀ - s - t₀ = -s by ring, abs_neg, abs_of_nonneg hs.1]; exact hs.2)) (t₀ - t)
      ⟨sub_nonneg.2 hc, (le_abs_self _).trans (by rwa [abs_sub_comm])⟩
    simpa using this

theorem solution_disturbed_dir {G : W → W} {x y y' : ℝ → W} {T R L ε : ℝ} (hL0 : 0 ≤ L)
    (hL : ∀ u v, ‖u‖ ≤ R → ‖v‖ ≤ R → ‖G u - G v‖ ≤ L * ‖u - v‖) (hx : ∀ t ∈ Icc 0 T, HasDerivAt x (G (x t)) t)
    (hy : ∀ t ∈ Icc 0 T, HasDerivAt y (y' t) t) (hε : ∀ t ∈ Icc 0 T, ‖y' t - G (y t)‖ ≤ ε) (hR : ∀ t ∈ Icc 0 T, ‖x t‖ ≤ R ∧ ‖y t‖ ≤ R) :
    ∀ t ∈ Icc 0 T, ‖x t - y t‖ ≤ (‖x 0 - y 0‖ + ε) * Real.exp ((L + 1) * T) := by
  intro t ht
  have hε0 : 0 ≤ ε := (norm_nonneg _).trans (hε t ht)
  have hp : 0 ≤ L + 1 := by linarith
  have h := dist_le_of_approx_trajectories_ODE_of_mem (v := fun _ => G) (s := fun _ => closedBall 0 R) (K := ⟨L + 1, hp⟩) (f := x) (g := y)
    (a := 0) (b := T) (δ := ‖x 0 - y 0‖) (f' := fun t => G (x t)) (g' := y') (εf := 0) (εg := ε)
    (fun t _ => LipschitzOnWith.of_dist_le_mul fun u hu w hw => by
      rw [dist_eq_norm, dist_eq_norm]
      exact (hL u w (by simpa using hu) (by simpa using hw)).trans (mul_le_mul_of_nonneg_right (by show L ≤ L + 1; linarith) (norm_nonneg _)))
    (fun t ht => (hx t ht).continuousAt.continuousWithinAt) (fun t ht => (hx t (Ico_subset_Icc_self ht)).hasDerivWithinAt)
    (fun t _ => (dist_self _).le) (fun t ht => by simpa using (hR t (Ico_subset_Icc_self ht)).1)
    (fun t ht => (hy t ht).continuousAt.continuousWithinAt) (fun t ht => (hy t (Ico_subset_Icc_self ht)).hasDerivWithinAt)
    (fun t ht => by rw [dist_eq_norm]; exact hε t (Ico_subset_Icc_self ht))
    (fun t ht => by simpa using (hR t (Ico_subset_Icc_self ht)).2) (dist_eq_norm _ _).le t ht
  rw [dist_eq_norm, sub_zero t, zero_add ε] at h
  have h : ‖x t - y t‖ ≤ gronwallBound ‖x 0 - y 0‖ (L + 1) ε t := h
  rw [gronwallBound_of_K_ne_0 (by linarith : L + 1 ≠ 0)] at h
  refine h.trans ?_
  show ‖x 0 - y 0‖ * Real.exp ((L + 1) * t) + ε / (L + 1) * (Real.exp ((L + 1) * t) - 1) ≤ _
  have he : Real.exp ((L + 1) * t) ≤ Real.exp ((L + 1) * T) := Real.exp_le_exp.2 (mul_le_mul_of_nonneg_left ht.2 (by linarith))
  have h1 : 1 ≤ Real.exp ((L + 1) * t) := Real.one_le_exp (mul_nonneg (by linarith) ht.1)
  have h2 : ε / (L + 1) ≤ ε := div_le_self hε0 (by linarith)
  rw [add_mul ‖x 0 - y 0‖ ε]
  exact add_le_add (mul_le_mul_of_nonneg_left he (norm_nonneg (x 0 - y 0))) (mul_le_mul h2 (by linarith) (by linarith) hε0)

/-- The distance of a solution and of a solution of a disturbed equation. -/
theorem solution_disturbed {G : W → W} {x y y' : ℝ → W} {t₀ T R L ε : ℝ} (hL0 : 0 ≤ L)
    (hL : ∀ u v, ‖u‖ ≤ R → ‖v‖ ≤ R → ‖G u - G v‖ ≤ L * ‖u - v‖) (hx : ∀ t, HasDerivAt x (G (x t)) t) (hy : ∀ t, HasDerivAt y (y' t) t)
    (hε : ∀ t, |t - t₀| ≤ T → ‖y' t - G (y t)‖ ≤ ε) (hR : ∀ t, |t - t₀| ≤ T → ‖x t‖ ≤ R ∧ ‖y t‖ ≤ R) {t : ℝ} (ht : |t - t₀| ≤ T) :
    ‖x t - y t‖ ≤ (‖x t₀ - y t₀‖ + ε) * Real.exp ((L + 1) * T) := by
  rcases le_total t₀ t with hc | hc
  · have hi : ∀ s ∈ Icc 0 T, |t₀ + s - t₀| ≤ T := fun s hs => by rw [add_sub_cancel_left, abs_of_nonneg hs.1]; exact hs.2
    have := solution_disturbed_dir hL0 hL (x := fun s => x (t₀ + s)) (y := fun s => y (t₀ + s)) (y' := fun s => y' (t₀ + s)) (T := T)
      (fun s _ => (hx (t₀ + s)).comp_const_add t₀ s) (fun s _ => (hy (t₀ + s)).comp_const_add t₀ s) (fun s hs => hε _ (hi s hs))
      (fun s hs => hR _ (hi s hs)) (t - t₀) ⟨sub_nonneg.2 hc, (le_abs_self _).trans ht⟩
    simpa using this
  · have hi : ∀ s ∈ Icc 0 T, |t₀ - s - t₀| ≤ T := fun s hs => by
      rw [show t₀ - s - t₀ = -s by ring, abs_neg, abs_of_nonneg hs.1]; exact hs.2
    have := solution_disturbed_dir (G := fun w => -G w) hL0 (fun u v hu hv => by
        rw [neg_sub_neg, norm_sub_rev]; exact hL u v hu hv) (x := fun s => x (t₀ - s)) (y := fun s => y (t₀ - s)) (y' := fun s => -y' (t₀ - s)) (T := T)
      (fun s _ => (hx (t₀ - s)).comp_const_sub t₀ s) (fun s _ => (hy (t₀ - s)).comp_const_sub t₀ s)
      (fun s hs => by rw [neg_sub_neg, norm_sub_rev]; exact hε _ (hi s hs)) (fun s hs => hR _ (hi s hs)) (t₀ - t)
      ⟨sub_nonneg.2 hc, (le_abs_self _).trans (by rwa [abs_sub_comm])⟩
    simpa using this

/-- A motion that lets a nonnegative function grow at most exponentially, with the ends of the interval. -/
theorem growth_bound_on {Φ : ℝ → ℝ} {S : Set ℝ} (hS : Convex ℝ S) {t₀ C : ℝ} (h0 : t₀ ∈ S) (hp : ∀ t ∈ S, 0 ≤ Φ t)
    (hd : ∀ t ∈ S, ∃ d, HasDerivAt Φ d t ∧ |d| ≤ C * (1 + Φ t)) {t : ℝ} (ht : t ∈ S) : Φ t ≤ (1 + Φ t₀) * Real.exp (C * |t - t₀|) := by
  choose! d h1 h2 using hd
  have hl : ∀ s ∈ S, HasDerivWithinAt (fun s => Real.log (1 + Φ s)) (d s / (1 + Φ s)) S s := fun s hs =>
    (((h1 s hs).const_add 1).log (by have := hp s hs; positivity)).hasDerivWithinAt
  have hn : ∀ s ∈ S, ‖d s / (1 + Φ s)‖ ≤ C := fun s hs => by
    have := hp s hs
    rw [Real.norm_eq_abs, abs_div, abs_of_pos (show 0 < 1 + Φ s by positivity), div_le_iff₀ (by positivity)]
    exact h2 s hs
  have key := hS.norm_image_sub_le_of_norm_hasDerivWithin_le hl hn h0 ht
  rw [Real.norm_eq_abs, Real.norm_eq_abs] at key
  have hΦ := hp t ht
  have hΦ0 := hp t₀ h0
  have h3 : Real.log (1 + Φ t) ≤ Real.log (1 + Φ t₀) + C * |t - t₀| := by linarith [le_abs_self (Real.log (1 + Φ t) - Real.log (1 + Φ t₀))]
  have h4 := Real.exp_le_exp.2 h3
  rw [Real.exp_add, Real.exp_log (by positivity), Real.exp_log (by positivity)] at h4
  linarith

end RBDyn
