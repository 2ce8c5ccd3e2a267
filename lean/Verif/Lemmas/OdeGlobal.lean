import Mathlib.Analysis.Calculus.BumpFunction.FiniteDimension
import Mathlib.Analysis.Calculus.ContDiff.RCLike
import Mathlib.Analysis.ODE.PicardLindelof
import Mathlib.Analysis.SpecialFunctions.Log.Deriv
import Verif.Lemmas.OdeEuler

/-! Global existence of the solutions of differential equations whose right-hand side lets a function with bounded sublevels grow at most
exponentially. -/

namespace RBDyn
open Set Metric
open scoped NNReal

variable {V : Type} [NormedAddCommGroup V] [NormedSpace ℝ V] [FiniteDimensional ℝ V]

/-- A bounded Lipschitz field has solutions on every interval. -/
theorem lipschitz_solution {W : Type} [NormedAddCommGroup W] [NormedSpace ℝ W] [CompleteSpace W] {F : W → W} {K : ℝ≥0} (hL : LipschitzWith K F) {B : ℝ}
    (hB : ∀ w, ‖F w‖ ≤ B) (t₀ : ℝ) (w₀ : W) {T : ℝ} (hT : 0 ≤ T) :
    ∃ x : ℝ → W, x t₀ = w₀ ∧ ∀ t ∈ Ioo (t₀ - T) (t₀ + T), HasDerivAt x (F (x t)) t := by
  have hB0 : 0 ≤ B := (norm_nonneg _).trans (hB 0)
  have h : IsPicardLindelof (fun _ => F) (tmin := t₀ - T) (tmax := t₀ + T) ⟨t₀, by constructor <;> linarith⟩ w₀ (.mk (B * T) (by positivity)) 0
      (.mk B hB0) K :=
    .of_time_independent (fun w _ => hB w) (hL.lipschitzOnWith) (by simp)
  obtain ⟨x, hx0, hx⟩ := h.exists_eq_forall_mem_Icc_hasDerivWithinAt₀
  exact ⟨x, hx0, fun t ht => (hx t ⟨ht.1.le, ht.2.le⟩).hasDerivAt (Icc_mem_nhds ht.1 ht.2)⟩

/-- A motion that lets a nonnegative function grow at most exponentially. -/
theorem growth_bound {Φ : ℝ → ℝ} {a b t₀ C : ℝ} (h0 : t₀ ∈ Ioo a b) (hp : ∀ t ∈ Ioo a b, 0 ≤ Φ t)
    (hd : ∀ t ∈ Ioo a b, ∃ d, HasDerivAt Φ d t ∧ |d| ≤ C * (1 + Φ t)) {t : ℝ} (ht : t ∈ Ioo a b) :
    Φ t ≤ (1 + Φ t₀) * Real.exp (C * |t - t₀|) := by
  choose! d h1 h2 using hd
  have hl : ∀ s ∈ Ioo a b, HasDerivWithinAt (fun s => Real.log (1 + Φ s)) (d s / (1 + Φ s)) (Ioo a b) s := fun s hs =>
    (((h1 s hs).const_add 1).log (by have := hp s hs; positivity)).hasDerivWithinAt
  have hn : ∀ s ∈ Ioo a b, ‖d s / (1 + Φ s)‖ ≤ C := fun s hs => by
    have := hp s hs
    rw [Real.norm_eq_abs, abs_div, abs_of_pos (show 0 < 1 + Φ s by positivity), div_le_iff₀ (by positivity)]
    exact h2 s hs
  have key := (convex_Ioo a b).norm_image_sub_le_of_norm_hasDerivWithin_le hl hn h0 ht
  rw [Real.norm_eq_abs, Real.norm_eq_abs] at key
  have hΦ := hp t ht
  have hΦ0 := hp t₀ h0
  have h3 : Real.log (1 + Φ t) ≤ Real.log (1 + Φ t₀) + C * |t - t₀| := by linarith [le_abs_self (Real.log (1 + Φ t) - Real.log (1 + Φ t₀))]
  have h4 := Real.exp_le_exp.2 h3
  rw [Real.exp_add, Real.exp_log (by positivity), Real.exp_log (by positivity)] at h4
  linarith

/-- Solutions last for any time when a function with bounded sublevels grows at most exponentially along the field. The first coordinate is time; it is enough
to know the growth in a set that the solutions do not leave. -/
theorem solution_lasts_on {G : ℝ × V → ℝ × V} (hG : ContDiff ℝ 1 G) (h1 : ∀ w, (G w).1 = 1) {Φ : ℝ × V → ℝ} {S : Set (ℝ × V)}
    (hS : ∀ (f : ℝ × V → ℝ) (x : ℝ → ℝ × V) (a b t₀ : ℝ), t₀ ∈ Ioo a b → x t₀ ∈ S → (∀ t ∈ Ioo a b, HasDerivAt x (f (x t) • G (x t)) t) →
      ∀ t ∈ Ioo a b, x t ∈ S)
    (hΦ : ∀ w ∈ S, DifferentiableAt ℝ Φ w) (h0 : ∀ w, 0 ≤ Φ w) (hb : ∀ B, ∃ R, ∀ w ∈ S, Φ w ≤ B → ‖w.2‖ ≤ R)
    (hr : ∀ T, ∃ C, ∀ w ∈ S, |w.1| ≤ T → |fderiv ℝ Φ w (G w)| ≤ C * (1 + Φ w)) {w₀ : ℝ × V} (hw₀ : w₀ ∈ S) {T : ℝ} (hT : 0 < T) :
    ∃ x : ℝ → ℝ × V, x w₀.1 = w₀ ∧ ∀ t ∈ Ioo (w₀.1 - T) (w₀.1 + T), HasDerivAt x (G (x t)) t := by
  obtain ⟨C₀, hC₀⟩ := hr (|w₀.1| + T)
  set C := max C₀ 0
  have hC : ∀ w ∈ S, |w.1| ≤ |w₀.1| + T → |fderiv ℝ Φ w (G w)| ≤ C * (1 + Φ w) := fun w hs hw =>
    (hC₀ w hs hw).trans (mul_le_mul_of_nonneg_right (le_max_left _ _) (by linarith [h0 w]))
  have hC0 : 0 ≤ C := le_max_right _ _
  obtain ⟨R, hR⟩ := hb ((1 + Φ w₀) * Real.exp (C * T))
  set ρ := max (|w₀.1| + T) R + 1
  have hρ : 0 < ρ := by
    have : 0 ≤ |w₀.1| + T := by positivity
    have := this.trans (le_max_left _ R)
    positivity
  let f : ContDiffBump (0 : ℝ × V) := ⟨ρ, ρ + 1, hρ, by linarith⟩
  have hF : ContDiff ℝ 1 fun w => f w • G w := f.contDiff.smul hG
  have hs : HasCompactSupport fun w => f w • G w := f.hasCompactSupport.smul_right
  obtain ⟨K, hK⟩ := hF.lipschitzWith_of_hasCompactSupport hs one_ne_zero
  obtain ⟨B, hB⟩ := hs.exists_bound_of_continuous hF.continuous
  obtain ⟨x, hx0, hx⟩ := lipschitz_solution hK hB w₀.1 w₀ hT.le
  have ht0 : w₀.1 ∈ Ioo (w₀.1 - T) (w₀.1 + T) := ⟨by linarith, by linarith⟩
  have hin := hS f x _ _ _ ht0 (by rw [hx0]; exact hw₀) hx
  have hf1 : ∀ w, |f w| ≤ 1 := fun w => by rw [abs_of_nonneg f.nonneg]; exact f.le_one
  have htime : ∀ t ∈ Ioo (w₀.1 - T) (w₀.1 + T), |(x t).1| ≤ |w₀.1| + T := by
    intro t ht
    have hd : ∀ s ∈ Ioo (w₀.1 - T) (w₀.1 + T), HasDerivWithinAt (fun s => (x s).1) (f (x s)) (Ioo (w₀.1 - T) (w₀.1 + T)) s := fun s hs => by
      have h2 : HasDerivAt (fun s => (x s).1) ((f (x s) • G (x s)).1) s := (ContinuousLinearMap.fst ℝ ℝ V).hasFDerivAt.comp_hasDerivAt s (hx s hs)
      rw [Prod.smul_fst, h1, smul_eq_mul, mul_one] at h2
      exact h2.hasDerivWithinAt
    have := (convex_Ioo _ _).norm_image_sub_le_of_norm_hasDerivWithin_le hd (fun s _ => hf1 (x s)) ht0 ht
    rw [hx0, Real.norm_eq_abs, Real.norm_eq_abs, one_mul] at this
    have h2 : |t - w₀.1| ≤ T := abs_le.2 ⟨by linarith [ht.1], by linarith [ht.2]⟩
    have h3 := abs_add_le ((x t).1 - w₀.1) w₀.1
    rw [sub_add_cancel] at h3
    linarith
  have hΦx : ∀ t ∈ Ioo (w₀.1 - T) (w₀.1 + T), Φ (x t) ≤ (1 + Φ w₀) * Real.exp (C * T) := by
    intro t ht
    have := growth_bound (Φ := fun t => Φ (x t)) (C := C) ht0 (fun s _ => h0 _) (fun s hs => ⟨_, ((hΦ (x s) (hin s hs)).hasFDerivAt.comp_hasDerivAt s
      (hx s hs)), ?_⟩) ht
    · rw [hx0] at this
      refine this.trans (mul_le_mul_of_nonneg_left (Real.exp_le_exp.2 (mul_le_mul_of_nonneg_left ?_ hC0)) (by linarith [h0 w₀]))
      exact abs_le.2 ⟨by linarith [ht.1], by linarith [ht.2]⟩
    · rw [map_smul, smul_eq_mul, abs_mul]
      calc _ ≤ 1 * |fderiv ℝ Φ (x s) (G (x s))| := mul_le_mul_of_nonneg_right (hf1 _) (abs_nonneg _)
        _ ≤ _ := by rw [one_mul]; exact hC _ (hin s hs) (htime s hs)
  refine ⟨x, hx0, fun t ht => ?_⟩
  have hball : x t ∈ closedBall (0 : ℝ × V) f.rIn := by
    rw [mem_closedBall, dist_zero_right, Prod.norm_def, Real.norm_eq_abs]
    have h2 := htime t ht
    have h3 := hR _ (hin t ht) (hΦx t ht)
    show max _ _ ≤ ρ
    have h4 := le_max_left (|w₀.1| + T) R
    have h5 := le_max_right (|w₀.1| + T) R
    exact max_le (by linarith) (by linarith)
  have := hx t ht
  rwa [f.one_of_mem_closedBall hball, one_smul] at this

/-- Under the same conditions there is a solution for all times, past and future. -/
theorem solution_global_on {G : ℝ × V → ℝ × V} (hG : ContDiff ℝ 1 G) (h1 : ∀ w, (G w).1 = 1) {Φ : ℝ × V → ℝ} {S : Set (ℝ × V)}
    (hS : ∀ (f : ℝ × V → ℝ) (x : ℝ → ℝ × V) (a b t₀ : ℝ), t₀ ∈ Ioo a b → x t₀ ∈ S → (∀ t ∈ Ioo a b, HasDerivAt x (f (x t) • G (x t)) t) →
      ∀ t ∈ Ioo a b, x t ∈ S)
    (hΦ : ∀ w ∈ S, DifferentiableAt ℝ Φ w) (h0 : ∀ w, 0 ≤ Φ w) (hb : ∀ B, ∃ R, ∀ w ∈ S, Φ w ≤ B → ‖w.2‖ ≤ R)
    (hr : ∀ T, ∃ C, ∀ w ∈ S, |w.1| ≤ T → |fderiv ℝ Φ w (G w)| ≤ C * (1 + Φ w)) {w₀ : ℝ × V} (hw₀ : w₀ ∈ S) :
    ∃ x : ℝ → ℝ × V, x w₀.1 = w₀ ∧ ∀ t, HasDerivAt x (G (x t)) t := by
  have key := fun n : ℕ => solution_lasts_on hG h1 hS hΦ h0 hb hr hw₀ (T := (n : ℝ) + 1) (by positivity)
  choose y hy0 hy using key
  have agree : ∀ (m n : ℕ) (t : ℝ), |t - w₀.1| < (m : ℝ) + 1 → |t - w₀.1| < (n : ℝ) + 1 → y m t = y n t := by
    intro m n t hm hn
    have hin : ∀ (k : ℕ) s, |s - w₀.1| ≤ |t - w₀.1| → |t - w₀.1| < (k : ℝ) + 1 → HasDerivAt (y k) (G (y k s)) s := fun k s hs hk => by
      obtain ⟨u, v⟩ := abs_lt.1 (hs.trans_lt hk)
      exact hy k s ⟨by linarith, by linarith⟩
    have e0 : y m w₀.1 = y n w₀.1 := by rw [hy0, hy0]
    rcases le_total w₀.1 t with hc | hc
    · have hs : ∀ s ∈ Icc w₀.1 t, |s - w₀.1| ≤ |t - w₀.1| := fun s hs => by
        rw [abs_of_nonneg (by linarith [hs.1]), abs_of_nonneg (by linarith)]; linarith [hs.2]
      exact solution_unique hG (fun s h => hin m s (hs s h) hm) (fun s h => hin n s (hs s h) hn) e0 ⟨hc, le_rfl⟩
    · have hs : ∀ s ∈ Icc t w₀.1, |s - w₀.1| ≤ |t - w₀.1| := fun s hs => by
        rw [abs_of_nonpos (by linarith [hs.2]), abs_of_nonpos (by linarith)]; linarith [hs.1]
      exact solution_unique_back hG (fun s h => hin m s (hs s h) hm) (fun s h => hin n s (hs s h) hn) e0 ⟨le_rfl, hc⟩
  have hfl : ∀ t : ℝ, |t - w₀.1| < (⌊|t - w₀.1|⌋₊ : ℝ) + 1 := fun t => Nat.lt_floor_add_one _
  refine ⟨fun t => y ⌊|t - w₀.1|⌋₊ t, hy0 _, fun t => ?_⟩
  set n := ⌊|t - w₀.1|⌋₊
  have hev : ∀ᶠ s in nhds t, |s - w₀.1| < (n : ℝ) + 1 :=
    (continuous_abs.comp (continuous_id.sub continuous_const)).continuousAt.eventually (gt_mem_nhds (hfl t))
  obtain ⟨u, v⟩ := abs_lt.1 (hfl t)
  exact (hy n t ⟨by linarith, by linarith⟩).congr_of_eventuallyEq (hev.mono fun s hs => agree _ _ _ (hfl s) hs)

/-- Under the same conditions in the whole space. -/
theorem solution_global {G : ℝ × V → ℝ × V} (hG : ContDiff ℝ 1 G) (h1 : ∀ w, (G w).1 = 1) {Φ : ℝ × V → ℝ} (hΦ : ContDiff ℝ 1 Φ)
    (h0 : ∀ w, 0 ≤ Φ w) (hb : ∀ B, ∃ R, ∀ w, Φ w ≤ B → ‖w.2‖ ≤ R)
    (hr : ∀ T, ∃ C, ∀ w : ℝ × V, |w.1| ≤ T → |fderiv ℝ Φ w (G w)| ≤ C * (1 + Φ w)) (w₀ : ℝ × V) :
    ∃ x : ℝ → ℝ × V, x w₀.1 = w₀ ∧ ∀ t, HasDerivAt x (G (x t)) t := by
  refine solution_global_on hG h1 (S := univ) (fun _ _ _ _ _ _ _ _ _ _ => trivial) (fun w _ => hΦ.differentiable one_ne_zero w) h0 (fun B => ?_) (fun T => ?_)
    (mem_univ w₀)
  · obtain ⟨R, hR⟩ := hb B
    exact ⟨R, fun w _ => hR w⟩
  · obtain ⟨C, hC⟩ := hr T
    exact ⟨C, fun w _ => hC w⟩

end RBDyn
