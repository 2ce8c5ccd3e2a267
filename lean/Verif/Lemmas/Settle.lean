import Verif.Lemmas.OdeEuler
import Mathlib.Analysis.Calculus.MeanValue
import Mathlib.Topology.Order.MonotoneConvergence

/-! Barbalat's lemma, and the argument of LaSalle for second order equations: where a function that never grows is used up by the velocities, the motion comes to
rest, and the places where it comes to rest are those where nothing accelerates it. -/

namespace RBDyn
open Filter Set
open scoped Topology

/-- Barbalat's lemma: the derivative of a curve that converges goes to zero, when it does not change arbitrarily fast. -/
theorem barbalat {E : Type} [NormedAddCommGroup E] [NormedSpace ℝ E] {g f : ℝ → E} {l : E} {L : ℝ} (hg : Tendsto g atTop (𝓝 l))
    (hd : ∀ t, 0 ≤ t → HasDerivAt g (f t) t) (hf : ∀ s t, 0 ≤ s → s ≤ t → ‖f t - f s‖ ≤ L * (t - s)) : Tendsto f atTop (𝓝 0) := by
  have hL : 0 ≤ L := by
    have := hf 0 1 le_rfl zero_le_one
    linarith [norm_nonneg (f 1 - f 0)]
  have step : ∀ t δ, 0 ≤ t → 0 < δ → δ * ‖f t‖ ≤ ‖g (t + δ) - g t‖ + L * δ * δ := fun t δ ht hδ => by
    have h1 : ∀ s ∈ Icc t (t + δ), HasDerivWithinAt (fun s => g s - (s - t) • f t) (f s - f t) (Icc t (t + δ)) s := fun s hs => by
      have := (hd s (ht.trans hs.1)).sub (((hasDerivAt_id s).sub_const t).smul_const (f t))
      rw [one_smul] at this
      exact this.hasDerivWithinAt
    have h2 := norm_image_sub_le_of_norm_deriv_le_segment' h1 (C := L * δ) (fun s hs => by
      refine (hf t s ht hs.1).trans (mul_le_mul_of_nonneg_left ?_ hL)
      linarith [hs.2]) (t + δ) ⟨by linarith, le_rfl⟩
    have e : g (t + δ) - (t + δ - t) • f t - (g t - (t - t) • f t) = g (t + δ) - g t - δ • f t := by
      rw [sub_self, zero_smul, sub_zero, add_sub_cancel_left]
      abel
    rw [e, add_sub_cancel_left] at h2
    have h3 : ‖δ • f t‖ = δ * ‖f t‖ := by rw [norm_smul, Real.norm_of_nonneg hδ.le]
    have h4 := norm_sub_norm_le (δ • f t) (g (t + δ) - g t)
    rw [norm_sub_rev (δ • f t), h3] at h4
    linarith
  rw [Metric.tendsto_atTop] at hg ⊢
  intro ε hε
  have hδ : 0 < ε / (2 * (L + 1)) := by positivity
  set δ := ε / (2 * (L + 1)) with hδe
  obtain ⟨N, hN⟩ := hg (ε * δ / 4) (by positivity)
  refine ⟨max N 0, fun t ht => ?_⟩
  have h0 : 0 ≤ t := (le_max_right _ _).trans ht
  have h1 : N ≤ t := (le_max_left _ _).trans ht
  have d1 := hN t h1
  have d2 := hN (t + δ) (by linarith)
  have d3 : ‖g (t + δ) - g t‖ < ε * δ / 2 := by
    rw [← dist_eq_norm]
    have := dist_triangle_right (g (t + δ)) (g t) l
    linarith
  have d4 := step t δ h0 hδ
  have d5 : L * δ ≤ ε / 2 := by
    rw [hδe, ← mul_div_assoc, div_le_div_iff₀ (by positivity) two_pos]
    nlinarith
  rw [dist_zero_right]
  have d6 : L * δ * δ ≤ ε / 2 * δ := mul_le_mul_of_nonneg_right d5 hδ.le
  have : δ * ‖f t‖ < δ * ε := by nlinarith
  exact lt_of_mul_lt_mul_left this hδ.le

theorem decreasing_on {V f : ℝ → ℝ} (hd : ∀ t, 0 ≤ t → HasDerivAt V (f t) t) (hf : ∀ t, 0 ≤ t → f t ≤ 0) : AntitoneOn V (Ici 0) := by
  refine antitoneOn_of_deriv_nonpos (convex_Ici 0) (fun t ht => (hd t ht).continuousAt.continuousWithinAt)
    (fun t ht => ((hd t (interior_subset ht)).differentiableAt).differentiableWithinAt) fun t ht => ?_
  rw [(hd t (interior_subset ht)).deriv]
  exact hf t (interior_subset ht)

theorem decreasing_le {V f : ℝ → ℝ} (hd : ∀ t, 0 ≤ t → HasDerivAt V (f t) t) (hf : ∀ t, 0 ≤ t → f t ≤ 0) {t : ℝ} (ht : 0 ≤ t) : V t ≤ V 0 :=
  decreasing_on hd hf (mem_Ici.2 le_rfl) (mem_Ici.2 ht) ht

theorem constant_on {V : ℝ → ℝ} (hd : ∀ t, 0 ≤ t → HasDerivAt V 0 t) {t : ℝ} (ht : 0 ≤ t) : V t = V 0 := by
  have h1 := decreasing_le hd (fun _ _ => le_rfl) ht
  have h2 := decreasing_le (V := fun t => -V t) (f := fun _ => 0) (fun t ht => ((hd t ht).neg).congr_deriv neg_zero) (fun _ _ => le_rfl) ht
  linarith

/-- A function that never grows and is never negative converges. -/
theorem decreasing_limit {V f : ℝ → ℝ} (h0 : ∀ t, 0 ≤ t → 0 ≤ V t) (hd : ∀ t, 0 ≤ t → HasDerivAt V (f t) t) (hf : ∀ t, 0 ≤ t → f t ≤ 0) :
    ∃ l, Tendsto V atTop (𝓝 l) := by
  have ha := decreasing_on hd hf
  have hm : Antitone fun t => V (max t 0) := fun s t hst => ha (mem_Ici.2 (le_max_right _ _)) (mem_Ici.2 (le_max_right _ _)) (max_le_max_right 0 hst)
  refine ⟨_, (tendsto_atTop_ciInf hm ⟨0, ?_⟩).congr' ?_⟩
  · rintro _ ⟨t, rfl⟩
    exact h0 _ (le_max_right _ _)
  · filter_upwards [eventually_ge_atTop 0] with t ht
    rw [max_eq_left ht]

variable {ι : Type} [Fintype ι]

/-- The argument of LaSalle. -/
theorem comes_to_rest {A : (ι → ℝ) × (ι → ℝ) → ι → ℝ} (hA : ContDiff ℝ 1 A) {q α : ℝ → ι → ℝ} {R : ℝ} (hR : ∀ t, 0 ≤ t → ‖(q t, α t)‖ ≤ R)
    (hq : ∀ t, 0 ≤ t → HasDerivAt q (α t) t) (ha : ∀ t, 0 ≤ t → HasDerivAt α (A (q t, α t)) t) {V : ℝ → ℝ} {D : ι → ℝ} (hD : ∀ y, 0 < D y)
    (hV0 : ∀ t, 0 ≤ t → 0 ≤ V t) (hV : ∀ t, 0 ≤ t → HasDerivAt V (-∑ y, D y * α t y ^ 2) t) :
    Tendsto α atTop (𝓝 0) ∧ Tendsto (fun t => A (q t, 0)) atTop (𝓝 0) := by
  have hG : ContDiff ℝ 1 fun w : (ι → ℝ) × (ι → ℝ) => (w.2, A w) := contDiff_snd.prodMk hA
  obtain ⟨L, hL, lip⟩ := lipschitz_on_ball hG R
  obtain ⟨M, hM, bnd⟩ := bounded_on_ball hG.continuous R
  have hx : ∀ t, 0 ≤ t → HasDerivAt (fun s => (q s, α s)) (α t, A (q t, α t)) t := fun t ht => (hq t ht).prodMk (ha t ht)
  have hR0 : 0 ≤ R := (norm_nonneg _).trans (hR 0 le_rfl)
  have move : ∀ s t, 0 ≤ s → s ≤ t → ‖(q t, α t) - (q s, α s)‖ ≤ M * (t - s) := fun s t hs hst =>
    norm_image_sub_le_of_norm_deriv_le_segment' (f := fun s => (q s, α s)) (fun u hu => (hx u (hs.trans hu.1)).hasDerivWithinAt)
      (fun u hu => bnd (q u, α u) (hR u (hs.trans hu.1))) t ⟨hst, le_rfl⟩
  have ent : ∀ t, 0 ≤ t → ∀ y, |α t y| ≤ R := fun t ht y => (norm_le_pi_norm (α t) y).trans ((norm_snd_le (q t, α t)).trans (hR t ht))
  have dif : ∀ s t, 0 ≤ s → s ≤ t → ∀ y, |α t y - α s y| ≤ M * (t - s) := fun s t hs hst y =>
    (norm_le_pi_norm (α t - α s) y).trans ((norm_snd_le ((q t, α t) - (q s, α s))).trans (move s t hs hst))
  -- the velocities go to zero
  obtain ⟨l, hl⟩ := decreasing_limit hV0 hV fun t _ => by
    have : 0 ≤ ∑ y, D y * α t y ^ 2 := Finset.sum_nonneg fun y _ => mul_nonneg (hD y).le (sq_nonneg _)
    linarith
  have h1 : Tendsto (fun t => -∑ y, D y * α t y ^ 2) atTop (𝓝 0) := by
    refine barbalat (L := ∑ y, D y * (M * (2 * R))) hl hV fun s t hs hst => ?_
    have e : -∑ y, D y * α t y ^ 2 - -∑ y, D y * α s y ^ 2 = ∑ y, D y * ((α s y - α t y) * (α s y + α t y)) := by
      rw [neg_sub_neg, ← Finset.sum_sub_distrib]
      exact Finset.sum_congr rfl fun y _ => by ring
    rw [e, Finset.sum_mul]
    refine (norm_sum_le _ _).trans (Finset.sum_le_sum fun y _ => ?_)
    rw [Real.norm_eq_abs, abs_mul, abs_mul, abs_of_pos (hD y), abs_sub_comm, mul_assoc]
    refine mul_le_mul_of_nonneg_left ?_ (hD y).le
    have b1 := dif s t hs hst y
    have b2 : |α s y + α t y| ≤ 2 * R := (abs_add_le _ _).trans (by linarith [ent s hs y, ent t (hs.trans hst) y])
    calc _ ≤ M * (t - s) * (2 * R) := mul_le_mul b1 b2 (abs_nonneg _) (mul_nonneg hM (by linarith))
      _ = _ := by ring
  have hα : Tendsto α atTop (𝓝 0) := by
    refine tendsto_pi_nhds.2 fun y => ?_
    have h2 : Tendsto (fun t => √((∑ y, D y * α t y ^ 2) / D y)) atTop (𝓝 0) := by
      have := (h1.neg.div_const (D y)).sqrt
      simpa using this
    refine squeeze_zero_norm' ?_ h2
    filter_upwards with t
    rw [Real.norm_eq_abs, ← Real.sqrt_sq_eq_abs]
    refine Real.sqrt_le_sqrt ?_
    rw [le_div_iff₀ (hD y), mul_comm]
    exact Finset.single_le_sum (f := fun y => D y * α t y ^ 2) (fun y _ => mul_nonneg (hD y).le (sq_nonneg _)) (Finset.mem_univ y)
  -- so do the accelerations
  have h3 : Tendsto (fun t => A (q t, α t)) atTop (𝓝 0) := by
    refine barbalat (L := L * M) hα ha fun s t hs hst => ?_
    have := (norm_snd_le _).trans ((lip (q t, α t) (q s, α s) (hR t (hs.trans hst)) (hR s hs)).trans (mul_le_mul_of_nonneg_left (move s t hs hst) hL))
    rw [mul_assoc]
    exact this
  -- and those at zero velocity
  refine ⟨hα, ?_⟩
  have h4 : Tendsto (fun t => A (q t, α t) - A (q t, 0)) atTop (𝓝 0) := by
    refine squeeze_zero_norm' (a := fun t => L * ‖α t‖) ?_ (by simpa using (hα.norm).const_mul L)
    filter_upwards [eventually_ge_atTop 0] with t ht
    have hz : ‖(q t, (0 : ι → ℝ))‖ ≤ R := by
      rw [Prod.norm_def, norm_zero]
      exact max_le ((norm_fst_le (q t, α t)).trans (hR t ht)) hR0
    have := (norm_snd_le _).trans (lip (q t, α t) (q t, 0) (hR t ht) hz)
    have e : ‖(q t, α t) - (q t, (0 : ι → ℝ))‖ = ‖α t‖ := by
      rw [Prod.mk_sub_mk, sub_self, sub_zero, Prod.norm_def, norm_zero]
      exact max_eq_right (norm_nonneg _)
    rw [e] at this
    exact this
  simpa using h3.sub h4

end RBDyn
