import Verif.Lemmas.Settle

/-! Stability of equilibria at strict minima of an energy, for curves in spaces of finite dimension. -/

namespace RBDyn
open scoped Topology
open Filter Set

variable {ι : Type} [Fintype ι]

/-- Lagrange and Dirichlet: curves along which the sum of a non-negative energy of motion and a potential does not grow stay near a strict minimum of the
potential. -/
theorem dirichlet {P : (ι → ℝ) → ℝ} (hP : Continuous P) {z : ι → ℝ} {r : ℝ} (hr : 0 < r) (hmin : ∀ q, ‖q - z‖ ≤ r → q ≠ z → P z < P q)
    {T : (ι → ℝ) × (ι → ℝ) → ℝ} (hT : Continuous T) (hT0 : ∀ w, 0 ≤ T w) (hTz : T (z, 0) = 0) {C : ℝ} (hC : 0 ≤ C) (hb : ∀ w, ‖w.2‖ ≤ C * √(T w))
    {ε : ℝ} (hε : 0 < ε) :
    ∃ δ, 0 < δ ∧ ∀ q α : ℝ → ι → ℝ, ContinuousOn q (Ici 0) → (∀ t, 0 ≤ t → T (q t, α t) + P (q t) ≤ T (q 0, α 0) + P (q 0)) → ‖q 0 - z‖ < δ → ‖α 0‖ < δ →
      ∀ t, 0 ≤ t → ‖q t - z‖ < ε ∧ ‖α t‖ < ε := by
  set ρ := min r (ε / 2) with hρ
  have hρ0 : 0 < ρ := lt_min hr (half_pos hε)
  have hρr : ρ ≤ r := min_le_left _ _
  have hρε : ρ < ε := (min_le_right _ _).trans_lt (half_lt_self hε)
  -- the potential on the sphere
  obtain ⟨c, hc, hS⟩ : ∃ c, 0 < c ∧ ∀ q, ‖q - z‖ = ρ → P z + c ≤ P q := by
    rcases (Metric.sphere z ρ).eq_empty_or_nonempty with h | h
    · exact ⟨1, one_pos, fun q hq => absurd (h ▸ (mem_sphere_iff_norm.2 hq) : q ∈ (∅ : Set (ι → ℝ))) (notMem_empty q)⟩
    · obtain ⟨p, hp, hm⟩ := (isCompact_sphere z ρ).exists_isMinOn h hP.continuousOn
      have hp' := mem_sphere_iff_norm.1 hp
      have hpz : p ≠ z := fun e => by
        rw [e, sub_self, norm_zero] at hp'
        exact hρ0.ne hp'
      refine ⟨P p - P z, sub_pos.2 (hmin p (hp'.le.trans hρr) hpz), fun q hq => ?_⟩
      have := hm (mem_sphere_iff_norm.2 hq)
      simp only [mem_ofPred_eq] at this
      linarith
  set η := min c ((ε / (C + 1)) ^ 2) with hη
  have hη0 : 0 < η := lt_min hc (by positivity)
  have hcont : ContinuousAt (fun w : (ι → ℝ) × (ι → ℝ) => T w + P w.1) (z, 0) := (hT.add (hP.comp continuous_fst)).continuousAt
  obtain ⟨δ, hδ, hnear⟩ := Metric.continuousAt_iff.1 hcont η hη0
  refine ⟨min δ ρ, lt_min hδ hρ0, fun q α hq hE h1 h2 t ht => ?_⟩
  have hstart : T (q 0, α 0) + P (q 0) < P z + η := by
    have := hnear (x := (q 0, α 0)) (by
      rw [dist_eq_norm, Prod.norm_def]
      refine max_lt ?_ ?_
      · exact h1.trans_le (min_le_left _ _)
      · show ‖α 0 - 0‖ < δ
        rw [sub_zero]
        exact h2.trans_le (min_le_left _ _))
    rw [Real.dist_eq, hTz, zero_add] at this
    have := (abs_lt.1 this).2
    linarith
  have hin : ∀ t, 0 ≤ t → ‖q t - z‖ < ρ := fun t ht => by
    by_contra hcon
    have hcon := not_lt.1 hcon
    have hcn : ContinuousOn (fun s => ‖q s - z‖) (Icc 0 t) := ((hq.mono Icc_subset_Ici_self).sub continuousOn_const).norm
    obtain ⟨u, hu, hu2⟩ := intermediate_value_Icc ht hcn ⟨(h1.trans_le (min_le_right _ _)).le, hcon⟩
    have e1 := hS (q u) hu2
    have e2 := hE u hu.1
    have e3 := hT0 (q u, α u)
    have e4 : η ≤ c := min_le_left _ _
    linarith
  refine ⟨(hin t ht).trans hρε, ?_⟩
  have hle : P z ≤ P (q t) := by
    by_cases e : q t = z
    · rw [e]
    · exact (hmin _ ((hin t ht).le.trans hρr) e).le
  have hTt : T (q t, α t) < (ε / (C + 1)) ^ 2 := by
    have e4 : η ≤ (ε / (C + 1)) ^ 2 := min_le_right _ _
    linarith [hE t ht]
  have hs : √(T (q t, α t)) < ε / (C + 1) := by
    rw [Real.sqrt_lt' (by positivity)]
    exact hTt
  calc ‖α t‖ ≤ C * √(T (q t, α t)) := hb (q t, α t)
    _ ≤ C * (ε / (C + 1)) := mul_le_mul_of_nonneg_left hs.le hC
    _ < ε := by
      rw [mul_div_assoc', div_lt_iff₀ (by positivity)]
      nlinarith

/-- A curve in a ball along which a function goes to zero goes to the only zero of the function in the ball. -/
theorem tendsto_only_zero {f : (ι → ℝ) → ι → ℝ} (hf : Continuous f) {z : ι → ℝ} {r : ℝ} (h0 : ∀ q, ‖q - z‖ ≤ r → f q = 0 → q = z) {q : ℝ → ι → ℝ}
    (hq : ∀ᶠ t in atTop, ‖q t - z‖ ≤ r) (hl : Tendsto (fun t => f (q t)) atTop (𝓝 0)) : Tendsto q atTop (𝓝 z) := by
  refine Metric.tendsto_nhds.2 fun ε hε => ?_
  have hK : IsCompact (Metric.closedBall z r \ Metric.ball z ε) := (isCompact_closedBall z r).diff Metric.isOpen_ball
  rcases (Metric.closedBall z r \ Metric.ball z ε).eq_empty_or_nonempty with h | h
  · filter_upwards [hq] with t ht
    by_contra hc
    have : q t ∈ Metric.closedBall z r \ Metric.ball z ε := ⟨mem_closedBall_iff_norm.2 ht, fun hb => hc hb⟩
    rw [h] at this
    exact this
  · obtain ⟨p, hp, hm⟩ := hK.exists_isMinOn h hf.norm.continuousOn
    have hpos : 0 < ‖f p‖ := by
      refine norm_pos_iff.2 fun e => ?_
      have := h0 p (mem_closedBall_iff_norm.1 hp.1) e
      rw [this] at hp
      exact hp.2 (Metric.mem_ball_self hε)
    filter_upwards [hq, Metric.tendsto_nhds.1 hl _ hpos] with t ht h2
    by_contra hc
    have h3 := hm (show q t ∈ Metric.closedBall z r \ Metric.ball z ε from ⟨mem_closedBall_iff_norm.2 ht, fun hb => hc hb⟩)
    rw [dist_zero_right] at h2
    exact absurd h2 (not_lt.2 h3)

end RBDyn
