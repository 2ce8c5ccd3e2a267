import Verif.Lemmas.MagnusDefect

/-! The error of the sum of the first terms of the Magnus series. -/

namespace RBDyn
open scoped Mat3 Quaternion

theorem box_bound {f : ℝ → ℝ → ℝ → ℝ → ℝ} (hf : Continuous fun p : ℝ × ℝ × ℝ × ℝ => f p.1 p.2.1 p.2.2.1 p.2.2.2) (M : ℝ) :
    ∃ C, 0 ≤ C ∧ ∀ h α β γ : ℝ, |h| ≤ M → |α| ≤ M ^ 2 → |β| ≤ M ^ 2 → |γ| ≤ M ^ 2 → |f h α β γ| ≤ C := by
  have hK : IsCompact (Set.Icc (-M) M ×ˢ Set.Icc (-M ^ 2) (M ^ 2) ×ˢ Set.Icc (-M ^ 2) (M ^ 2) ×ˢ Set.Icc (-M ^ 2) (M ^ 2)) :=
    isCompact_Icc.prod (isCompact_Icc.prod (isCompact_Icc.prod isCompact_Icc))
  obtain ⟨C, hC⟩ := hK.exists_bound_of_continuousOn hf.continuousOn
  refine ⟨max C 0, le_max_right _ _, fun h α β γ h1 h2 h3 h4 => ?_⟩
  have := hC (h, α, β, γ) ⟨abs_le.1 h1, by simpa using abs_le.1 h2, by simpa using abs_le.1 h3, by simpa using abs_le.1 h4⟩
  exact this.trans (le_max_left _ _)

theorem mg_cont :
    (Continuous fun p : ℝ × ℝ × ℝ × ℝ => mgT p.1 p.2.1 p.2.2.1 p.2.2.2) ∧
    (Continuous fun p : ℝ × ℝ × ℝ × ℝ => mgM1 p.1 p.2.1 p.2.2.1 p.2.2.2) ∧
    (Continuous fun p : ℝ × ℝ × ℝ × ℝ => mgM2 p.1 p.2.1 p.2.2.1 p.2.2.2) ∧
    (Continuous fun p : ℝ × ℝ × ℝ × ℝ => mgM3 p.1 p.2.1 p.2.2.1 p.2.2.2) ∧
    (Continuous fun p : ℝ × ℝ × ℝ × ℝ => mgL1 p.1 p.2.1 p.2.2.1 p.2.2.2) ∧
    (Continuous fun p : ℝ × ℝ × ℝ × ℝ => mgL2 p.1 p.2.1 p.2.2.1 p.2.2.2) ∧
    (Continuous fun p : ℝ × ℝ × ℝ × ℝ => mgL3 p.1 p.2.1 p.2.2.1 p.2.2.2) := by
  refine ⟨?_, ?_, ?_, ?_, ?_, ?_, ?_⟩
  · unfold mgT; fun_prop
  · unfold mgM1; fun_prop
  · unfold mgM2; fun_prop
  · unfold mgM3; fun_prop
  · unfold mgL1; fun_prop
  · unfold mgL2; fun_prop
  · unfold mgL3; fun_prop

theorem mg_contG :
    (Continuous fun p : ℝ × ℝ × ℝ × ℝ => mgG1 p.1 p.2.1 p.2.2.1 p.2.2.2) ∧
    (Continuous fun p : ℝ × ℝ × ℝ × ℝ => mgG2 p.1 p.2.1 p.2.2.1 p.2.2.2) ∧
    (Continuous fun p : ℝ × ℝ × ℝ × ℝ => mgG3 p.1 p.2.1 p.2.2.1 p.2.2.2) := by
  refine ⟨?_, ?_, ?_⟩
  · unfold mgG1 mgMr1 mgLr1 mgMs1 mgTr mgM1 mgLs1 mgTs mgL1; fun_prop
  · unfold mgG2 mgMr2 mgLr2 mgMs2 mgTr mgM2 mgLs2 mgTs mgL2; fun_prop
  · unfold mgG3 mgMr3 mgLr3 mgMs3 mgTr mgM3 mgLs3 mgTs mgL3; fun_prop

theorem magnus_defect (w d : Vec3 ℝ) (h : ℝ) :
    bodyRate (magnusSum w d h) (magnusSumD w d h) - (w + h • d) =
      h ^ 6 • comb w d (mgG1 h w.normSq (w.dot d) d.normSq) (mgG2 h w.normSq (w.dot d) d.normSq) (mgG3 h w.normSq (w.dot d) d.normSq) +
      (-(dA √(magnusSum w d h).normSq - (1 / 2 - √(magnusSum w d h).normSq ^ 2 / 24)) * h ^ 2) •
        comb w d (mgM1 h w.normSq (w.dot d) d.normSq) (mgM2 h w.normSq (w.dot d) d.normSq) (mgM3 h w.normSq (w.dot d) d.normSq) +
      ((dB √(magnusSum w d h).normSq - (1 / 6 - √(magnusSum w d h).normSq ^ 2 / 120)) * h ^ 3) •
        comb w d (mgL1 h w.normSq (w.dot d) d.normSq) (mgL2 h w.normSq (w.dot d) d.normSq) (mgL3 h w.normSq (w.dot d) d.normSq) := by
  have hT : √(magnusSum w d h).normSq ^ 2 = h ^ 2 * mgT h w.normSq (w.dot d) d.normSq := by
    rw [Real.sq_sqrt (Vec3.normSq_nonneg _), magnusSum_normSq]
  rw [hT]
  have g1 := mg_defect1 h w.normSq (w.dot d) d.normSq
  have g2 := mg_defect2 h w.normSq (w.dot d) d.normSq
  have g3 := mg_defect3 h w.normSq (w.dot d) d.normSq
  have e : w + h • d = comb w d 1 h 0 := by ext <;> simp [comb]
  rw [bodyRate, magnusSum_cross2, magnusSum_cross, magnusSumD, e]
  simp only [comb_smul, comb_add, comb_sub]
  rw [← g1, ← g2, ← g3]
  congr 1 <;> ring

/-- The rate of the rotation whose vector is the sum of the terms differs little from the prescribed one. -/
theorem magnus_rate (M : ℝ) : ∃ C, 0 ≤ C ∧ ∀ (w d : Vec3 ℝ) (h : ℝ), √w.normSq ≤ M → √d.normSq ≤ M → |h| ≤ M →
    √(bodyRate (magnusSum w d h) (magnusSumD w d h) - (w + h • d)).normSq ≤ C * |h| ^ 6 := by
  obtain ⟨k0, k1, k2, k3, k4, k5, k6⟩ := mg_cont
  obtain ⟨k7, k8, k9⟩ := mg_contG
  obtain ⟨T, hT, bT⟩ := box_bound k0 M
  obtain ⟨C1, h1, b1⟩ := box_bound k1 M
  obtain ⟨C2, h2, b2⟩ := box_bound k2 M
  obtain ⟨C3, h3, b3⟩ := box_bound k3 M
  obtain ⟨C4, h4, b4⟩ := box_bound k4 M
  obtain ⟨C5, h5, b5⟩ := box_bound k5 M
  obtain ⟨C6, h6, b6⟩ := box_bound k6 M
  obtain ⟨C7, h7, b7⟩ := box_bound k7 M
  obtain ⟨C8, h8, b8⟩ := box_bound k8 M
  obtain ⟨C9, h9, b9⟩ := box_bound k9 M
  by_cases hM : 0 ≤ M
  swap
  · exact ⟨0, le_rfl, fun w d h hw => absurd ((Real.sqrt_nonneg _).trans hw) hM⟩
  refine ⟨(C7 * M + C8 * M + C9 * (M * M)) + T ^ 2 / 720 * (C1 * M + C2 * M + C3 * (M * M)) +
    T ^ 2 / 5040 * M * (C4 * M + C5 * M + C6 * (M * M)), by positivity, fun w d h hw hd hh => ?_⟩
  have aw : |w.normSq| ≤ M ^ 2 := by
    rw [abs_of_nonneg w.normSq_nonneg]
    exact (Real.sqrt_le_left hM).1 hw
  have ad : |d.normSq| ≤ M ^ 2 := by
    rw [abs_of_nonneg d.normSq_nonneg]
    exact (Real.sqrt_le_left hM).1 hd
  have awd : |w.dot d| ≤ M ^ 2 := by
    refine (abs_dot_le w d).trans ?_
    rw [sq]
    exact mul_le_mul hw hd (Real.sqrt_nonneg _) hM
  have nG := comb_norm_le hw hd (mgG1 h w.normSq (w.dot d) d.normSq) (mgG2 h w.normSq (w.dot d) d.normSq) (mgG3 h w.normSq (w.dot d) d.normSq)
  have nM := comb_norm_le hw hd (mgM1 h w.normSq (w.dot d) d.normSq) (mgM2 h w.normSq (w.dot d) d.normSq) (mgM3 h w.normSq (w.dot d) d.normSq)
  have nL := comb_norm_le hw hd (mgL1 h w.normSq (w.dot d) d.normSq) (mgL2 h w.normSq (w.dot d) d.normSq) (mgL3 h w.normSq (w.dot d) d.normSq)
  have nG' := nG.trans (show _ ≤ C7 * M + C8 * M + C9 * (M * M) by
    have := b7 h _ _ _ hh aw awd ad
    have := b8 h _ _ _ hh aw awd ad
    have := b9 h _ _ _ hh aw awd ad
    gcongr)
  have nM' := nM.trans (show _ ≤ C1 * M + C2 * M + C3 * (M * M) by
    have := b1 h _ _ _ hh aw awd ad
    have := b2 h _ _ _ hh aw awd ad
    have := b3 h _ _ _ hh aw awd ad
    gcongr)
  have nL' := nL.trans (show _ ≤ C4 * M + C5 * M + C6 * (M * M) by
    have := b4 h _ _ _ hh aw awd ad
    have := b5 h _ _ _ hh aw awd ad
    have := b6 h _ _ _ hh aw awd ad
    gcongr)
  have hTT : √(magnusSum w d h).normSq ^ 4 ≤ |h| ^ 4 * T ^ 2 := by
    have e : √(magnusSum w d h).normSq ^ 4 = (√(magnusSum w d h).normSq ^ 2) ^ 2 := by ring
    rw [e, Real.sq_sqrt (Vec3.normSq_nonneg _), magnusSum_normSq, mul_pow, show |h| ^ 4 = (|h| ^ 2) ^ 2 by ring, sq_abs]
    exact mul_le_mul_of_nonneg_left (sq_le_sq' (abs_le.1 (bT h _ _ _ hh aw awd ad)).1 (abs_le.1 (bT h _ _ _ hh aw awd ad)).2)
      (sq_nonneg _)
  have bA := (dA_bound √(magnusSum w d h).normSq).trans (div_le_div_of_nonneg_right hTT (by norm_num))
  have bB := (dB_bound √(magnusSum w d h).normSq).trans (div_le_div_of_nonneg_right hTT (by norm_num))
  rw [magnus_defect]
  refine (vec_tri _ _).trans ((add_le_add_left (vec_tri _ _) _).trans ?_)
  rw [vec_smul, vec_smul, vec_smul, abs_mul, abs_mul, abs_neg, abs_pow, abs_pow, abs_pow]
  have hh0 := abs_nonneg h
  calc _ ≤ |h| ^ 6 * (C7 * M + C8 * M + C9 * (M * M)) + |h| ^ 4 * T ^ 2 / 720 * |h| ^ 2 * (C1 * M + C2 * M + C3 * (M * M)) +
        |h| ^ 4 * T ^ 2 / 5040 * |h| ^ 3 * (C4 * M + C5 * M + C6 * (M * M)) := by
        gcongr
    _ = |h| ^ 6 * (C7 * M + C8 * M + C9 * (M * M)) + T ^ 2 / 720 * |h| ^ 6 * (C1 * M + C2 * M + C3 * (M * M)) +
        T ^ 2 / 5040 * |h| * |h| ^ 6 * (C4 * M + C5 * M + C6 * (M * M)) := by ring
    _ ≤ |h| ^ 6 * (C7 * M + C8 * M + C9 * (M * M)) + T ^ 2 / 720 * |h| ^ 6 * (C1 * M + C2 * M + C3 * (M * M)) +
        T ^ 2 / 5040 * M * |h| ^ 6 * (C4 * M + C5 * M + C6 * (M * M)) := by gcongr
    _ = _ := by ring

/-- A quaternion that turns keeps its norm. -/
theorem turning_norm {q : ℝ → ℍ[ℝ]} {b : ℝ → Vec3 ℝ} (hq : ∀ t, HasDerivAt q ((1 / 2 : ℝ) • (q t * (b t).toH)) t) (t : ℝ) :
    ‖q t‖ = ‖q 0‖ := by
  have hd : ∀ t, HasDerivAt (fun s => q s * star (q s)) 0 t := by
    intro t
    refine ((hq t).mul (hq t).star).congr_deriv ?_
    rw [star_smul', star_mul, Vec3.toH_star, smul_mul_assoc, mul_smul_comm, ← smul_add]
    rw [show q t * (b t).toH * star (q t) + q t * (-(b t).toH * star (q t)) = 0 by noncomm_ring, smul_zero]
  have hc : q t * star (q t) = q 0 * star (q 0) :=
    is_const_of_deriv_eq_zero (fun t => (hd t).differentiableAt) (fun t => (hd t).deriv) t 0
  have := congrArg norm hc
  rw [norm_mul, norm_mul, norm_star, norm_star] at this
  nlinarith [norm_nonneg (q t), norm_nonneg (q 0)]

/-- The sum of the terms gives the orientation with an error that is a multiple of the seventh power of the duration. -/
theorem magnus_local (M : ℝ) : ∃ C, 0 ≤ C ∧ ∀ (w d : Vec3 ℝ) (h : ℝ), √w.normSq ≤ M → √d.normSq ≤ M → |h| ≤ M →
    ∀ q : ℝ → ℍ[ℝ], ‖q 0‖ = 1 → (∀ t, HasDerivAt q ((1 / 2 : ℝ) • (q t * (w + t • d).toH)) t) →
      ‖q 0 * (expq ((1 / 2 : ℝ) • magnusSum w d h)).toH - q h‖ ≤ C * |h| ^ 7 := by
  obtain ⟨C, hC, hb⟩ := magnus_rate M
  refine ⟨C / 2, by positivity, fun w d h hw hd hh q h0 hq => ?_⟩
  have hqn : ∀ t, ‖q t‖ = 1 := fun t => (turning_norm hq t).trans h0
  have e0 : expq ((1 / 2 : ℝ) • magnusSum w d 0) = ⟨1, 0, 0, 0⟩ := by
    have : magnusSum w d 0 = 0 := by ext <;> simp [magnusSum, comb, mgX1, mgX2, mgX3]
    rw [this]
    simp [expq, Vec3.normSq, Vec3.dot]
  have e1 : (⟨1, 0, 0, 0⟩ : Quat ℝ).toH = 1 := by ext <;> simp
  have := quat_dist (p := fun t => q 0 * (expq ((1 / 2 : ℝ) • magnusSum w d t)).toH) (q := q) (h := h)
    (a := fun t => bodyRate (magnusSum w d t) (magnusSumD w d t)) (b := fun t => w + t • d) (C := C * |h| ^ 6)
    (by rw [e0, e1, mul_one]) h0
    (fun t => by rw [norm_mul, h0, Quat.toH_norm, expq_normSq]; simp) hqn
    (fun t => by
      refine ((expq_moving (magnusSum_deriv w d t)).const_mul (q 0)).congr_deriv ?_
      rw [mul_smul_comm, mul_assoc])
    hq (fun t ht => (hb w d t hw hd (ht.trans hh)).trans (by gcongr))
  refine this.trans (le_of_eq ?_)
  ring

end RBDyn
