import Verif.Lemmas.TurnsExist
import Verif.Props.Halving

/-! Property C67: the order of the error of the integrated orientation. -/

namespace RBDyn
open scoped Mat3 Quaternion Topology

/-- The distance of two quaternions. -/
noncomputable def Quat.dist (p q : Quat ℝ) : ℝ := √((p.w - q.w) ^ 2 + (p.x - q.x) ^ 2 + (p.y - q.y) ^ 2 + (p.z - q.z) ^ 2)

theorem Quat.dist_eq (p q : Quat ℝ) : p.dist q = ‖p.toH - q.toH‖ := by
  have e : p.toH - q.toH = (⟨p.w - q.w, p.x - q.x, p.y - q.y, p.z - q.z⟩ : Quat ℝ).toH := by
    ext <;> simp
  rw [e, Quat.toH_norm, Quat.dist]
  congr 1
  simp only [Quat.normSq]
  ring

theorem magnusSum_terms (w d : Vec3 ℝ) (h : ℝ) :
    magnusSum w d h = magnusTerm w d h 0 + magnusTerm w d h 1 - magnusTerm w d h 2 + magnusTerm w d h 3 := by
  ext <;> simp [magnusSum, comb, mgX1, mgX2, mgX3, magnusTerm, Vec3.normSq, Vec3.dot] <;> ring

theorem magnus_cases (w d : Vec3 ℝ) (h re ae : ℝ) :
    ((magnusExpansion w d h re ae).1 = magnusTerm w d h 0 ∧ d.normSq < ae) ∨ (ae ≤ d.normSq ∧
    ((magnusExpansion w d h re ae).1 = magnusTerm w d h 0 + magnusTerm w d h 1 ∨
    (magnusExpansion w d h re ae).1 = magnusTerm w d h 0 + magnusTerm w d h 1 + magnusTerm w d h 2 + magnusTerm w d h 3 ∨
    (magnusExpansion w d h re ae).1 =
      magnusTerm w d h 0 + magnusTerm w d h 1 + magnusTerm w d h 2 + magnusTerm w d h 3 + magnusTerm w d h 4)) := by
  have e3 : ((28 * (magnusTerm w d h 0).normSq - 3 * (d.normSq * (h * h) * (h * h))) / 1680) • magnusTerm w d h 1 =
      magnusTerm w d h 3 := by
    simp only [magnusTerm]
    congr 2
    ring
  have e4 : (1 / 5040 : ℝ) • ((120 * (magnusTerm w d h 0).normSq - 5 * (d.normSq * (h * h) * (h * h))) • magnusTerm w d h 2 -
      (24 * (magnusTerm w d h 1).normSq) • magnusTerm w d h 0) = magnusTerm w d h 4 := by
    simp only [magnusTerm]
    congr 4
    ring
  unfold magnusExpansion
  simp only [term0, term1, term2, e3, e4]
  split
  · rename_i h1; exact .inl ⟨rfl, h1⟩
  · rename_i h1
    refine .inr ⟨not_lt.1 h1, ?_⟩
    generalize (min _ (ae * ae) : ℝ) = m
    by_cases h2 : d.normSq * (h * h) * (h * h) * (magnusTerm w d h 1).normSq / 400 < m ∧
        (magnusTerm w d h 0).normSq * (magnusTerm w d h 0).normSq * (magnusTerm w d h 1).normSq / 3600 < m
    · rw [if_pos h2]; exact .inl rfl
    · rw [if_neg h2]
      split
      · exact .inr (.inl rfl)
      · exact .inr (.inr rfl)

theorem comb_box {f g k : ℝ → ℝ → ℝ → ℝ → ℝ} (hf : Continuous fun p : ℝ × ℝ × ℝ × ℝ => f p.1 p.2.1 p.2.2.1 p.2.2.2)
    (hg : Continuous fun p : ℝ × ℝ × ℝ × ℝ => g p.1 p.2.1 p.2.2.1 p.2.2.2)
    (hk : Continuous fun p : ℝ × ℝ × ℝ × ℝ => k p.1 p.2.1 p.2.2.1 p.2.2.2) (M : ℝ) (n : ℕ) :
    ∃ C, 0 ≤ C ∧ ∀ (w d : Vec3 ℝ) (h : ℝ), √w.normSq ≤ M → √d.normSq ≤ M → |h| ≤ M →
      √(h ^ n • comb w d (f h w.normSq (w.dot d) d.normSq) (g h w.normSq (w.dot d) d.normSq) (k h w.normSq (w.dot d) d.normSq)).normSq
        ≤ C * |h| ^ n := by
  obtain ⟨C1, h1, b1⟩ := box_bound hf M
  obtain ⟨C2, h2, b2⟩ := box_bound hg M
  obtain ⟨C3, h3, b3⟩ := box_bound hk M
  by_cases hM : 0 ≤ M
  swap
  · exact ⟨0, le_rfl, fun w d h hw => absurd ((Real.sqrt_nonneg _).trans hw) hM⟩
  refine ⟨C1 * M + C2 * M + C3 * (M * M), by positivity, fun w d h hw hd hh => ?_⟩
  have aw : |w.normSq| ≤ M ^ 2 := by
    rw [abs_of_nonneg w.normSq_nonneg]
    exact (Real.sqrt_le_left hM).1 hw
  have ad : |d.normSq| ≤ M ^ 2 := by
    rw [abs_of_nonneg d.normSq_nonneg]
    exact (Real.sqrt_le_left hM).1 hd
  have awd : |w.dot d| ≤ M ^ 2 := by
    refine (abs_dot_le w d).trans ?_
    rw [sq]
    exact mul_le_mul hw hd (Real.sqrt_nonneg _) hM
  rw [vec_smul, abs_pow, mul_comm]
  gcongr
  refine (comb_norm_le hw hd _ _ _).trans ?_
  have := b1 h _ _ _ hh aw awd ad
  have := b2 h _ _ _ hh aw awd ad
  have := b3 h _ _ _ hh aw awd ad
  gcongr

/-- The sum that the code makes differs from the Magnus series by a multiple of the fifth power of the duration, or of the third one
if it stops at the first term. -/
theorem expansion_diff (M : ℝ) : ∃ C, 0 ≤ C ∧ ∀ (w d : Vec3 ℝ) (h re ae : ℝ), √w.normSq ≤ M → √d.normSq ≤ M → |h| ≤ M →
    √((magnusExpansion w d h re ae).1 - magnusSum w d h).normSq ≤ C * |h| ^ 3 ∧
    (ae ≤ d.normSq → √((magnusExpansion w d h re ae).1 - magnusSum w d h).normSq ≤ C * |h| ^ 5) := by
  obtain ⟨A, hA, bA⟩ := comb_box (f := fun h α β γ => h ^ 2 * γ / 240) (g := fun h α β γ => -h ^ 2 * β / 240)
    (k := fun h α β γ => -1 / 12 - h ^ 2 * (7 * α + 7 * h * β + h ^ 2 * γ) / 5040) (by fun_prop) (by fun_prop) (by fun_prop) M 3
  obtain ⟨B, hB, bB⟩ := comb_box (f := fun h α β γ => γ / 240) (g := fun h α β γ => -β / 240)
    (k := fun h α β γ => -(7 * α + 7 * h * β + h ^ 2 * γ) / 5040) (by fun_prop) (by fun_prop) (by fun_prop) M 5
  obtain ⟨D, hD, bD⟩ := comb_box (f := fun h α β γ => γ / 120) (g := fun h α β γ => -β / 120)
    (k := fun h α β γ => 0) (by fun_prop) (by fun_prop) (by fun_prop) M 5
  obtain ⟨E, hE, bE⟩ := comb_box
    (f := fun h α β γ => γ / 120 + h ^ 2 * ((120 * (α + h * β + h ^ 2 * γ / 4) - 5 * (γ * h ^ 2)) * γ / 240 - 24 * (α * γ - β ^ 2) / 144) / 5040)
    (g := fun h α β γ => -β / 120 + h ^ 2 * (-(120 * (α + h * β + h ^ 2 * γ / 4) - 5 * (γ * h ^ 2)) * β / 240 - 24 * (α * γ - β ^ 2) * h / 288) / 5040)
    (k := fun h α β γ => 0) (by fun_prop) (by fun_prop) (by fun_prop) M 5
  by_cases hM : 0 ≤ M
  swap
  · exact ⟨0, le_rfl, fun w d h re ae hw => absurd ((Real.sqrt_nonneg _).trans hw) hM⟩
  refine ⟨A + (B + D + E) * (1 + M ^ 2), by positivity, fun w d h re ae hw hd hh => ?_⟩
  have h0 := abs_nonneg h
  have h5 : |h| ^ 5 ≤ M ^ 2 * |h| ^ 3 := by
    rw [show |h| ^ 5 = |h| ^ 2 * |h| ^ 3 by ring]
    gcongr
  have key : ae ≤ d.normSq → √((magnusExpansion w d h re ae).1 - magnusSum w d h).normSq ≤ (B + D + E) * |h| ^ 5 := by
    intro hae
    rcases magnus_cases w d h re ae with ⟨-, h1⟩ | ⟨-, e | e | e⟩
    · exact absurd h1 (not_lt.2 hae)
    · have : (magnusExpansion w d h re ae).1 - magnusSum w d h = h ^ 5 • comb w d (d.normSq / 240) (-w.dot d / 240)
          (-(7 * w.normSq + 7 * h * w.dot d + h ^ 2 * d.normSq) / 5040) := by
        rw [e, magnusSum_terms]
        ext <;> simp [comb, magnusTerm, Vec3.normSq, Vec3.dot] <;> ring
      rw [this]
      refine (bB w d h hw hd hh).trans ?_
      gcongr
      linarith
    · have : (magnusExpansion w d h re ae).1 - magnusSum w d h = h ^ 5 • comb w d (d.normSq / 120) (-w.dot d / 120) 0 := by
        rw [e, magnusSum_terms]
        ext <;> simp [comb, magnusTerm, Vec3.normSq, Vec3.dot] <;> ring
      rw [this]
      refine (bD w d h hw hd hh).trans ?_
      gcongr
      linarith
    · have : (magnusExpansion w d h re ae).1 - magnusSum w d h = h ^ 5 • comb w d
          (d.normSq / 120 + h ^ 2 * ((120 * (w.normSq + h * w.dot d + h ^ 2 * d.normSq / 4) - 5 * (d.normSq * h ^ 2)) * d.normSq / 240 -
            24 * (w.normSq * d.normSq - w.dot d ^ 2) / 144) / 5040)
          (-w.dot d / 120 + h ^ 2 * (-(120 * (w.normSq + h * w.dot d + h ^ 2 * d.normSq / 4) - 5 * (d.normSq * h ^ 2)) * w.dot d / 240 -
            24 * (w.normSq * d.normSq - w.dot d ^ 2) * h / 288) / 5040) 0 := by
        rw [e, magnusSum_terms]
        ext <;> simp [comb, magnusTerm, Vec3.normSq, Vec3.dot] <;> ring
      rw [this]
      refine (bE w d h hw hd hh).trans ?_
      gcongr
      linarith
  constructor
  · rcases lt_or_ge d.normSq ae with h1 | h1
    · rcases magnus_cases w d h re ae with ⟨e, -⟩ | ⟨h2, -⟩
      · have : (magnusExpansion w d h re ae).1 - magnusSum w d h = h ^ 3 • comb w d (h ^ 2 * d.normSq / 240) (-h ^ 2 * w.dot d / 240)
          (-1 / 12 - h ^ 2 * (7 * w.normSq + 7 * h * w.dot d + h ^ 2 * d.normSq) / 5040) := by
          rw [e, magnusSum_terms]
          ext <;> simp [comb, magnusTerm, Vec3.normSq, Vec3.dot] <;> ring
        rw [this]
        refine (bA w d h hw hd hh).trans ?_
        gcongr
        nlinarith [mul_nonneg (add_nonneg (add_nonneg hB hD) hE) (show 0 ≤ 1 + M ^ 2 by positivity)]
      · exact absurd h1 (not_lt.2 h2)
    · refine (key h1).trans ?_
      calc (B + D + E) * |h| ^ 5 ≤ (B + D + E) * (M ^ 2 * |h| ^ 3) := by gcongr
        _ ≤ _ := by nlinarith [mul_nonneg (add_nonneg (add_nonneg hB hD) hE) (pow_nonneg h0 3), mul_nonneg hA (pow_nonneg h0 3)]
  · intro h1
    refine (key h1).trans (mul_le_mul_of_nonneg_right ?_ (pow_nonneg h0 5))
    have := mul_nonneg (add_nonneg (add_nonneg hB hD) hE) (sq_nonneg M)
    linarith

theorem so3_toH (q : Quat ℝ) (w d : Vec3 ℝ) (h re ae : ℝ) :
    (SO3Integration q w d h re ae).1.toH = q.toH * (expq ((1 / 2 : ℝ) • (magnusExpansion w d h re ae).1)).toH := by
  rw [← Quat.toH_mul]
  rfl

theorem half_diff (u v : Vec3 ℝ) : ‖(expq ((1 / 2 : ℝ) • u)).toH - (expq ((1 / 2 : ℝ) • v)).toH‖ ≤ √(u - v).normSq / 2 := by
  have := expq_lipschitz ((1 / 2 : ℝ) • v) ((1 / 2 : ℝ) • (u - v))
  rw [show (1 / 2 : ℝ) • v + (1 / 2 : ℝ) • (u - v) = (1 / 2 : ℝ) • u by module, vec_smul, abs_of_pos (by norm_num)] at this
  linarith

/-- C67: the orientation reached by integrating over the duration `h` differs from the exact one by at most a multiple of `|h|⁵`, for
velocities and accelerations in a bounded set and for any tolerances.  Where the acceleration is below the absolute tolerance, it is
a multiple of `|h|³`. -/
theorem C67_order (M : ℝ) : ∃ C, 0 ≤ C ∧ ∀ (w wD : Vec3 ℝ) (h relEps absEps : ℝ) (Q : ℝ → Quat ℝ), w.normSq ≤ M ^ 2 →
    wD.normSq ≤ M ^ 2 → |h| ≤ M → Turns w wD Q →
      (SO3Integration (Q 0) w wD h relEps absEps).1.dist (Q h) ≤ C * |h| ^ 3 ∧
      (absEps ≤ wD.normSq → (SO3Integration (Q 0) w wD h relEps absEps).1.dist (Q h) ≤ C * |h| ^ 5) := by
  obtain ⟨A, hA, bA⟩ := expansion_diff M
  obtain ⟨B, hB, bB⟩ := magnus_local M
  by_cases hM : 0 ≤ M
  swap
  · exact ⟨0, le_rfl, fun w d h re ae Q hw hd hh => absurd ((abs_nonneg _).trans hh) hM⟩
  refine ⟨A + B * (1 + M ^ 2) * (1 + M ^ 2), by positivity, fun w wD h re ae Q hw hd hh hQ => ?_⟩
  have hw' : √w.normSq ≤ M := Real.sqrt_le_iff.2 ⟨hM, hw⟩
  have hd' : √wD.normSq ≤ M := Real.sqrt_le_iff.2 ⟨hM, hd⟩
  have h0 := abs_nonneg h
  have l := bB w wD h hw' hd' hh (fun s => (Q s).toH) (hQ.norm 0) hQ.toH
  have d := half_diff (magnusExpansion w wD h re ae).1 (magnusSum w wD h)
  have tri : (SO3Integration (Q 0) w wD h re ae).1.dist (Q h) ≤
      √((magnusExpansion w wD h re ae).1 - magnusSum w wD h).normSq + B * |h| ^ 7 := by
    rw [Quat.dist_eq, so3_toH]
    have e : (Q 0).toH * (expq ((1 / 2 : ℝ) • (magnusExpansion w wD h re ae).1)).toH - (Q h).toH =
        (Q 0).toH * ((expq ((1 / 2 : ℝ) • (magnusExpansion w wD h re ae).1)).toH - (expq ((1 / 2 : ℝ) • magnusSum w wD h)).toH) +
          ((Q 0).toH * (expq ((1 / 2 : ℝ) • magnusSum w wD h)).toH - (Q h).toH) := by noncomm_ring
    rw [e]
    refine (norm_add_le _ _).trans (add_le_add ?_ l)
    rw [norm_mul, hQ.norm, one_mul]
    refine d.trans ?_
    have := Real.sqrt_nonneg ((magnusExpansion w wD h re ae).1 - magnusSum w wD h).normSq
    linarith
  obtain ⟨b3, b5⟩ := bA w wD h re ae hw' hd' hh
  have s2 : |h| ^ 2 ≤ M ^ 2 := by gcongr
  have p7 : |h| ^ 7 ≤ (1 + M ^ 2) * |h| ^ 5 := by
    rw [show |h| ^ 7 = |h| ^ 2 * |h| ^ 5 by ring]
    gcongr
    linarith
  have p5 : |h| ^ 5 ≤ (1 + M ^ 2) * |h| ^ 3 := by
    rw [show |h| ^ 5 = |h| ^ 2 * |h| ^ 3 by ring]
    gcongr
    linarith
  constructor
  · calc _ ≤ _ := tri
      _ ≤ A * |h| ^ 3 + B * ((1 + M ^ 2) * ((1 + M ^ 2) * |h| ^ 3)) := by
        refine add_le_add b3 (mul_le_mul_of_nonneg_left (p7.trans ?_) hB)
        gcongr
      _ = _ := by ring
  · intro hae
    calc _ ≤ _ := tri
      _ ≤ A * |h| ^ 5 + B * (1 * ((1 + M ^ 2) * |h| ^ 5)) := by
        refine add_le_add (b5 hae) (mul_le_mul_of_nonneg_left ?_ hB)
        rw [one_mul]; exact p7
      _ ≤ A * |h| ^ 5 + B * ((1 + M ^ 2) * ((1 + M ^ 2) * |h| ^ 5)) := by
        gcongr
        nlinarith [sq_nonneg M]
      _ = _ := by ring

/-- The sum of the five terms of the code, with the third one negated (also where the fifth uses it). -/
noncomputable def negatedThird (w wD : Vec3 ℝ) (h : ℝ) : Vec3 ℝ :=
  magnusTerm w wD h 0 + magnusTerm w wD h 1 - magnusTerm w wD h 2 + magnusTerm w wD h 3 +
    (1 / 5040 : ℝ) • ((120 * (magnusTerm w wD h 0).normSq - 5 * (wD.normSq * h ^ 4)) • (-magnusTerm w wD h 2) -
      (24 * (magnusTerm w wD h 1).normSq) • magnusTerm w wD h 0)

/-- C67: with the third term negated the error is a multiple of `|h|⁷`, as the Magnus series promises. -/
theorem C67_corrected (M : ℝ) : ∃ C, 0 ≤ C ∧ ∀ (w wD : Vec3 ℝ) (h : ℝ) (Q : ℝ → Quat ℝ), w.normSq ≤ M ^ 2 →
    wD.normSq ≤ M ^ 2 → |h| ≤ M → Turns w wD Q →
      ((Q 0).mul (expq ((1 / 2 : ℝ) • negatedThird w wD h))).dist (Q h) ≤ C * |h| ^ 7 := by
  obtain ⟨A, hA, bA⟩ := comb_box
    (f := fun h α β γ => (-(120 * (α + h * β + h ^ 2 * γ / 4) - 5 * (γ * h ^ 2)) * γ / 240 - 24 * (α * γ - β ^ 2) / 144) / 5040)
    (g := fun h α β γ => ((120 * (α + h * β + h ^ 2 * γ / 4) - 5 * (γ * h ^ 2)) * β / 240 - 24 * (α * γ - β ^ 2) * h / 288) / 5040)
    (k := fun h α β γ => 0) (by fun_prop) (by fun_prop) (by fun_prop) M 7
  obtain ⟨B, hB, bB⟩ := magnus_local M
  by_cases hM : 0 ≤ M
  swap
  · exact ⟨0, le_rfl, fun w d h Q hw hd hh => absurd ((abs_nonneg _).trans hh) hM⟩
  refine ⟨A + B, by positivity, fun w wD h Q hw hd hh hQ => ?_⟩
  have hw' : √w.normSq ≤ M := Real.sqrt_le_iff.2 ⟨hM, hw⟩
  have hd' : √wD.normSq ≤ M := Real.sqrt_le_iff.2 ⟨hM, hd⟩
  have l := bB w wD h hw' hd' hh (fun s => (Q s).toH) (hQ.norm 0) hQ.toH
  have d := half_diff (negatedThird w wD h) (magnusSum w wD h)
  have e : negatedThird w wD h - magnusSum w wD h = h ^ 7 • comb w wD
      ((-(120 * (w.normSq + h * w.dot wD + h ^ 2 * wD.normSq / 4) - 5 * (wD.normSq * h ^ 2)) * wD.normSq / 240 -
        24 * (w.normSq * wD.normSq - w.dot wD ^ 2) / 144) / 5040)
      (((120 * (w.normSq + h * w.dot wD + h ^ 2 * wD.normSq / 4) - 5 * (wD.normSq * h ^ 2)) * w.dot wD / 240 -
        24 * (w.normSq * wD.normSq - w.dot wD ^ 2) * h / 288) / 5040) 0 := by
    rw [magnusSum_terms]
    ext <;> simp [negatedThird, comb, magnusTerm, Vec3.normSq, Vec3.dot] <;> ring
  rw [e] at d
  have a := bA w wD h hw' hd' hh
  rw [Quat.dist_eq, Quat.toH_mul]
  have e : (Q 0).toH * (expq ((1 / 2 : ℝ) • negatedThird w wD h)).toH - (Q h).toH =
      (Q 0).toH * ((expq ((1 / 2 : ℝ) • negatedThird w wD h)).toH - (expq ((1 / 2 : ℝ) • magnusSum w wD h)).toH) +
        ((Q 0).toH * (expq ((1 / 2 : ℝ) • magnusSum w wD h)).toH - (Q h).toH) := by noncomm_ring
  rw [e]
  refine (norm_add_le _ _).trans ?_
  rw [norm_mul, hQ.norm, one_mul, add_mul]
  refine add_le_add (d.trans ?_) l
  refine le_trans ?_ a
  have := Real.sqrt_nonneg (h ^ 7 • comb w wD
      ((-(120 * (w.normSq + h * w.dot wD + h ^ 2 * wD.normSq / 4) - 5 * (wD.normSq * h ^ 2)) * wD.normSq / 240 -
        24 * (w.normSq * wD.normSq - w.dot wD ^ 2) / 144) / 5040)
      (((120 * (w.normSq + h * w.dot wD + h ^ 2 * wD.normSq / 4) - 5 * (wD.normSq * h ^ 2)) * w.dot wD / 240 -
        24 * (w.normSq * wD.normSq - w.dot wD ^ 2) * h / 288) / 5040) 0).normSq
  linarith

theorem expansion_zero (w d : Vec3 ℝ) (h : ℝ) : (magnusExpansion w d h 0 0).1 =
    magnusTerm w d h 0 + magnusTerm w d h 1 + magnusTerm w d h 2 + magnusTerm w d h 3 + magnusTerm w d h 4 := by
  have e3 : ((28 * (magnusTerm w d h 0).normSq - 3 * (d.normSq * (h * h) * (h * h))) / 1680) • magnusTerm w d h 1 =
      magnusTerm w d h 3 := by
    simp only [magnusTerm]
    congr 2
    ring
  have e4 : (1 / 5040 : ℝ) • ((120 * (magnusTerm w d h 0).normSq - 5 * (d.normSq * (h * h) * (h * h))) • magnusTerm w d h 2 -
      (24 * (magnusTerm w d h 1).normSq) • magnusTerm w d h 0) = magnusTerm w d h 4 := by
    simp only [magnusTerm]
    congr 4
    ring
  have n0 := (magnusTerm w d h 0).normSq_nonneg
  have n1 := (magnusTerm w d h 1).normSq_nonneg
  have nd := d.normSq_nonneg
  unfold magnusExpansion
  simp only [term0, term1, term2, e3, e4]
  have hm : ∀ x : ℝ, 0 ≤ x → ¬ x < min (if 0 < (magnusTerm w d h 0).normSq then 0 * 0 * (magnusTerm w d h 0).normSq else 1) (0 * 0) := by
    intro x hx h1
    have := h1.trans_le (min_le_right _ _)
    linarith
  have hh := mul_self_nonneg h
  clear e3 e4
  generalize (magnusTerm w d h 0).normSq = a at *
  generalize (magnusTerm w d h 1).normSq = b at *
  generalize h * h = k at *
  rw [if_neg (not_lt.2 nd), if_neg (fun hh => hm _ (by positivity) hh.1), if_neg (hm _ (by positivity))]

/-- The error of the five terms, to the fifth order. -/
theorem third_term_error {w d : Vec3 ℝ} {Q : ℝ → Quat ℝ} (hQ : Turns w d Q) : ∃ K, 0 ≤ K ∧ ∀ h : ℝ, |h| ≤ 1 →
    |(SO3Integration (Q 0) w d h 0 0).1.dist (Q h) - |h| ^ 5 * (√(d.cross (w.cross d)).normSq / 240)| ≤ K * |h| ^ 6 := by
  obtain ⟨M, hM1, hw, hd⟩ : ∃ M : ℝ, 1 ≤ M ∧ √w.normSq ≤ M ∧ √d.normSq ≤ M :=
    ⟨max 1 (max √w.normSq √d.normSq), le_max_left _ _, (le_max_left _ _).trans (le_max_right _ _),
      (le_max_right _ _).trans (le_max_right _ _)⟩
  obtain ⟨S, hS, bS⟩ := comb_box (f := fun h α β γ => 1 - h ^ 4 * γ / 240) (g := fun h α β γ => h / 2 + h ^ 4 * β / 240)
    (k := fun h α β γ => h ^ 2 / 12 + h ^ 4 * α / 720 + h ^ 5 * β / 720 + h ^ 6 * γ / 5040) (by fun_prop) (by fun_prop) (by fun_prop) M 1
  obtain ⟨E, hE, bE⟩ := comb_box
    (f := fun h α β γ => ((120 * (α + h * β + h ^ 2 * γ / 4) - 5 * (γ * h ^ 2)) * γ / 240 - 24 * (α * γ - β ^ 2) / 144) / 5040)
    (g := fun h α β γ => (-(120 * (α + h * β + h ^ 2 * γ / 4) - 5 * (γ * h ^ 2)) * β / 240 - 24 * (α * γ - β ^ 2) * h / 288) / 5040)
    (k := fun h α β γ => 0) (by fun_prop) (by fun_prop) (by fun_prop) M 7
  obtain ⟨B, hB, bB⟩ := magnus_local M
  let T := √(d.cross (w.cross d)).normSq / 240
  have hT : 0 ≤ T := by positivity
  refine ⟨4 * (S + (T + E)) * (T + E) + E + B, by positivity, fun h hh => ?_⟩
  have hhM := hh.trans hM1
  have h0 := abs_nonneg h
  have t2 : √(magnusTerm w d h 2).normSq = |h| ^ 5 * T := by
    have : magnusTerm w d h 2 = (h ^ 5 / 240) • d.cross (w.cross d) := by simp only [magnusTerm]
    rw [this, vec_smul, abs_div, abs_pow, abs_of_pos (by norm_num : (0 : ℝ) < 240)]
    ring
  have t4 : √(magnusTerm w d h 4).normSq ≤ E * |h| ^ 7 := by
    have : magnusTerm w d h 4 = h ^ 7 • comb w d
        (((120 * (w.normSq + h * w.dot d + h ^ 2 * d.normSq / 4) - 5 * (d.normSq * h ^ 2)) * d.normSq / 240 -
          24 * (w.normSq * d.normSq - w.dot d ^ 2) / 144) / 5040)
        ((-(120 * (w.normSq + h * w.dot d + h ^ 2 * d.normSq / 4) - 5 * (d.normSq * h ^ 2)) * w.dot d / 240 -
          24 * (w.normSq * d.normSq - w.dot d ^ 2) * h / 288) / 5040) 0 := by
      ext <;> simp [comb, magnusTerm, Vec3.normSq, Vec3.dot] <;> ring
    rw [this]
    exact bE w d h hw hd hhM
  have s1 : √((1 / 2 : ℝ) • magnusSum w d h).normSq ≤ S * |h| := by
    have : magnusSum w d h = h ^ 1 • comb w d (1 - h ^ 4 * d.normSq / 240) (h / 2 + h ^ 4 * w.dot d / 240)
        (h ^ 2 / 12 + h ^ 4 * w.normSq / 720 + h ^ 5 * w.dot d / 720 + h ^ 6 * d.normSq / 5040) := by
      rw [comb_smul]
      simp only [magnusSum, mgX1, mgX2, mgX3]
      congr 1 <;> ring
    have b := bS w d h hw hd hhM
    rw [← this, pow_one] at b
    rw [vec_smul, abs_of_pos (by norm_num)]
    have := Real.sqrt_nonneg (magnusSum w d h).normSq
    linarith
  have p7 : |h| ^ 7 ≤ |h| ^ 6 := pow_le_pow_of_le_one h0 hh (by norm_num)
  have p75 : |h| ^ 7 ≤ |h| ^ 5 := pow_le_pow_of_le_one h0 hh (by norm_num)
  have p51 : |h| ^ 5 ≤ |h| := by simpa using pow_le_pow_of_le_one h0 hh (by norm_num : 1 ≤ 5)
  let δ : Vec3 ℝ := magnusTerm w d h 2 + (1 / 2 : ℝ) • magnusTerm w d h 4
  have hδ : √δ.normSq ≤ (T + E) * |h| ^ 5 := by
    refine (vec_tri _ _).trans ?_
    rw [t2, vec_smul, abs_of_pos (by norm_num : (0 : ℝ) < 1 / 2)]
    have := Real.sqrt_nonneg (magnusTerm w d h 4).normSq
    have : E * |h| ^ 7 ≤ E * |h| ^ 5 := by gcongr
    linarith
  have l := bB w d h hw hd hhM (fun s => (Q s).toH) (hQ.norm 0) hQ.toH
  have f := expq_first ((1 / 2 : ℝ) • magnusSum w d h) δ
  have eE : (1 / 2 : ℝ) • magnusSum w d h + δ = (1 / 2 : ℝ) • (magnusExpansion w d h 0 0).1 := by
    rw [expansion_zero, magnusSum_terms]
    simp only [δ]
    module
  rw [eE] at f
  have f' : ‖(expq ((1 / 2 : ℝ) • (magnusExpansion w d h 0 0).1)).toH - (expq ((1 / 2 : ℝ) • magnusSum w d h)).toH - δ.toH‖ ≤
      4 * (S + (T + E)) * (T + E) * |h| ^ 6 := by
    refine f.trans ?_
    have : √((1 / 2 : ℝ) • magnusSum w d h).normSq + √δ.normSq ≤ (S + (T + E)) * |h| := by
      have : (T + E) * |h| ^ 5 ≤ (T + E) * |h| := by gcongr
      linarith
    calc _ ≤ 4 * ((S + (T + E)) * |h|) * ((T + E) * |h| ^ 5) := by gcongr
      _ = _ := by ring
  have e : (Q 0).toH * (expq ((1 / 2 : ℝ) • (magnusExpansion w d h 0 0).1)).toH - (Q h).toH - (Q 0).toH * (magnusTerm w d h 2).toH =
      (Q 0).toH * ((expq ((1 / 2 : ℝ) • (magnusExpansion w d h 0 0).1)).toH - (expq ((1 / 2 : ℝ) • magnusSum w d h)).toH - δ.toH) +
        (Q 0).toH * ((1 / 2 : ℝ) • (magnusTerm w d h 4).toH) +
        ((Q 0).toH * (expq ((1 / 2 : ℝ) • magnusSum w d h)).toH - (Q h).toH) := by
    have : δ.toH = (magnusTerm w d h 2).toH + (1 / 2 : ℝ) • (magnusTerm w d h 4).toH := by
      simp only [δ]
      rw [Vec3.toH_add, Vec3.toH_smul]
    rw [this]
    noncomm_ring
  have hb : ‖(Q 0).toH * (expq ((1 / 2 : ℝ) • (magnusExpansion w d h 0 0).1)).toH - (Q h).toH - (Q 0).toH * (magnusTerm w d h 2).toH‖ ≤
      4 * (S + (T + E)) * (T + E) * |h| ^ 6 + E * |h| ^ 6 + B * |h| ^ 6 := by
    rw [e]
    refine (norm_add_le _ _).trans (add_le_add ((norm_add_le _ _).trans (add_le_add ?_ ?_)) (l.trans (by gcongr)))
    · rw [norm_mul, hQ.norm, one_mul]; exact f'
    · rw [norm_mul, hQ.norm, one_mul, norm_smul, Vec3.toH_norm, Real.norm_eq_abs, abs_of_pos (by norm_num)]
      have := Real.sqrt_nonneg (magnusTerm w d h 4).normSq
      have : E * |h| ^ 7 ≤ E * |h| ^ 6 := by gcongr
      linarith
  have nrm : ‖(Q 0).toH * (magnusTerm w d h 2).toH‖ = |h| ^ 5 * T := by
    rw [norm_mul, hQ.norm, one_mul, Vec3.toH_norm, t2]
  rw [Quat.dist_eq, so3_toH]
  show |_ - |h| ^ 5 * T| ≤ _
  rw [← nrm]
  refine (abs_norm_sub_norm_le _ _).trans (hb.trans (le_of_eq ?_))
  ring

/-- C67, what fails: the third term has the wrong sign.  Asked for the best precision, the code adds five terms of the series, yet the
error divided by `|h|⁵` tends to `‖wD × (w × wD)‖ / 240` as the duration shrinks, for every motion. -/
theorem C67_third_term_counterexample {w wD : Vec3 ℝ} {Q : ℝ → Quat ℝ} (hQ : Turns w wD Q) :
    Filter.Tendsto (fun h => (SO3Integration (Q 0) w wD h 0 0).1.dist (Q h) / |h| ^ 5) (𝓝[≠] 0)
      (𝓝 (√(wD.cross (w.cross wD)).normSq / 240)) := by
  obtain ⟨K, hK, hb⟩ := third_term_error hQ
  rw [tendsto_iff_dist_tendsto_zero]
  have hz : Filter.Tendsto (fun h : ℝ => K * |h|) (𝓝[≠] 0) (𝓝 0) := by
    have : Continuous fun h : ℝ => K * |h| := by fun_prop
    have := this.tendsto 0
    simp only [abs_zero, mul_zero] at this
    exact this.mono_left nhdsWithin_le_nhds
  refine squeeze_zero' (Filter.Eventually.of_forall fun _ => dist_nonneg) ?_ hz
  have h1 : ∀ᶠ h : ℝ in 𝓝[≠] 0, |h| ≤ 1 := by
    have : ∀ᶠ h : ℝ in 𝓝 0, |h| < 1 := by
      have : Continuous fun h : ℝ => |h| := by fun_prop
      exact this.tendsto 0 |>.eventually_lt_const (by simp)
    exact (this.filter_mono nhdsWithin_le_nhds).mono fun _ h => h.le
  filter_upwards [h1, self_mem_nhdsWithin] with h hh hne
  have hp : 0 < |h| := abs_pos.2 hne
  have := hb h hh
  rw [Real.dist_eq]
  have e : (SO3Integration (Q 0) w wD h 0 0).1.dist (Q h) / |h| ^ 5 - √(wD.cross (w.cross wD)).normSq / 240 =
      ((SO3Integration (Q 0) w wD h 0 0).1.dist (Q h) - |h| ^ 5 * (√(wD.cross (w.cross wD)).normSq / 240)) / |h| ^ 5 := by
    field_simp
  rw [e, abs_div, abs_of_pos (by positivity : 0 < |h| ^ 5), div_le_iff₀ (by positivity)]
  refine this.trans (le_of_eq ?_)
  ring

/-- The motions of these theorems exist from every orientation, and the limit is not zero unless the velocity and the acceleration are
parallel: here it is `1 / 240`. -/
example : ∃ Q : ℝ → Quat ℝ, Turns ⟨1, 0, 0⟩ ⟨0, 1, 0⟩ Q ∧
    Filter.Tendsto (fun h => (SO3Integration (Q 0) ⟨1, 0, 0⟩ ⟨0, 1, 0⟩ h 0 0).1.dist (Q h) / |h| ^ 5) (𝓝[≠] 0) (𝓝 (1 / 240)) := by
  obtain ⟨Q, hQ, -⟩ := turns_exists ⟨1, 0, 0⟩ ⟨0, 1, 0⟩ ⟨1, 0, 0, 0⟩ (by norm_num [Quat.normSq])
  refine ⟨Q, hQ, ?_⟩
  have := C67_third_term_counterexample hQ
  norm_num [Vec3.cross, Vec3.normSq, Vec3.dot] at this
  exact this

end RBDyn
