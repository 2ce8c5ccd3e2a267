import Verif.Props.Converge
import Verif.Props.Simpson

/-! Property C68 for free joints: convergence of the integrated translation. -/

namespace RBDyn
open scoped Mat3 Quaternion

theorem Turns.normSq {w d : Vec3 ℝ} {Q : ℝ → Quat ℝ} (h : Turns w d Q) (t : ℝ) : (Q t).normSq = 1 := by
  have := h.norm t
  rwa [Quat.toH_norm, Real.sqrt_eq_one] at this

theorem vec_sum_le {n : ℕ} {f : ℕ → Vec3 ℝ} {c : ℝ} (h : ∀ k < n, √(f k).normSq ≤ c) : √(∑ k ∈ Finset.range n, f k).normSq ≤ n * c := by
  induction n with
  | zero => simp [Vec3.normSq, Vec3.dot]
  | succ n ih =>
    rw [Finset.sum_range_succ]
    refine (vec_tri _ _).trans ?_
    have h1 := ih fun k hk => h k (by omega)
    have h2 := h n (by omega)
    push_cast
    linarith

/-- Simpson's rule along the exact motion. -/
theorem exact_simpson {w d v vD : Vec3 ℝ} {Q : ℝ → Quat ℝ} (hQ : Turns w d Q) {P : ℝ → Vec3 ℝ}
    (hP : ∀ s, HasDerivVec P ((Q s).toRot *ᵥ (v + s • vD)) s) (step : ℝ) : ∃ M, 0 ≤ M ∧ ∀ (t h : ℝ) (n : ℕ), 0 ≤ t → 0 ≤ h → t + h ≤ step →
      0 < n → √(P (t + h) - P t - simpsonSum (fun s => (Q (t + s)).toRot *ᵥ (v + (t + s) • vD)) (h / n) n).normSq ≤ M * h ^ 5 := by
  have hcont : Continuous fun s : ℝ => √(fourthDerivativeSquaredNormFree (v + s • vD) (w + s • d) vD d) := by
    simp only [fourthDerivativeSquaredNormFree, fourthDerivativeFree, Vec3.normSq, Vec3.dot, Vec3.add_x, Vec3.add_y, Vec3.add_z, Vec3.sub_x, Vec3.sub_y,
      Vec3.sub_z, Vec3.smul_x, Vec3.smul_y, Vec3.smul_z, Vec3.cross_x, Vec3.cross_y, Vec3.cross_z]
    fun_prop
  obtain ⟨M, hM⟩ := (isCompact_Icc (a := (0 : ℝ)) (b := step)).exists_bound_of_continuousOn hcont.continuousOn
  refine ⟨max M 0, le_max_right _ _, fun t h n ht hh hs hn => ?_⟩
  have hS := hQ.shift t
  obtain ⟨f1, f2, f3, f4, c1, c2, c3, c4, c5⟩ := C53_free (v + t • vD) (w + t • d) vD d (R := fun s => (Q (t + s)).toRot)
    (fun s => Joint.isRot_toRot (hS.normSq s)) (fun s => toRot_deriv hS.normSq ⟨hS.dw s, hS.dx s, hS.dy s, hS.dz s⟩)
  have e : ∀ s : ℝ, v + t • vD + s • vD = v + (t + s) • vD := fun s => by module
  have e' : ∀ s : ℝ, w + t • d + s • d = w + (t + s) • d := fun s => by module
  simp only [e, e'] at c1 c5
  have hP' : ∀ s, HasDerivVec (fun s => P (t + s)) ((Q (t + s)).toRot *ᵥ (v + (t + s) • vD)) s := by
    intro s
    have hs : HasDerivAt (fun s => t + s) 1 s := (hasDerivAt_id s).const_add t
    exact ⟨((hP (t + s)).x.comp s hs).congr_deriv (mul_one _), ((hP (t + s)).y.comp s hs).congr_deriv (mul_one _),
      ((hP (t + s)).z.comp s hs).congr_deriv (mul_one _)⟩
  have hn' : (n : ℝ) ≠ 0 := by positivity
  have hmT : (n : ℝ) * (h / n) = h := by field_simp
  have err := simpson_vector dot3 (fun u => u.normSq_nonneg) dot3_cs
    (fun e t => dot3_deriv e (hP' t)) (fun e t => dot3_deriv e (c1 t)) (fun e t => dot3_deriv e (c2 t)) (fun e t => dot3_deriv e (c3 t))
    (fun e t => dot3_deriv e (c4 t)) (h := h / n) (by positivity) n (M := max M 0) (fun s hs0 hs1 => by
      rw [hmT] at hs1
      have := hM (t + s) ⟨by linarith, by linarith⟩
      rw [c5, Real.norm_eq_abs, abs_of_nonneg (Real.sqrt_nonneg _)] at this
      exact this.trans (le_max_left _ _))
  rw [hmT, dot3_self, add_zero] at err
  refine err.trans ?_
  have hM0 : 0 ≤ max M 0 := le_max_right _ _
  have h1 : (h / n) ^ 5 ≤ h ^ 4 * (h / n) := by
    have : h / n ≤ h := div_le_self hh (by exact_mod_cast hn)
    have h0 : 0 ≤ h / n := by positivity
    calc (h / n) ^ 5 = (h / n) ^ 4 * (h / n) := by ring
      _ ≤ h ^ 4 * (h / n) := by gcongr
  calc (n : ℝ) * (max M 0 * (h / n) ^ 5 / 2880) ≤ n * (max M 0 * (h ^ 4 * (h / n)) / 2880) := by gcongr
    _ = max M 0 * (h ^ 4 * (n * (h / n))) / 2880 := by ring
    _ = max M 0 * h ^ 5 / 2880 := by rw [hmT]; ring
    _ ≤ max M 0 * h ^ 5 := div_le_self (by positivity) (by norm_num)

/-- The translation of one piece, when the sub-steps have an error of at most `A` times their duration. -/
theorem piece_free {w d v vD : Vec3 ℝ} {Q : ℝ → Quat ℝ} (hQ : Turns w d Q) {P : ℝ → Vec3 ℝ} {t h A B V : ℝ} (hh : 0 ≤ h) (hA : 0 ≤ A)
    (hV : ∀ s, t ≤ s → s ≤ t + h → √(v + s • vD).normSq ≤ V)
    (hloc : ∀ τ η, t ≤ τ → 0 ≤ η → τ + η ≤ t + h → (SO3Integration (Q τ) (w + τ • d) d η).1.dist (Q (τ + η)) ≤ A * η) {n : ℕ} {p m : ℕ → Quat ℝ}
    {q q' : Quat ℝ} {x x' : Vec3 ℝ} (hS : SubSteps n h q x (w + t • d) (v + t • vD) d vD q' x' p m) (hq : q.normSq = 1) (hq' : q'.normSq = 1)
    (hB : q.dist (Q t) ≤ B) (hB' : q'.dist (Q (t + h)) ≤ B) :
    √(x' - x - (P (t + h) - P t)).normSq ≤
      √(P (t + h) - P t - simpsonSum (fun s => (Q (t + s)).toRot *ᵥ (v + (t + s) • vD)) (h / n) n).normSq + 2 * V * (B + 2 * h * A) * h := by
  have hn : (0 : ℝ) < n := by exact_mod_cast hS.pos
  have hn' : (n : ℝ) ≠ 0 := hn.ne'
  have hη : 0 ≤ h / n := by positivity
  have hmT : (n : ℝ) * (h / n) = h := by field_simp
  have ev : ∀ s : ℝ, v + t • vD + s • vD = v + (t + s) • vD := fun s => by module
  have ew : ∀ s : ℝ, w + t • d + s • d = w + (t + s) • d := fun s => by module
  have hB0 : 0 ≤ B := (Real.sqrt_nonneg _).trans hB
  have hV0 : 0 ≤ V := (Real.sqrt_nonneg _).trans (hV t le_rfl (by linarith))
  have kh : ∀ k : ℕ, k ≤ n → (k : ℝ) * (h / n) ≤ h := by
    intro k hk
    have : (k : ℝ) ≤ n := by exact_mod_cast hk
    calc (k : ℝ) * (h / n) ≤ n * (h / n) := by gcongr
      _ = h := hmT
  have k0 : ∀ k : ℕ, 0 ≤ (k : ℝ) * (h / n) := fun k => by positivity
  have hp1 : ∀ k, k < n → (p k).normSq = 1 ∧ (p k).dist (Q (t + k * (h / n))) ≤ B + k * (h / n) * A := by
    intro k
    induction k with
    | zero => intro _; rw [hS.start]; exact ⟨hq, by simpa using hB⟩
    | succ k ih =>
      intro hk
      obtain ⟨i1, i2⟩ := ih (by omega)
      refine ⟨so3_unit (Prod.ext (hS.next k hk).symm rfl) i1, ?_⟩
      rw [hS.next k hk]
      have h1 := so3_from (p k) (w + t • d + (k * (h / n)) • d) d (h / n) (1 / 10 ^ 12) dblEps (Q (t + k * (h / n))) (Q (t + (k + 1 : ℕ) * (h / n)))
      have h2 := hloc (t + k * (h / n)) (h / n) (by linarith [k0 k]) hη (by
        have := kh (k + 1) (by omega)
        push_cast at this
        linarith)
      rw [ew] at h1
      have e3 : t + (k : ℝ) * (h / n) + h / n = t + ((k + 1 : ℕ) : ℝ) * (h / n) := by push_cast; ring
      rw [e3] at h2
      rw [ew]
      refine h1.trans ?_
      push_cast at h2 ⊢
      linarith
  have hp2 : ∀ k, k ≤ n → (p k).normSq = 1 ∧ (p k).dist (Q (t + k * (h / n))) ≤ B + 2 * h * A := by
    intro k hk
    rcases hk.lt_or_eq with h1 | rfl
    · obtain ⟨i1, i2⟩ := hp1 k h1
      refine ⟨i1, i2.trans ?_⟩
      have : (k : ℝ) * (h / n) * A ≤ h * A := by gcongr; exact kh k hk
      have : 0 ≤ h * A := by positivity
      linarith
    · rw [hS.stop, hmT]
      refine ⟨hq', hB'.trans ?_⟩
      have : 0 ≤ h * A := by positivity
      linarith
  have hm : ∀ k, k < n → (m k).normSq = 1 ∧ (m k).dist (Q (t + (k * (h / n) + h / n / 2))) ≤ B + 2 * h * A := by
    intro k hk
    obtain ⟨i1, i2⟩ := hp1 k hk
    have kh1 : (k : ℝ) * (h / n) + h / n ≤ h := by
      have := kh (k + 1) (by omega)
      push_cast at this
      linarith
    refine ⟨so3_unit (Prod.ext (hS.mid k hk).symm rfl) i1, ?_⟩
    rw [hS.mid k hk]
    have h1 := so3_from (p k) (w + t • d + (k * (h / n)) • d) d (h / n / 2) (1 / 10 ^ 12) dblEps (Q (t + k * (h / n)))
      (Q (t + (k * (h / n) + h / n / 2)))
    have h2 := hloc (t + k * (h / n)) (h / n / 2) (by linarith [k0 k]) (by positivity) (by linarith)
    rw [ew] at h1
    rw [add_assoc] at h2
    rw [ew]
    refine h1.trans ?_
    have h3 : (k : ℝ) * (h / n) * A + A * (h / n / 2) ≤ h * A := by
      calc (k : ℝ) * (h / n) * A + A * (h / n / 2) = ((k : ℝ) * (h / n) + h / n / 2) * A := by ring
        _ ≤ h * A := by gcongr; linarith
    have : 0 ≤ h * A := by positivity
    linarith
  have hrot : ∀ (r : Quat ℝ) (s : ℝ), r.normSq = 1 → r.dist (Q (t + s)) ≤ B + 2 * h * A → 0 ≤ s → s ≤ h →
      √(r.toRot *ᵥ (v + (t + s) • vD) - (Q (t + s)).toRot *ᵥ (v + (t + s) • vD)).normSq ≤ 2 * V * (B + 2 * h * A) := by
    intro r s h1 h2 h3 h4
    refine (toRot_dist h1 (hQ.normSq _) _).trans ?_
    have h5 := hV (t + s) (by linarith) (by linarith)
    have h6 : 0 ≤ r.dist (Q (t + s)) := Real.sqrt_nonneg _
    calc 2 * r.dist (Q (t + s)) * √(v + (t + s) • vD).normSq ≤ 2 * (B + 2 * h * A) * V := by gcongr
      _ = _ := by ring
  have hx : x' - x - (P (t + h) - P t) =
      -(P (t + h) - P t - simpsonSum (fun s => (Q (t + s)).toRot *ᵥ (v + (t + s) • vD)) (h / n) n) +
      ∑ k ∈ Finset.range n, (h / n / 6) • (((p k).toRot *ᵥ (v + (t + k * (h / n)) • vD) - (Q (t + k * (h / n))).toRot *ᵥ (v + (t + k * (h / n)) • vD)) +
        ((4 : ℝ) • ((m k).toRot *ᵥ (v + (t + (k * (h / n) + h / n / 2)) • vD) -
          (Q (t + (k * (h / n) + h / n / 2))).toRot *ᵥ (v + (t + (k * (h / n) + h / n / 2)) • vD)) +
        ((p (k + 1)).toRot *ᵥ (v + (t + (k + 1) * (h / n)) • vD) - (Q (t + (k + 1) * (h / n))).toRot *ᵥ (v + (t + (k + 1) * (h / n)) • vD)))) := by
    rw [hS.sum]
    simp only [ev]
    have e1 : ∀ (c : ℝ) (a b g a' b' g' : Vec3 ℝ), c • ((a - a') + ((4 : ℝ) • (b - b') + (g - g'))) =
        c • (a + (4 : ℝ) • b + g) - c • (a' + (4 : ℝ) • b' + g') := by intros; module
    simp only [e1, Finset.sum_sub_distrib]
    rw [simpsonSum]
    abel
  rw [hx]
  refine (vec_tri _ _).trans ?_
  rw [vec_neg]
  gcongr
  have hs := vec_sum_le (n := n) (c := h / n * (2 * V * (B + 2 * h * A))) (f := fun k => (h / n / 6) • (((p k).toRot *ᵥ (v + (t + k * (h / n)) • vD) - (Q (t + k * (h / n))).toRot *ᵥ (v + (t + k * (h / n)) • vD)) +
        ((4 : ℝ) • ((m k).toRot *ᵥ (v + (t + (k * (h / n) + h / n / 2)) • vD) -
          (Q (t + (k * (h / n) + h / n / 2))).toRot *ᵥ (v + (t + (k * (h / n) + h / n / 2)) • vD)) +
        ((p (k + 1)).toRot *ᵥ (v + (t + (k + 1) * (h / n)) • vD) - (Q (t + (k + 1) * (h / n))).toRot *ᵥ (v + (t + (k + 1) * (h / n)) • vD))))) ?_
  · refine hs.trans (le_of_eq ?_)
    rw [← mul_assoc, hmT]; ring
  · intro k hk
    have kh1 : ((k : ℝ) + 1) * (h / n) ≤ h := by
      have := kh (k + 1) (by omega)
      push_cast at this
      linarith
    have a1 := hrot (p k) (k * (h / n)) (hp2 k hk.le).1 (hp2 k hk.le).2 (k0 k) (kh k hk.le)
    have a2 := hrot (m k) (k * (h / n) + h / n / 2) (hm k hk).1 (hm k hk).2 (by linarith [k0 k]) (by linarith)
    have h3 := hp2 (k + 1) hk
    push_cast at h3
    have a3 := hrot (p (k + 1)) ((k + 1) * (h / n)) h3.1 h3.2 (by positivity) kh1
    rw [vec_smul, abs_of_nonneg (by positivity)]
    have b1 := vec_tri ((p k).toRot *ᵥ (v + (t + k * (h / n)) • vD) - (Q (t + k * (h / n))).toRot *ᵥ (v + (t + k * (h / n)) • vD))
      ((4 : ℝ) • ((m k).toRot *ᵥ (v + (t + (k * (h / n) + h / n / 2)) • vD) -
          (Q (t + (k * (h / n) + h / n / 2))).toRot *ᵥ (v + (t + (k * (h / n) + h / n / 2)) • vD)) +
        ((p (k + 1)).toRot *ᵥ (v + (t + (k + 1) * (h / n)) • vD) - (Q (t + (k + 1) * (h / n))).toRot *ᵥ (v + (t + (k + 1) * (h / n)) • vD)))
    have b2 := vec_tri ((4 : ℝ) • ((m k).toRot *ᵥ (v + (t + (k * (h / n) + h / n / 2)) • vD) -
          (Q (t + (k * (h / n) + h / n / 2))).toRot *ᵥ (v + (t + (k * (h / n) + h / n / 2)) • vD)))
        ((p (k + 1)).toRot *ᵥ (v + (t + (k + 1) * (h / n)) • vD) - (Q (t + (k + 1) * (h / n))).toRot *ᵥ (v + (t + (k + 1) * (h / n)) • vD))
    rw [vec_smul, abs_of_pos (by norm_num : (0 : ℝ) < 4)] at b2
    have b3 := b1.trans (add_le_add a1 (b2.trans (add_le_add (mul_le_mul_of_nonneg_left a2 (by norm_num : (0 : ℝ) ≤ 4)) a3)))
    calc h / n / 6 * _ ≤ h / n / 6 * _ := mul_le_mul_of_nonneg_left b3 (by positivity)
      _ = h / n * (2 * V * (B + 2 * h * A)) := by ring

/-- The pieces that the integration of a free joint is made of, as in `C66_free`. -/
def FreePiece (w d v vD : Vec3 ℝ) (step prec t h : ℝ) (s s' : Quat ℝ × Vec3 ℝ) : Prop :=
  (∃ k : ℕ, h = step / 2 ^ k) ∧ SO3Integration s.1 (w + t • d) d h prec prec = (s'.1, false) ∧
    ∃ (n : ℕ) (p m : ℕ → Quat ℝ), SubSteps n h s.1 s.2 (w + t • d) (v + t • vD) d vD s'.1 s'.2 p m

theorem pieces_position {one : ℝ → ℝ → Quat ℝ × Vec3 ℝ → Quat ℝ × Vec3 ℝ → Prop} {P : ℝ → Vec3 ℝ} {step c : ℝ} (hs : 0 ≤ step)
    (ho : ∀ t h s s', one t h s s' → 0 ≤ h) (hu : ∀ t h s s', one t h s s' → s.1.normSq = 1 → s'.1.normSq = 1)
    (he : ∀ t h s s', one t h s s' → s.1.normSq = 1 → √(s'.2 - s.2 - (P (t + h) - P t)).normSq ≤ c * h) {s s' : Quat ℝ × Vec3 ℝ}
    (hp : Pieces one 0 step s s') (h1 : s.1.normSq = 1) (h2 : s.2 = P 0) : √(s'.2 - P step).normSq ≤ c * step := by
  have := Pieces.guard (P := fun t s => s.1.normSq = 1 ∧ √(s.2 - P t).normSq ≤ c * t) (σ := 1) (T := step)
    (fun t h s s' h1 => by rw [one_mul]; exact ho _ _ _ _ h1) ?_ hp (by simp) (by simp)
    ⟨h1, by rw [h2]; simp [Vec3.normSq, Vec3.dot]⟩
  · exact this.2.2
  · rintro t h s s' h3 - - ⟨h4, h5⟩
    refine ⟨hu _ _ _ _ h3 h4, ?_⟩
    have e : s'.2 - P (t + h) = s'.2 - s.2 - (P (t + h) - P t) + (s.2 - P t) := by abel
    rw [e]
    refine (vec_tri _ _).trans ?_
    have := he _ _ _ _ h3 h4
    linarith

theorem pieces_free {w d v vD : Vec3 ℝ} {Q : ℝ → Quat ℝ} (hQ : Turns w d Q) (hc : w.cross d ≠ 0) {P : ℝ → Vec3 ℝ}
    (hP : ∀ s, HasDerivVec P ((Q s).toRot *ᵥ (v + s • vD)) s) {step : ℝ} (hs : 0 ≤ step) :
    ∃ K p0, 0 ≤ K ∧ 0 < p0 ∧ p0 ≤ 1 ∧ ∀ prec, 0 < prec → prec ≤ p0 → ∀ s s', Pieces (FreePiece w d v vD step prec) 0 step s s' → s.1 = Q 0 → s.2 = P 0 →
      s'.1.dist (Q step) ≤ K * prec ^ (4 / 7 : ℝ) ∧ √(s'.2 - P step).normSq ≤ K * prec ^ (3 / 7 : ℝ) ∧
      (dblEps ≤ d.normSq → √(s'.2 - P step).normSq ≤ K * prec ^ (4 / 7 : ℝ)) := by
  have hD : 0 < d.normSq := by
    refine normSq_pos fun h => hc ?_
    rw [h]; ext <;> simp
  obtain ⟨K, p1, hK, hp1, kturn⟩ := pieces_turn hQ (σ := 1) (step := step) (by simp) (by rw [one_mul, abs_of_nonneg hs])
  obtain ⟨L, hL, hl⟩ := piece_short hc |step|
  obtain ⟨M, hM, hm⟩ := exact_simpson hQ hP step
  let N := √w.normSq + step * √d.normSq + √d.normSq + step
  let V := √v.normSq + step * √vD.normSq
  obtain ⟨C, hC, hb⟩ := C67_order N
  have hw0 := Real.sqrt_nonneg w.normSq
  have hd0 := Real.sqrt_nonneg d.normSq
  have hsd : 0 ≤ step * √d.normSq := by positivity
  have hN : 0 ≤ N := by positivity
  have hV : 0 ≤ V := by positivity
  let lam := L ^ (1 / 4 : ℝ)
  have hlam : 0 ≤ lam := by positivity
  have hlam4 : lam ^ 4 = L := by
    rw [← Real.rpow_natCast, ← Real.rpow_mul hL]
    norm_num
  let K3 := M * lam ^ 4 + 2 * V * K + 4 * V * C * lam ^ 3
  let K4 := M * lam ^ 4 + 2 * V * K + 4 * V * C * step * lam ^ 4
  have hK3 : 0 ≤ K3 := by positivity
  have hK4 : 0 ≤ K4 := by positivity
  refine ⟨K + K3 * step + K4 * step, min p1 (min d.normSq 1), by positivity, by positivity, (min_le_right _ _).trans (min_le_right _ _),
    fun prec h0 h1 s s' hp hi hi' => ?_⟩
  have hpp1 : prec ≤ p1 := h1.trans (min_le_left _ _)
  have hpd : prec ≤ d.normSq := h1.trans ((min_le_right _ _).trans (min_le_left _ _))
  have hp1' : prec ≤ 1 := h1.trans ((min_le_right _ _).trans (min_le_right _ _))
  generalize hρ : prec ^ (1 / 7 : ℝ) = ρ
  have hρ0 : 0 ≤ ρ := by rw [← hρ]; positivity
  have hρ1 : ρ ≤ 1 := by rw [← hρ]; exact Real.rpow_le_one h0.le hp1' (by norm_num)
  have e4 : prec ^ (4 / 7 : ℝ) = ρ ^ 4 := by
    rw [← hρ, ← Real.rpow_natCast, ← Real.rpow_mul h0.le]; norm_num
  have e3 : prec ^ (3 / 7 : ℝ) = ρ ^ 3 := by
    rw [← hρ, ← Real.rpow_natCast, ← Real.rpow_mul h0.le]; norm_num
  obtain ⟨hp', hend⟩ := kturn (Quat ℝ × Vec3 ℝ) Prod.fst (FreePiece w d v vD step prec) prec h0 hpp1 (fun t h s s' h2 => ⟨h2.1, h2.2.1⟩) s s' hp hi
  have hs1 : s.1.normSq = 1 := by rw [hi, hQ.normSq]
  have ho : ∀ t h s s', FreePiece w d v vD step prec t h s s' → 0 ≤ h := by
    rintro t h s s' ⟨⟨k, rfl⟩, -⟩
    positivity
  rw [e4] at hend hp' ⊢
  rw [e3]
  have hr34 : ρ ^ 4 ≤ ρ ^ 3 := by
    calc ρ ^ 4 = ρ ^ 3 * ρ := by ring
      _ ≤ ρ ^ 3 * 1 := by gcongr
      _ = ρ ^ 3 := by ring
  -- the local error, in two strengths
  have hloc : ∀ τ η, 0 ≤ τ → 0 ≤ η → τ + η ≤ step → (SO3Integration (Q τ) (w + τ • d) d η).1.dist (Q (τ + η)) ≤ C * η ^ 3 ∧
      (dblEps ≤ d.normSq → (SO3Integration (Q τ) (w + τ • d) d η).1.dist (Q (τ + η)) ≤ C * η ^ 5) := by
    intro τ η h2 h3 h4
    have hwt : (w + τ • d).normSq ≤ N ^ 2 := by
      rw [← Real.sqrt_le_left hN]
      calc √(w + τ • d).normSq ≤ √w.normSq + √(τ • d).normSq := vec_tri _ _
        _ = √w.normSq + |τ| * √d.normSq := by rw [vec_smul]
        _ ≤ √w.normSq + step * √d.normSq := by gcongr; rw [abs_of_nonneg h2]; linarith
        _ ≤ N := by simp only [N]; linarith
    have hdM : d.normSq ≤ N ^ 2 := by
      rw [← Real.sqrt_le_left hN]
      simp only [N]
      linarith
    have h5 := hb (w + τ • d) d η (1 / 10 ^ 12) dblEps _ hwt hdM (by rw [abs_of_nonneg h3]; simp only [N]; linarith) (hQ.shift τ)
    rwa [add_zero, abs_of_nonneg h3] at h5
  have hVb : ∀ s, 0 ≤ s → s ≤ step → √(v + s • vD).normSq ≤ V := by
    intro s h2 h3
    calc √(v + s • vD).normSq ≤ √v.normSq + √(s • vD).normSq := vec_tri _ _
      _ = √v.normSq + |s| * √vD.normSq := by rw [vec_smul]
      _ ≤ V := by simp only [V]; rw [abs_of_nonneg h2]; gcongr
  have gen : ∀ A : ℝ → ℝ, (∀ h, 0 ≤ h → h ≤ step → 0 ≤ A h) →
      (∀ τ η h, 0 ≤ τ → 0 ≤ η → τ + η ≤ step → η ≤ h → h ≤ step → (SO3Integration (Q τ) (w + τ • d) d η).1.dist (Q (τ + η)) ≤ A h * η) →
      ∀ c, (∀ h, 0 ≤ h → h ≤ step → h ≤ lam * ρ → M * h ^ 4 + 2 * V * (K * ρ ^ 4 + 2 * h * A h) ≤ c) → √(s'.2 - P step).normSq ≤ c * step := by
    intro A hA0 hA c hcb
    refine pieces_position hs (fun t h s s' h2 => ho _ _ _ _ h2.1) (fun t h s s' h2 h3 => so3_unit h2.1.2.1 h3) ?_ hp' hs1 hi'
    rintro t h r r' ⟨h2, b1, b2, t0, t1⟩ hr
    have hh := ho _ _ _ _ h2
    obtain ⟨-, hso, n, p, m, hS⟩ := h2
    rw [one_mul] at t0 t1
    rw [abs_of_nonneg hs] at t1
    have hhs : h ≤ step := by linarith
    have hmg : (magnusExpansion (w + t • d) d h prec prec).2 = false := by
      have := congrArg Prod.snd hso
      simpa [SO3Integration] using this
    have h4 := hl t h prec h0 hpd (by rwa [abs_of_nonneg hh, abs_of_nonneg hs]) hmg
    have hlr : h ≤ lam * ρ := by
      rw [abs_of_nonneg hh, e4, ← hlam4, ← mul_pow] at h4
      exact le_of_pow_le_pow_left₀ (by norm_num) (by positivity) h4
    have key := piece_free (P := P) hQ hh (hA0 h hh hhs) (V := V) (fun s h5 h6 => hVb s (by linarith) (by linarith))
      (fun τ η h5 h6 h7 => hA τ η h (by linarith) h6 (by linarith) (by linarith) hhs) hS hr (so3_unit hso hr) b1 b2
    have h8 := hm t h n t0 hh t1 hS.pos
    have h9 := hcb h hh hhs hlr
    calc _ ≤ _ := key
      _ ≤ M * h ^ 5 + 2 * V * (K * ρ ^ 4 + 2 * h * A h) * h := by gcongr
      _ = (M * h ^ 4 + 2 * V * (K * ρ ^ 4 + 2 * h * A h)) * h := by ring
      _ ≤ c * h := by gcongr
  refine ⟨hend.trans ?_, ?_, fun hbig => ?_⟩
  · gcongr
    have : 0 ≤ K3 * step := by positivity
    have : 0 ≤ K4 * step := by positivity
    linarith
  · have := gen (fun h => C * h ^ 2) (fun h hh _ => by positivity) (fun τ η h h2 h3 h4 h5 h6 => by
      refine (hloc τ η h2 h3 h4).1.trans ?_
      have h7 : η ^ 2 ≤ h ^ 2 := by gcongr
      calc C * η ^ 3 = C * η ^ 2 * η := by ring
        _ ≤ C * h ^ 2 * η := by gcongr) (K3 * ρ ^ 3) (fun h h2 h3 h4 => by
      have a1 : h ^ 4 ≤ lam ^ 4 * ρ ^ 3 := by
        calc h ^ 4 ≤ (lam * ρ) ^ 4 := by gcongr
          _ = lam ^ 4 * ρ ^ 4 := by ring
          _ ≤ lam ^ 4 * ρ ^ 3 := by gcongr
      have a2 : h ^ 3 ≤ lam ^ 3 * ρ ^ 3 := by
        calc h ^ 3 ≤ (lam * ρ) ^ 3 := by gcongr
          _ = lam ^ 3 * ρ ^ 3 := by ring
      calc M * h ^ 4 + 2 * V * (K * ρ ^ 4 + 2 * h * (C * h ^ 2)) = M * h ^ 4 + 2 * V * K * ρ ^ 4 + 4 * V * C * h ^ 3 := by ring
        _ ≤ M * (lam ^ 4 * ρ ^ 3) + 2 * V * K * ρ ^ 3 + 4 * V * C * (lam ^ 3 * ρ ^ 3) := by gcongr
        _ = K3 * ρ ^ 3 := by simp only [K3]; ring)
    refine this.trans ?_
    have h1 : 0 ≤ K * ρ ^ 3 := by positivity
    have h2 : 0 ≤ K4 * step * ρ ^ 3 := by positivity
    calc K3 * ρ ^ 3 * step = K3 * step * ρ ^ 3 := by ring
      _ ≤ (K + K3 * step + K4 * step) * ρ ^ 3 := by rw [add_mul, add_mul]; linarith
  · have := gen (fun h => C * h ^ 4) (fun h hh _ => by positivity) (fun τ η h h2 h3 h4 h5 h6 => by
      refine ((hloc τ η h2 h3 h4).2 hbig).trans ?_
      have h7 : η ^ 4 ≤ h ^ 4 := by gcongr
      calc C * η ^ 5 = C * η ^ 4 * η := by ring
        _ ≤ C * h ^ 4 * η := by gcongr) (K4 * ρ ^ 4) (fun h h2 h3 h4 => by
      have a1 : h ^ 4 ≤ lam ^ 4 * ρ ^ 4 := by
        calc h ^ 4 ≤ (lam * ρ) ^ 4 := by gcongr
          _ = lam ^ 4 * ρ ^ 4 := by ring
      calc M * h ^ 4 + 2 * V * (K * ρ ^ 4 + 2 * h * (C * h ^ 4)) = M * h ^ 4 + 2 * V * K * ρ ^ 4 + 4 * V * C * h * h ^ 4 := by ring
        _ ≤ M * (lam ^ 4 * ρ ^ 4) + 2 * V * K * ρ ^ 4 + 4 * V * C * step * (lam ^ 4 * ρ ^ 4) := by gcongr
        _ = K4 * ρ ^ 4 := by simp only [K4]; ring)
    refine this.trans ?_
    have h1 : 0 ≤ K * ρ ^ 4 := by positivity
    have h2 : 0 ≤ K3 * step * ρ ^ 4 := by positivity
    calc K4 * ρ ^ 4 * step = K4 * step * ρ ^ 4 := by ring
      _ ≤ (K + K3 * step + K4 * step) * ρ ^ 4 := by rw [add_mul, add_mul]; linarith

theorem turns_free {a b : List ℝ} (ha : a.length = 6) (hb : b.length = 6) {Q : ℝ → List ℝ} (hx : ValidParam .Free (Q 0))
    (hQ : ∀ s, HasDerivList Q (coordRate .Free (Q s) (List.zipWith (fun u v => u + v * s) a b)) s) :
    Turns (angPart a) (angPart b) (fun s => ⟨(Q s).getD 0 0, (Q s).getD 1 0, (Q s).getD 2 0, (Q s).getD 3 0⟩) ∧
      ∀ s, HasDerivVec (fun s => freePos (Q s))
        ((⟨(Q s).getD 0 0, (Q s).getD 1 0, (Q s).getD 2 0, (Q s).getD 3 0⟩ : Quat ℝ).toRot *ᵥ (linPart a + s • linPart b)) s := by
  obtain ⟨hl, hv⟩ := hx
  obtain ⟨a0, a1, a2, a3, a4, a5, rfl⟩ := list6 ha
  obtain ⟨b0, b1, b2, b3, b4, b5, rfl⟩ := list6 hb
  have h7 : ∀ s, (Q s).length = 7 := by
    intro s
    rw [(hQ 0).1 s, ← (hQ 0).1 0, hl]; rfl
  have hd : ∀ s i, HasDerivAt (fun s => (Q s).getD i 0) _ s := fun s i => (hQ s).2 i
  have hr : ∀ s, coordRate .Free (Q s) (List.zipWith (fun u v => u + v * s) [a0, a1, a2, a3, a4, a5] [b0, b1, b2, b3, b4, b5]) =
      [(-(Q s).getD 1 0 * (a0 + b0 * s) - (Q s).getD 2 0 * (a1 + b1 * s) - (Q s).getD 3 0 * (a2 + b2 * s)) / 2,
       ((Q s).getD 0 0 * (a0 + b0 * s) + (Q s).getD 2 0 * (a2 + b2 * s) - (Q s).getD 3 0 * (a1 + b1 * s)) / 2,
       ((Q s).getD 0 0 * (a1 + b1 * s) + (Q s).getD 3 0 * (a0 + b0 * s) - (Q s).getD 1 0 * (a2 + b2 * s)) / 2,
       ((Q s).getD 0 0 * (a2 + b2 * s) + (Q s).getD 1 0 * (a1 + b1 * s) - (Q s).getD 2 0 * (a0 + b0 * s)) / 2] ++
      let u := (⟨(Q s).getD 0 0, (Q s).getD 1 0, (Q s).getD 2 0, (Q s).getD 3 0⟩ : Quat ℝ).toRot *ᵥ
        (⟨a3 + b3 * s, a4 + b4 * s, a5 + b5 * s⟩ : Vec3 ℝ)
      [u.x, u.y, u.z] := by
    intro s
    obtain ⟨c0, c1, c2, c3, c4, c5, c6, e⟩ := list7 (h7 s)
    rw [e]; rfl
  simp only [hr] at hd
  have e7 : (Q 0) = [(Q 0).getD 0 0, (Q 0).getD 1 0, (Q 0).getD 2 0, (Q 0).getD 3 0, (Q 0).getD 4 0, (Q 0).getD 5 0, (Q 0).getD 6 0] := by
    obtain ⟨c0, c1, c2, c3, c4, c5, c6, e⟩ := list7 (h7 0)
    rw [e]; rfl
  rw [e7] at hv
  refine ⟨⟨fun s => (hd s 0).congr_deriv ?_, fun s => (hd s 1).congr_deriv ?_, fun s => (hd s 2).congr_deriv ?_,
    fun s => (hd s 3).congr_deriv ?_, ?_⟩, fun s => ⟨(hd s 4).congr_deriv ?_, (hd s 5).congr_deriv ?_, (hd s 6).congr_deriv ?_⟩⟩
  · simp [angPart]; ring
  · simp [angPart]; ring
  · simp [angPart]; ring
  · simp [angPart]; ring
  · exact hv
  · simp [linPart]; ring
  · simp [linPart]; ring
  · simp [linPart]; ring

theorem vec_coord (u : Vec3 ℝ) : |u.x| ≤ √u.normSq ∧ |u.y| ≤ √u.normSq ∧ |u.z| ≤ √u.normSq := by
  have e : u.normSq = u.x ^ 2 + u.y ^ 2 + u.z ^ 2 := by simp [Vec3.normSq, Vec3.dot]; ring
  rw [e]
  refine ⟨Real.abs_le_sqrt ?_, Real.abs_le_sqrt ?_, Real.abs_le_sqrt ?_⟩ <;>
    nlinarith [sq_nonneg u.x, sq_nonneg u.y, sq_nonneg u.z]

/-- C68 for free joints whose axis of rotation moves: the orientation and the translation obtained by integration converge to
the exact ones when the precision goes to zero. -/
theorem C68_free {a b : List ℝ} (ha : a.length = 6) (hb : b.length = 6) {Q : ℝ → List ℝ} (hx : ValidParam .Free (Q 0))
    (hQ : ∀ s, HasDerivList Q (coordRate .Free (Q s) (List.zipWith (fun u v => u + v * s) a b)) s)
    (hc : (angPart a).cross (angPart b) ≠ 0) {step : ℝ} (hs : 0 ≤ step) :
    ∃ K p0, 0 < p0 ∧ ∀ prec, 0 < prec → prec ≤ p0 → ∀ fuel y, jointIntegration fuel .Free a b step (Q 0) prec = .ok y →
      y.length = 7 ∧ (∀ i < 4, |y.getD i 0 - (Q step).getD i 0| ≤ K * prec ^ (4 / 7 : ℝ)) ∧
      (∀ i, 4 ≤ i → i < 7 → |y.getD i 0 - (Q step).getD i 0| ≤ K * prec ^ (3 / 7 : ℝ)) ∧
      (dblEps ≤ (angPart b).normSq → ∀ i < 7, |y.getD i 0 - (Q step).getD i 0| ≤ K * prec ^ (4 / 7 : ℝ)) := by
  obtain ⟨hT, hP⟩ := turns_free ha hb hx hQ
  obtain ⟨K, p0, hK, hp0, -, key⟩ := pieces_free hT hc hP hs
  refine ⟨K, p0, hp0, fun prec h0 h1 fuel y hy => ?_⟩
  obtain ⟨a0, a1, a2, a3, a4, a5, rfl⟩ := list6 ha
  obtain ⟨b0, b1, b2, b3, b4, b5, rfl⟩ := list6 hb
  obtain ⟨c0, c1, c2, c3, c4, c5, c6, e⟩ := list7 (show (Q 0).length = 7 from hx.1)
  have hn : (⟨c0, c1, c2, c3⟩ : Quat ℝ).normSq = 1 := by
    have := hT.unit
    simp only [e] at this
    exact this
  rw [e] at hy
  obtain ⟨r, hyr, hp⟩ := C66_free hs h0 hy
  have hr : r.1.normSq = 1 := hp.inv (P := fun s => s.1.normSq = 1) (fun t h s s' h1 hs => so3_unit h1.2.1 hs) hn
  rw [hr] at hyr
  simp only [Real.sqrt_one, div_one] at hyr
  have hp' : Pieces (FreePiece (angPart [a0, a1, a2, a3, a4, a5]) (angPart [b0, b1, b2, b3, b4, b5]) (linPart [a0, a1, a2, a3, a4, a5])
      (linPart [b0, b1, b2, b3, b4, b5]) step prec) 0 step (⟨c0, c1, c2, c3⟩, ⟨c4, c5, c6⟩) r := by
    refine hp.mono ?_
    rintro t h s s' ⟨h2, h3, n, p, m, h4, -⟩
    have e1 : (⟨a0 + t * b0, a1 + t * b1, a2 + t * b2⟩ : Vec3 ℝ) = angPart [a0, a1, a2, a3, a4, a5] + t • angPart [b0, b1, b2, b3, b4, b5] := by
      ext <;> simp [angPart]
    have e2 : (⟨a3 + t * b3, a4 + t * b4, a5 + t * b5⟩ : Vec3 ℝ) = linPart [a0, a1, a2, a3, a4, a5] + t • linPart [b0, b1, b2, b3, b4, b5] := by
      ext <;> simp [linPart]
    rw [e1] at h3 h4
    rw [e2] at h4
    exact ⟨h2, h3, n, p, m, h4⟩
  obtain ⟨d1, d2, d3⟩ := key prec h0 h1 _ _ hp' (by rw [e]; rfl) (by rw [e]; rfl)
  obtain ⟨q0, q1, q2, q3⟩ := Quat.dist_coord _ _ d1
  obtain ⟨v0, v1, v2⟩ := vec_coord (r.2 - freePos (Q step))
  subst hyr
  have hq : ∀ i < 4, |[r.1.w, r.1.x, r.1.y, r.1.z, r.2.x, r.2.y, r.2.z].getD i 0 - (Q step).getD i 0| ≤ K * prec ^ (4 / 7 : ℝ) := by
    intro i hi
    match i, hi with
    | 0, _ => exact q0
    | 1, _ => exact q1
    | 2, _ => exact q2
    | 3, _ => exact q3
  have hv : ∀ c, √(r.2 - freePos (Q step)).normSq ≤ c → ∀ i, 4 ≤ i → i < 7 →
      |[r.1.w, r.1.x, r.1.y, r.1.z, r.2.x, r.2.y, r.2.z].getD i 0 - (Q step).getD i 0| ≤ c := by
    intro c hc i h4 h7
    match i, h4, h7 with
    | 4, _, _ => exact v0.trans hc
    | 5, _, _ => exact v1.trans hc
    | 6, _, _ => exact v2.trans hc
  refine ⟨rfl, hq, hv _ d2, fun hbig i hi => ?_⟩
  rcases lt_or_ge i 4 with h4 | h4
  · exact hq i h4
  · exact hv _ (d3 hbig) i h4 hi

theorem ratio_exists {F : ℝ → ℝ} (hF : Continuous F) (h0 : ∀ t, 0 ≤ F t) {T : ℝ}
    (hne : F 0 ≠ 0 ∨ F T ≠ 0 ∨ ∀ t, 0 ≤ t → t ≤ T → F t = 0) : ∃ κ, 0 ≤ κ ∧ ∀ t, 0 ≤ t → t ≤ T → F t ≤ κ ^ 2 * max (F 0) (F T) := by
  obtain ⟨M, hM⟩ := (isCompact_Icc (a := (0 : ℝ)) (b := T)).exists_bound_of_continuousOn hF.continuousOn
  by_cases h : ∀ t, 0 ≤ t → t ≤ T → F t = 0
  · exact ⟨0, le_rfl, fun t h1 h2 => by rw [h t h1 h2]; simp⟩
  · have hpos : 0 < max (F 0) (F T) := by
      rcases hne with h1 | h1 | h1
      · exact lt_max_of_lt_left (lt_of_le_of_ne (h0 0) (Ne.symm h1))
      · exact lt_max_of_lt_right (lt_of_le_of_ne (h0 T) (Ne.symm h1))
      · exact absurd h1 h
    generalize max (F 0) (F T) = E at *
    refine ⟨√(max M 0 / E), Real.sqrt_nonneg _, fun t h1 h2 => ?_⟩
    rw [Real.sq_sqrt (by positivity), div_mul_cancel₀ _ hpos.ne']
    have := hM t ⟨h1, h2⟩
    rw [Real.norm_eq_abs, abs_of_nonneg (h0 t)] at this
    exact this.trans (le_max_left _ _)

/-- C68 for planar joints: the angle is exact and the error of the translation is at most a multiple of the precision.

Missing: motions whose fifth derivative of the position (`f 5`) vanishes at both ends of the step, but not in between: the number
of sub-steps then does not depend on the precision. -/
theorem C68_planar_partial {a b : List ℝ} (ha : a.length = 3) (hb : b.length = 3) {Q : ℝ → List ℝ} (hx : (Q 0).length = 3)
    (hQ : ∀ s, HasDerivList Q (coordRate .Planar (Q s) (List.zipWith (fun u v => u + v * s) a b)) s)
    {f : ℕ → ℝ → ℝ × ℝ} (hf0 : ∀ t, f 0 t = planarPos (Q t)) (hf : ∀ k < 5, ∀ t, HasDerivAt (f k) (f (k + 1) t) t)
    {step : ℝ} (hs : 0 ≤ step) (hne : f 5 0 ≠ 0 ∨ f 5 step ≠ 0 ∨ ∀ t, 0 ≤ t → t ≤ step → f 5 t = 0) :
    ∃ K, ∀ prec, 0 < prec → ∀ fuel, ∃ y, jointIntegration fuel .Planar a b step (Q 0) prec = .ok y ∧ y.length = 3 ∧
      y.getD 0 0 = (Q step).getD 0 0 ∧
      (y.getD 1 0 - (Q step).getD 1 0) ^ 2 + (y.getD 2 0 - (Q step).getD 2 0) ^ 2 ≤ (K * prec) ^ 2 := by
  obtain ⟨g, hg0, hg, hE⟩ := planar_chain ha hb hx rfl hQ
  have h5 : f 5 = g 5 := chain_unique ((funext hf0).trans (funext hg0).symm) hf hg 5 le_rfl
  have hz : ∀ u : ℝ × ℝ, sqLen u = 0 ↔ u = 0 := by
    rintro ⟨u1, u2⟩
    simp only [sqLen, Prod.mk_eq_zero]
    constructor
    · intro h
      exact ⟨by nlinarith [sq_nonneg u1, sq_nonneg u2], by nlinarith [sq_nonneg u1, sq_nonneg u2]⟩
    · rintro ⟨rfl, rfl⟩; simp
  obtain ⟨κ, hκ, hm⟩ := ratio_exists (F := fun t => sqLen (f 5 t)) (T := step) (by
      simp only [h5, ← hE]
      simp only [fourthDerivativeSquaredNormPlanar, fourthDerivativePlanar, Prod.smul_mk, Prod.mk_add_mk, smul_eq_mul]
      fun_prop) (fun t => by unfold sqLen; positivity) (by simpa only [ne_eq, hz] using hne)
  exact ⟨κ, fun prec hp fuel => C65_planar_ratio fuel ha hb hx rfl hQ hf0 hf hs hp hκ hm⟩

/-- C68 for free joints that turn around a fixed axis: the orientation is exact and the error of the translation is at most a
multiple of the precision.

Missing: motions whose fifth derivative of the position (`f 5`) vanishes at both ends of the step, but not in between. -/
theorem C68_free_axis_partial {a b : List ℝ} (ha : a.length = 6) (hb : b.length = 6) {Q : ℝ → List ℝ} (hx : ValidParam .Free (Q 0))
    (hpar : (angPart a).cross (angPart b) = 0)
    (hQ : ∀ s, HasDerivList Q (coordRate .Free (Q s) (List.zipWith (fun u v => u + v * s) a b)) s)
    {f : ℕ → ℝ → Vec3 ℝ} (hf0 : ∀ t, f 0 t = freePos (Q t)) (hf : ∀ k < 5, ∀ t, HasDerivVec (f k) (f (k + 1) t) t)
    {step : ℝ} (hs : 0 ≤ step) (hne : f 5 0 ≠ 0 ∨ f 5 step ≠ 0 ∨ ∀ t, 0 ≤ t → t ≤ step → f 5 t = 0) :
    ∃ K, ∀ prec, 0 < prec → ∀ fuel, ∃ y, jointIntegration (fuel + 1) .Free a b step (Q 0) prec = .ok y ∧ y.length = 7 ∧
      (∀ k < 4, y.getD k 0 = (Q step).getD k 0) ∧ (freePos (Q step) - freePos y).normSq ≤ (K * prec) ^ 2 := by
  obtain ⟨g, hg0, hg, hE⟩ := free_chain' ha hb hx hpar rfl hQ
  have h5 : f 5 = g 5 := chain_unique3 ((funext hf0).trans (funext hg0).symm) hf hg 5 le_rfl
  have hz : ∀ u : Vec3 ℝ, u.normSq = 0 ↔ u = 0 := fun u =>
    ⟨fun h => by_contra fun h' => (normSq_pos h').ne' h, fun h => by rw [h]; simp [Vec3.normSq, Vec3.dot]⟩
  obtain ⟨κ, hκ, hm⟩ := ratio_exists (F := fun t => (f 5 t).normSq) (T := step) (by
      simp only [h5, ← hE]
      simp only [fourthDerivativeSquaredNormFree, fourthDerivativeFree, Vec3.normSq, Vec3.dot, Vec3.add_x, Vec3.add_y, Vec3.add_z, Vec3.sub_x, Vec3.sub_y,
        Vec3.sub_z, Vec3.smul_x, Vec3.smul_y, Vec3.smul_z, Vec3.cross_x, Vec3.cross_y, Vec3.cross_z]
      fun_prop) (fun t => Vec3.normSq_nonneg _) (by simpa only [ne_eq, hz] using hne)
  exact ⟨κ, fun prec hp fuel => C65_free_ratio fuel ha hb hx hpar rfl hQ hf0 hf hs hp hκ hm⟩

end RBDyn
