import Mathlib.Analysis.Calculus.SmoothSeries
import Mathlib.Analysis.SpecificLimits.Normed
import Verif.Lemmas.MagnusLocal

/-! Existence of the motions that turn at a given rate, by a power series. -/

namespace RBDyn
open scoped Mat3 Quaternion

/-- The unit quaternion `Q` turns at the rate `w + s d` in its own frame. -/
structure Turns (w d : Vec3 ℝ) (Q : ℝ → Quat ℝ) : Prop where
  dw : ∀ s, HasDerivAt (fun s => (Q s).w) ((-(Q s).x * (w + s • d).x - (Q s).y * (w + s • d).y - (Q s).z * (w + s • d).z) / 2) s
  dx : ∀ s, HasDerivAt (fun s => (Q s).x) (((Q s).w * (w + s • d).x + (Q s).y * (w + s • d).z - (Q s).z * (w + s • d).y) / 2) s
  dy : ∀ s, HasDerivAt (fun s => (Q s).y) (((Q s).w * (w + s • d).y + (Q s).z * (w + s • d).x - (Q s).x * (w + s • d).z) / 2) s
  dz : ∀ s, HasDerivAt (fun s => (Q s).z) (((Q s).w * (w + s • d).z + (Q s).x * (w + s • d).y - (Q s).y * (w + s • d).x) / 2) s
  unit : (Q 0).normSq = 1

theorem Turns.toH {w d : Vec3 ℝ} {Q : ℝ → Quat ℝ} (h : Turns w d Q) (t : ℝ) :
    HasDerivAt (fun s => (Q s).toH) ((1 / 2 : ℝ) • ((Q t).toH * (w + t • d).toH)) t := by
  refine (hasDerivAt_toH (f' := ⟨(-(Q t).x * (w + t • d).x - (Q t).y * (w + t • d).y - (Q t).z * (w + t • d).z) / 2,
    ((Q t).w * (w + t • d).x + (Q t).y * (w + t • d).z - (Q t).z * (w + t • d).y) / 2,
    ((Q t).w * (w + t • d).y + (Q t).z * (w + t • d).x - (Q t).x * (w + t • d).z) / 2,
    ((Q t).w * (w + t • d).z + (Q t).x * (w + t • d).y - (Q t).y * (w + t • d).x) / 2⟩) (h.dw t) (h.dx t) (h.dy t) (h.dz t)).congr_deriv ?_
  ext <;> simp <;> ring

theorem Turns.norm {w d : Vec3 ℝ} {Q : ℝ → Quat ℝ} (h : Turns w d Q) (t : ℝ) : ‖(Q t).toH‖ = 1 := by
  rw [turning_norm (fun t => h.toH t) t, Quat.toH_norm, h.unit, Real.sqrt_one]

theorem Turns.shift {w d : Vec3 ℝ} {Q : ℝ → Quat ℝ} (h : Turns w d Q) (t : ℝ) : Turns (w + t • d) d (fun s => Q (t + s)) := by
  have e : ∀ s : ℝ, w + t • d + s • d = w + (t + s) • d := fun s => by module
  have hs : ∀ s : ℝ, HasDerivAt (fun s => t + s) 1 s := fun s => (hasDerivAt_id s).const_add t
  constructor
  · intro s
    rw [e]
    exact ((h.dw (t + s)).comp s (hs s)).congr_deriv (by ring)
  · intro s
    rw [e]
    exact ((h.dx (t + s)).comp s (hs s)).congr_deriv (by ring)
  · intro s
    rw [e]
    exact ((h.dy (t + s)).comp s (hs s)).congr_deriv (by ring)
  · intro s
    rw [e]
    exact ((h.dz (t + s)).comp s (hs s)).congr_deriv (by ring)
  · have := h.norm t
    rw [Quat.toH_norm, Real.sqrt_eq_one] at this
    simpa using this

/-- The coefficients of the series. -/
noncomputable def turnCoef (w d : Vec3 ℝ) (q : ℍ[ℝ]) : ℕ → ℍ[ℝ]
  | 0 => q
  | 1 => (1 / 2 : ℝ) • (q * w.toH)
  | n + 2 => (1 / (2 * (n + 2)) : ℝ) • (turnCoef w d q (n + 1) * w.toH + turnCoef w d q n * d.toH)

theorem turnCoef_bound (w d : Vec3 ℝ) (q : ℍ[ℝ]) {r : ℝ} (hr : 0 < r) : ∃ C, 0 ≤ C ∧ ∀ n, ‖turnCoef w d q n‖ ≤ C * r ^ n := by
  obtain ⟨N, hN⟩ := exists_nat_ge (‖w.toH‖ / r + ‖d.toH‖ / r ^ 2)
  let C := ∑ k ∈ Finset.range (N + 2), ‖turnCoef w d q k‖ / r ^ k
  have hC : 0 ≤ C := Finset.sum_nonneg fun k _ => by positivity
  have hs : ∀ n, n < N + 2 → ‖turnCoef w d q n‖ ≤ C * r ^ n := by
    intro n hn
    rw [← div_le_iff₀ (by positivity)]
    exact Finset.single_le_sum (f := fun k => ‖turnCoef w d q k‖ / r ^ k) (fun k _ => by positivity) (Finset.mem_range.2 hn)
  refine ⟨C, hC, fun n => ?_⟩
  induction n using Nat.strong_induction_on with
  | _ n ih =>
    by_cases hn : n < N + 2
    · exact hs n hn
    · obtain ⟨m, rfl⟩ : ∃ m, n = m + 2 := ⟨n - 2, by omega⟩
      have hm : (N : ℝ) ≤ m := by exact_mod_cast (by omega : N ≤ m)
      have i1 := ih (m + 1) (by omega)
      have i0 := ih m (by omega)
      rw [turnCoef, norm_smul, Real.norm_eq_abs, abs_of_pos (by positivity)]
      calc 1 / (2 * ((m : ℝ) + 2)) * ‖turnCoef w d q (m + 1) * w.toH + turnCoef w d q m * d.toH‖
          ≤ 1 / (2 * ((m : ℝ) + 2)) * (C * r ^ (m + 1) * ‖w.toH‖ + C * r ^ m * ‖d.toH‖) := by
            gcongr
            refine (norm_add_le _ _).trans ?_
            rw [norm_mul, norm_mul]
            gcongr
        _ = C * r ^ (m + 2) * ((‖w.toH‖ / r + ‖d.toH‖ / r ^ 2) / (2 * ((m : ℝ) + 2))) := by
            field_simp
            ring
        _ ≤ C * r ^ (m + 2) * 1 := by
            gcongr
            rw [div_le_one (by positivity)]
            linarith
        _ = _ := mul_one _

theorem turnCoef_summable (w d : Vec3 ℝ) (q : ℍ[ℝ]) (t : ℝ) : Summable fun n => t ^ n • turnCoef w d q n := by
  obtain ⟨C, hC, hb⟩ := turnCoef_bound w d q (r := 1 / (2 * (|t| + 1))) (by positivity)
  refine Summable.of_norm_bounded (g := fun n => C * (1 / 2) ^ n) ((summable_geometric_of_lt_one (by norm_num) (by norm_num)).mul_left C)
    fun n => ?_
  rw [norm_smul, norm_pow, Real.norm_eq_abs]
  calc |t| ^ n * ‖turnCoef w d q n‖ ≤ |t| ^ n * (C * (1 / (2 * (|t| + 1))) ^ n) := by gcongr; exact hb n
    _ = C * (|t| * (1 / (2 * (|t| + 1)))) ^ n := by rw [mul_pow]; ring
    _ ≤ C * (1 / 2) ^ n := by
      gcongr
      rw [mul_one_div, div_le_div_iff₀ (by positivity) (by norm_num)]
      linarith [abs_nonneg t]

theorem turnCoef_term_bound (w d : Vec3 ℝ) (q : ℍ[ℝ]) {R : ℝ} (hR : 0 < R) : ∃ u : ℕ → ℝ, Summable u ∧
    ∀ (n : ℕ) (y : ℝ), |y| ≤ R → ‖((n : ℝ) * y ^ (n - 1)) • turnCoef w d q n‖ ≤ u n := by
  obtain ⟨C, hC, hb⟩ := turnCoef_bound w d q (r := 1 / (2 * R)) (by positivity)
  refine ⟨fun n => C / R * ((n : ℝ) * (1 / 2) ^ n), ?_, fun n y hy => ?_⟩
  · have := summable_pow_mul_geometric_of_norm_lt_one (R := ℝ) 1 (r := 1 / 2) (by norm_num)
    simp only [pow_one] at this
    exact this.mul_left (C / R)
  · rw [norm_smul, norm_mul, norm_pow, Real.norm_eq_abs, Real.norm_eq_abs, Nat.abs_cast]
    cases n with
    | zero => simp
    | succ n =>
      have e : R ^ n * (C * (1 / (2 * R)) ^ (n + 1)) = C / R * (1 / 2) ^ (n + 1) := by
        rw [show (1 / (2 * R)) = (1 / 2) * R⁻¹ by field_simp, mul_pow, pow_succ R⁻¹ n, inv_pow]
        field_simp
      calc ((n + 1 : ℕ) : ℝ) * |y| ^ n * ‖turnCoef w d q (n + 1)‖ ≤ ((n + 1 : ℕ) : ℝ) * R ^ n * (C * (1 / (2 * R)) ^ (n + 1)) := by
            gcongr; exact hb (n + 1)
        _ = ((n + 1 : ℕ) : ℝ) * (R ^ n * (C * (1 / (2 * R)) ^ (n + 1))) := by ring
        _ = C / R * (((n + 1 : ℕ) : ℝ) * (1 / 2) ^ (n + 1)) := by rw [e]; ring

theorem turnCoef_hasDerivAt (w d : Vec3 ℝ) (q : ℍ[ℝ]) (t : ℝ) :
    HasDerivAt (fun t : ℝ => ∑' n, t ^ n • turnCoef w d q n) (∑' n : ℕ, ((n : ℝ) * t ^ (n - 1)) • turnCoef w d q n) t := by
  have hR : 0 < |t| + 1 := by positivity
  obtain ⟨u, hu, hb⟩ := turnCoef_term_bound w d q hR
  refine hasDerivAt_tsum_of_isPreconnected (t := Metric.ball (0 : ℝ) (|t| + 1)) (y₀ := 0)
    (g := fun n (t : ℝ) => t ^ n • turnCoef w d q n) (g' := fun n (t : ℝ) => ((n : ℝ) * t ^ (n - 1)) • turnCoef w d q n)
    hu Metric.isOpen_ball
    (convex_ball (0 : ℝ) _).isPreconnected (fun n y _ => ?_) (fun n y hy => ?_) (Metric.mem_ball_self hR) (turnCoef_summable w d q 0) ?_
  · exact (hasDerivAt_pow n y).smul_const _
  · refine hb n y ?_
    have := (Metric.mem_ball.1 hy).le
    rwa [Real.dist_eq, sub_zero] at this
  · rw [Metric.mem_ball, Real.dist_eq, sub_zero]
    linarith

theorem turnCoef_eq (w d : Vec3 ℝ) (q : ℍ[ℝ]) (t : ℝ) :
    (∑' n : ℕ, ((n : ℝ) * t ^ (n - 1)) • turnCoef w d q n) =
      (1 / 2 : ℝ) • ((∑' n, t ^ n • turnCoef w d q n) * (w + t • d).toH) := by
  have hS := turnCoef_summable w d q t
  have hS1 : Summable fun n => t ^ (n + 1) • turnCoef w d q (n + 1) := (summable_nat_add_iff 1).2 hS
  have hD : Summable fun n : ℕ => ((n : ℝ) * t ^ (n - 1)) • turnCoef w d q n := by
    obtain ⟨u, hu, hb⟩ := turnCoef_term_bound w d q (R := |t| + 1) (by positivity)
    exact Summable.of_norm_bounded hu fun n => hb n t (by linarith)
  have e1 := hS.tsum_eq_zero_add
  rw [hD.tsum_eq_zero_add, ((summable_nat_add_iff 1).2 hD).tsum_eq_zero_add]
  have e2 : ∀ n : ℕ, (((n + 1 + 1 : ℕ) : ℝ) * t ^ (n + 1 + 1 - 1)) • turnCoef w d q (n + 1 + 1) =
      (1 / 2 : ℝ) • ((t ^ (n + 1) • turnCoef w d q (n + 1)) * w.toH + (t ^ n • turnCoef w d q n) * (t • d).toH) := by
    intro n
    have hn : ((n : ℝ) + 2) ≠ 0 := by positivity
    rw [turnCoef, Vec3.toH_smul, smul_smul, smul_mul_assoc, smul_mul_assoc, mul_smul_comm, smul_smul, ← pow_succ, ← smul_add, smul_smul]
    congr 1
    push_cast
    field_simp
    ring
  simp only [e2]
  rw [tsum_const_smul'', (hS1.mul_right _).tsum_add (hS.mul_right _), tsum_mul_right, tsum_mul_right, Vec3.toH_add, mul_add]
  rw [e1]
  simp [turnCoef]
  simp only [add_mul, smul_add]
  abel

theorem turns_exists (w d : Vec3 ℝ) (q : Quat ℝ) (hq : q.normSq = 1) : ∃ Q, Turns w d Q ∧ Q 0 = q := by
  let F : ℝ → ℍ[ℝ] := fun t => ∑' n, t ^ n • turnCoef w d q.toH n
  have hF : ∀ t, HasDerivAt F ((1 / 2 : ℝ) • (F t * (w + t • d).toH)) t := fun t => by
    rw [← turnCoef_eq]
    exact turnCoef_hasDerivAt w d q.toH t
  have h0 : F 0 = q.toH := by
    show ∑' n : ℕ, (0 : ℝ) ^ n • turnCoef w d q.toH n = q.toH
    rw [tsum_eq_single 0 (fun n hn => by simp [hn])]
    simp [turnCoef]
  let L (f : ℍ[ℝ] → ℝ) (ha : ∀ x y, f (x + y) = f x + f y) (hs : ∀ (c : ℝ) x, f (c • x) = c • f x) : ℍ[ℝ] →L[ℝ] ℝ :=
    LinearMap.toContinuousLinearMap { toFun := f, map_add' := ha, map_smul' := hs }
  refine ⟨fun t => ⟨(F t).re, (F t).imI, (F t).imJ, (F t).imK⟩, ⟨fun t => ?_, fun t => ?_, fun t => ?_, fun t => ?_, ?_⟩, ?_⟩
  · refine ((L (fun x => x.re) (by simp) (by simp)).hasFDerivAt.comp_hasDerivAt t (hF t)).congr_deriv ?_
    show ((1 / 2 : ℝ) • (F t * (w + t • d).toH)).re = _
    simp
    ring
  · refine ((L (fun x => x.imI) (by simp) (by simp)).hasFDerivAt.comp_hasDerivAt t (hF t)).congr_deriv ?_
    show ((1 / 2 : ℝ) • (F t * (w + t • d).toH)).imI = _
    simp
    ring
  · refine ((L (fun x => x.imJ) (by simp) (by simp)).hasFDerivAt.comp_hasDerivAt t (hF t)).congr_deriv ?_
    show ((1 / 2 : ℝ) • (F t * (w + t • d).toH)).imJ = _
    simp
    ring
  · refine ((L (fun x => x.imK) (by simp) (by simp)).hasFDerivAt.comp_hasDerivAt t (hF t)).congr_deriv ?_
    show ((1 / 2 : ℝ) • (F t * (w + t • d).toH)).imK = _
    simp
    ring
  · simp only [h0]
    exact hq
  · simp only [h0]
    rfl

end RBDyn
