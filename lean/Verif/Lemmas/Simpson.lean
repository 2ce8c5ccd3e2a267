import Mathlib.Analysis.Calculus.Deriv.MeanValue
import Mathlib.Algebra.BigOperators.Group.Finset.Basic
import Verif.Lemmas.Integration

/-! The error of the composite Simpson rule. -/

namespace RBDyn

/-- A function that starts at zero and grows is nonnegative. -/
theorem nonneg_of_deriv {D D' : ℝ → ℝ} {h : ℝ} (hD : ∀ t, HasDerivAt D (D' t) t) (h0 : D 0 = 0)
    (hn : ∀ t, 0 ≤ t → t ≤ h → 0 ≤ D' t) {t : ℝ} (ht : 0 ≤ t) (hth : t ≤ h) : 0 ≤ D t := by
  have hm : MonotoneOn D (Set.Icc 0 h) := by
    refine monotoneOn_of_deriv_nonneg (convex_Icc 0 h) (fun t _ => (hD t).continuousAt.continuousWithinAt)
      (fun t _ => (hD t).differentiableAt.differentiableWithinAt) fun t ht => ?_
    rw [interior_Icc] at ht
    rw [(hD t).deriv]
    exact hn t ht.1.le ht.2.le
  have := hm ⟨le_refl 0, ht.trans hth⟩ ⟨ht, hth⟩ ht
  rwa [h0] at this

/-- A function that starts at zero is bounded by the integral of a bound of its derivative. -/
theorem abs_le_of_deriv {F F' B B' : ℝ → ℝ} {h : ℝ} (hF : ∀ t, HasDerivAt F (F' t) t) (hB : ∀ t, HasDerivAt B (B' t) t)
    (f0 : F 0 = 0) (b0 : B 0 = 0) (hb : ∀ t, 0 ≤ t → t ≤ h → |F' t| ≤ B' t) {t : ℝ} (ht : 0 ≤ t) (hth : t ≤ h) :
    |F t| ≤ B t := by
  have h1 := nonneg_of_deriv (D := fun t => B t - F t) (fun t => (hB t).sub (hF t)) (by simp [f0, b0])
    (fun t h1 h2 => by have := (abs_le.1 (hb t h1 h2)).2; linarith) ht hth
  have h2 := nonneg_of_deriv (D := fun t => B t + F t) (fun t => (hB t).add (hF t)) (by simp [f0, b0])
    (fun t h1 h2 => by have := (abs_le.1 (hb t h1 h2)).1; linarith) ht hth
  exact abs_le.2 ⟨by linarith, by linarith⟩

theorem deriv_shift {g g' : ℝ → ℝ} (hg : ∀ t, HasDerivAt g (g' t) t) (c t : ℝ) :
    HasDerivAt (fun t => g (c + t)) (g' (c + t)) t := by
  exact (hg (c + t)).comp_const_add c t

theorem deriv_reflect {g g' : ℝ → ℝ} (hg : ∀ t, HasDerivAt g (g' t) t) (c t : ℝ) :
    HasDerivAt (fun t => g (c - t)) (-g' (c - t)) t := by
  exact (hg (c - t)).comp_const_sub c t

/-- Simpson's rule on `[c - h, c + h]`. -/
theorem simpson_center {G g0 g1 g2 g3 g4 : ℝ → ℝ} (hG : ∀ t, HasDerivAt G (g0 t) t) (h0 : ∀ t, HasDerivAt g0 (g1 t) t)
    (h1 : ∀ t, HasDerivAt g1 (g2 t) t) (h2 : ∀ t, HasDerivAt g2 (g3 t) t) (h3 : ∀ t, HasDerivAt g3 (g4 t) t)
    {c h M : ℝ} (hh : 0 ≤ h) (hM : ∀ t, c - h ≤ t → t ≤ c + h → |g4 t| ≤ M) :
    |G (c + h) - G (c - h) - h / 3 * (g0 (c - h) + 4 * g0 c + g0 (c + h))| ≤ M * h ^ 5 / 90 := by
  have hid : ∀ t : ℝ, HasDerivAt (fun t : ℝ => t / 3) (1 / 3) t := fun t => (hasDerivAt_id t).div_const 3
  have hpow : ∀ (n : ℕ) (k : ℝ) (t : ℝ), HasDerivAt (fun t : ℝ => k * t ^ n) (k * (n * t ^ (n - 1))) t :=
    fun n k t => (hasDerivAt_pow n t).const_mul k
  have b3 : ∀ t, 0 ≤ t → t ≤ h → |g3 (c + t) - g3 (c - t)| ≤ 2 * M * t ^ 1 := by
    intro t ht hth
    refine abs_le_of_deriv (h := h) (F := fun t => g3 (c + t) - g3 (c - t)) (F' := fun t => g4 (c + t) - -g4 (c - t))
      (fun t => (deriv_shift h3 c t).sub (deriv_reflect h3 c t)) (hpow 1 (2 * M)) (by simp) (by simp) ?_ ht hth
    intro t ht hth
    have a1 := abs_le.1 (hM (c + t) (by linarith) (by linarith))
    have a2 := abs_le.1 (hM (c - t) (by linarith) (by linarith))
    simp only [Nat.cast_one, sub_neg_eq_add]
    rw [abs_le]
    constructor <;> norm_num <;> linarith [a1.1, a1.2, a2.1, a2.2]
  have b2 : ∀ t, 0 ≤ t → t ≤ h →
      |1 / 3 * (g1 (c + t) - g1 (c - t)) - t / 3 * (g2 (c + t) + g2 (c - t))| ≤ 2 * M / 9 * t ^ 3 := by
    intro t ht hth
    refine abs_le_of_deriv (h := h)
      (F := fun t => 1 / 3 * (g1 (c + t) - g1 (c - t)) - t / 3 * (g2 (c + t) + g2 (c - t)))
      (fun t => (((deriv_shift h1 c t).sub (deriv_reflect h1 c t)).const_mul (1 / 3)).sub
        ((hid t).mul ((deriv_shift h2 c t).add (deriv_reflect h2 c t)))) (hpow 3 (2 * M / 9)) (by simp) (by simp) ?_ ht hth
    intro t ht hth
    have := b3 t ht hth
    have e : 1 / 3 * (g2 (c + t) - -g2 (c - t)) - (1 / 3 * (g2 (c + t) + g2 (c - t)) + t / 3 * (g3 (c + t) + -g3 (c - t))) =
        -(t / 3) * (g3 (c + t) - g3 (c - t)) := by ring
    rw [e, abs_mul, abs_neg, abs_of_nonneg (by positivity : 0 ≤ t / 3)]
    refine (mul_le_mul_of_nonneg_left this (by positivity)).trans (le_of_eq ?_)
    norm_num
    ring
  have b1 : ∀ t, 0 ≤ t → t ≤ h →
      |2 / 3 * (g0 (c + t) + g0 (c - t)) - 4 / 3 * g0 c - t / 3 * (g1 (c + t) - g1 (c - t))| ≤ M / 18 * t ^ 4 := by
    intro t ht hth
    refine abs_le_of_deriv (h := h)
      (F := fun t => 2 / 3 * (g0 (c + t) + g0 (c - t)) - 4 / 3 * g0 c - t / 3 * (g1 (c + t) - g1 (c - t)))
      (fun t => ((((deriv_shift h0 c t).add (deriv_reflect h0 c t)).const_mul (2 / 3)).sub_const _).sub
        ((hid t).mul ((deriv_shift h1 c t).sub (deriv_reflect h1 c t)))) (hpow 4 (M / 18)) (by simp; ring) (by simp) ?_ ht hth
    intro t ht hth
    have := b2 t ht hth
    have e : 2 / 3 * (g1 (c + t) + -g1 (c - t)) - (1 / 3 * (g1 (c + t) - g1 (c - t)) + t / 3 * (g2 (c + t) - -g2 (c - t))) =
        1 / 3 * (g1 (c + t) - g1 (c - t)) - t / 3 * (g2 (c + t) + g2 (c - t)) := by ring
    rw [e]
    refine this.trans (le_of_eq ?_)
    norm_num
    ring
  have := abs_le_of_deriv (h := h)
    (F := fun t => G (c + t) - G (c - t) - t / 3 * (g0 (c - t) + 4 * g0 c + g0 (c + t)))
    (fun t => ((deriv_shift hG c t).sub (deriv_reflect hG c t)).sub
        ((hid t).mul (((deriv_reflect h0 c t).add_const (4 * g0 c)).add (deriv_shift h0 c t)))) (hpow 5 (M / 90)) (by simp) (by simp)
    (fun t ht hth => by
      have := b1 t ht hth
      have e : g0 (c + t) - -g0 (c - t) - (1 / 3 * (g0 (c - t) + 4 * g0 c + g0 (c + t)) + t / 3 * (-g1 (c - t) + g1 (c + t))) =
        2 / 3 * (g0 (c + t) + g0 (c - t)) - 4 / 3 * g0 c - t / 3 * (g1 (c + t) - g1 (c - t)) := by ring
      rw [e]
      refine this.trans (le_of_eq ?_)
      norm_num
      ring) hh le_rfl
  refine this.trans (le_of_eq ?_)
  ring

/-- The composite Simpson rule with `n` intervals of length `h`. -/
noncomputable def simpsonSum {E : Type} [AddCommGroup E] [Module ℝ E] (f : ℝ → E) (h : ℝ) (n : ℕ) : E :=
  ∑ k ∈ Finset.range n, (h / 6) • (f (k * h) + (4 : ℝ) • f (k * h + h / 2) + f ((k + 1) * h))

theorem simpsonSum_succ {E : Type} [AddCommGroup E] [Module ℝ E] (f : ℝ → E) (h : ℝ) (n : ℕ) :
    simpsonSum f h (n + 1) = simpsonSum f h n + (h / 6) • (f (n * h) + (4 : ℝ) • f (n * h + h / 2) + f ((n + 1) * h)) := by
  unfold simpsonSum
  rw [Finset.sum_range_succ]

/-- Error of the composite Simpson rule. -/
theorem simpson_error {G g0 g1 g2 g3 g4 : ℝ → ℝ} (hG : ∀ t, HasDerivAt G (g0 t) t) (h0 : ∀ t, HasDerivAt g0 (g1 t) t)
    (h1 : ∀ t, HasDerivAt g1 (g2 t) t) (h2 : ∀ t, HasDerivAt g2 (g3 t) t) (h3 : ∀ t, HasDerivAt g3 (g4 t) t)
    {h M : ℝ} (hh : 0 ≤ h) (n : ℕ) (hM : ∀ t, 0 ≤ t → t ≤ n * h → |g4 t| ≤ M) :
    |G (n * h) - G 0 - simpsonSum g0 h n| ≤ n * (M * h ^ 5 / 2880) := by
  induction n with
  | zero => simp [simpsonSum]
  | succ n ih =>
    have hn : (0 : ℝ) ≤ n * h := by positivity
    have i1 := ih fun t ht hth => hM t ht (by push_cast; linarith)
    have i2 := simpson_center hG h0 h1 h2 h3 (c := n * h + h / 2) (h := h / 2) (M := M) (by linarith) fun t ht hth =>
      hM t (by linarith) (by push_cast; linarith)
    have e1 : n * h + h / 2 + h / 2 = ((n + 1 : ℕ) : ℝ) * h := by push_cast; ring
    have e2 : n * h + h / 2 - h / 2 = n * h := by ring
    rw [e1, e2] at i2
    rw [simpsonSum_succ]
    have e3 : G (((n + 1 : ℕ) : ℝ) * h) - G 0 -
        (simpsonSum g0 h n + (h / 6) • (g0 (n * h) + (4 : ℝ) • g0 (n * h + h / 2) + g0 ((n + 1) * h))) =
        (G (n * h) - G 0 - simpsonSum g0 h n) + (G (((n + 1 : ℕ) : ℝ) * h) - G (n * h) -
          h / 2 / 3 * (g0 (n * h) + 4 * g0 (n * h + h / 2) + g0 (((n + 1 : ℕ) : ℝ) * h))) := by
      push_cast
      simp only [smul_eq_mul]
      ring
    rw [e3]
    refine (abs_add_le _ _).trans ((add_le_add i1 i2).trans (le_of_eq ?_))
    push_cast
    ring

/-- The number of sub-steps chosen by the code makes the error bound of the composite Simpson rule at most `prec`. -/
theorem subSteps_bound {M T prec : ℝ} (hM : 0 ≤ M) (hT : 0 ≤ T) (hp : 0 < prec) :
    ∃ n : ℕ, subSteps M T prec = .ok ((n + 1 : ℕ) : Int) ∧
      ((n + 1 : ℕ) : ℝ) * (M * (T / ((n + 1 : ℕ) : ℝ)) ^ 5 / 2880) ≤ prec := by
  have hx : 0 ≤ M * T / (180 * prec) := by positivity
  have hy : 0 ≤ T / 2 * √(√(M * T / (180 * prec))) := by positivity
  have hc : (0 : Int) ≤ ⌈T / 2 * √(√(M * T / (180 * prec)))⌉ := Int.ceil_nonneg hy
  have key : ∀ m : ℕ, T / 2 * √(√(M * T / (180 * prec))) ≤ ((m + 1 : ℕ) : ℝ) →
      ((m + 1 : ℕ) : ℝ) * (M * (T / ((m + 1 : ℕ) : ℝ)) ^ 5 / 2880) ≤ prec := by
    intro m hm
    have h4 := pow_le_pow_left₀ hy hm 4
    have e : (T / 2 * √(√(M * T / (180 * prec)))) ^ 4 = M * T ^ 5 / (2880 * prec) := by
      have s1 := Real.sq_sqrt (Real.sqrt_nonneg (M * T / (180 * prec)))
      have s2 := Real.sq_sqrt hx
      calc _ = T ^ 4 / 16 * ((√(√(M * T / (180 * prec)))) ^ 2) ^ 2 := by ring
        _ = _ := by rw [s1, s2]; field_simp; ring
    rw [e, div_le_iff₀ (by positivity)] at h4
    have hm0 : (0 : ℝ) < ((m + 1 : ℕ) : ℝ) := by positivity
    have e2 : ((m + 1 : ℕ) : ℝ) * (M * (T / ((m + 1 : ℕ) : ℝ)) ^ 5 / 2880) = M * T ^ 5 / (2880 * ((m + 1 : ℕ) : ℝ) ^ 4) := by
      field_simp
    rw [e2, div_le_iff₀ (by positivity)]
    linarith
  unfold subSteps
  rw [if_neg hp.ne', if_neg (by exact not_lt.2 hx)]
  by_cases h0 : ⌈T / 2 * √(√(M * T / (180 * prec)))⌉ = 0
  · refine ⟨0, by simp [h0], key 0 ?_⟩
    have := Int.ceil_eq_zero_iff.1 h0
    have := this.2
    push_cast
    linarith
  · obtain ⟨k, hk⟩ := Int.eq_ofNat_of_zero_le hc
    obtain ⟨m, rfl⟩ : ∃ m, k = m + 1 := ⟨k - 1, by omega⟩
    refine ⟨m, by simp [hk]; omega, key m ?_⟩
    have := Int.le_ceil (T / 2 * √(√(M * T / (180 * prec))))
    rw [hk] at this
    exact_mod_cast this

/-- The sums accumulated by the sub-steps. -/
theorem simpson_accum {E : Type} [AddCommGroup E] [Module ℝ E] (f : ℝ → E) (h : ℝ) (a : E) (m : ℕ) :
    ((6 : ℝ) • a + h • f 0 + ∑ j ∈ Finset.range m, h • ((4 : ℝ) • f (j * h + h / 2) + (2 : ℝ) • f ((j + 1) * h))) =
      (6 : ℝ) • a + (6 : ℝ) • simpsonSum f h m + h • f (m * h) := by
  induction m with
  | zero => simp [simpsonSum]
  | succ m ih =>
    rw [Finset.sum_range_succ, ← add_assoc, ih, simpsonSum_succ]
    push_cast
    module

theorem simpsonSum_map {E : Type} [AddCommGroup E] [Module ℝ E] (L : E →ₗ[ℝ] ℝ) (f : ℝ → E) (h : ℝ) (n : ℕ) :
    L (simpsonSum f h n) = simpsonSum (fun t => L (f t)) h n := by
  unfold simpsonSum
  rw [map_sum]
  exact Finset.sum_congr rfl fun k _ => by simp; ring

/-- Error of the composite Simpson rule for vectors, `L` is a scalar product. -/
theorem simpson_vector {E : Type} [AddCommGroup E] [Module ℝ E] (L : E → E →ₗ[ℝ] ℝ) (pos : ∀ u, 0 ≤ L u u)
    (cs : ∀ e u, |L e u| ≤ √(L e e) * √(L u u)) {P f0 f1 f2 f3 f4 : ℝ → E}
    (hP : ∀ e t, HasDerivAt (fun t => L e (P t)) (L e (f0 t)) t) (h0 : ∀ e t, HasDerivAt (fun t => L e (f0 t)) (L e (f1 t)) t)
    (h1 : ∀ e t, HasDerivAt (fun t => L e (f1 t)) (L e (f2 t)) t) (h2 : ∀ e t, HasDerivAt (fun t => L e (f2 t)) (L e (f3 t)) t)
    (h3 : ∀ e t, HasDerivAt (fun t => L e (f3 t)) (L e (f4 t)) t) {h M : ℝ} (hh : 0 ≤ h) (n : ℕ)
    (hM : ∀ t, 0 ≤ t → t ≤ n * h → √(L (f4 t) (f4 t)) ≤ M) :
    √(L (P (n * h) - P 0 - simpsonSum f0 h n) (P (n * h) - P 0 - simpsonSum f0 h n)) ≤ n * (M * h ^ 5 / 2880) := by
  generalize hε : P (n * h) - P 0 - simpsonSum f0 h n = ε
  have key := simpson_error (hP ε) (h0 ε) (h1 ε) (h2 ε) (h3 ε) hh n (M := √(L ε ε) * M) fun t ht hth =>
    (cs ε (f4 t)).trans (mul_le_mul_of_nonneg_left (hM t ht hth) (Real.sqrt_nonneg _))
  rw [← simpsonSum_map, ← map_sub, ← map_sub, hε, abs_of_nonneg (pos ε)] at key
  have hs := Real.mul_self_sqrt (pos ε)
  by_cases hz : √(L ε ε) = 0
  · rw [hz]
    have hn : (0 : ℝ) ≤ n := by positivity
    have : 0 ≤ M := (Real.sqrt_nonneg _).trans (hM 0 le_rfl (by positivity))
    positivity
  · have hpos : 0 < √(L ε ε) := lt_of_le_of_ne (Real.sqrt_nonneg _) (Ne.symm hz)
    refine le_of_mul_le_mul_left ?_ hpos
    rw [hs]
    refine key.trans (le_of_eq ?_)
    ring

end RBDyn
