import Verif.Lemmas.Simpson

/-! The Taylor polynomials of sine and cosine. -/

namespace RBDyn
open Nat

noncomputable def sinT (n : ℕ) (x : ℝ) : ℝ := ∑ k ∈ Finset.range n, (-1) ^ k * (x ^ (2 * k + 1) / (2 * k + 1)!)

noncomputable def cosT (n : ℕ) (x : ℝ) : ℝ := ∑ k ∈ Finset.range n, (-1) ^ k * (x ^ (2 * k) / (2 * k)!)

theorem pow_div_deriv (n : ℕ) (t : ℝ) : HasDerivAt (fun t : ℝ => t ^ (n + 1) / (n + 1)!) (t ^ n / n !) t := by
  refine ((hasDerivAt_pow (n + 1) t).div_const _).congr_deriv ?_
  rw [Nat.factorial_succ]
  have := Nat.factorial_ne_zero n
  push_cast
  field_simp

theorem sinT_deriv (n : ℕ) (t : ℝ) : HasDerivAt (sinT n) (cosT n t) t := by
  have := HasDerivAt.fun_sum (u := Finset.range n) (x := t) fun k _ => ((pow_div_deriv (2 * k) t).const_mul ((-1 : ℝ) ^ k))
  exact this

theorem cosT_deriv (n : ℕ) (t : ℝ) : HasDerivAt (cosT (n + 1)) (-sinT n t) t := by
  have h := HasDerivAt.fun_sum (u := Finset.range n) (x := t) fun k _ => ((pow_div_deriv (2 * k + 1) t).const_mul ((-1 : ℝ) ^ (k + 1)))
  have e : cosT (n + 1) = fun t => ∑ k ∈ Finset.range n, (-1 : ℝ) ^ (k + 1) * (t ^ (2 * k + 1 + 1) / (2 * k + 1 + 1)!) + 1 := by
    funext t
    unfold cosT
    rw [Finset.sum_range_succ']
    simp [mul_add]
  rw [e]
  refine (h.add_const 1).congr_deriv ?_
  unfold sinT
  rw [← Finset.sum_neg_distrib]
  exact Finset.sum_congr rfl fun k _ => by rw [pow_succ]; ring

theorem taylor_nonneg (n : ℕ) : ∀ x : ℝ, 0 ≤ x → |Real.sin x - sinT n x| ≤ x ^ (2 * n + 1) / (2 * n + 1)! ∧
    |Real.cos x - cosT n x| ≤ x ^ (2 * n) / (2 * n)! := by
  have step : ∀ n, (∀ x : ℝ, 0 ≤ x → |Real.cos x - cosT n x| ≤ x ^ (2 * n) / (2 * n)!) →
      ∀ x : ℝ, 0 ≤ x → |Real.sin x - sinT n x| ≤ x ^ (2 * n + 1) / (2 * n + 1)! := by
    intro n ih x hx
    exact abs_le_of_deriv (h := x) (F := fun t => Real.sin t - sinT n t) (B := fun t => t ^ (2 * n + 1) / (2 * n + 1)!)
      (fun t => (Real.hasDerivAt_sin t).sub (sinT_deriv n t)) (pow_div_deriv (2 * n)) (by simp [sinT]) (by simp)
      (fun t ht _ => ih t ht) hx le_rfl
  have hcos : ∀ n, ∀ x : ℝ, 0 ≤ x → |Real.cos x - cosT n x| ≤ x ^ (2 * n) / (2 * n)! := by
    intro n
    induction n with
    | zero => intro x _; simpa [cosT] using Real.abs_cos_le_one x
    | succ n ih =>
      intro x hx
      refine abs_le_of_deriv (h := x) (F := fun t => Real.cos t - cosT (n + 1) t) (B := fun t => t ^ (2 * n + 1 + 1) / (2 * n + 1 + 1)!)
        (fun t => (Real.hasDerivAt_cos t).sub (cosT_deriv n t)) (pow_div_deriv (2 * n + 1)) ?_ (by simp) (fun t ht _ => ?_) hx le_rfl
      · simp [cosT, Finset.sum_range_succ']
      · rw [show -Real.sin t - -sinT n t = -(Real.sin t - sinT n t) by ring, abs_neg]
        exact step n ih t ht
  exact fun x hx => ⟨step n (hcos n) x hx, hcos n x hx⟩

theorem sinT_neg (n : ℕ) (x : ℝ) : sinT n (-x) = -sinT n x := by
  unfold sinT
  rw [← Finset.sum_neg_distrib]
  exact Finset.sum_congr rfl fun k _ => by rw [Odd.neg_pow ⟨k, rfl⟩]; ring

theorem cosT_neg (n : ℕ) (x : ℝ) : cosT n (-x) = cosT n x := by
  unfold cosT
  exact Finset.sum_congr rfl fun k _ => by rw [Even.neg_pow (n := 2 * k) ⟨k, by ring⟩]

/-- The remainders. -/
theorem sin_taylor (n : ℕ) (x : ℝ) : |Real.sin x - sinT n x| ≤ |x| ^ (2 * n + 1) / (2 * n + 1)! := by
  rcases le_total 0 x with h | h
  · rw [abs_of_nonneg h]; exact (taylor_nonneg n x h).1
  · rw [abs_of_nonpos h]
    have := (taylor_nonneg n (-x) (by linarith)).1
    rwa [Real.sin_neg, sinT_neg, show -Real.sin x - -sinT n x = -(Real.sin x - sinT n x) by ring, abs_neg] at this

theorem cos_taylor (n : ℕ) (x : ℝ) : |Real.cos x - cosT n x| ≤ |x| ^ (2 * n) / (2 * n)! := by
  rcases le_total 0 x with h | h
  · rw [abs_of_nonneg h]; exact (taylor_nonneg n x h).2
  · rw [abs_of_nonpos h]
    have := (taylor_nonneg n (-x) (by linarith)).2
    rwa [Real.cos_neg, cosT_neg] at this

end RBDyn
