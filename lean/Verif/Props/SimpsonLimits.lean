import Mathlib.MeasureTheory.Integral.IntervalIntegral.FundThmCalculus
import Verif.Lemmas.Taylor
import Verif.Props.Simpson

/-! Property C65: exact motions exist, and the error of the integration of a `Planar` joint can exceed the precision. -/

namespace RBDyn
open scoped Mat3

theorem integral_deriv {f : ℝ → ℝ} (hf : Continuous f) (t : ℝ) : HasDerivAt (fun t => ∫ s in (0 : ℝ)..t, f s) (f t) t :=
  intervalIntegral.integral_hasDerivAt_right (hf.intervalIntegrable _ _) hf.stronglyMeasurable.stronglyMeasurableAtFilter hf.continuousAt

/-- The motions of C65 exist. -/
theorem planar_exists {a b x : List ℝ} (ha : a.length = 3) (hb : b.length = 3) (hx : x.length = 3) :
    ∃ Q : ℝ → List ℝ, Q 0 = x ∧ ∀ s, HasDerivList Q (coordRate .Planar (Q s) (List.zipWith (fun u v => u + v * s) a b)) s := by
  obtain ⟨a0, a1, a2, rfl⟩ := list3 ha
  obtain ⟨b0, b1, b2, rfl⟩ := list3 hb
  obtain ⟨x0, x1, x2, rfl⟩ := list3 hx
  let θ : ℝ → ℝ := fun s => x0 + (a0 * s + b0 * (s * s) / 2)
  let f1 : ℝ → ℝ := fun t => Real.cos (θ t) * (a1 + b1 * t) - Real.sin (θ t) * (a2 + b2 * t)
  let f2 : ℝ → ℝ := fun t => Real.sin (θ t) * (a1 + b1 * t) + Real.cos (θ t) * (a2 + b2 * t)
  have c1 : Continuous f1 := by fun_prop
  have c2 : Continuous f2 := by fun_prop
  let P1 : ℝ → ℝ := fun t => (∫ s in (0 : ℝ)..t, f1 s) + (Real.cos x0 * x1 - Real.sin x0 * x2)
  let P2 : ℝ → ℝ := fun t => (∫ s in (0 : ℝ)..t, f2 s) + (Real.sin x0 * x1 + Real.cos x0 * x2)
  have d1 : ∀ t, HasDerivAt P1 (f1 t) t := fun t => (integral_deriv c1 t).add_const _
  have d2 : ∀ t, HasDerivAt P2 (f2 t) t := fun t => (integral_deriv c2 t).add_const _
  have dθ : ∀ t, HasDerivAt θ (a0 + b0 * t) t := fun t => quad_deriv x0 a0 b0 t
  refine ⟨fun t => [θ t, Real.cos (θ t) * P1 t + Real.sin (θ t) * P2 t, -(Real.sin (θ t) * P1 t) + Real.cos (θ t) * P2 t], ?_,
    fun s => ?_⟩
  · have h := Real.cos_sq_add_sin_sq x0
    simp only [θ, P1, P2, intervalIntegral.integral_same]
    simp
    constructor
    · linear_combination x1 * h
    · linear_combination x2 * h
  · refine hasDerivList_map (fs := [θ, fun t => Real.cos (θ t) * P1 t + Real.sin (θ t) * P2 t,
      fun t => -(Real.sin (θ t) * P1 t) + Real.cos (θ t) * P2 t]) (.cons ?_ (.cons ?_ (.cons ?_ .nil)))
    · exact dθ s
    · refine (((dθ s).cos.mul (d1 s)).add ((dθ s).sin.mul (d2 s))).congr_deriv ?_
      simp only [f1, f2]
      linear_combination (a1 + b1 * s) * Real.cos_sq_add_sin_sq (θ s)
    · refine ((((dθ s).sin.mul (d1 s)).neg).add ((dθ s).cos.mul (d2 s))).congr_deriv ?_
      simp only [f1, f2]
      linear_combination (a2 + b2 * s) * Real.cos_sq_add_sin_sq (θ s)

/-! The counterexample: velocity `(1/2, -5/2, 5/4)`, acceleration `(1, 1, 0)`, from `(-1, 0, 0)` during two seconds. -/

theorem bad_theta {t : ℝ} (h0 : 0 ≤ t) (h2 : t ≤ 2) : |-1 + 1 / 2 * t + 1 * (t * t / 2)| ≤ 2 :=
  abs_le.2 ⟨by nlinarith, by nlinarith⟩

theorem sinT4 (x : ℝ) : sinT 4 x = x - x ^ 3 / 6 + x ^ 5 / 120 - x ^ 7 / 5040 := by
  simp [sinT, Finset.sum_range_succ, Nat.factorial]; ring

theorem cosT5 (x : ℝ) : cosT 5 x = 1 - x ^ 2 / 2 + x ^ 4 / 24 - x ^ 6 / 720 + x ^ 8 / 40320 := by
  simp [cosT, Finset.sum_range_succ, Nat.factorial]; ring

theorem sin_near {x : ℝ} (h : |x| ≤ 2) : |Real.sin x - sinT 4 x| ≤ 1 / 700 := by
  refine (sin_taylor 4 x).trans ?_
  have := pow_le_pow_left₀ (abs_nonneg x) h 9
  norm_num [Nat.factorial]
  linarith

theorem cos_near {x : ℝ} (h : |x| ≤ 2) : |Real.cos x - cosT 5 x| ≤ 1 / 3500 := by
  refine (cos_taylor 5 x).trans ?_
  have := pow_le_pow_left₀ (abs_nonneg x) h 10
  norm_num [Nat.factorial]
  linarith

/-- An approximate integral. -/
noncomputable def badG (t : ℝ) : ℝ := (89641/32256) * t ^ 1 + (-39953/80640) * t ^ 2 + (-4063/53760) * t ^ 3 + (-7217/92160) * t ^ 4 + (-22531/921600) * t ^ 5 + (3587/184320) * t ^ 6 + (821/860160) * t ^ 7 + (10771/20643840) * t ^ 8 + (-22121/123863040) * t ^ 9 + (-11041/51609600) * t ^ 10 + (7/1474560) * t ^ 11 + (17/2949120) * t ^ 12 + (13/2949120) * t ^ 13 + (1/1474560) * t ^ 14 + (-19/51609600) * t ^ 15 + (-1/27525120) * t ^ 16 + (1/140378112) * t ^ 17

theorem badG_deriv (t : ℝ) : HasDerivAt badG (sinT 4 (-1 + 1 / 2 * t + 1 * (t * t / 2)) * (-5 / 2 + t) +
    cosT 5 (-1 + 1 / 2 * t + 1 * (t * t / 2)) * (5 / 4)) t := by
  have h : ∀ (c : ℝ) (n : ℕ), HasDerivAt (fun t : ℝ => c * t ^ n) (c * (n * t ^ (n - 1))) t :=
    fun c n => (hasDerivAt_pow n t).const_mul c
  unfold badG
  refine (((((((((((((((((h _ 1).add (h _ 2)).add (h _ 3)).add (h _ 4)).add (h _ 5)).add (h _ 6)).add (h _ 7)).add (h _ 8)).add (h _ 9)).add
    (h _ 10)).add (h _ 11)).add (h _ 12)).add (h _ 13)).add (h _ 14)).add (h _ 15)).add (h _ 16)).add (h _ 17)).congr_deriv ?_
  rw [sinT4, cosT5]
  norm_num
  ring

theorem bad_steps : subSteps (√(max (fourthDerivativeSquaredNormPlanar ((-5 / 2, 5 / 4) : ℝ × ℝ) (1 / 2) (1, 0) 1)
    (fourthDerivativeSquaredNormPlanar ((-5 / 2, 5 / 4) + (2 : ℝ) • (1, 0)) (1 / 2 + 2 * 1) (1, 0) 1))) 2 (1 / 20) =
      .ok ((0 + 1 : ℕ) : Int) := by
  have h1 : fourthDerivativeSquaredNormPlanar ((-5 / 2, 5 / 4) : ℝ × ℝ) (1 / 2) (1, 0) 1 ≤ 81 / 4 := by
    norm_num [fourthDerivativeSquaredNormPlanar, fourthDerivativePlanar]
  have h2 : fourthDerivativeSquaredNormPlanar ((-5 / 2, 5 / 4) + (2 : ℝ) • ((1, 0) : ℝ × ℝ)) (1 / 2 + 2 * 1) (1, 0) 1 ≤ 81 / 4 := by
    norm_num [fourthDerivativeSquaredNormPlanar, fourthDerivativePlanar]
  have h3 : 0 < fourthDerivativeSquaredNormPlanar ((-5 / 2, 5 / 4) : ℝ × ℝ) (1 / 2) (1, 0) 1 := by
    norm_num [fourthDerivativeSquaredNormPlanar, fourthDerivativePlanar]
  have hm := max_le h1 h2
  have hm0 := lt_max_of_lt_left (c := fourthDerivativeSquaredNormPlanar ((-5 / 2, 5 / 4) + (2 : ℝ) • ((1, 0) : ℝ × ℝ)) (1 / 2 + 2 * 1) (1, 0) 1) h3
  generalize max (fourthDerivativeSquaredNormPlanar ((-5 / 2, 5 / 4) : ℝ × ℝ) (1 / 2) (1, 0) 1)
    (fourthDerivativeSquaredNormPlanar ((-5 / 2, 5 / 4) + (2 : ℝ) • ((1, 0) : ℝ × ℝ)) (1 / 2 + 2 * 1) (1, 0) 1) = m at *
  have hs : √m ≤ 9 / 2 := Real.sqrt_le_iff.2 ⟨by norm_num, by linarith⟩
  have hs0 : 0 < √m := Real.sqrt_pos.2 hm0
  have hx0 : 0 < √m * 2 / (180 * (1 / 20)) := by positivity
  have hx : √m * 2 / (180 * (1 / 20)) ≤ 1 := by linarith
  have hy : √(√(√m * 2 / (180 * (1 / 20)))) ≤ 1 := Real.sqrt_le_one.2 (Real.sqrt_le_one.2 hx)
  have hy0 : 0 < √(√(√m * 2 / (180 * (1 / 20)))) := Real.sqrt_pos.2 (Real.sqrt_pos.2 hx0)
  have hc : ⌈(2 : ℝ) / 2 * √(√(√m * 2 / (180 * (1 / 20))))⌉ = 1 := by
    rw [Int.ceil_eq_iff]
    norm_num at hy hy0 ⊢
    exact ⟨hy0, hy⟩
  unfold subSteps
  rw [if_neg (by norm_num), if_neg (not_lt.2 hx0.le), hc]
  rfl

theorem bad_error {P : ℝ → ℝ} (hP : ∀ t, HasDerivAt P (Real.sin (-1 + 1 / 2 * t + 1 * (t * t / 2)) * (-5 / 2 + t) +
    Real.cos (-1 + 1 / 2 * t + 1 * (t * t / 2)) * (5 / 4)) t) :
    1 / 20 < 2 / 6 * ((Real.sin (-1) * (-5 / 2) + Real.cos (-1) * (5 / 4)) + 4 * (5 / 4) + (Real.sin 2 * (-1 / 2) + Real.cos 2 * (5 / 4)))
      - (P 2 - P 0) := by
  have key := abs_le_of_deriv (h := 2) (F := fun t => P t - P 0 - badG t) (B := fun t => 1 / 250 * t)
    (fun t => ((hP t).sub_const _).sub (badG_deriv t)) (fun t => ((hasDerivAt_id t).const_mul (1 / 250)))
    (by simp [badG]) (by simp) (fun t h0 h2 => by
      have hθ := bad_theta h0 h2
      have e1 := abs_le.1 (sin_near hθ)
      have e2 := abs_le.1 (cos_near hθ)
      rw [abs_le]
      constructor <;> nlinarith [e1.1, e1.2, e2.1, e2.2]) (by norm_num : (0 : ℝ) ≤ 2) le_rfl
  have e1 := abs_le.1 (sin_near (x := -1) (by norm_num))
  have e2 := abs_le.1 (cos_near (x := -1) (by norm_num))
  have e3 := abs_le.1 (sin_near (x := 2) (by norm_num))
  have e4 := abs_le.1 (cos_near (x := 2) (by norm_num))
  have k := abs_le.1 key
  rw [sinT4] at e1 e3
  rw [cosT5] at e2 e4
  unfold badG at k
  norm_num at k e1 e2 e3 e4 ⊢
  linarith [k.1, k.2, e1.1, e1.2, e2.1, e2.2, e3.1, e3.2, e4.1, e4.2]

/-- C65 fails for planar joints in general: the code looks at the fifth derivative of the position at the ends of the step only.
Here a step of two seconds is made with precision `1/20`, and the position is further from the exact one than that. -/
theorem C65_not_planar : ∃ (a b x : List ℝ) (step prec : ℝ), a.length = 3 ∧ b.length = 3 ∧ x.length = 3 ∧ 0 ≤ step ∧ 0 < prec ∧
    ∃ Q : ℝ → List ℝ, Q 0 = x ∧ (∀ s, HasDerivList Q (coordRate .Planar (Q s) (List.zipWith (fun u v => u + v * s) a b)) s) ∧
      ∀ fuel, ∃ y, jointIntegration fuel .Planar a b step x prec = .ok y ∧
        prec ^ 2 < (y.getD 1 0 - (Q step).getD 1 0) ^ 2 + (y.getD 2 0 - (Q step).getD 2 0) ^ 2 := by
  refine ⟨[1 / 2, -5 / 2, 5 / 4], [1, 1, 0], [-1, 0, 0], 2, 1 / 20, rfl, rfl, rfl, by norm_num, by norm_num, ?_⟩
  obtain ⟨Q, h0, hQ⟩ := planar_exists (a := [1 / 2, -5 / 2, 5 / 4]) (b := [1, 1, 0]) (x := [-1, 0, 0]) rfl rfl rfl
  refine ⟨Q, h0, hQ, fun fuel => ?_⟩
  obtain ⟨hθ, hP⟩ := planar_motion (Q := Q) h0 hQ
  let θ : ℝ → ℝ := fun t => -1 + 1 / 2 * t + 1 * (t * t / 2)
  have hrun := planar_run (-1) (1 / 2) 1 (0, 0) (-5 / 2, 5 / 4) (1, 0) (T := 2) (prec := 1 / 20) (m := 0) (θ := θ) (fun _ => rfl) bad_steps
  rw [planar_list, hrun, Res.bind_ok]
  refine ⟨_, rfl, ?_⟩
  have hP2 : ∀ t, HasDerivAt (fun t => (planarPos (Q t)).2) (Real.sin (-1 + 1 / 2 * t + 1 * (t * t / 2)) * (-5 / 2 + t) +
      Real.cos (-1 + 1 / 2 * t + 1 * (t * t / 2)) * (5 / 4)) t := by
    intro t
    have : HasDerivAt (fun t => (planarPos (Q t)).2) _ t := (hP t).snd
    refine this.congr_deriv ?_
    simp [rot2]
  have err := bad_error hP2
  have d := planar_dist (θ 2) (rot2 (-1) (0, 0)) (simpsonSum (fun t => rot2 (θ t) ((-5 / 2, 5 / 4) + t • (1, 0))) (2 / ((0 + 1 : ℕ) : ℝ)) (0 + 1))
    ((Q 2).getD 1 0, (Q 2).getD 2 0)
  refine lt_of_lt_of_eq ?_ d.symm
  have hpT : planarPos (Q 2) = rot2 (θ 2) ((Q 2).getD 1 0, (Q 2).getD 2 0) := by
    show _ = rot2 (-1 + 1 / 2 * 2 + 1 * (2 * 2 / 2)) _
    rw [← hθ 2]; rfl
  have hp0 : planarPos (Q 0) = rot2 (-1) (0, 0) := by rw [h0]; rfl
  rw [← hpT, ← hp0]
  have e2 : (simpsonSum (fun t => rot2 (θ t) ((-5 / 2, 5 / 4) + t • (1, 0))) (2 / ((0 + 1 : ℕ) : ℝ)) (0 + 1)).2 =
      2 / 6 * ((Real.sin (-1) * (-5 / 2) + Real.cos (-1) * (5 / 4)) + 4 * (5 / 4) + (Real.sin 2 * (-1 / 2) + Real.cos 2 * (5 / 4))) := by
    have t0 : θ 0 = -1 := by simp [θ]
    have t1 : θ 1 = 0 := by norm_num [θ]
    have t2 : θ 2 = 2 := by norm_num [θ]
    simp [simpsonSum, rot2, t0, t1, t2, -mul_eq_mul_left_iff]
    ring
  rw [sqLen, Prod.snd_sub, Prod.snd_sub, e2]
  generalize 2 / 6 * ((Real.sin (-1) * (-5 / 2) + Real.cos (-1) * (5 / 4)) + 4 * (5 / 4) + (Real.sin 2 * (-1 / 2) + Real.cos 2 * (5 / 4))) = S at *
  nlinarith [sq_nonneg (planarPos (Q 2) - planarPos (Q 0) - simpsonSum (fun t => rot2 (θ t) ((-5 / 2, 5 / 4) + t • (1, 0))) (2 / ((0 + 1 : ℕ) : ℝ)) (0 + 1)).1]

end RBDyn
