import Mathlib.MeasureTheory.Integral.IntervalIntegral.FundThmCalculus
import Verif.Props.ConvergeFree

/-! Every joint has an exact motion with constant acceleration from every valid configuration: the motions that the properties C65, C67
and C68 speak of exist. -/

namespace RBDyn
open scoped Mat3

theorem antideriv {f : ℝ → ℝ} (hf : Continuous f) (c : ℝ) : ∃ F : ℝ → ℝ, F 0 = c ∧ ∀ t, HasDerivAt F (f t) t :=
  ⟨fun t => c + ∫ s in (0 : ℝ)..t, f s, by simp, fun t => ((hf.integral_hasStrictDerivAt 0 t).hasDerivAt.const_add c)⟩

theorem line_antideriv (c a b : ℝ) : ∃ F : ℝ → ℝ, F 0 = c ∧ ∀ t, HasDerivAt F (a + b * t) t :=
  antideriv (by fun_prop) c

theorem free_motion_exists {a b x : List ℝ} (ha : a.length = 6) (hb : b.length = 6) (hx : ValidParam .Free x) :
    ∃ Q : ℝ → List ℝ, Q 0 = x ∧ ∀ s, HasDerivList Q (coordRate .Free (Q s) (List.zipWith (fun u v => u + v * s) a b)) s := by
  obtain ⟨hl, hv⟩ := hx
  obtain ⟨a0, a1, a2, a3, a4, a5, rfl⟩ := list6 ha
  obtain ⟨b0, b1, b2, b3, b4, b5, rfl⟩ := list6 hb
  obtain ⟨w, i, j, k, x0, x1, x2, rfl⟩ := list7 hl
  obtain ⟨q, hq, hq0⟩ := turns_exists ⟨a0, a1, a2⟩ ⟨b0, b1, b2⟩ ⟨w, i, j, k⟩ hv
  have c0 : Continuous fun s => (q s).w := continuous_iff_continuousAt.2 fun s => (hq.dw s).continuousAt
  have c1 : Continuous fun s => (q s).x := continuous_iff_continuousAt.2 fun s => (hq.dx s).continuousAt
  have c2 : Continuous fun s => (q s).y := continuous_iff_continuousAt.2 fun s => (hq.dy s).continuousAt
  have c3 : Continuous fun s => (q s).z := continuous_iff_continuousAt.2 fun s => (hq.dz s).continuousAt
  obtain ⟨X, X0, hX⟩ := antideriv (f := fun s => ((q s).toRot *ᵥ (⟨a3 + b3 * s, a4 + b4 * s, a5 + b5 * s⟩ : Vec3 ℝ)).x)
    (by simp only [Quat.toRot, Mat3.mulVec]; fun_prop) x0
  obtain ⟨Y, Y0, hY⟩ := antideriv (f := fun s => ((q s).toRot *ᵥ (⟨a3 + b3 * s, a4 + b4 * s, a5 + b5 * s⟩ : Vec3 ℝ)).y)
    (by simp only [Quat.toRot, Mat3.mulVec]; fun_prop) x1
  obtain ⟨Z, Z0, hZ⟩ := antideriv (f := fun s => ((q s).toRot *ᵥ (⟨a3 + b3 * s, a4 + b4 * s, a5 + b5 * s⟩ : Vec3 ℝ)).z)
    (by simp only [Quat.toRot, Mat3.mulVec]; fun_prop) x2
  refine ⟨fun s => [(q s).w, (q s).x, (q s).y, (q s).z, X s, Y s, Z s], by simp only [hq0, X0, Y0, Z0], fun s => ?_⟩
  refine hasDerivList_map (fs := [fun s => (q s).w, fun s => (q s).x, fun s => (q s).y, fun s => (q s).z, X, Y, Z])
    (.cons ?_ (.cons ?_ (.cons ?_ (.cons ?_ (.cons (hX s) (.cons (hY s) (.cons (hZ s) .nil)))))))
  · refine (hq.dw s).congr_deriv ?_
    simp; ring
  · refine (hq.dx s).congr_deriv ?_
    simp; ring
  · refine (hq.dy s).congr_deriv ?_
    simp; ring
  · refine (hq.dz s).congr_deriv ?_
    simp; ring

theorem spherical_motion_exists {a b x : List ℝ} (ha : a.length = 3) (hb : b.length = 3) (hx : ValidParam .Spherical x) :
    ∃ Q : ℝ → List ℝ, Q 0 = x ∧ ∀ s, HasDerivList Q (coordRate .Spherical (Q s) (List.zipWith (fun u v => u + v * s) a b)) s := by
  obtain ⟨hl, hv⟩ := hx
  obtain ⟨a0, a1, a2, rfl⟩ := list3 ha
  obtain ⟨b0, b1, b2, rfl⟩ := list3 hb
  obtain ⟨w, i, j, k, rfl⟩ := list4 hl
  obtain ⟨q, hq, hq0⟩ := turns_exists ⟨a0, a1, a2⟩ ⟨b0, b1, b2⟩ ⟨w, i, j, k⟩ hv
  refine ⟨fun s => [(q s).w, (q s).x, (q s).y, (q s).z], by simp only [hq0], fun s => ?_⟩
  refine hasDerivList_map (fs := [fun s => (q s).w, fun s => (q s).x, fun s => (q s).y, fun s => (q s).z])
    (.cons ?_ (.cons ?_ (.cons ?_ (.cons ?_ .nil))))
  · refine (hq.dw s).congr_deriv ?_
    simp; ring
  · refine (hq.dx s).congr_deriv ?_
    simp; ring
  · refine (hq.dy s).congr_deriv ?_
    simp; ring
  · refine (hq.dz s).congr_deriv ?_
    simp; ring

theorem planar_motion_exists {a b x : List ℝ} (ha : a.length = 3) (hb : b.length = 3) (hx : x.length = 3) :
    ∃ Q : ℝ → List ℝ, Q 0 = x ∧ ∀ s, HasDerivList Q (coordRate .Planar (Q s) (List.zipWith (fun u v => u + v * s) a b)) s := by
  obtain ⟨a0, a1, a2, rfl⟩ := list3 ha
  obtain ⟨b0, b1, b2, rfl⟩ := list3 hb
  obtain ⟨x0, x1, x2, rfl⟩ := list3 hx
  obtain ⟨θ, θ0, hθ⟩ := line_antideriv x0 a0 b0
  have cθ : Continuous θ := continuous_iff_continuousAt.2 fun s => (hθ s).continuousAt
  obtain ⟨X, X0, hX⟩ := antideriv (f := fun s => Real.cos (θ s) * (a1 + b1 * s) - Real.sin (θ s) * (a2 + b2 * s)) (by fun_prop)
    (Real.cos x0 * x1 - Real.sin x0 * x2)
  obtain ⟨Y, Y0, hY⟩ := antideriv (f := fun s => Real.sin (θ s) * (a1 + b1 * s) + Real.cos (θ s) * (a2 + b2 * s)) (by fun_prop)
    (Real.sin x0 * x1 + Real.cos x0 * x2)
  have e0 := Real.sin_sq_add_cos_sq x0
  refine ⟨fun s => [θ s, Real.cos (θ s) * X s + Real.sin (θ s) * Y s, -Real.sin (θ s) * X s + Real.cos (θ s) * Y s], ?_, fun s => ?_⟩
  · simp only [θ0, X0, Y0, List.cons.injEq, and_true, true_and]
    exact ⟨by linear_combination x1 * e0, by linear_combination x2 * e0⟩
  · refine hasDerivList_map (fs := [θ, fun s => Real.cos (θ s) * X s + Real.sin (θ s) * Y s,
      fun s => -Real.sin (θ s) * X s + Real.cos (θ s) * Y s]) (.cons (hθ s) (.cons ?_ (.cons ?_ .nil)))
    · refine (((hθ s).cos.mul (hX s)).add ((hθ s).sin.mul (hY s))).congr_deriv ?_
      have e := Real.sin_sq_add_cos_sq (θ s)
      simp only []
      linear_combination (a1 + b1 * s) * e
    · refine (((hθ s).sin.neg.mul (hX s)).add ((hθ s).cos.mul (hY s))).congr_deriv ?_
      have e := Real.sin_sq_add_cos_sq (θ s)
      simp only [Pi.neg_apply]
      linear_combination (a2 + b2 * s) * e

/-- `C68_spherical` speaks of every valid start, velocity and acceleration: the exact motion exists, and the integration returns. -/
example {a b x : List ℝ} (ha : a.length = 3) (hb : b.length = 3) (hx : ValidParam .Spherical x) (step : ℝ) :
    ∃ Q : ℝ → List ℝ, Q 0 = x ∧ (∀ s, HasDerivList Q (coordRate .Spherical (Q s) (List.zipWith (fun u v => u + v * s) a b)) s) ∧
      ∃ K p0, 0 < p0 ∧ ∀ prec, 0 < prec → prec ≤ p0 → ∃ fuel y, jointIntegration fuel .Spherical a b step x prec = .ok y ∧
        ∀ i < 4, |y.getD i 0 - (Q step).getD i 0| ≤ K * prec ^ (4 / 7 : ℝ) := by
  obtain ⟨Q, rfl, hQ⟩ := spherical_motion_exists ha hb hx
  obtain ⟨K, p0, hp0, key⟩ := C68_spherical ha hb hx hQ step
  refine ⟨Q, rfl, hQ, K, p0, hp0, fun prec h0 h1 => ?_⟩
  obtain ⟨y, N, -, h⟩ := C42_terminates .Spherical (a := a) (b := b) (x := Q 0) ha hb hx (step := step) h0 (.inr (by decide))
  exact ⟨N, y, h N le_rfl, (key prec h0 h1 N y (h N le_rfl)).2⟩

/-- `C68_free` applies to a body that turns about x, accelerates about y, and moves. -/
example : ∃ Q : ℝ → List ℝ, Q 0 = [1, 0, 0, 0, 0, 0, 0] ∧ ∃ K p0, 0 < p0 ∧ ∀ prec, 0 < prec → prec ≤ p0 →
    ∃ fuel y, jointIntegration fuel .Free [1, 0, 0, 1, 2, 3] [0, 1, 0, 3, 2, 1] 1 [1, 0, 0, 0, 0, 0, 0] prec = .ok y ∧
      ∀ i < 7, |y.getD i 0 - (Q 1).getD i 0| ≤ K * prec ^ (4 / 7 : ℝ) := by
  have hx : ValidParam .Free ([1, 0, 0, 0, 0, 0, 0] : List ℝ) := ⟨rfl, by norm_num⟩
  obtain ⟨Q, h, hQ⟩ := free_motion_exists (a := [1, 0, 0, 1, 2, 3]) (b := [0, 1, 0, 3, 2, 1]) rfl rfl hx
  obtain ⟨K, p0, hp0, key⟩ := C68_free rfl rfl (by rw [h]; exact hx) hQ (by
    intro h
    have := congrArg Vec3.z h
    simp [angPart, Vec3.cross] at this) (step := 1) (by norm_num)
  refine ⟨Q, h, K, p0, hp0, fun prec h0 h1 => ?_⟩
  obtain ⟨y, N, -, h2⟩ := C42_terminates .Free (a := [1, 0, 0, 1, 2, 3]) (b := [0, 1, 0, 3, 2, 1]) (x := [1, 0, 0, 0, 0, 0, 0]) rfl rfl
    hx (step := 1) h0 (.inl (by norm_num))
  refine ⟨N, y, h2 N le_rfl, (key prec h0 h1 N y (by rw [h]; exact h2 N le_rfl)).2.2.2 ?_⟩
  norm_num [angPart, Vec3.normSq, Vec3.dot, dblEps]

/-- `C68_planar_partial` applies to a motion that turns and accelerates. -/
example : ∃ (Q : ℝ → List ℝ) (K : ℝ), Q 0 = [0, 0, 0] ∧ ∀ prec, 0 < prec → ∀ fuel, ∃ y,
    jointIntegration fuel .Planar [1, 1, 0] [1, 1, 0] 1 [0, 0, 0] prec = .ok y ∧
      (y.getD 1 0 - (Q 1).getD 1 0) ^ 2 + (y.getD 2 0 - (Q 1).getD 2 0) ^ 2 ≤ (K * prec) ^ 2 := by
  obtain ⟨Q, h, hQ⟩ := planar_motion_exists (a := [1, 1, 0]) (b := [1, 1, 0]) (x := [0, 0, 0]) rfl rfl rfl
  obtain ⟨g, hg0, hg, hE⟩ := planar_chain rfl rfl rfl h hQ
  obtain ⟨K, key⟩ := C68_planar_partial rfl rfl (by rw [h]; rfl) hQ hg0 hg (step := 1) (by norm_num) (.inl (by
    intro h0
    have := hE 0
    rw [h0] at this
    norm_num [fourthDerivativeSquaredNormPlanar, fourthDerivativePlanar, sqLen] at this))
  refine ⟨Q, K, h, fun prec h0 fuel => ?_⟩
  obtain ⟨y, h1, -, -, h2⟩ := key prec h0 fuel
  rw [h] at h1
  exact ⟨y, h1, h2⟩

end RBDyn
