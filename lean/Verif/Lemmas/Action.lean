import Verif.Lemmas.OdeEuler
import Mathlib.Analysis.Calculus.ParametricIntervalIntegral
import Mathlib.Analysis.Distribution.AEEqOfIntegralContDiff
import Mathlib.MeasureTheory.Measure.Lebesgue.Basic
import Mathlib.MeasureTheory.Integral.IntervalIntegral.FundThmCalculus

/-! Integrals of functions of the position and the velocity, and how they change when the path is varied. -/

namespace RBDyn
open scoped Topology ContDiff
open MeasureTheory

variable {ι : Type} [Fintype ι] {L : (ι → ℝ) × (ι → ℝ) → ℝ} {q α η η' p p' N : ℝ → ι → ℝ} {a b : ℝ}

/-- The derivative of the integral along varied paths is the integral of the derivatives. -/
theorem action_deriv (hL : ContDiff ℝ 1 L) (hq : Continuous q) (hα : Continuous α) (hη : Continuous η) (hη' : Continuous η') :
    HasDerivAt (fun ε : ℝ => ∫ t in a..b, L (q t + ε • η t, α t + ε • η' t)) (∫ t in a..b, fderiv ℝ L (q t, α t) (η t, η' t)) 0 := by
  have hc : Continuous fun w : ℝ × ℝ => fderiv ℝ L (q w.2 + w.1 • η w.2, α w.2 + w.1 • η' w.2) (η w.2, η' w.2) := by
    have := hL.continuous_fderiv one_ne_zero
    have h2 : Continuous fun w : ℝ × ℝ => (q w.2 + w.1 • η w.2, α w.2 + w.1 • η' w.2) := by fun_prop
    exact (this.comp h2).clm_apply (by fun_prop)
  obtain ⟨C, hC⟩ := (isCompact_Icc (a := (-1 : ℝ)) (b := 1) |>.prod (isCompact_uIcc (a := a) (b := b))).exists_bound_of_continuousOn hc.continuousOn
  have hF : ∀ ε : ℝ, Continuous fun t => L (q t + ε • η t, α t + ε • η' t) := fun ε => hL.continuous.comp (by fun_prop)
  have h := intervalIntegral.hasDerivAt_integral_of_dominated_loc_of_deriv_le (μ := volume) (a := a) (b := b) (x₀ := (0 : ℝ)) (s := Set.Icc (-1) 1)
    (F := fun (ε : ℝ) t => L (q t + ε • η t, α t + ε • η' t))
    (F' := fun (ε : ℝ) t => fderiv ℝ L (q t + ε • η t, α t + ε • η' t) (η t, η' t)) (bound := fun _ => C)
    (Icc_mem_nhds (by norm_num) (by norm_num)) (.of_forall fun ε => (hF ε).aestronglyMeasurable) ((hF 0).intervalIntegrable _ _)
    (hc.comp (continuous_const.prodMk continuous_id)).aestronglyMeasurable
    (.of_forall fun t ht ε hε => hC (ε, t) ⟨hε, Set.uIoc_subset_uIcc ht⟩) intervalIntegrable_const
    (.of_forall fun t _ ε _ => by
      have h1 : HasDerivAt (fun ε : ℝ => (q t + ε • η t, α t + ε • η' t)) (η t, η' t) ε := by
        refine HasDerivAt.prodMk ?_ ?_
        · simpa using ((hasDerivAt_id ε).smul_const (η t)).const_add (q t)
        · simpa using ((hasDerivAt_id ε).smul_const (η' t)).const_add (α t)
      exact ((hL.differentiable one_ne_zero _).hasFDerivAt).comp_hasDerivAt ε h1)
  simpa using h.2

theorem split_single [DecidableEq ι] (A : (ι → ℝ) × (ι → ℝ) →L[ℝ] ℝ) (u v : ι → ℝ) :
    A (u, v) = ∑ y, (u y * A (Pi.single y 1, 0) + v y * A (0, Pi.single y 1)) := by
  have e : (u, v) = ∑ y, (u y • ((Pi.single y 1, 0) : (ι → ℝ) × (ι → ℝ)) + v y • ((0, Pi.single y 1) : (ι → ℝ) × (ι → ℝ))) := by
    ext x <;> simp [Prod.fst_sum, Prod.snd_sum, Finset.sum_apply, Pi.single_apply]
  conv_lhs => rw [e]
  rw [map_sum]
  refine Finset.sum_congr rfl fun y _ => ?_
  rw [map_add, map_smul, map_smul, smul_eq_mul, smul_eq_mul]

/-- Where `p` are the momenta and `N` is what is missing in the equations of Euler and Lagrange, the derivative of the integral along paths with fixed ends is
minus the integral of the work of `N`. -/
theorem action_variation [DecidableEq ι] (hL : ContDiff ℝ 1 L) (hq : Continuous q) (hα : Continuous α) (hη : ∀ t, HasDerivAt η (η' t) t) (hη' : Continuous η')
    (hN : Continuous N) (hp : ∀ y t, HasDerivAt (fun s => p s y) (p' t y) t) (h1 : ∀ y t, fderiv ℝ L (q t, α t) (0, Pi.single y 1) = p t y)
    (h2 : ∀ y t, fderiv ℝ L (q t, α t) (Pi.single y 1, 0) = p' t y - N t y) (ha : η a = 0) (hb : η b = 0) :
    HasDerivAt (fun ε : ℝ => ∫ t in a..b, L (q t + ε • η t, α t + ε • η' t)) (-∫ t in a..b, ∑ y, N t y * η t y) 0 := by
  have hηc : Continuous η := continuous_iff_continuousAt.2 fun t => (hη t).continuousAt
  refine (action_deriv hL hq hα hηc hη').congr_deriv ?_
  have hc1 : Continuous fun t => fderiv ℝ L (q t, α t) (η t, η' t) :=
    ((hL.continuous_fderiv one_ne_zero).comp (hq.prodMk hα)).clm_apply (hηc.prodMk hη')
  have hc2 : Continuous fun t => ∑ y, N t y * η t y := by fun_prop
  have h := intervalIntegral.integral_eq_sub_of_hasDerivAt (a := a) (b := b) (f := fun t => ∑ y, p t y * η t y)
    (f' := fun t => fderiv ℝ L (q t, α t) (η t, η' t) + ∑ y, N t y * η t y) (fun t _ => by
      refine (HasDerivAt.fun_sum fun y _ => (hp y t).mul (hasDerivAt_pi.1 (hη t) y)).congr_deriv ?_
      rw [split_single, ← Finset.sum_add_distrib]
      refine Finset.sum_congr rfl fun y _ => ?_
      rw [h1, h2]
      ring) ((hc1.add hc2).intervalIntegrable _ _)
  rw [intervalIntegral.integral_add (hc1.intervalIntegrable _ _) (hc2.intervalIntegrable _ _)] at h
  rw [ha, hb] at h
  simp at h
  linarith

/-- A continuous function that does no work along any variation with fixed ends is zero. -/
theorem zero_of_variations (hab : a < b) (hN : Continuous N)
    (h : ∀ η η' : ℝ → ι → ℝ, (∀ t, HasDerivAt η (η' t) t) → Continuous η' → η a = 0 → η b = 0 → ∫ t in a..b, ∑ y, N t y * η t y = 0) :
    ∀ t ∈ Set.Icc a b, N t = 0 := by
  classical
  have hy : ∀ y, Continuous fun t => N t y := fun y => (continuous_apply y).comp hN
  have key : ∀ y, ∀ t ∈ Set.Icc a b, N t y = 0 := by
    intro y
    have hae := isOpen_Ioo.ae_eq_zero_of_integral_contDiff_smul_eq_zero (μ := (volume : Measure ℝ)) (U := Set.Ioo a b) (f := fun t => N t y)
      ((hy y).locallyIntegrable.locallyIntegrableOn _) fun g hg hgc hgs => by
        have hz : ∀ t, t ∉ Set.Ioo a b → g t = 0 := fun t ht => by
          by_contra hne
          exact ht (hgs (subset_tsupport g hne))
        have hd : ContDiff ℝ 1 g := hg.of_le (by simp)
        have hw := h (fun t => Pi.single y (g t)) (fun t => Pi.single y (deriv g t)) (fun t => hasDerivAt_pi.2 fun x => by
            by_cases hx : x = y
            · subst hx
              simpa using (hd.differentiable one_ne_zero t).hasDerivAt
            · simpa [Pi.single_apply, hx] using hasDerivAt_const t (0 : ℝ))
          (continuous_pi fun x => by
            by_cases hx : x = y
            · subst hx
              simpa using hd.continuous_deriv_one
            · simpa [Pi.single_apply, hx] using continuous_const)
          (by rw [hz a (by simp)]; simp) (by rw [hz b (by simp)]; simp)
        have e : ∀ t, ∑ x, N t x * (Pi.single y (g t) : ι → ℝ) x = g t • N t y := fun t => by
          rw [Finset.sum_eq_single y]
          · simp [mul_comm]
          · intro x _ hx
            simp [hx]
          · simp
        simp only [e] at hw
        rw [intervalIntegral.integral_of_le hab.le] at hw
        rw [← hw]
        refine (setIntegral_eq_integral_of_forall_compl_eq_zero fun t ht => ?_).symm
        rw [hz t fun h => ht (Set.Ioo_subset_Ioc_self h), zero_smul]
    have h1 : Set.EqOn (fun t => N t y) (fun _ => 0) (Set.Ioo a b) :=
      Measure.eqOn_open_of_ae_eq (μ := (volume : Measure ℝ)) ((ae_restrict_iff' measurableSet_Ioo).2 hae) isOpen_Ioo (hy y).continuousOn continuousOn_const
    have h2 := h1.closure (hy y) continuous_const
    rw [closure_Ioo hab.ne] at h2
    exact h2
  exact fun t ht => funext fun y => key y t ht

end RBDyn
