import Verif.Lemmas.Action

/-! The function of positions and momenta that belongs to a function of positions and velocities. -/

namespace RBDyn

variable {ι : Type} [Fintype ι] [DecidableEq ι] {L : (ι → ℝ) × (ι → ℝ) → ℝ} {A : (ι → ℝ) × (ι → ℝ) → ι → ℝ}

omit [DecidableEq ι] in
theorem legendre_diff (hL : ContDiff ℝ 1 L) (hA : ContDiff ℝ 1 A) :
    ContDiff ℝ 1 fun w : (ι → ℝ) × (ι → ℝ) => ∑ y, w.2 y * A w y - L (w.1, A w) :=
  (ContDiff.sum fun y _ => ((contDiff_apply ℝ ℝ y).comp contDiff_snd).mul ((contDiff_apply ℝ ℝ y).comp hA)).sub
    (hL.comp (contDiff_fst.prodMk hA))

/-- If the velocities `A` have the momenta given, the derivatives by the momenta are the velocities and those by the positions are opposite. -/
theorem legendre_fderiv (hL : ContDiff ℝ 1 L) (hA : ContDiff ℝ 1 A) {q p : ι → ℝ}
    (h : ∀ y, fderiv ℝ L (q, A (q, p)) (0, Pi.single y 1) = p y) (u v : ι → ℝ) :
    fderiv ℝ (fun w : (ι → ℝ) × (ι → ℝ) => ∑ y, w.2 y * A w y - L (w.1, A w)) (q, p) (u, v) =
      ∑ y, v y * A (q, p) y - fderiv ℝ L (q, A (q, p)) (u, 0) := by
  set D := fderiv ℝ A (q, p) (u, v) with hD
  have e1 : HasDerivAt (fun x : ℝ => ((q, p) : (ι → ℝ) × (ι → ℝ)) + x • (u, v)) (u, v) 0 := by
    simpa using ((hasDerivAt_id (0 : ℝ)).smul_const ((u, v) : (ι → ℝ) × (ι → ℝ))).const_add (q, p)
  have h0 : ((q, p) : (ι → ℝ) × (ι → ℝ)) + (0 : ℝ) • (u, v) = (q, p) := by simp
  have eA : HasDerivAt (fun x : ℝ => A ((q, p) + x • (u, v))) D 0 := by
    have := (hA.differentiable one_ne_zero ((q, p) + (0 : ℝ) • (u, v))).hasFDerivAt.comp_hasDerivAt (0 : ℝ) e1
    rwa [h0] at this
  have e2 : HasDerivAt (fun x : ℝ => (q + x • u, A ((q, p) + x • (u, v)))) (u, D) 0 := by
    refine HasDerivAt.prodMk ?_ eA
    simpa using ((hasDerivAt_id (0 : ℝ)).smul_const u).const_add q
  have eL : HasDerivAt (fun x : ℝ => L (q + x • u, A ((q, p) + x • (u, v)))) (fderiv ℝ L (q, A (q, p)) (u, D)) 0 := by
    have := (hL.differentiable one_ne_zero (q + (0 : ℝ) • u, A ((q, p) + (0 : ℝ) • (u, v)))).hasFDerivAt.comp_hasDerivAt (0 : ℝ) e2
    rw [h0, zero_smul, add_zero] at this
    exact this
  have eS : HasDerivAt (fun x : ℝ => ∑ y, (p y + x * v y) * A ((q, p) + x • (u, v)) y) (∑ y, (v y * A (q, p) y + p y * D y)) 0 := by
    refine HasDerivAt.fun_sum fun y _ => ?_
    have h1 : HasDerivAt (fun x : ℝ => p y + x * v y) (v y) 0 := by simpa using ((hasDerivAt_id (0 : ℝ)).mul_const (v y)).const_add (p y)
    have := h1.mul (hasDerivAt_pi.1 eA y)
    rw [h0, zero_mul, add_zero] at this
    exact this
  have eE := ((legendre_diff hL hA).differentiable one_ne_zero ((q, p) + (0 : ℝ) • (u, v))).hasFDerivAt.comp_hasDerivAt (0 : ℝ) e1
  rw [h0] at eE
  refine (eE.unique (eS.sub eL)).trans ?_
  have hs : fderiv ℝ L (q, A (q, p)) (u, D) = fderiv ℝ L (q, A (q, p)) (u, 0) + ∑ y, p y * D y := by
    have := split_single (fderiv ℝ L (q, A (q, p))) 0 D
    simp only [Pi.zero_apply, zero_mul, zero_add, h] at this
    rw [show ((u, D) : (ι → ℝ) × (ι → ℝ)) = (u, 0) + (0, D) by simp, map_add, this]
    simp only [mul_comm]
  rw [hs, Finset.sum_add_distrib]
  ring

end RBDyn
