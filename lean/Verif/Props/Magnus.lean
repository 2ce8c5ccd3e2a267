import Verif.Lemmas.DynDeriv
import Verif.Props.Integration

/-! Properties C53 and C54: the error terms that drive step size control in `NumericalIntegration.cpp`. -/

namespace RBDyn
open scoped Mat3

theorem line_deriv (v dv : Vec3 ℝ) (t : ℝ) : HasDerivVec (fun t => v + t • dv) dv t := by
  refine ((HasDerivVec.const v t).add (HasDerivVec.smul_const (hasDerivAt_id t) dv)).congr ?_
  ext <;> simp

/-- Derivative of a vector given in a rotating frame. -/
theorem rotating_deriv {R : ℝ → Mat3 ℝ} {W : ℝ → Vec3 ℝ} (hR : ∀ t, HasDerivMat R (R t * Mat3.crossMat (W t)) t)
    {P : ℝ → Vec3 ℝ} {P' : ℝ → Vec3 ℝ} (hP : ∀ t, HasDerivVec P (P' t) t) (t : ℝ) :
    HasDerivVec (fun t => R t *ᵥ P t) (R t *ᵥ ((W t).cross (P t) + P' t)) t := by
  refine ((hR t).mulVec (hP t)).congr ?_
  rw [Mat3.mul_mulVec, Mat3.crossMat_mulVec, Mat3.mulVec_add]

/-- C53: `fourthDerivativeSquaredNormFree` is the squared norm of the fourth derivative of `R(t) v(t)` where `R` rotates with body
velocity `w + t dw` and `v` moves with velocity `dv`. -/
theorem C53_free {R : ℝ → Mat3 ℝ} (v w dv dw : Vec3 ℝ) (hrot : ∀ t, IsRot (R t))
    (hR : ∀ t, HasDerivMat R (R t * Mat3.crossMat (w + t • dw)) t) :
    ∃ f1 f2 f3 f4 : ℝ → Vec3 ℝ, (∀ t, HasDerivVec (fun t => R t *ᵥ (v + t • dv)) (f1 t) t) ∧ (∀ t, HasDerivVec f1 (f2 t) t) ∧
      (∀ t, HasDerivVec f2 (f3 t) t) ∧ (∀ t, HasDerivVec f3 (f4 t) t) ∧
      ∀ t, fourthDerivativeSquaredNormFree (v + t • dv) (w + t • dw) dv dw = (f4 t).normSq := by
  let V : ℝ → Vec3 ℝ := fun t => v + t • dv
  let W : ℝ → Vec3 ℝ := fun t => w + t • dw
  have hV : ∀ t, HasDerivVec V dv t := line_deriv v dv
  have hW : ∀ t, HasDerivVec W dw t := line_deriv w dw
  let P1 : ℝ → Vec3 ℝ := fun t => (W t).cross (V t) + dv
  let D1 : ℝ → Vec3 ℝ := fun t => dw.cross (V t) + (W t).cross dv
  have h1 : ∀ t, HasDerivVec P1 (D1 t) t := fun t =>
    (((hW t).cross (hV t)).add (HasDerivVec.const dv t)).congr (by ext <;> simp [D1])
  have hD1 : ∀ t, HasDerivVec D1 ((2 : ℝ) • dw.cross dv) t := fun t =>
    (((HasDerivVec.const dw t).cross (hV t)).add ((hW t).cross (HasDerivVec.const dv t))).congr (by ext <;> simp <;> ring)
  let P2 : ℝ → Vec3 ℝ := fun t => (W t).cross (P1 t) + D1 t
  let D2 : ℝ → Vec3 ℝ := fun t => dw.cross (P1 t) + (W t).cross (D1 t) + (2 : ℝ) • dw.cross dv
  have h2 : ∀ t, HasDerivVec P2 (D2 t) t := fun t => ((hW t).cross (h1 t)).add (hD1 t)
  let E2 : ℝ → Vec3 ℝ := fun t => (2 : ℝ) • dw.cross (D1 t) + (W t).cross ((2 : ℝ) • dw.cross dv)
  have hD2 : ∀ t, HasDerivVec D2 (E2 t) t := fun t =>
    ((((HasDerivVec.const dw t).cross (h1 t)).add ((hW t).cross (hD1 t))).add (HasDerivVec.const ((2 : ℝ) • dw.cross dv) t)).congr
      (by ext <;> simp [E2] <;> ring)
  let P3 : ℝ → Vec3 ℝ := fun t => (W t).cross (P2 t) + D2 t
  let D3 : ℝ → Vec3 ℝ := fun t => dw.cross (P2 t) + (W t).cross (D2 t) + E2 t
  have h3 : ∀ t, HasDerivVec P3 (D3 t) t := fun t => ((hW t).cross (h2 t)).add (hD2 t)
  let P4 : ℝ → Vec3 ℝ := fun t => (W t).cross (P3 t) + D3 t
  refine ⟨fun t => R t *ᵥ P1 t, fun t => R t *ᵥ P2 t, fun t => R t *ᵥ P3 t, fun t => R t *ᵥ P4 t,
    rotating_deriv hR hV, rotating_deriv hR h1, rotating_deriv hR h2, rotating_deriv hR h3, fun t => ?_⟩
  have e : fourthDerivativeFree (V t) (W t) dv dw = P4 t := by
    simp only [P4, P3, D3, P2, D2, E2, P1, D1]
    generalize V t = v
    generalize W t = w
    obtain ⟨v1, v2, v3⟩ := v
    obtain ⟨w1, w2, w3⟩ := w
    obtain ⟨a1, a2, a3⟩ := dv
    obtain ⟨b1, b2, b3⟩ := dw
    ext <;> simp [fourthDerivativeFree, Vec3.normSq, Vec3.dot] <;> ring
  change (fourthDerivativeFree (V t) (W t) dv dw).normSq = _
  rw [e]
  exact ((hrot t).dot _ _).symm

/-- The hypotheses of `C53_free` hold for a rotation about the vertical with constant acceleration. -/
example : (∀ t : ℝ, IsRot (rotZ (t + t * t)).tr) ∧
    ∀ t : ℝ, HasDerivMat (fun t : ℝ => (rotZ (t + t * t)).tr) ((rotZ (t + t * t)).tr * Mat3.crossMat (⟨0, 0, 1⟩ + t • ⟨0, 0, 2⟩)) t := by
  refine ⟨fun t => (Joint.isRot_rotZ _).tr, fun t => ?_⟩
  have h0 : HasDerivAt (fun t : ℝ => t + t * t) (1 + 2 * t) t :=
    ((hasDerivAt_id t).add ((hasDerivAt_id t).mul (hasDerivAt_id t))).congr_deriv (by simp; ring)
  have hs : HasDerivAt (fun t : ℝ => (Scalar.sin (t + t * t) : ℝ)) (Scalar.cos (t + t * t) * (1 + 2 * t)) t := h0.sin
  have hc : HasDerivAt (fun t : ℝ => (Scalar.cos (t + t * t) : ℝ)) (-Scalar.sin (t + t * t) * (1 + 2 * t)) t := h0.cos
  constructor
  · exact hc.congr_deriv (by simp [rotZ, Mat3.crossMat, -mul_eq_mul_left_iff]; ring)
  · exact hs.neg.congr_deriv (by simp [rotZ, Mat3.crossMat, -mul_eq_mul_left_iff]; ring)
  · exact (hasDerivAt_const t 0).congr_deriv (by simp [rotZ, Mat3.crossMat])
  · exact hs.congr_deriv (by simp [rotZ, Mat3.crossMat, -mul_eq_mul_left_iff]; ring)
  · exact hc.congr_deriv (by simp [rotZ, Mat3.crossMat, -mul_eq_mul_left_iff]; ring)
  all_goals exact (hasDerivAt_const t _).congr_deriv (by simp [rotZ, Mat3.crossMat])

theorem pair_deriv {f g : ℝ → ℝ} {f' g' a b t : ℝ} (hf : HasDerivAt f f' t) (hg : HasDerivAt g g' t) (ha : f' = a) (hb : g' = b) :
    HasDerivAt (fun t => (f t, g t)) (a, b) t := ha ▸ hb ▸ hf.prodMk hg

/-- Derivative of a vector given in a frame rotating in the plane. -/
theorem rotating_deriv2 {θ W : ℝ → ℝ} (hθ : ∀ t, HasDerivAt θ (W t) t) {P P' : ℝ → ℝ × ℝ} (hP : ∀ t, HasDerivAt P (P' t) t) (t : ℝ) :
    HasDerivAt (fun t => rot2 (θ t) (P t)) (rot2 (θ t) (W t * -(P t).2 + (P' t).1, W t * (P t).1 + (P' t).2)) t := by
  have hs := (hθ t).sin
  have hc := (hθ t).cos
  have h1 : HasDerivAt (fun t => (P t).1) (P' t).1 t := (hP t).fst
  have h2 : HasDerivAt (fun t => (P t).2) (P' t).2 t := (hP t).snd
  exact pair_deriv ((hc.mul h1).sub (hs.mul h2)) ((hs.mul h1).add (hc.mul h2)) (by simp; ring) (by simp; ring)

/-- C53, planar case. -/
theorem C53_planar {θ : ℝ → ℝ} (v dv : ℝ × ℝ) (w dw : ℝ) (hθ : ∀ t, HasDerivAt θ (w + t * dw) t) :
    ∃ f1 f2 f3 f4 : ℝ → ℝ × ℝ, (∀ t, HasDerivAt (fun t => rot2 (θ t) (v + t • dv)) (f1 t) t) ∧ (∀ t, HasDerivAt f1 (f2 t) t) ∧
      (∀ t, HasDerivAt f2 (f3 t) t) ∧ (∀ t, HasDerivAt f3 (f4 t) t) ∧
      ∀ t, fourthDerivativeSquaredNormPlanar (v + t • dv) (w + t * dw) dv dw = (f4 t).1 ^ 2 + (f4 t).2 ^ 2 := by
  obtain ⟨v1, v2⟩ := v
  obtain ⟨d1, d2⟩ := dv
  have h0 : ∀ t : ℝ, HasDerivAt (fun t : ℝ => t) 1 t := fun t => hasDerivAt_id t
  have hW : ∀ t : ℝ, HasDerivAt (fun t => w + t * dw) dw t := fun t => by
    simpa using ((h0 t).mul_const dw).const_add w
  have hL : ∀ (a b t : ℝ), HasDerivAt (fun t => a + t * b) b t := fun a b t => by
    simpa using ((h0 t).mul_const b).const_add a
  let W : ℝ → ℝ := fun t => w + t * dw
  let X : ℝ → ℝ := fun t => v1 + t * d1
  let Y : ℝ → ℝ := fun t => v2 + t * d2
  have hX : ∀ t, HasDerivAt X d1 t := hL v1 d1
  have hY : ∀ t, HasDerivAt Y d2 t := hL v2 d2
  have hWt : ∀ t, HasDerivAt W dw t := hW
  let P0 : ℝ → ℝ × ℝ := fun t => (X t, Y t)
  let P1 : ℝ → ℝ × ℝ := fun t => (-(W t * Y t) + d1, W t * X t + d2)
  let P1' : ℝ → ℝ × ℝ := fun t => (-(dw * Y t + W t * d2), dw * X t + W t * d1)
  have k0 : ∀ t, HasDerivAt P0 (d1, d2) t := fun t => (hX t).prodMk (hY t)
  have k1 : ∀ t, HasDerivAt P1 (P1' t) t := fun t =>
    ((((hWt t).mul (hY t)).neg).add_const d1).prodMk (((hWt t).mul (hX t)).add_const d2)
  let P2 : ℝ → ℝ × ℝ := fun t => (-(W t * W t * X t) - 2 * (W t * d2) - dw * Y t, -(W t * W t * Y t) + 2 * (W t * d1) + dw * X t)
  let P2' : ℝ → ℝ × ℝ := fun t => (-(2 * (W t * dw) * X t) - W t * W t * d1 - 3 * (dw * d2),
    -(2 * (W t * dw) * Y t) - W t * W t * d2 + 3 * (dw * d1))
  have k2 : ∀ t, HasDerivAt P2 (P2' t) t := fun t => by
    exact pair_deriv ((((((hWt t).mul (hWt t)).mul (hX t)).neg).sub (((hWt t).mul_const d2).const_mul 2)).sub ((hY t).const_mul dw))
      ((((((hWt t).mul (hWt t)).mul (hY t)).neg).add (((hWt t).mul_const d1).const_mul 2)).add ((hX t).const_mul dw))
      (by simp; ring) (by simp; ring)
  let P3 : ℝ → ℝ × ℝ := fun t => (W t * -(P2 t).2 + (P2' t).1, W t * (P2 t).1 + (P2' t).2)
  let P2'' : ℝ → ℝ × ℝ := fun t => (-(2 * (dw * dw) * X t) - 4 * (W t * dw) * d1, -(2 * (dw * dw) * Y t) - 4 * (W t * dw) * d2)
  have k2' : ∀ t, HasDerivAt P2' (P2'' t) t := fun t => by
    exact pair_deriv
      (((((((hWt t).mul_const dw).const_mul 2).mul (hX t)).neg).sub (((hWt t).mul (hWt t)).mul_const d1)).sub_const (3 * (dw * d2)))
      (((((((hWt t).mul_const dw).const_mul 2).mul (hY t)).neg).sub (((hWt t).mul (hWt t)).mul_const d2)).add_const (3 * (dw * d1)))
      (by simp; ring) (by simp; ring)
  let P3' : ℝ → ℝ × ℝ := fun t => (dw * -(P2 t).2 + W t * -(P2' t).2 + (P2'' t).1, dw * (P2 t).1 + W t * (P2' t).1 + (P2'' t).2)
  have k3 : ∀ t, HasDerivAt P3 (P3' t) t := fun t => by
    have a1 : HasDerivAt (fun t => (P2 t).1) (P2' t).1 t := (k2 t).fst
    have a2 : HasDerivAt (fun t => (P2 t).2) (P2' t).2 t := (k2 t).snd
    have b1 : HasDerivAt (fun t => (P2' t).1) (P2'' t).1 t := (k2' t).fst
    have b2 : HasDerivAt (fun t => (P2' t).2) (P2'' t).2 t := (k2' t).snd
    exact (((hWt t).mul a2.neg).add b1).prodMk (((hWt t).mul a1).add b2)
  let P4 : ℝ → ℝ × ℝ := fun t => (W t * -(P3 t).2 + (P3' t).1, W t * (P3 t).1 + (P3' t).2)
  refine ⟨fun t => rot2 (θ t) (P1 t), fun t => rot2 (θ t) (P2 t), fun t => rot2 (θ t) (P3 t), fun t => rot2 (θ t) (P4 t),
    fun t => ?_, fun t => ?_, fun t => rotating_deriv2 hθ k2 t, fun t => rotating_deriv2 hθ k3 t, fun t => ?_⟩
  · refine (rotating_deriv2 hθ k0 t).congr_deriv (congrArg _ ?_)
    ext <;> simp [P1, P0, W]
  · refine (rotating_deriv2 hθ k1 t).congr_deriv (congrArg _ ?_)
    ext <;> simp [P1, P1', P2, W] <;> ring
  · have hc := Real.sin_sq_add_cos_sq (θ t)
    have e : ∀ u : ℝ × ℝ, (rot2 (θ t) u).1 ^ 2 + (rot2 (θ t) u).2 ^ 2 = u.1 ^ 2 + u.2 ^ 2 := fun u => by
      simp only [rot2]
      linear_combination (u.1 ^ 2 + u.2 ^ 2) * hc
    rw [e]
    simp only [fourthDerivativeSquaredNormPlanar, fourthDerivativePlanar, P4, P3, P3', P2, P2', P2'', W, X, Y, Prod.smul_mk,
      Prod.mk_add_mk, smul_eq_mul]
    ring

/-- The terms that `magnusExpansion` sums, in closed form: `magnusTerm w wD h k` is the (k+1)-th one.  The third one has the opposite sign
of the term of the Magnus series (`Props/Order.lean`), which does not matter for the norms below. -/
noncomputable def magnusTerm (w wD : Vec3 ℝ) (h : ℝ) : Fin 5 → Vec3 ℝ
  | 0 => h • w + (h ^ 2 / 2) • wD
  | 1 => (h ^ 3 / 12) • w.cross wD
  | 2 => (h ^ 5 / 240) • wD.cross (w.cross wD)
  | 3 => ((28 * (magnusTerm w wD h 0).normSq - 3 * (wD.normSq * h ^ 4)) / 1680) • magnusTerm w wD h 1
  | 4 => (1 / 5040 : ℝ) • ((120 * (magnusTerm w wD h 0).normSq - 5 * (wD.normSq * h ^ 4)) • magnusTerm w wD h 2 -
      (24 * (magnusTerm w wD h 1).normSq) • magnusTerm w wD h 0)

/-- Both tolerances of the documentation. -/
def Negligible (relEps absEps : ℝ) (O1 O : Vec3 ℝ) : Prop :=
  O.normSq < absEps ^ 2 ∧ (O1 ≠ 0 → O.normSq < relEps ^ 2 * O1.normSq)

theorem term0 (w wD : Vec3 ℝ) (h : ℝ) : (h / 2) • (w + (w + h • wD)) = magnusTerm w wD h 0 := by
  ext <;> simp [magnusTerm] <;> ring

theorem term1 (w wD : Vec3 ℝ) (h : ℝ) : (h * h / 12) • w.cross (w + h • wD) = magnusTerm w wD h 1 := by
  ext <;> simp [magnusTerm] <;> ring

theorem term2 (w wD : Vec3 ℝ) (h : ℝ) : (h * h / 20) • wD.cross (magnusTerm w wD h 1) = magnusTerm w wD h 2 := by
  ext <;> simp [magnusTerm] <;> ring

theorem term2_norm (w wD : Vec3 ℝ) (h : ℝ) :
    (magnusTerm w wD h 2).normSq = wD.normSq * (h * h) * (h * h) * (magnusTerm w wD h 1).normSq / 400 := by
  simp [magnusTerm, Vec3.normSq, Vec3.dot]
  ring

theorem normSq_pos {v : Vec3 ℝ} (h : v ≠ 0) : 0 < v.normSq := by
  refine lt_of_le_of_ne v.normSq_nonneg fun h0 => h ?_
  have e : v.x * v.x + v.y * v.y + v.z * v.z = 0 := h0.symm
  have := mul_self_nonneg v.x
  have := mul_self_nonneg v.y
  have := mul_self_nonneg v.z
  ext
  · exact mul_self_eq_zero.1 (by linarith)
  · exact mul_self_eq_zero.1 (by linarith)
  · exact mul_self_eq_zero.1 (by linarith)

theorem negligible_of {relEps absEps : ℝ} {O1 O : Vec3 ℝ} {x : ℝ} (hx : O.normSq ≤ x)
    (h : x < min (if 0 < O1.normSq then relEps * relEps * O1.normSq else 1) (absEps * absEps)) : Negligible relEps absEps O1 O := by
  obtain ⟨h1, h2⟩ := lt_min_iff.1 h
  refine ⟨by nlinarith, fun h0 => ?_⟩
  rw [if_pos (normSq_pos h0)] at h1
  nlinarith

theorem Vec3.normSq_sub_le (a b : Vec3 ℝ) : √(a - b).normSq ≤ √a.normSq + √b.normSq := by
  have ha := a.normSq_nonneg
  have hb := b.normSq_nonneg
  rw [Real.sqrt_le_left (by positivity)]
  have e : (√a.normSq + √b.normSq) ^ 2 = a.normSq + b.normSq + 2 * √(a.normSq * b.normSq) := by
    rw [Real.sqrt_mul ha]
    have := Real.sq_sqrt ha
    have := Real.sq_sqrt hb
    nlinarith
  rw [e]
  have cs : (a.dot b) ^ 2 ≤ a.normSq * b.normSq := by
    have : a.normSq * b.normSq - (a.dot b) ^ 2 = (a.cross b).normSq := by simp [Vec3.normSq, Vec3.dot]; ring
    have := (a.cross b).normSq_nonneg
    linarith
  have := Real.abs_le_sqrt cs
  have h1 : (a - b).normSq = a.normSq + b.normSq - 2 * a.dot b := by simp [Vec3.normSq, Vec3.dot]; ring
  have := neg_le_of_abs_le this
  linarith

theorem term4_bound {O1 O2 O3 O5 : Vec3 ℝ} {D : ℝ} (n1 : 0 ≤ O1.normSq) (n2 : 0 ≤ O2.normSq) (hD : 0 ≤ D)
    (hb : 3 * D ≤ 56 * O1.normSq) (h2 : O3.normSq = D * O2.normSq / 400)
    (e4 : O5 = (1 / 5040 : ℝ) • ((120 * O1.normSq - 5 * D) • O3 - (24 * O2.normSq) • O1)) :
    O5.normSq ≤ (D * O1.normSq + 8 * √(D * O1.normSq * O2.normSq) + 16 * O2.normSq) * O1.normSq * O2.normSq / (840 * 840) := by
  have hs := Vec3.normSq_sub_le ((120 * O1.normSq - 5 * D) • O3) ((24 * O2.normSq) • O1)
  rw [Vec3.normSq_smul, Vec3.normSq_smul, Real.sqrt_mul (mul_self_nonneg _), Real.sqrt_mul (mul_self_nonneg _),
    Real.sqrt_mul_self_eq_abs, Real.sqrt_mul_self_eq_abs, abs_of_nonneg (show 0 ≤ 24 * O2.normSq by positivity), h2] at hs
  have e5 : O5.normSq = (1 / 5040) * (1 / 5040) * √((120 * O1.normSq - 5 * D) • O3 - (24 * O2.normSq) • O1).normSq ^ 2 := by
    rw [Real.sq_sqrt (Vec3.normSq_nonneg _), e4, Vec3.normSq_smul]
  rw [e5]
  have hx := Real.sqrt_nonneg ((120 * O1.normSq - 5 * D) • O3 - (24 * O2.normSq) • O1).normSq
  generalize √((120 * O1.normSq - 5 * D) • O3 - (24 * O2.normSq) • O1).normSq = x at *
  have ha : |120 * O1.normSq - 5 * D| ≤ 120 * O1.normSq := abs_le.2 ⟨by linarith, by linarith⟩
  have s1 : √(D * O2.normSq / 400) = √D * √O2.normSq / 20 := by
    rw [Real.sqrt_div (by positivity), Real.sqrt_mul hD]
    congr 1
    rw [show (400 : ℝ) = 20 ^ 2 by norm_num, Real.sqrt_sq (by norm_num)]
  have s2 : √(D * O1.normSq * O2.normSq) = √D * √O1.normSq * √O2.normSq := by
    rw [Real.sqrt_mul (by positivity), Real.sqrt_mul hD]
  rw [s1] at hs
  rw [s2]
  have q1 := Real.sq_sqrt n1
  have q2 := Real.sq_sqrt n2
  have q3 := Real.sq_sqrt hD
  have p1 := Real.sqrt_nonneg O1.normSq
  have p2 := Real.sqrt_nonneg O2.normSq
  have p3 := Real.sqrt_nonneg D
  generalize √O1.normSq = a at *
  generalize √O2.normSq = b at *
  generalize √D = d at *
  have hx' : x ≤ 120 * O1.normSq * (d * b / 20) + 24 * O2.normSq * a :=
    hs.trans (by gcongr)
  rw [← q1, ← q2] at hx'
  rw [← q1, ← q2, ← q3]
  have hx2 := pow_le_pow_left₀ hx hx' 2
  refine (mul_le_mul_of_nonneg_left hx2 (by norm_num)).trans (le_of_eq ?_)
  ring

/-- C54 (partial): whenever the expansion is returned without warning, it is the sum of the first two (or four) terms and the
neglected terms up to the fourth (or fifth) are within both tolerances.

Missing: the early exit for `‖wD‖² < absEps` and angular accelerations with `3 ‖wD‖² h⁴ > 56 ‖O1‖²`; both are excluded here, as
`C54_early_exit_counterexample` and `C54_bound_counterexample` show the claim to be false there. -/
theorem C54_neglected_partial (w wD : Vec3 ℝ) (h relEps absEps : ℝ) (hd : absEps ≤ wD.normSq)
    (hb : 3 * (wD.normSq * h ^ 4) ≤ 56 * (magnusTerm w wD h 0).normSq)
    (hok : (magnusExpansion w wD h relEps absEps).2 = false) :
    ((magnusExpansion w wD h relEps absEps).1 = magnusTerm w wD h 0 + magnusTerm w wD h 1 ∧
      Negligible relEps absEps (magnusTerm w wD h 0) (magnusTerm w wD h 2) ∧
      Negligible relEps absEps (magnusTerm w wD h 0) (magnusTerm w wD h 3)) ∨
    ((magnusExpansion w wD h relEps absEps).1 =
        magnusTerm w wD h 0 + magnusTerm w wD h 1 + magnusTerm w wD h 2 + magnusTerm w wD h 3 ∧
      Negligible relEps absEps (magnusTerm w wD h 0) (magnusTerm w wD h 4)) := by
  revert hok
  have h2 := term2_norm w wD h
  unfold magnusExpansion
  simp only [if_neg (not_lt.2 hd), term0, term1, term2]
  have e3 : magnusTerm w wD h 3 =
    ((28 * (magnusTerm w wD h 0).normSq - 3 * (wD.normSq * h ^ 4)) / 1680) • magnusTerm w wD h 1 := by
    conv_lhs => rw [magnusTerm]
  have e4 : magnusTerm w wD h 4 = (1 / 5040 : ℝ) • ((120 * (magnusTerm w wD h 0).normSq - 5 * (wD.normSq * h ^ 4)) •
      magnusTerm w wD h 2 - (24 * (magnusTerm w wD h 1).normSq) • magnusTerm w wD h 0) := by
    conv_lhs => rw [magnusTerm]
  have ed : wD.normSq * (h * h) * (h * h) = wD.normSq * h ^ 4 := by ring
  rw [ed] at h2 ⊢
  have hD : 0 ≤ wD.normSq * h ^ 4 := mul_nonneg wD.normSq_nonneg (by positivity)
  rw [← e3]
  generalize wD.normSq * h ^ 4 = D at *
  generalize magnusTerm w wD h 0 = O1 at *
  generalize magnusTerm w wD h 1 = O2 at *
  generalize magnusTerm w wD h 2 = O3 at *
  generalize magnusTerm w wD h 3 = O4 at *
  generalize magnusTerm w wD h 4 = O5 at *
  have n1 := O1.normSq_nonneg
  have n2 := O2.normSq_nonneg
  intro hok
  have neg := fun {O : Vec3 ℝ} {x : ℝ} => @negligible_of relEps absEps O1 O x
  generalize min (if 0 < O1.normSq then relEps * relEps * O1.normSq else 1) (absEps * absEps) = eps2 at *
  split at hok
  · rename_i h'
    rw [if_pos h']
    refine .inl ⟨rfl, neg h2.le h'.1, neg ?_ h'.2⟩
    rw [e3, Vec3.normSq_smul]
    have : ((28 * O1.normSq - 3 * D) / 1680) ^ 2 ≤ (O1.normSq / 60) ^ 2 := sq_le_sq.2 (by
      rw [abs_of_nonneg (show 0 ≤ O1.normSq / 60 by positivity)]
      exact abs_le.2 ⟨by linarith, by linarith⟩)
    nlinarith
  · rename_i h'
    rw [if_neg h']
    split at hok
    · rename_i h''
      rw [if_pos h'']
      refine .inr ⟨rfl, neg ?_ h''⟩
      exact term4_bound n1 n2 hD hb h2 e4
    · simp at hok

/-- The hypotheses of `C54_neglected_partial` hold for a rotation with non-constant axis. -/
example : let w : Vec3 ℝ := ⟨1, 0, 0⟩; let wD : Vec3 ℝ := ⟨0, 1 / 100, 0⟩; let h : ℝ := 1 / 10; let eps : ℝ := 1 / 10 ^ 4
    eps ≤ wD.normSq ∧ 3 * (wD.normSq * h ^ 4) ≤ 56 * (magnusTerm w wD h 0).normSq ∧
    (magnusExpansion w wD h eps eps).2 = false ∧ magnusTerm w wD h 1 ≠ 0 := by
  refine ⟨by norm_num [Vec3.normSq, Vec3.dot], by norm_num [magnusTerm, Vec3.normSq, Vec3.dot], ?_, fun h => ?_⟩
  · unfold magnusExpansion
    simp only [term0, term1]
    rw [if_neg (by norm_num [Vec3.normSq, Vec3.dot]), if_pos]
    norm_num [magnusTerm, Vec3.normSq, Vec3.dot]
  · have := congrArg Vec3.z h
    norm_num [magnusTerm] at this

/-- The early exit neglects `O2` however large it is: here it exceeds the tolerance `1e-10` by more than three orders of magnitude. -/
theorem C54_early_exit_counterexample : ∃ w wD : Vec3 ℝ,
    magnusExpansion w wD 1 (1 / 10 ^ 10) (1 / 10 ^ 10) = (magnusTerm w wD 1 0, false) ∧
    ¬ Negligible (1 / 10 ^ 10) (1 / 10 ^ 10) (magnusTerm w wD 1 0) (magnusTerm w wD 1 1) ∧
    ¬ Negligible (1 / 10 ^ 7) (1 / 10 ^ 7) (magnusTerm w wD 1 0) (magnusTerm w wD 1 1) := by
  refine ⟨⟨1, 0, 0⟩, ⟨0, 9 / 10 ^ 6, 0⟩, ?_, ?_, ?_⟩
  · unfold magnusExpansion
    simp only [term0]
    rw [if_pos]
    norm_num [Vec3.normSq, Vec3.dot]
  · rintro ⟨h, -⟩
    norm_num [magnusTerm, Vec3.normSq, Vec3.dot] at h
  · rintro ⟨h, -⟩
    norm_num [magnusTerm, Vec3.normSq, Vec3.dot] at h

/-- Without early exit: `O1 + O2` is returned although the neglected fourth term exceeds the tolerance (`sqn4` is not an upper
bound of its squared norm). -/
theorem C54_bound_counterexample : ∃ w wD : Vec3 ℝ, 1 / 10 ^ 10 ≤ wD.normSq ∧
    magnusExpansion w wD 1 (1 / 10 ^ 10) (1 / 10 ^ 10) = (magnusTerm w wD 1 0 + magnusTerm w wD 1 1, false) ∧
    ¬ Negligible (1 / 10 ^ 10) (1 / 10 ^ 10) (magnusTerm w wD 1 0) (magnusTerm w wD 1 3) := by
  refine ⟨⟨29, 5 / 10 ^ 12, 0⟩, ⟨-56, 0, 0⟩, by norm_num [Vec3.normSq, Vec3.dot], ?_, ?_⟩
  · unfold magnusExpansion
    simp only [term0, term1]
    rw [if_neg (by norm_num [Vec3.normSq, Vec3.dot]), if_pos]
    norm_num [magnusTerm, Vec3.normSq, Vec3.dot]
  · rintro ⟨h, -⟩
    norm_num [magnusTerm, Vec3.normSq, Vec3.dot] at h

end RBDyn
