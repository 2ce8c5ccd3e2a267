import Verif.Lemmas.RoundTrip
import Mathlib.Analysis.SpecialFunctions.Complex.Arg

/-! Every rotation matrix is a product of rotations about the axes: the contract of `eulerAngles(0, 1, 2)` can be met. -/

namespace RBDyn
open scoped Mat3

/-- A point of the unit circle is the cosine and the sine of an angle. -/
theorem exists_angle {c s : ℝ} (h : c ^ 2 + s ^ 2 = 1) : ∃ a : ℝ, Real.cos a = c ∧ Real.sin a = s := by
  have h1 : ‖(⟨c, s⟩ : ℂ)‖ = 1 := by
    rw [Complex.norm_def, Complex.normSq_mk, show c * c + s * s = 1 by linear_combination h, Real.sqrt_one]
  have h0 : (⟨c, s⟩ : ℂ) ≠ 0 := fun h => by rw [h] at h1; simp at h1
  refine ⟨Complex.arg ⟨c, s⟩, ?_, ?_⟩
  · rw [Complex.cos_arg h0, h1]; simp
  · rw [Complex.sin_arg, h1]; simp

/-- The equations of a rotation matrix used below. -/
theorem IsRot.eqs {M : Mat3 ℝ} (h : IsRot M) :
    M.m00 * M.m00 + M.m01 * M.m01 + M.m02 * M.m02 = 1 ∧ M.m02 * M.m02 + M.m12 * M.m12 + M.m22 * M.m22 = 1 ∧
    M.m01 * M.m01 + M.m11 * M.m11 + M.m21 * M.m21 = 1 ∧
    M.m10 = M.m02 * M.m21 - M.m01 * M.m22 ∧ M.m11 = M.m00 * M.m22 - M.m02 * M.m20 ∧
    M.m20 = M.m01 * M.m12 - M.m02 * M.m11 ∧ M.m21 = M.m02 * M.m10 - M.m00 * M.m12 := by
  have hc := h.adj_eq_tr
  refine ⟨?_, ?_, ?_, ?_, ?_, ?_, ?_⟩
  · simpa [Mat3.tr] using congrArg Mat3.m00 h.mul_tr
  · simpa [Mat3.tr] using congrArg Mat3.m22 h.tr_mul
  · simpa [Mat3.tr] using congrArg Mat3.m11 h.tr_mul
  · have := congrArg Mat3.m01 hc; simp [Mat3.tr, Mat3.adj] at this; linear_combination -this
  · have := congrArg Mat3.m11 hc; simp [Mat3.tr, Mat3.adj] at this; linear_combination -this
  · have := congrArg Mat3.m02 hc; simp [Mat3.tr, Mat3.adj] at this; linear_combination -this
  · have := congrArg Mat3.m12 hc; simp [Mat3.tr, Mat3.adj] at this; linear_combination -this

/-- The product of the three rotations. -/
theorem angleAxis_xyz (a b c : ℝ) : angleAxis a ⟨1, 0, 0⟩ * angleAxis b ⟨0, 1, 0⟩ * angleAxis c ⟨0, 0, 1⟩ =
    (⟨Real.cos b * Real.cos c, -(Real.cos b * Real.sin c), Real.sin b,
      Real.cos a * Real.sin c + Real.sin a * Real.sin b * Real.cos c,
      Real.cos a * Real.cos c - Real.sin a * Real.sin b * Real.sin c, -(Real.sin a * Real.cos b),
      Real.sin a * Real.sin c - Real.cos a * Real.sin b * Real.cos c,
      Real.sin a * Real.cos c + Real.cos a * Real.sin b * Real.sin c, Real.cos a * Real.cos b⟩ : Mat3 ℝ) := by
  ext <;> simp [angleAxis, Scalar.cos, Scalar.sin] <;> ring

/-- Every rotation is a rotation about `x` times a rotation about `y` times a rotation about `z`. -/
theorem exists_euler {M : Mat3 ℝ} (h : IsRot M) : ∃ v : Vec3 ℝ,
    angleAxis v.x ⟨1, 0, 0⟩ * angleAxis v.y ⟨0, 1, 0⟩ * angleAxis v.z ⟨0, 0, 1⟩ = M := by
  obtain ⟨r0, l2, l1, e10, e11, e20, e21⟩ := h.eqs
  obtain ⟨a00, a01, a02, a10, a11, a12, a20, a21, a22⟩ := M
  dsimp only at r0 l2 l1 e10 e11 e20 e21
  by_cases h2 : a02 * a02 = 1
  · have z00 : a00 = 0 := by
      have : a00 * a00 = 0 := le_antisymm (by linarith [mul_self_nonneg a01]) (mul_self_nonneg _)
      exact mul_self_eq_zero.1 this
    have z01 : a01 = 0 := by
      have : a01 * a01 = 0 := le_antisymm (by linarith [mul_self_nonneg a00]) (mul_self_nonneg _)
      exact mul_self_eq_zero.1 this
    have z12 : a12 = 0 := by
      have : a12 * a12 = 0 := le_antisymm (by linarith [mul_self_nonneg a22]) (mul_self_nonneg _)
      exact mul_self_eq_zero.1 this
    have z22 : a22 = 0 := by
      have : a22 * a22 = 0 := le_antisymm (by linarith [mul_self_nonneg a12]) (mul_self_nonneg _)
      exact mul_self_eq_zero.1 this
    subst z00 z01 z12 z22
    obtain ⟨b, hb1, hb2⟩ := exists_angle (c := 0) (s := a02) (by linarith)
    obtain ⟨a, ha1, ha2⟩ := exists_angle (c := a11) (s := a21) (by linarith)
    refine ⟨⟨a, b, 0⟩, ?_⟩
    rw [angleAxis_xyz]
    ext <;> simp only [hb1, hb2, ha1, ha2, Real.cos_zero, Real.sin_zero] <;> linarith
  · have hpos : 0 < 1 - a02 * a02 := by
      have : a02 * a02 ≤ 1 := by linarith [mul_self_nonneg a00, mul_self_nonneg a01]
      exact sub_pos.2 (lt_of_le_of_ne this h2)
    obtain ⟨q, hqq, hq0⟩ : ∃ q : ℝ, q * q = 1 - a02 * a02 ∧ q ≠ 0 :=
      ⟨_, Real.mul_self_sqrt hpos.le, (Real.sqrt_pos.2 hpos).ne'⟩
    obtain ⟨b, hb1, hb2⟩ := exists_angle (c := q) (s := a02) (by linarith)
    obtain ⟨c, hc1, hc2⟩ := exists_angle (c := a00 / q) (s := -a01 / q) (by
      field_simp; linarith)
    obtain ⟨a, ha1, ha2⟩ := exists_angle (c := a22 / q) (s := -a12 / q) (by
      field_simp; linarith)
    refine ⟨⟨a, b, c⟩, ?_⟩
    rw [angleAxis_xyz]
    ext <;> simp only [hb1, hb2, ha1, ha2, hc1, hc2] <;> field_simp
    · linear_combination -e10 - a02 * e21 - a10 * hqq
    · linear_combination -e11 + a02 * e20 - a11 * hqq
    · linear_combination -e20 + a02 * e11 - a20 * hqq
    · linear_combination -e21 - a02 * e10 - a21 * hqq

end RBDyn
