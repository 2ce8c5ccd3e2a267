import Mathlib.Algebra.Order.Field.Basic
import Mathlib.Data.Rat.Defs
import Mathlib.Algebra.Order.Ring.Rat
import Mathlib.Tactic.Ring
import Mathlib.Tactic.LinearCombination
import Mathlib.Tactic.Abel
import Mathlib.Tactic.FieldSimp
import Mathlib.Analysis.SpecialFunctions.Trigonometric.Basic

/-!
Scalars of the model.

C++ `double` is idealised by an ordered field with a cosine and a sine.  The intended instance is `ℝ`.
The instance `ℚ` (quarter-turn trigonometry: an integer `n` stands for the angle `n·π/2`, every other
rational for the angle `0`) satisfies the same laws and makes concrete examples computable.
-/

namespace RBDyn

/-- Idealised `double`: an ordered field with `cos` and `sin`. -/
class Scalar (K : Type) extends Field K, LinearOrder K, IsStrictOrderedRing K where
  cos : K → K
  sin : K → K
  cos_sq_add_sin_sq : ∀ x, cos x * cos x + sin x * sin x = 1
  cos_zero : cos 0 = 1
  sin_zero : sin 0 = 0
  cos_neg : ∀ x, cos (-x) = cos x
  sin_neg : ∀ x, sin (-x) = - sin x

attribute [simp] Scalar.cos_zero Scalar.sin_zero Scalar.cos_neg Scalar.sin_neg

noncomputable instance : Scalar ℝ where
  cos := Real.cos
  sin := Real.sin
  cos_sq_add_sin_sq x := by have := Real.cos_sq_add_sin_sq x; linarith [this, sq (Real.cos x), sq (Real.sin x)]
  cos_zero := Real.cos_zero
  sin_zero := Real.sin_zero
  cos_neg := Real.cos_neg
  sin_neg := Real.sin_neg

/-- Cosine of `n` quarter turns. -/
def cosQ (n : Int) : ℚ := if n % 4 = 0 then 1 else if n % 4 = 2 then -1 else 0
/-- Sine of `n` quarter turns. -/
def sinQ (n : Int) : ℚ := if n % 4 = 1 then 1 else if n % 4 = 3 then -1 else 0

instance : Scalar ℚ where
  cos q := if q.den = 1 then cosQ q.num else 1
  sin q := if q.den = 1 then sinQ q.num else 0
  cos_sq_add_sin_sq q := by
    by_cases h : q.den = 1
    · have : q.num % 4 = 0 ∨ q.num % 4 = 1 ∨ q.num % 4 = 2 ∨ q.num % 4 = 3 := by omega
      rcases this with h' | h' | h' | h' <;> simp [h, cosQ, sinQ, h']
    · simp [h]
  cos_zero := by simp [cosQ]
  sin_zero := by simp [sinQ]
  cos_neg q := by
    by_cases h : q.den = 1
    · have e0 : ((-q.num) % 4 = 0) ↔ (q.num % 4 = 0) := by omega
      have e2 : ((-q.num) % 4 = 2) ↔ (q.num % 4 = 2) := by omega
      simp only [Rat.neg_den, Rat.neg_num, h, cosQ, if_true, e0, e2]
    · simp [h]
  sin_neg q := by
    by_cases h : q.den = 1
    · have : q.num % 4 = 0 ∨ q.num % 4 = 1 ∨ q.num % 4 = 2 ∨ q.num % 4 = 3 := by omega
      rcases this with h' | h' | h' | h'
      · have : (-q.num) % 4 = 0 := by omega
        simp [h, sinQ, h', this]
      · have : (-q.num) % 4 = 3 := by omega
        simp [h, sinQ, h', this]
      · have : (-q.num) % 4 = 2 := by omega
        simp [h, sinQ, h', this]
      · have : (-q.num) % 4 = 1 := by omega
        simp [h, sinQ, h', this]
    · simp [h]

end RBDyn
