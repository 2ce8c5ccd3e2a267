import Mathlib.Analysis.SpecialFunctions.Trigonometric.Bounds
import Verif.Lemmas.Integration
import Verif.Lemmas.Coercive

/-! The error of one step of the integration of a joint. Estimates are made in families of steps: `Near S φ f g` says that on the set `S` the functions
`f` and `g` are bounded and differ by at most a constant times `φ`. -/

namespace RBDyn
open scoped Mat3

variable {X : Type} {S : Set X} {φ h : X → ℝ}

/-- Bounded functions that differ by at most a constant times `φ`. -/
def Near (S : Set X) (φ f g : X → ℝ) : Prop := ∃ K, 0 ≤ K ∧ ∀ x ∈ S, |f x - g x| ≤ K * |φ x| ∧ |f x| ≤ K ∧ |g x| ≤ K

theorem Near.const (c : ℝ) : Near S φ (fun _ => c) fun _ => c :=
  ⟨|c|, abs_nonneg c, fun x _ => ⟨by rw [sub_self, abs_zero]; positivity, le_rfl, le_rfl⟩⟩

theorem Near.of_bound {f : X → ℝ} {K : ℝ} (hK : 0 ≤ K) (hf : ∀ x ∈ S, |f x| ≤ K) : Near S φ f f :=
  ⟨K, hK, fun x hx => ⟨by rw [sub_self, abs_zero]; positivity, hf x hx, hf x hx⟩⟩

theorem Near.add {f f' g g' : X → ℝ} (h1 : Near S φ f f') (h2 : Near S φ g g') : Near S φ (fun x => f x + g x) fun x => f' x + g' x := by
  obtain ⟨K, hK, h1⟩ := h1
  obtain ⟨L, hL, h2⟩ := h2
  refine ⟨K + L, by positivity, fun x hx => ?_⟩
  obtain ⟨a1, a2, a3⟩ := h1 x hx
  obtain ⟨b1, b2, b3⟩ := h2 x hx
  refine ⟨?_, (abs_add_le _ _).trans (add_le_add a2 b2), (abs_add_le _ _).trans (add_le_add a3 b3)⟩
  rw [add_sub_add_comm, add_mul]
  exact (abs_add_le _ _).trans (add_le_add a1 b1)

theorem Near.mul {f f' g g' : X → ℝ} (h1 : Near S φ f f') (h2 : Near S φ g g') : Near S φ (fun x => f x * g x) fun x => f' x * g' x := by
  obtain ⟨K, hK, h1⟩ := h1
  obtain ⟨L, hL, h2⟩ := h2
  have hKL : 0 ≤ K * L := by positivity
  refine ⟨2 * (K * L), by positivity, fun x hx => ?_⟩
  obtain ⟨a1, a2, a3⟩ := h1 x hx
  obtain ⟨b1, b2, b3⟩ := h2 x hx
  have e1 : |f x * g x| ≤ K * L := by rw [abs_mul]; exact mul_le_mul a2 b2 (abs_nonneg _) hK
  have e2 : |f' x * g' x| ≤ K * L := by rw [abs_mul]; exact mul_le_mul a3 b3 (abs_nonneg _) hK
  refine ⟨?_, by linarith, by linarith⟩
  have e : f x * g x - f' x * g' x = (f x - f' x) * g x + f' x * (g x - g' x) := by ring
  rw [e]
  refine (abs_add_le _ _).trans ?_
  rw [abs_mul, abs_mul]
  have c1 := mul_le_mul a1 b2 (abs_nonneg _) (mul_nonneg hK (abs_nonneg (φ x)))
  have c2 := mul_le_mul a3 b1 (abs_nonneg _) hK
  linarith

theorem Near.neg {f f' : X → ℝ} (h1 : Near S φ f f') : Near S φ (fun x => -f x) fun x => -f' x := by
  obtain ⟨K, hK, h1⟩ := h1
  refine ⟨K, hK, fun x hx => ?_⟩
  obtain ⟨a1, a2, a3⟩ := h1 x hx
  exact ⟨by rw [← neg_sub', abs_neg]; exact a1, by rw [abs_neg]; exact a2, by rw [abs_neg]; exact a3⟩

theorem Near.sub {f f' g g' : X → ℝ} (h1 : Near S φ f f') (h2 : Near S φ g g') : Near S φ (fun x => f x - g x) fun x => f' x - g' x := by
  simp only [sub_eq_add_neg]
  exact h1.add h2.neg

theorem Near.div {f f' : X → ℝ} (h1 : Near S φ f f') (c : ℝ) : Near S φ (fun x => f x / c) fun x => f' x / c := by
  simp only [div_eq_mul_inv]
  exact h1.mul (.const _)

theorem Near.bounded {f g : X → ℝ} (h : Near S φ f g) {ψ : X → ℝ} : Near S ψ g g := by
  obtain ⟨K, hK, h⟩ := h
  exact .of_bound hK fun x hx => (h x hx).2.2

theorem Near.bounded_left {f g : X → ℝ} (h : Near S φ f g) {ψ : X → ℝ} : Near S ψ f f := by
  obtain ⟨K, hK, h⟩ := h
  exact .of_bound hK fun x hx => (h x hx).2.1

theorem Near.trans {f g k : X → ℝ} (h1 : Near S φ f g) (h2 : Near S φ g k) : Near S φ f k := by
  have := (h1.sub h2.bounded).add h2
  obtain ⟨K, hK, h1⟩ := h1
  obtain ⟨L, hL, h2⟩ := h2
  refine ⟨K + L, by positivity, fun x hx => ?_⟩
  obtain ⟨a1, a2, a3⟩ := h1 x hx
  obtain ⟨b1, b2, b3⟩ := h2 x hx
  refine ⟨?_, by linarith, by linarith⟩
  rw [← sub_add_sub_cancel (f x) (g x) (k x), add_mul]
  exact (abs_add_le _ _).trans (add_le_add a1 b1)

/-- On bounded steps, differences of second order are differences of first order. -/
theorem Near.lower {f g : X → ℝ} (hh : Near S φ h h) (h1 : Near S (fun x => h x ^ 2) f g) : Near S h f g := by
  obtain ⟨K, hK, h1⟩ := h1
  obtain ⟨L, hL, h2⟩ := hh
  refine ⟨K * L + K, by positivity, fun x hx => ?_⟩
  obtain ⟨a1, a2, a3⟩ := h1 x hx
  have hp : 0 ≤ K * L := by positivity
  refine ⟨a1.trans ?_, by linarith, by linarith⟩
  show K * |h x ^ 2| ≤ _
  rw [pow_two, abs_mul, ← mul_assoc]
  refine mul_le_mul_of_nonneg_right ?_ (abs_nonneg _)
  have := mul_le_mul_of_nonneg_left (h2 x hx).2.1 hK
  linarith

/-- A step times a difference of first order is a difference of second order. -/
theorem Near.raise {f g : X → ℝ} (hh : Near S φ h h) (h1 : Near S h f g) : Near S (fun x => h x ^ 2) (fun x => h x * f x) fun x => h x * g x := by
  obtain ⟨K, hK, h1⟩ := h1
  obtain ⟨L, hL, h2⟩ := hh
  have hp : 0 ≤ L * K := by positivity
  refine ⟨L * K + K, by positivity, fun x hx => ?_⟩
  obtain ⟨a1, a2, a3⟩ := h1 x hx
  have b := (h2 x hx).2.1
  refine ⟨?_, ?_, ?_⟩
  · show |h x * f x - h x * g x| ≤ _ * |h x ^ 2|
    rw [← mul_sub, abs_mul, pow_two, abs_mul]
    have := mul_le_mul_of_nonneg_left a1 (abs_nonneg (h x))
    nlinarith [abs_nonneg (h x), mul_nonneg hp (mul_nonneg (abs_nonneg (h x)) (abs_nonneg (h x)))]
  · rw [abs_mul]
    have := mul_le_mul b a2 (abs_nonneg _) hL
    linarith
  · rw [abs_mul]
    have := mul_le_mul b a3 (abs_nonneg _) hL
    linarith

theorem Near.sq (hh : Near S φ h h) : Near S (fun x => h x ^ 2) (fun x => h x * h x) fun _ => 0 := by
  obtain ⟨L, hL, h2⟩ := hh
  refine ⟨1 + L * L, by positivity, fun x hx => ?_⟩
  have b := (h2 x hx).2.1
  refine ⟨?_, ?_, by rw [abs_zero]; positivity⟩
  · show |h x * h x - 0| ≤ (1 + L * L) * |h x ^ 2|
    rw [sub_zero, ← pow_two, add_mul, one_mul]
    have : 0 ≤ L * L * |h x ^ 2| := by positivity
    linarith
  · rw [abs_mul]
    have := mul_le_mul b b (abs_nonneg _) hL
    linarith

theorem Near.cases {f a b c d g : X → ℝ} (hf : ∀ x, f x = a x ∨ f x = b x ∨ f x = c x ∨ f x = d x) (h1 : Near S φ a g) (h2 : Near S φ b g)
    (h3 : Near S φ c g) (h4 : Near S φ d g) : Near S φ f g := by
  obtain ⟨K1, hK1, h1⟩ := h1
  obtain ⟨K2, hK2, h2⟩ := h2
  obtain ⟨K3, hK3, h3⟩ := h3
  obtain ⟨K4, hK4, h4⟩ := h4
  refine ⟨K1 + K2 + K3 + K4, by positivity, fun x hx => ?_⟩
  have key : ∀ (K : ℝ) (u : ℝ), K ≤ K1 + K2 + K3 + K4 → (|u - g x| ≤ K * |φ x| ∧ |u| ≤ K ∧ |g x| ≤ K) →
      |u - g x| ≤ (K1 + K2 + K3 + K4) * |φ x| ∧ |u| ≤ K1 + K2 + K3 + K4 ∧ |g x| ≤ K1 + K2 + K3 + K4 := fun K u hK h =>
    ⟨h.1.trans (mul_le_mul_of_nonneg_right hK (abs_nonneg _)), h.2.1.trans hK, h.2.2.trans hK⟩
  rcases hf x with e | e | e | e <;> rw [e]
  · exact key K1 _ (by linarith) (h1 x hx)
  · exact key K2 _ (by linarith) (h2 x hx)
  · exact key K3 _ (by linarith) (h3 x hx)
  · exact key K4 _ (by linarith) (h4 x hx)

theorem Near.congr {f g f' g' : X → ℝ} (h : Near S φ f g) (h1 : ∀ x, f' x = f x) (h2 : ∀ x, g' x = g x) : Near S φ f' g' := by
  rw [funext h1, funext h2]
  exact h

/-! ### Vectors and quaternions -/

structure NearV (S : Set X) (φ : X → ℝ) (v w : X → Vec3 ℝ) : Prop where
  x : Near S φ (fun t => (v t).x) fun t => (w t).x
  y : Near S φ (fun t => (v t).y) fun t => (w t).y
  z : Near S φ (fun t => (v t).z) fun t => (w t).z

structure NearQ (S : Set X) (φ : X → ℝ) (p q : X → Quat ℝ) : Prop where
  w : Near S φ (fun t => (p t).w) fun t => (q t).w
  x : Near S φ (fun t => (p t).x) fun t => (q t).x
  y : Near S φ (fun t => (p t).y) fun t => (q t).y
  z : Near S φ (fun t => (p t).z) fun t => (q t).z

theorem NearV.congr {f g f' g' : X → Vec3 ℝ} (h : NearV S φ f g) (h1 : ∀ x, f' x = f x) (h2 : ∀ x, g' x = g x) : NearV S φ f' g' := by
  rw [funext h1, funext h2]
  exact h

theorem NearV.add {u u' v v' : X → Vec3 ℝ} (h1 : NearV S φ u u') (h2 : NearV S φ v v') : NearV S φ (fun x => u x + v x) fun x => u' x + v' x :=
  ⟨h1.x.add h2.x, h1.y.add h2.y, h1.z.add h2.z⟩

theorem NearV.sub {u u' v v' : X → Vec3 ℝ} (h1 : NearV S φ u u') (h2 : NearV S φ v v') : NearV S φ (fun x => u x - v x) fun x => u' x - v' x :=
  ⟨h1.x.sub h2.x, h1.y.sub h2.y, h1.z.sub h2.z⟩

theorem NearV.smul {c c' : X → ℝ} {v v' : X → Vec3 ℝ} (h1 : Near S φ c c') (h2 : NearV S φ v v') : NearV S φ (fun x => c x • v x) fun x => c' x • v' x :=
  ⟨h1.mul h2.x, h1.mul h2.y, h1.mul h2.z⟩

theorem NearV.cross {u u' v v' : X → Vec3 ℝ} (h1 : NearV S φ u u') (h2 : NearV S φ v v') :
    NearV S φ (fun x => (u x).cross (v x)) fun x => (u' x).cross (v' x) :=
  ⟨(h1.y.mul h2.z).sub (h1.z.mul h2.y), (h1.z.mul h2.x).sub (h1.x.mul h2.z), (h1.x.mul h2.y).sub (h1.y.mul h2.x)⟩

theorem NearV.dot {u u' v v' : X → Vec3 ℝ} (h1 : NearV S φ u u') (h2 : NearV S φ v v') :
    Near S φ (fun x => (u x).dot (v x)) fun x => (u' x).dot (v' x) :=
  ((h1.x.mul h2.x).add (h1.y.mul h2.y)).add (h1.z.mul h2.z)

theorem NearV.normSq {u u' : X → Vec3 ℝ} (h1 : NearV S φ u u') : Near S φ (fun x => (u x).normSq) fun x => (u' x).normSq := h1.dot h1

theorem NearV.bounded {f g : X → Vec3 ℝ} (h : NearV S φ f g) {ψ : X → ℝ} : NearV S ψ g g := ⟨h.x.bounded, h.y.bounded, h.z.bounded⟩

theorem NearV.raise {f g : X → Vec3 ℝ} (hh : Near S φ h h) (h1 : NearV S h f g) : NearV S (fun x => h x ^ 2) (fun x => h x • f x) fun x => h x • g x :=
  ⟨hh.raise h1.x, hh.raise h1.y, hh.raise h1.z⟩

theorem NearQ.lower {f g : X → Quat ℝ} (hh : Near S φ h h) (h1 : NearQ S (fun x => h x ^ 2) f g) : NearQ S h f g :=
  ⟨hh.lower h1.w, hh.lower h1.x, hh.lower h1.y, hh.lower h1.z⟩

theorem NearQ.trans {f g k : X → Quat ℝ} (h1 : NearQ S φ f g) (h2 : NearQ S φ g k) : NearQ S φ f k :=
  ⟨h1.w.trans h2.w, h1.x.trans h2.x, h1.y.trans h2.y, h1.z.trans h2.z⟩

theorem NearQ.mul {u u' v v' : X → Quat ℝ} (h1 : NearQ S φ u u') (h2 : NearQ S φ v v') : NearQ S φ (fun x => (u x).mul (v x)) fun x => (u' x).mul (v' x) :=
  ⟨(((h1.w.mul h2.w).sub (h1.x.mul h2.x)).sub (h1.y.mul h2.y)).sub (h1.z.mul h2.z),
    (((h1.w.mul h2.x).add (h1.x.mul h2.w)).add (h1.y.mul h2.z)).sub (h1.z.mul h2.y),
    (((h1.w.mul h2.y).add (h1.y.mul h2.w)).add (h1.z.mul h2.x)).sub (h1.x.mul h2.z),
    (((h1.w.mul h2.z).add (h1.z.mul h2.w)).add (h1.x.mul h2.y)).sub (h1.y.mul h2.x)⟩

theorem NearQ.rotate {u u' : X → Quat ℝ} {v v' : X → Vec3 ℝ} (h1 : NearQ S φ u u') (h2 : NearV S φ v v') :
    NearV S φ (fun x => (u x).toRot *ᵥ v x) fun x => (u' x).toRot *ᵥ v' x := by
  obtain ⟨w, x, y, z⟩ := h1
  obtain ⟨a, b, c⟩ := h2
  constructor
  all_goals
    simp only [Mat3.mulVec, Quat.toRot]
    repeat' first | assumption | apply Near.const | apply Near.sub | apply Near.add | apply Near.mul

/-! ### Trigonometric functions -/

theorem abs_sinc_sub_one (n : ℝ) : |Real.sinc n - 1| ≤ 2 * n ^ 2 := by
  have main : ∀ n : ℝ, 0 < n → |Real.sinc n - 1| ≤ 2 * n ^ 2 := fun n hn => by
    have e : Real.sinc n = Real.sin n / n := Real.sinc_of_ne_zero hn.ne'
    have hlt : Real.sin n / n ≤ 1 := (div_le_one hn).2 (Real.sin_lt hn).le
    rw [abs_of_nonpos (by rw [e]; linarith), neg_sub, e]
    rcases le_or_gt n 1 with h1 | h1
    · have h2 : n - n ^ 3 / 6 < Real.sin n := Real.sin_gt_sub_cube hn
      have h3 : 1 - n ^ 2 / 4 ≤ Real.sin n / n := by
        rw [le_div_iff₀ hn]
        nlinarith
      nlinarith
    · have h2 : -1 ≤ Real.sin n / n := by
        rw [le_div_iff₀ hn]
        linarith [Real.neg_one_le_sin n]
      nlinarith
  rcases lt_trichotomy n 0 with h | h | h
  · have := main (-n) (by linarith)
    rwa [Real.sinc_neg, neg_sq] at this
  · simp [h]
  · exact main n h

theorem Near.cos {d : X → ℝ} (hd : Near S (fun x => h x ^ 2) (fun x => d x * d x) fun _ => 0) :
    Near S (fun x => h x ^ 2) (fun x => Real.cos (d x)) fun _ => 1 := by
  obtain ⟨K, hK, hd⟩ := hd
  refine ⟨K + 1, by positivity, fun x hx => ?_⟩
  have h1 := (hd x hx).1
  rw [sub_zero] at h1
  refine ⟨?_, (Real.abs_cos_le_one _).trans (by linarith), by rw [abs_one]; linarith⟩
  have h2 := Real.one_sub_sq_div_two_le_cos (x := d x)
  have h3 := Real.cos_le_one (d x)
  have h4 := le_abs_self (d x * d x)
  have h5 := abs_nonneg (h x ^ 2)
  rw [abs_of_nonpos (by linarith)]
  nlinarith [sq_nonneg (d x)]

theorem Near.sinc {d : X → ℝ} (hd : Near S (fun x => h x ^ 2) (fun x => d x * d x) fun _ => 0) :
    Near S (fun x => h x ^ 2) (fun x => Real.sinc (d x)) fun _ => 1 := by
  obtain ⟨K, hK, hd⟩ := hd
  refine ⟨2 * K + 1, by positivity, fun x hx => ?_⟩
  have h1 := (hd x hx).1
  rw [sub_zero] at h1
  have h2 := abs_sinc_sub_one (d x)
  have h4 := le_abs_self (d x * d x)
  have h5 := abs_nonneg (h x ^ 2)
  refine ⟨by nlinarith, (Real.abs_sinc_le_one _).trans (by linarith), by rw [abs_one]; linarith⟩

theorem Near.sin {d : X → ℝ} (hd : Near S (fun x => h x ^ 2) (fun x => d x * d x) fun _ => 0) (hb : Near S φ d d) :
    Near S (fun x => h x ^ 2) (fun x => Real.sin (d x)) d :=
  ((Near.sinc hd).mul (hb.bounded (ψ := fun x => h x ^ 2))).congr (fun _ => (sinc_mul _).symm) fun _ => (one_mul _).symm

/-! ### The Magnus expansion -/

theorem magnus_values (w wD : Vec3 ℝ) (step re ae : ℝ) :
    (magnusExpansion w wD step re ae).1 = (step / 2) • (w + (w + step • wD)) ∨
    (magnusExpansion w wD step re ae).1 = (step / 2) • (w + (w + step • wD)) + (step * step / 12) • w.cross (w + step • wD) ∨
    (magnusExpansion w wD step re ae).1 = (step / 2) • (w + (w + step • wD)) + (step * step / 12) • w.cross (w + step • wD) +
      (step * step / 20) • wD.cross ((step * step / 12) • w.cross (w + step • wD)) +
      ((28 * ((step / 2) • (w + (w + step • wD))).normSq - 3 * (wD.normSq * (step * step) * (step * step))) / 1680) •
        ((step * step / 12) • w.cross (w + step • wD)) ∨
    (magnusExpansion w wD step re ae).1 = (step / 2) • (w + (w + step • wD)) + (step * step / 12) • w.cross (w + step • wD) +
      (step * step / 20) • wD.cross ((step * step / 12) • w.cross (w + step • wD)) +
      ((28 * ((step / 2) • (w + (w + step • wD))).normSq - 3 * (wD.normSq * (step * step) * (step * step))) / 1680) •
        ((step * step / 12) • w.cross (w + step • wD)) +
      (1 / 5040 : ℝ) • ((120 * ((step / 2) • (w + (w + step • wD))).normSq - 5 * (wD.normSq * (step * step) * (step * step))) •
        ((step * step / 20) • wD.cross ((step * step / 12) • w.cross (w + step • wD))) -
        (24 * ((step * step / 12) • w.cross (w + step • wD)).normSq) • ((step / 2) • (w + (w + step • wD)))) := by
  unfold magnusExpansion
  dsimp only
  by_cases c1 : wD.normSq < ae
  · rw [if_pos c1]
    exact .inl rfl
  rw [if_neg c1]
  generalize min (if 0 < ((step / 2) • (w + (w + step • wD))).normSq then re * re * ((step / 2) • (w + (w + step • wD))).normSq else 1) (ae * ae) = e
  by_cases c2 : wD.normSq * (step * step) * (step * step) * ((step * step / 12) • w.cross (w + step • wD)).normSq / 400 < e ∧
      ((step / 2) • (w + (w + step • wD))).normSq * ((step / 2) • (w + (w + step • wD))).normSq * ((step * step / 12) • w.cross (w + step • wD)).normSq / 3600 < e
  · rw [if_pos c2]
    exact .inr (.inl rfl)
  rw [if_neg c2]
  split
  · exact .inr (.inr (.inl rfl))
  · exact .inr (.inr (.inr rfl))

theorem magnus_near {w wD : X → Vec3 ℝ} {re ae : X → ℝ} (hh : Near S φ h h) (hw : NearV S φ w w) (hD : NearV S φ wD wD) :
    NearV S (fun x => h x ^ 2) (fun x => (magnusExpansion (w x) (wD x) (h x) (re x) (ae x)).1) fun x => h x • w x := by
  have hh' : Near S (fun x => h x ^ 2) h h := hh.bounded
  have hw' : NearV S (fun x => h x ^ 2) w w := hw.bounded
  have hD' : NearV S (fun x => h x ^ 2) wD wD := hD.bounded
  have h2 := hh.sq
  have w1 : NearV S (fun x => h x ^ 2) (fun x => w x + h x • wD x) fun x => w x + h x • wD x := hw'.add (.smul hh' hD')
  have O1 : NearV S (fun x => h x ^ 2) (fun x => (h x / 2) • (w x + (w x + h x • wD x))) fun x => h x • w x := by
    have := (NearV.smul hh' hw').add (.smul h2 (.smul (.const (1 / 2)) hD'))
    refine this.congr (fun x => ?_) fun x => ?_
    · ext <;> simp <;> ring
    · ext <;> simp
  have O2 : NearV S (fun x => h x ^ 2) (fun x => (h x * h x / 12) • (w x).cross (w x + h x • wD x)) fun _ => 0 := by
    refine (NearV.smul (h2.div 12) (hw'.cross w1)).congr (fun x => rfl) fun x => ?_
    ext <;> simp
  have O3 : NearV S (fun x => h x ^ 2) (fun x => (h x * h x / 20) • (wD x).cross ((h x * h x / 12) • (w x).cross (w x + h x • wD x))) fun _ => 0 := by
    refine (NearV.smul (h2.div 20) (hD'.cross O2)).congr (fun x => rfl) fun x => ?_
    ext <;> simp
  have hn : Near S (fun x => h x ^ 2) (fun x => (wD x).normSq * (h x * h x) * (h x * h x)) fun x => (wD x).normSq * 0 * 0 := (hD'.normSq.mul h2).mul h2
  have O4 : NearV S (fun x => h x ^ 2) (fun x => ((28 * ((h x / 2) • (w x + (w x + h x • wD x))).normSq -
      3 * ((wD x).normSq * (h x * h x) * (h x * h x))) / 1680) • ((h x * h x / 12) • (w x).cross (w x + h x • wD x))) fun _ => 0 := by
    refine (NearV.smul (((((Near.const 28).mul O1.normSq).sub ((Near.const 3).mul hn)).div 1680)) O2).congr (fun x => rfl) fun x => ?_
    ext <;> simp
  have O5 : NearV S (fun x => h x ^ 2) (fun x => (1 / 5040 : ℝ) • ((120 * ((h x / 2) • (w x + (w x + h x • wD x))).normSq -
        5 * ((wD x).normSq * (h x * h x) * (h x * h x))) •
        ((h x * h x / 20) • (wD x).cross ((h x * h x / 12) • (w x).cross (w x + h x • wD x))) -
        (24 * ((h x * h x / 12) • (w x).cross (w x + h x • wD x)).normSq) • ((h x / 2) • (w x + (w x + h x • wD x))))) fun _ => 0 := by
    refine (NearV.smul (.const (1 / 5040)) (.sub (.smul (((Near.const 120).mul O1.normSq).sub ((Near.const 5).mul hn)) O3)
      (.smul ((Near.const 24).mul O2.normSq) O1))).congr (fun x => rfl) fun x => ?_
    ext <;> simp [Vec3.normSq, Vec3.dot]
  have m2 := O1.add O2
  have m3 := (m2.add O3).add O4
  have m4 := m3.add O5
  have c := fun x => magnus_values (w x) (wD x) (h x) (re x) (ae x)
  have key := fun (p : Vec3 ℝ → ℝ) x =>
    (c x).imp (congrArg p) fun h => h.imp (congrArg p) fun h => h.imp (congrArg p) (congrArg p)
  refine ⟨Near.cases (key fun v => v.x) O1.x ?_ ?_ ?_, Near.cases (key fun v => v.y) O1.y ?_ ?_ ?_, Near.cases (key fun v => v.z) O1.z ?_ ?_ ?_⟩
  · exact m2.x.congr (fun _ => rfl) fun x => by simp
  · exact m3.x.congr (fun _ => rfl) fun x => by simp
  · exact m4.x.congr (fun _ => rfl) fun x => by simp
  · exact m2.y.congr (fun _ => rfl) fun x => by simp
  · exact m3.y.congr (fun _ => rfl) fun x => by simp
  · exact m4.y.congr (fun _ => rfl) fun x => by simp
  · exact m2.z.congr (fun _ => rfl) fun x => by simp
  · exact m3.z.congr (fun _ => rfl) fun x => by simp
  · exact m4.z.congr (fun _ => rfl) fun x => by simp

/-- The integrated quaternion is the product with `(1, h w / 2)`, up to second order. -/
theorem so3_near {q : X → Quat ℝ} {w wD : X → Vec3 ℝ} {re ae : X → ℝ} (hh : Near S φ h h) (hq : NearQ S (fun x => h x ^ 2) q q) (hw : NearV S φ w w)
    (hD : NearV S φ wD wD) : NearQ S (fun x => h x ^ 2)
      (fun x => (q x).mul (qexp ((1 / 2 : ℝ) • (magnusExpansion (w x) (wD x) (h x) (re x) (ae x)).1)))
      fun x => (q x).mul ⟨1, h x * (w x).x / 2, h x * (w x).y / 2, h x * (w x).z / 2⟩ := by
  have hm := NearV.smul (.const (1 / 2 : ℝ)) (magnus_near (re := re) (ae := ae) hh hw hD)
  set O := fun x => (1 / 2 : ℝ) • (magnusExpansion (w x) (wD x) (h x) (re x) (ae x)).1
  have hn : Near S (fun x => h x ^ 2) (fun x => √(O x).normSq * √(O x).normSq) fun _ => 0 := by
    have hz : Near S (fun x => h x ^ 2) (fun x => ((1 / 2 : ℝ) • h x • w x).normSq) fun _ => 0 := by
      refine ((hh.sq.mul (hw.bounded.normSq)).mul (.const (1 / 4))).congr (fun x => ?_) fun x => by ring
      rw [Vec3.normSq_smul, Vec3.normSq_smul]
      ring
    refine (hm.normSq.trans hz).congr (fun x => ?_) fun _ => rfl
    exact Real.mul_self_sqrt (Vec3.normSq_nonneg _)
  refine hq.mul ⟨Near.cos hn, ?_, ?_, ?_⟩
  · exact ((Near.sinc hn).mul hm.x).congr (fun _ => rfl) fun x => by simp; ring
  · exact ((Near.sinc hn).mul hm.y).congr (fun _ => rfl) fun x => by simp; ring
  · exact ((Near.sinc hn).mul hm.z).congr (fun _ => rfl) fun x => by simp; ring

end RBDyn
