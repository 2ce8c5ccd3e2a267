import Mathlib.Analysis.Quaternion
import Mathlib.Analysis.Calculus.MeanValue
import Mathlib.Analysis.Calculus.Deriv.Star
import Verif.Lemmas.Taylor
import Mathlib.Data.Real.Star
import Verif.Props.Magnus
import Verif.Props.IntegrationExact

/-! The exponential of half a rotation vector, its derivative, and the distance between quaternions. -/

namespace RBDyn
open scoped Mat3 Quaternion

/-- A quaternion as one of the library. -/
def Quat.toH (q : Quat ℝ) : ℍ[ℝ] := ⟨q.w, q.x, q.y, q.z⟩

/-- A vector as a quaternion without real part. -/
def Vec3.toH (v : Vec3 ℝ) : ℍ[ℝ] := ⟨0, v.x, v.y, v.z⟩

@[simp] theorem Quat.toH_re (q : Quat ℝ) : q.toH.re = q.w := rfl
@[simp] theorem Quat.toH_imI (q : Quat ℝ) : q.toH.imI = q.x := rfl
@[simp] theorem Quat.toH_imJ (q : Quat ℝ) : q.toH.imJ = q.y := rfl
@[simp] theorem Quat.toH_imK (q : Quat ℝ) : q.toH.imK = q.z := rfl
@[simp] theorem Vec3.toH_re (v : Vec3 ℝ) : v.toH.re = 0 := rfl
@[simp] theorem Vec3.toH_imI (v : Vec3 ℝ) : v.toH.imI = v.x := rfl
@[simp] theorem Vec3.toH_imJ (v : Vec3 ℝ) : v.toH.imJ = v.y := rfl
@[simp] theorem Vec3.toH_imK (v : Vec3 ℝ) : v.toH.imK = v.z := rfl

theorem Quat.toH_mul (p q : Quat ℝ) : (p.mul q).toH = p.toH * q.toH := by
  ext <;> simp [Quat.mul] <;> ring

theorem Quat.toH_norm (q : Quat ℝ) : ‖q.toH‖ = √q.normSq := by
  rw [← Real.sqrt_sq (norm_nonneg q.toH), sq, ← Quaternion.normSq_eq_norm_mul_self, Quaternion.normSq_def']
  simp only [Quat.toH, Quat.normSq]
  congr 1
  ring

theorem Quat.toH_inj {p q : Quat ℝ} (h : p.toH = q.toH) : p = q := by
  have h1 := congrArg (·.re) h
  have h2 := congrArg (·.imI) h
  have h3 := congrArg (·.imJ) h
  have h4 := congrArg (·.imK) h
  ext
  · exact h1
  · exact h2
  · exact h3
  · exact h4

theorem Vec3.toH_norm (v : Vec3 ℝ) : ‖v.toH‖ = √v.normSq := by
  rw [← Real.sqrt_sq (norm_nonneg v.toH), sq, ← Quaternion.normSq_eq_norm_mul_self, Quaternion.normSq_def']
  simp only [Vec3.toH, Vec3.normSq, Vec3.dot]
  congr 1
  ring

theorem Vec3.toH_add (u v : Vec3 ℝ) : (u + v).toH = u.toH + v.toH := by
  ext <;> simp

theorem Vec3.toH_sub (u v : Vec3 ℝ) : (u - v).toH = u.toH - v.toH := by
  ext <;> simp

theorem Vec3.toH_smul (c : ℝ) (v : Vec3 ℝ) : (c • v).toH = c • v.toH := by
  ext <;> simp

theorem Vec3.toH_star (v : Vec3 ℝ) : star v.toH = -v.toH := by
  ext <;> simp

theorem hasDerivAt_toH {f : ℝ → Quat ℝ} {f' : Quat ℝ} {t : ℝ} (h0 : HasDerivAt (fun s => (f s).w) f'.w t)
    (h1 : HasDerivAt (fun s => (f s).x) f'.x t) (h2 : HasDerivAt (fun s => (f s).y) f'.y t)
    (h3 : HasDerivAt (fun s => (f s).z) f'.z t) : HasDerivAt (fun s => (f s).toH) f'.toH t := by
  have h := (((h0.smul_const (1 : ℍ[ℝ])).add (h1.smul_const (⟨0, 1, 0, 0⟩ : Quat ℝ).toH)).add
    (h2.smul_const (⟨0, 0, 1, 0⟩ : Quat ℝ).toH)).add (h3.smul_const (⟨0, 0, 0, 1⟩ : Quat ℝ).toH)
  have e : ∀ q : Quat ℝ, q.toH = q.w • (1 : ℍ[ℝ]) + q.x • (⟨0, 1, 0, 0⟩ : Quat ℝ).toH + q.y • (⟨0, 0, 1, 0⟩ : Quat ℝ).toH +
      q.z • (⟨0, 0, 0, 1⟩ : Quat ℝ).toH := by
    intro q
    ext <;> simp
  rw [e f']
  have e2 : (fun s => (f s).toH) = fun s => (f s).w • (1 : ℍ[ℝ]) + (f s).x • (⟨0, 1, 0, 0⟩ : Quat ℝ).toH + (f s).y • (⟨0, 0, 1, 0⟩ : Quat ℝ).toH +
      (f s).z • (⟨0, 0, 0, 1⟩ : Quat ℝ).toH := funext fun s => e (f s)
  rw [e2]
  exact h

theorem star_smul' (r : ℝ) (x : ℍ[ℝ]) : star (r • x) = r • star x := by ext <;> simp

instance : StarModule ℝ ℍ[ℝ] := ⟨fun r x => by rw [star_smul']; simp⟩

/-- Quaternions that turn at the rates `a` and `b` in their own frames stay as close as the rates are. -/
theorem quat_dist {p q : ℝ → ℍ[ℝ]} {a b : ℝ → Vec3 ℝ} {h C : ℝ} (h0 : p 0 = q 0) (hn : ‖q 0‖ = 1) (hpn : ∀ t, ‖p t‖ = 1)
    (hqn : ∀ t, ‖q t‖ = 1)
    (hp : ∀ t, HasDerivAt p ((1 / 2 : ℝ) • (p t * (a t).toH)) t) (hq : ∀ t, HasDerivAt q ((1 / 2 : ℝ) • (q t * (b t).toH)) t)
    (hC : ∀ t, |t| ≤ |h| → √(a t - b t).normSq ≤ C) : ‖p h - q h‖ ≤ C / 2 * |h| := by
  have hd : ∀ t, HasDerivAt (fun s => p s * star (q s)) ((1 / 2 : ℝ) • (p t * (a t - b t).toH * star (q t))) t := by
    intro t
    refine ((hp t).mul (hq t).star).congr_deriv ?_
    rw [Vec3.toH_sub, star_smul', star_mul, Vec3.toH_star]
    rw [smul_mul_assoc, mul_smul_comm, ← smul_add]
    congr 1
    noncomm_ring
  have hb : ∀ t ∈ Set.uIcc 0 h, ‖(1 / 2 : ℝ) • (p t * (a t - b t).toH * star (q t))‖ ≤ C / 2 := by
    intro t ht
    have ht' : |t| ≤ |h| := by
      have := Set.abs_sub_left_of_mem_uIcc ht
      simpa using this
    rw [norm_smul, norm_mul, norm_mul, hpn, norm_star, hqn, Vec3.toH_norm]
    have := hC t ht'
    norm_num
    linarith
  have := Convex.norm_image_sub_le_of_norm_hasDerivWithin_le (s := Set.uIcc 0 h) (fun t ht => (hd t).hasDerivWithinAt) hb
    (convex_uIcc 0 h) Set.left_mem_uIcc Set.right_mem_uIcc
  have hqq : ∀ t, q t * star (q t) = 1 := by
    intro t
    rw [Quaternion.self_mul_star, Quaternion.normSq_eq_norm_mul_self, hqn]
    simp
  rw [h0, hqq, Real.norm_eq_abs, sub_zero] at this
  have e : p h * star (q h) - 1 = (p h - q h) * star (q h) := by rw [sub_mul, hqq]
  rw [e, norm_mul, norm_star, hqn, mul_one] at this
  exact this

/-- The unit quaternion of the rotation vector `2 v`. -/
noncomputable def expq (v : Vec3 ℝ) : Quat ℝ :=
  ⟨Real.cos √v.normSq, Real.sinc √v.normSq * v.x, Real.sinc √v.normSq * v.y, Real.sinc √v.normSq * v.z⟩

theorem sinc_mul_self (n : ℝ) : Real.sinc n * n = Real.sin n := by
  by_cases h : n = 0
  · simp [h]
  · rw [Real.sinc_of_ne_zero h]; field_simp

theorem expq_normSq (v : Vec3 ℝ) : (expq v).normSq = 1 := by
  have h1 := sinc_mul_self √v.normSq
  have h2 := Real.cos_sq_add_sin_sq √v.normSq
  have h3 := Real.mul_self_sqrt v.normSq_nonneg
  have h4 : v.normSq = v.x * v.x + v.y * v.y + v.z * v.z := rfl
  rw [← h1] at h2
  simp only [expq, Quat.normSq]
  generalize √v.normSq = n at *
  generalize Real.sinc n = s at *
  linear_combination h2 - s ^ 2 * h3 - s ^ 2 * h4

theorem mul_of_zero {f g : ℝ → ℝ} {g' t : ℝ} (hf : ContinuousAt f t) (hg : HasDerivAt g g' t) (h0 : g t = 0) :
    HasDerivAt (fun s => f s * g s) (f t * g') t := by
  rw [hasDerivAt_iff_tendsto_slope] at hg ⊢
  have h1 : Filter.Tendsto f (nhdsWithin t {t}ᶜ) (nhds (f t)) := hf.tendsto.mono_left nhdsWithin_le_nhds
  refine (h1.mul hg).congr fun s => ?_
  simp only [slope_def_field, h0]
  ring

/-- The second coefficient of the derivative. -/
noncomputable def kap (v : Vec3 ℝ) : ℝ := (Real.sinc √v.normSq - Real.cos √v.normSq) / v.normSq

theorem vec_normSq_deriv {v : ℝ → Vec3 ℝ} {v' : Vec3 ℝ} {t : ℝ} (h : HasDerivVec v v' t) :
    HasDerivAt (fun s => (v s).normSq) (2 * (v t).dot v') t := by
  have := ((h.x.mul h.x).add (h.y.mul h.y)).add (h.z.mul h.z)
  refine this.congr_deriv ?_
  simp only [Vec3.dot]
  ring

theorem expq_deriv {v : ℝ → Vec3 ℝ} {v' : Vec3 ℝ} {t : ℝ} (h : HasDerivVec v v' t) :
    HasDerivAt (fun s => (expq (v s)).w) (-(Real.sinc √(v t).normSq * (v t).dot v')) t ∧
    HasDerivAt (fun s => (expq (v s)).x) (Real.sinc √(v t).normSq * v'.x - kap (v t) * (v t).dot v' * (v t).x) t ∧
    HasDerivAt (fun s => (expq (v s)).y) (Real.sinc √(v t).normSq * v'.y - kap (v t) * (v t).dot v' * (v t).y) t ∧
    HasDerivAt (fun s => (expq (v s)).z) (Real.sinc √(v t).normSq * v'.z - kap (v t) * (v t).dot v' * (v t).z) t := by
  have hN := vec_normSq_deriv h
  have hc : ContinuousAt (fun s => √(v s).normSq) t := hN.continuousAt.sqrt
  by_cases h0 : (v t).normSq = 0
  · have hv : v t = 0 := by
      by_contra h1
      exact absurd h0 (normSq_pos h1).ne'
    have hs : ContinuousAt (fun s => Real.sinc √(v s).normSq) t := Real.continuous_sinc.continuousAt.comp hc
    have e1 := mul_of_zero hs h.x (by rw [hv]; rfl)
    have e2 := mul_of_zero hs h.y (by rw [hv]; rfl)
    have e3 := mul_of_zero hs h.z (by rw [hv]; rfl)
    have e0 := mul_of_zero (f := fun s => -(1 / 2 * Real.sinc (√(v s).normSq / 2) ^ 2))
      ((((Real.continuous_sinc.continuousAt.comp (hc.div_const 2)).pow 2).const_mul (1 / 2)).neg) hN h0
    refine ⟨?_, ?_, ?_, ?_⟩
    · have e : (fun s => (expq (v s)).w) = fun s => -(1 / 2 * Real.sinc (√(v s).normSq / 2) ^ 2) * (v s).normSq + 1 := by
        funext s
        have a1 := sinc_mul_self (√(v s).normSq / 2)
        have a2 := Real.cos_sq_add_sin_sq (√(v s).normSq / 2)
        have a3 : Real.cos √(v s).normSq = 2 * Real.cos (√(v s).normSq / 2) ^ 2 - 1 := by
          rw [← Real.cos_two_mul]; congr 1; ring
        have a4 := Real.mul_self_sqrt (v s).normSq_nonneg
        rw [← a1] at a2
        simp only [expq]
        rw [a3]
        generalize Real.sinc (√(v s).normSq / 2) = k at *
        linear_combination 2 * a2 - k ^ 2 / 2 * a4
      rw [e]
      refine (e0.add_const 1).congr_deriv ?_
      rw [hv]
      simp [Vec3.dot]
    · refine e1.congr_deriv ?_
      rw [hv]
      simp
    · refine e2.congr_deriv ?_
      rw [hv]
      simp
    · refine e3.congr_deriv ?_
      rw [hv]
      simp
  · have hpos : 0 < (v t).normSq := lt_of_le_of_ne (v t).normSq_nonneg (Ne.symm h0)
    have hn0 : √(v t).normSq ≠ 0 := (Real.sqrt_pos.2 hpos).ne'
    have hn := hN.sqrt h0
    have hnn := Real.mul_self_sqrt (v t).normSq_nonneg
    have hcos := hn.cos
    have hsin := hn.sin
    have hsi : HasDerivAt (fun s => Real.sinc √(v s).normSq) (-(kap (v t) * (v t).dot v')) t := by
      have h1 := hsin.div hn hn0
      have h2 : (fun s => Real.sinc √(v s).normSq) =ᶠ[nhds t] fun s => Real.sin √(v s).normSq / √(v s).normSq := by
        have : ∀ᶠ s in nhds t, √(v s).normSq ≠ 0 := hc.eventually_ne hn0
        filter_upwards [this] with s hs
        exact Real.sinc_of_ne_zero hs
      refine (h1.congr_of_eventuallyEq h2).congr_deriv ?_
      unfold kap
      rw [Real.sinc_of_ne_zero hn0]
      generalize √(v t).normSq = n at *
      rw [← hnn]
      field_simp
      ring
    refine ⟨?_, ?_, ?_, ?_⟩
    · refine hcos.congr_deriv ?_
      rw [← sinc_mul_self]
      generalize √(v t).normSq = n at *
      field_simp
    · exact (hsi.mul h.x).congr_deriv (by ring)
    · exact (hsi.mul h.y).congr_deriv (by ring)
    · exact (hsi.mul h.z).congr_deriv (by ring)

/-- The derivative of `expq` along `v'`. -/
noncomputable def expqD (v v' : Vec3 ℝ) : Quat ℝ :=
  ⟨-(Real.sinc √v.normSq * v.dot v'), Real.sinc √v.normSq * v'.x - kap v * v.dot v' * v.x,
    Real.sinc √v.normSq * v'.y - kap v * v.dot v' * v.y, Real.sinc √v.normSq * v'.z - kap v * v.dot v' * v.z⟩

theorem expq_toH_deriv {v : ℝ → Vec3 ℝ} {v' : Vec3 ℝ} {t : ℝ} (h : HasDerivVec v v' t) :
    HasDerivAt (fun s => (expq (v s)).toH) (expqD (v t) v').toH t := by
  obtain ⟨h0, h1, h2, h3⟩ := expq_deriv h
  exact hasDerivAt_toH (f' := expqD (v t) v') h0 h1 h2 h3

theorem dot_sq_le (u v : Vec3 ℝ) : u.dot v ^ 2 ≤ u.normSq * v.normSq := by
  simp only [Vec3.dot, Vec3.normSq]
  nlinarith [sq_nonneg (u.x * v.y - u.y * v.x), sq_nonneg (u.x * v.z - u.z * v.x), sq_nonneg (u.y * v.z - u.z * v.y)]

theorem kap_mul (v : Vec3 ℝ) (hv : v.normSq ≠ 0) : kap v * v.normSq = Real.sinc √v.normSq - Real.cos √v.normSq := by
  unfold kap
  field_simp

theorem sinc_sq_le (n : ℝ) : Real.sinc n ^ 2 ≤ 1 := by
  rw [sq_le_one_iff_abs_le_one]
  exact Real.abs_sinc_le_one n

theorem expqD_norm (v v' : Vec3 ℝ) : (expqD v v').normSq ≤ v'.normSq := by
  by_cases h0 : v.normSq = 0
  · have hv : v = 0 := by
      by_contra h1
      exact absurd h0 (normSq_pos h1).ne'
    subst hv
    simp [expqD, Quat.normSq, Vec3.dot, Vec3.normSq]
  · have hpos : 0 < v.normSq := lt_of_le_of_ne v.normSq_nonneg (Ne.symm h0)
    have hk := kap_mul v h0
    have hs := sinc_sq_le √v.normSq
    have h1 := sinc_mul_self √v.normSq
    have h2 := Real.cos_sq_add_sin_sq √v.normSq
    have h3 := Real.mul_self_sqrt v.normSq_nonneg
    rw [← h1] at h2
    have hd := dot_sq_le v v'
    have h4 : v.normSq = v.x * v.x + v.y * v.y + v.z * v.z := rfl
    have h5 : v'.normSq = v'.x * v'.x + v'.y * v'.y + v'.z * v'.z := rfl
    have h6 : v.dot v' = v.x * v'.x + v.y * v'.y + v.z * v'.z := rfl
    have key : v.normSq * (expqD v v').normSq = Real.sinc √v.normSq ^ 2 * (v.normSq * v'.normSq) + (1 - Real.sinc √v.normSq ^ 2) * v.dot v' ^ 2 := by
      simp only [expqD, Quat.normSq]
      generalize √v.normSq = n at *
      generalize Real.sinc n = s at *
      generalize Real.cos n = c at *
      generalize kap v = k at *
      generalize v.normSq = N at *
      generalize v'.normSq = N' at *
      generalize v.dot v' = d at *
      have e1 : N * (s * v'.x - k * d * v.x) = N * s * v'.x - (s - c) * d * v.x := by rw [← hk]; ring
      have e2 : c ^ 2 = 1 - s ^ 2 * N := by rw [← h3]; linarith
      have e3 : (s * v'.x - k * d * v.x) * (s * v'.x - k * d * v.x) + (s * v'.y - k * d * v.y) * (s * v'.y - k * d * v.y) +
          (s * v'.z - k * d * v.z) * (s * v'.z - k * d * v.z) = s ^ 2 * N' - 2 * s * k * d ^ 2 + k ^ 2 * d ^ 2 * N := by
        rw [h4, h5, h6]; ring
      linear_combination N * e3 + (k * N * d ^ 2 - 2 * s * d ^ 2 + (s - c) * d ^ 2) * hk + d ^ 2 * e2
    have : v.normSq * (expqD v v').normSq ≤ v.normSq * v'.normSq := by
      rw [key]
      nlinarith
    exact le_of_mul_le_mul_left this hpos

theorem ray_deriv (u δ : Vec3 ℝ) (t : ℝ) : HasDerivVec (fun s : ℝ => u + s • δ) δ t := by
  refine ⟨?_, ?_, ?_⟩
  · exact (((hasDerivAt_id t).mul_const δ.x).const_add u.x).congr_deriv (by simp)
  · exact (((hasDerivAt_id t).mul_const δ.y).const_add u.y).congr_deriv (by simp)
  · exact (((hasDerivAt_id t).mul_const δ.z).const_add u.z).congr_deriv (by simp)

/-- The exponential does not increase distances. -/
theorem expq_lipschitz (u δ : Vec3 ℝ) : ‖(expq (u + δ)).toH - (expq u).toH‖ ≤ √δ.normSq := by
  have := Convex.norm_image_sub_le_of_norm_hasDerivWithin_le (C := √δ.normSq) (s := Set.uIcc (0 : ℝ) 1)
    (f := fun s : ℝ => (expq (u + s • δ)).toH) (f' := fun s : ℝ => (expqD (u + s • δ) δ).toH)
    (fun t _ => (expq_toH_deriv (ray_deriv u δ t)).hasDerivWithinAt)
    (fun t _ => by rw [Quat.toH_norm]; exact Real.sqrt_le_sqrt (expqD_norm _ _))
    (convex_uIcc 0 1) Set.left_mem_uIcc Set.right_mem_uIcc
  simpa using this

theorem sinc_sub_one (n : ℝ) (hn : 0 ≤ n) : |Real.sinc n - 1| ≤ n := by
  rcases hn.eq_or_lt with rfl | hn
  · simp
  have h := sin_taylor 1 n
  simp only [sinT, Finset.sum_range_one] at h
  norm_num [Nat.factorial] at h
  rw [← sinc_mul_self, show Real.sinc n * n - n = (Real.sinc n - 1) * n by ring, abs_mul, abs_of_pos hn] at h
  have h1 : |Real.sinc n - 1| ≤ n ^ 2 / 6 := by
    refine le_of_mul_le_mul_right (h.trans (le_of_eq ?_)) hn
    ring
  rcases le_total n 2 with h2 | h2
  · nlinarith
  · have h3 := abs_le.1 (Real.abs_sinc_le_one n)
    rw [abs_le]
    constructor <;> linarith

theorem cos_sub_one (n : ℝ) (hn : 0 ≤ n) : |Real.cos n - 1| ≤ n := by
  have h := cos_taylor 1 n
  simp only [cosT, Finset.sum_range_one] at h
  norm_num [Nat.factorial] at h
  rcases le_total n 2 with h2 | h2
  · nlinarith
  · have h3 := abs_le.1 (Real.abs_cos_le_one n)
    rw [abs_le]
    constructor <;> linarith

theorem abs_dot_le (u v : Vec3 ℝ) : |u.dot v| ≤ √u.normSq * √v.normSq := by
  rw [← Real.sqrt_mul u.normSq_nonneg, ← Real.sqrt_sq_eq_abs]
  exact Real.sqrt_le_sqrt (dot_sq_le u v)

/-- The derivative of the exponential is close to the direction. -/
theorem expqD_first (v v' : Vec3 ℝ) : ‖(expqD v v').toH - v'.toH‖ ≤ 4 * √v.normSq * √v'.normSq := by
  have e : (expqD v v').toH - v'.toH = (-(Real.sinc √v.normSq * v.dot v')) • (1 : ℍ[ℝ]) +
      ((Real.sinc √v.normSq - 1) • v'.toH - (kap v * v.dot v') • v.toH) := by
    ext <;> simp [expqD] <;> ring
  rw [e]
  have hn := Real.sqrt_nonneg v.normSq
  have hn' := Real.sqrt_nonneg v'.normSq
  have hd := abs_dot_le v v'
  have h1 := sinc_sub_one √v.normSq hn
  have h2 := cos_sub_one √v.normSq hn
  have a1 : ‖(-(Real.sinc √v.normSq * v.dot v')) • (1 : ℍ[ℝ])‖ ≤ √v.normSq * √v'.normSq := by
    rw [norm_smul, norm_one, mul_one, Real.norm_eq_abs, abs_neg, abs_mul]
    calc |Real.sinc √v.normSq| * |v.dot v'| ≤ 1 * |v.dot v'| := by
          gcongr; exact Real.abs_sinc_le_one _
      _ ≤ _ := by rw [one_mul]; exact hd
  have a2 : ‖(Real.sinc √v.normSq - 1) • v'.toH‖ ≤ √v.normSq * √v'.normSq := by
    rw [norm_smul, Vec3.toH_norm, Real.norm_eq_abs]
    gcongr
  have a3 : ‖(kap v * v.dot v') • v.toH‖ ≤ 2 * √v.normSq * √v'.normSq := by
    by_cases h0 : v.normSq = 0
    · have hv : v = 0 := by
        by_contra h1
        exact absurd h0 (normSq_pos h1).ne'
      subst hv
      simp [Vec3.dot, Vec3.normSq]
    · have hk := kap_mul v h0
      have h3 := Real.mul_self_sqrt v.normSq_nonneg
      rw [norm_smul, Vec3.toH_norm, Real.norm_eq_abs, abs_mul]
      have h4 : |kap v| * v.normSq ≤ 2 * √v.normSq := by
        rw [← abs_of_nonneg v.normSq_nonneg, ← abs_mul, abs_of_nonneg v.normSq_nonneg, hk]
        have := abs_sub_le (Real.sinc √v.normSq) 1 (Real.cos √v.normSq)
        rw [abs_sub_comm 1] at this
        linarith
      calc |kap v| * |v.dot v'| * √v.normSq ≤ |kap v| * (√v.normSq * √v'.normSq) * √v.normSq := by gcongr
        _ = |kap v| * v.normSq * √v'.normSq := by rw [← h3]; ring_nf; rw [Real.sqrt_sq hn]
        _ ≤ _ := by gcongr
  calc _ ≤ _ + _ := norm_add_le _ _
    _ ≤ √v.normSq * √v'.normSq + (√v.normSq * √v'.normSq + 2 * √v.normSq * √v'.normSq) :=
      add_le_add a1 ((norm_sub_le _ _).trans (add_le_add a2 a3))
    _ = _ := by ring

theorem vec_tri (u v : Vec3 ℝ) : √(u + v).normSq ≤ √u.normSq + √v.normSq := by
  rw [← Vec3.toH_norm, ← Vec3.toH_norm, ← Vec3.toH_norm, Vec3.toH_add]
  exact norm_add_le _ _

theorem vec_smul (c : ℝ) (v : Vec3 ℝ) : √(c • v).normSq = |c| * √v.normSq := by
  rw [← Vec3.toH_norm, ← Vec3.toH_norm, Vec3.toH_smul, norm_smul, Real.norm_eq_abs]

theorem vec_neg (v : Vec3 ℝ) : √(-v).normSq = √v.normSq := by
  simp [Vec3.normSq, Vec3.dot]

theorem vec_cross (u v : Vec3 ℝ) : √(u.cross v).normSq ≤ √u.normSq * √v.normSq := by
  rw [← Real.sqrt_mul u.normSq_nonneg]
  apply Real.sqrt_le_sqrt
  have : (u.cross v).normSq + u.dot v ^ 2 = u.normSq * v.normSq := by
    simp only [Vec3.cross, Vec3.dot, Vec3.normSq]; ring
  nlinarith [sq_nonneg (u.dot v)]

/-- The exponential, to the first order. -/
theorem expq_first (u δ : Vec3 ℝ) : ‖(expq (u + δ)).toH - (expq u).toH - δ.toH‖ ≤ 4 * (√u.normSq + √δ.normSq) * √δ.normSq := by
  have := Convex.norm_image_sub_le_of_norm_hasDerivWithin_le (C := 4 * (√u.normSq + √δ.normSq) * √δ.normSq) (s := Set.uIcc (0 : ℝ) 1)
    (f := fun s : ℝ => (expq (u + s • δ)).toH - s • δ.toH) (f' := fun s : ℝ => (expqD (u + s • δ) δ).toH - δ.toH)
    (fun t _ => by
      have h1 := (expq_toH_deriv (ray_deriv u δ t))
      have h2 : HasDerivAt (fun s : ℝ => s • δ.toH) δ.toH t := ((hasDerivAt_id t).smul_const δ.toH).congr_deriv (by simp)
      exact (h1.sub h2).hasDerivWithinAt)
    (fun t ht => by
      refine (expqD_first _ _).trans ?_
      have ht' : |t| ≤ 1 := by simpa using Set.abs_sub_left_of_mem_uIcc ht
      have h1 := vec_tri u (t • δ)
      rw [vec_smul] at h1
      have h2 : |t| * √δ.normSq ≤ 1 * √δ.normSq := by gcongr
      have := Real.sqrt_nonneg δ.normSq
      gcongr
      linarith)
    (convex_uIcc 0 1) Set.left_mem_uIcc Set.right_mem_uIcc
  simp only [one_smul, zero_smul, add_zero, sub_zero, norm_one, mul_one] at this
  rwa [sub_right_comm] at this

/-- The coefficients of the angular velocity of a moving rotation vector. -/
noncomputable def dA (x : ℝ) : ℝ := if x = 0 then 1 / 2 else (1 - Real.cos x) / x ^ 2
noncomputable def dB (x : ℝ) : ℝ := if x = 0 then 1 / 6 else (x - Real.sin x) / x ^ 3

/-- The angular velocity, in the moving frame, of the rotation of vector `o` that moves at `o'`. -/
noncomputable def bodyRate (o o' : Vec3 ℝ) : Vec3 ℝ :=
  o' - dA √o.normSq • o.cross o' + dB √o.normSq • o.cross (o.cross o')

theorem dA_bound (x : ℝ) : |dA x - (1 / 2 - x ^ 2 / 24)| ≤ x ^ 4 / 720 := by
  unfold dA
  split
  · rename_i h; simp [h]
  · rename_i h
    have h1 := cos_taylor 3 x
    simp only [cosT, Finset.sum_range_succ, Finset.sum_range_zero] at h1
    norm_num [Nat.factorial] at h1
    have h2 : (1 - Real.cos x) / x ^ 2 - (1 / 2 - x ^ 2 / 24) = -(Real.cos x - (1 + -(x ^ 2 / 2) + x ^ 4 / 24)) / x ^ 2 := by
      field_simp; ring
    rw [h2, abs_div, abs_neg, abs_of_nonneg (sq_nonneg x), div_le_iff₀ (by positivity)]
    refine h1.trans (le_of_eq ?_)
    rw [show |x| ^ 6 = (|x| ^ 2) ^ 3 by ring, sq_abs]
    ring

theorem dB_bound (x : ℝ) : |dB x - (1 / 6 - x ^ 2 / 120)| ≤ x ^ 4 / 5040 := by
  unfold dB
  split
  · rename_i h; simp [h]
  · rename_i h
    have h1 := sin_taylor 3 x
    simp only [sinT, Finset.sum_range_succ, Finset.sum_range_zero] at h1
    norm_num [Nat.factorial] at h1
    have h2 : (x - Real.sin x) / x ^ 3 - (1 / 6 - x ^ 2 / 120) = -(Real.sin x - (x + -(x ^ 3 / 6) + x ^ 5 / 120)) / x ^ 3 := by
      field_simp; ring
    have hx : 0 < |x| := abs_pos.2 h
    rw [h2, abs_div, abs_neg, abs_pow, div_le_iff₀ (by positivity)]
    refine h1.trans (le_of_eq ?_)
    rw [show x ^ 4 = (x ^ 2) ^ 2 by ring, ← sq_abs x]
    ring

theorem expqD_rate (o o' : Vec3 ℝ) : (expqD ((1 / 2 : ℝ) • o) ((1 / 2 : ℝ) • o')).toH =
    (1 / 2 : ℝ) • ((expq ((1 / 2 : ℝ) • o)).toH * (bodyRate o o').toH) := by
  by_cases h0 : o.normSq = 0
  · have hv : o = 0 := by
      by_contra h1
      exact absurd h0 (normSq_pos h1).ne'
    subst hv
    ext <;> simp [expqD, expq, bodyRate, Vec3.dot, Vec3.normSq]
  · have hpos : 0 < o.normSq := lt_of_le_of_ne o.normSq_nonneg (Ne.symm h0)
    have hn0 : √o.normSq ≠ 0 := (Real.sqrt_pos.2 hpos).ne'
    have hN : ((1 / 2 : ℝ) • o).normSq = o.normSq / 4 := by simp [Vec3.normSq, Vec3.dot]; ring
    have hsq : √((1 / 2 : ℝ) • o).normSq = √o.normSq / 2 := by
      rw [vec_smul, abs_of_pos (by norm_num)]; ring
    have h3 := Real.mul_self_sqrt o.normSq_nonneg
    have h4 : o.normSq = o.x * o.x + o.y * o.y + o.z * o.z := rfl
    have hc : Real.cos √o.normSq = 2 * Real.cos (√o.normSq / 2) ^ 2 - 1 := by
      rw [← Real.cos_two_mul]; congr 1; ring
    have hs : Real.sin √o.normSq = 2 * Real.sin (√o.normSq / 2) * Real.cos (√o.normSq / 2) := by
      rw [← Real.sin_two_mul]; congr 1; ring
    have h2 := Real.cos_sq_add_sin_sq (√o.normSq / 2)
    rw [← sinc_mul_self (√o.normSq / 2)] at h2 hs
    have hk := kap_mul ((1 / 2 : ℝ) • o) (by rw [hN]; positivity)
    rw [hsq, hN] at hk
    have hB : dB √o.normSq * o.normSq = 1 - Real.sinc (√o.normSq / 2) * Real.cos (√o.normSq / 2) := by
      unfold dB
      rw [if_neg hn0, hs]
      generalize √o.normSq = n at *
      rw [← h3]
      field_simp
    have hA : dA √o.normSq = Real.sinc (√o.normSq / 2) ^ 2 / 2 := by
      unfold dA
      rw [if_neg hn0, hc, div_eq_iff (by positivity)]
      generalize Real.sinc (√o.normSq / 2) = S at *
      linear_combination -2 * h2
    have hq : Real.cos (√o.normSq / 2) ^ 2 + Real.sinc (√o.normSq / 2) ^ 2 * o.normSq / 4 = 1 := by
      rw [← h2, ← h3]; ring_nf; rw [Real.sqrt_sq (Real.sqrt_nonneg _)]
    unfold expqD expq bodyRate
    rw [hsq, hA]
    generalize Real.sinc (√o.normSq / 2) = S at *
    generalize Real.cos (√o.normSq / 2) = C at *
    generalize dB √o.normSq = B at *
    generalize kap ((1 / 2 : ℝ) • o) = k at *
    clear hsq hN h3 h2 hc hs hA hn0
    have hN0 := h0
    rw [h4] at hk hB hq hN0
    ext
    · simp [Vec3.dot]
      ring
    · refine mul_left_cancel₀ hN0 ?_
      simp [Vec3.dot, -mul_eq_mul_left_iff]
      linear_combination (-(o.x * o'.x + o.y * o'.y + o.z * o'.z) * o.x / 2) * hk +
        (-C / 2 * (o.y * (o.x * o'.y - o.y * o'.x) - o.z * (o.z * o'.x - o.x * o'.z)) + S / 4 * (o.x * o.x + o.y * o.y + o.z * o.z) * (o.y * o'.z - o.z * o'.y)) * hB +
        (S / 2 * (o.y * (o.x * o'.y - o.y * o'.x) - o.z * (o.z * o'.x - o.x * o'.z))) * hq
    · refine mul_left_cancel₀ hN0 ?_
      simp [Vec3.dot, -mul_eq_mul_left_iff]
      linear_combination (-(o.x * o'.x + o.y * o'.y + o.z * o'.z) * o.y / 2) * hk +
        (-C / 2 * (o.z * (o.y * o'.z - o.z * o'.y) - o.x * (o.x * o'.y - o.y * o'.x)) + S / 4 * (o.x * o.x + o.y * o.y + o.z * o.z) * (o.z * o'.x - o.x * o'.z)) * hB +
        (S / 2 * (o.z * (o.y * o'.z - o.z * o'.y) - o.x * (o.x * o'.y - o.y * o'.x))) * hq
    · refine mul_left_cancel₀ hN0 ?_
      simp [Vec3.dot, -mul_eq_mul_left_iff]
      linear_combination (-(o.x * o'.x + o.y * o'.y + o.z * o'.z) * o.z / 2) * hk +
        (-C / 2 * (o.x * (o.z * o'.x - o.x * o'.z) - o.y * (o.y * o'.z - o.z * o'.y)) + S / 4 * (o.x * o.x + o.y * o.y + o.z * o.z) * (o.x * o'.y - o.y * o'.x)) * hB +
        (S / 2 * (o.x * (o.z * o'.x - o.x * o'.z) - o.y * (o.y * o'.z - o.z * o'.y))) * hq

theorem expq_moving {o : ℝ → Vec3 ℝ} {o' : Vec3 ℝ} {t : ℝ} (h : HasDerivVec o o' t) :
    HasDerivAt (fun s => (expq ((1 / 2 : ℝ) • o s)).toH) ((1 / 2 : ℝ) • ((expq ((1 / 2 : ℝ) • o t)).toH * (bodyRate (o t) o').toH)) t := by
  rw [← expqD_rate]
  refine expq_toH_deriv (v := fun s => (1 / 2 : ℝ) • o s) ⟨?_, ?_, ?_⟩
  · exact h.x.const_mul (1 / 2)
  · exact h.y.const_mul (1 / 2)
  · exact h.z.const_mul (1 / 2)

end RBDyn
