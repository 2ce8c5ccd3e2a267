import Mathlib.Analysis.SpecialFunctions.Pow.Deriv
import Verif.Props.Integration
import Verif.Spec.KinDeriv

/-! Property C52: integration is the exact solution of the kinematic equations for the motions it treats in closed form. -/

namespace RBDyn
open scoped Mat3

theorem hasDerivList_map {fs : List (ℝ → ℝ)} {ds : List ℝ} {t : ℝ}
    (h : List.Forall₂ (fun f d => HasDerivAt f d t) fs ds) : HasDerivList (fun s => fs.map (fun f => f s)) ds t := by
  refine ⟨fun s => by simpa using h.length_eq, fun i => ?_⟩
  by_cases hi : i < fs.length
  · have hi' : i < ds.length := by rw [← h.length_eq]; exact hi
    have := (List.forall₂_iff_get.1 h).2 i hi hi'
    simpa [List.getD, List.getElem?_eq_getElem hi, List.getElem?_eq_getElem hi'] using this
  · have e1 : ds.getD i 0 = 0 := by
      simp only [List.getD, List.getElem?_eq_none (show ds.length ≤ i by rw [← h.length_eq]; omega), Option.getD_none]
    have e2 : ∀ s, (fs.map (fun f => f s)).getD i 0 = 0 := by
      intro s
      simp only [List.getD, List.getElem?_eq_none (show (fs.map (fun f => f s)).length ≤ i by simp; omega), Option.getD_none]
    simp only [e1, e2]
    exact hasDerivAt_const t 0

/-- The motions integrated in closed form: any motion of `Rev`, `Prism`, `Cylindrical` and `Fixed` joints, rotations about a
constant axis of `Spherical` joints, and motions without rotation of `Planar` and `Free` joints. -/
def ClosedForm : JointType → List ℝ → List ℝ → Prop
  | .Spherical, [a0, a1, a2], [b0, b1, b2] => (⟨a0, a1, a2⟩ : Vec3 ℝ).cross ⟨b0, b1, b2⟩ = 0
  | .Planar, a, b => a[0]? = some 0 ∧ b[0]? = some 0
  | .Free, [a0, a1, a2, _, _, _], [b0, b1, b2, _, _, _] => (⟨a0, a1, a2⟩ : Vec3 ℝ) = 0 ∧ (⟨b0, b1, b2⟩ : Vec3 ℝ) = 0
  | _, _, _ => True

theorem quad_deriv (q a b s : ℝ) : HasDerivAt (fun s => q + (a * s + b * (s * s) / 2)) (a + b * s) s := by
  have h1 : HasDerivAt (fun s : ℝ => s) 1 s := hasDerivAt_id s
  have h2 := ((h1.const_mul a).add ((((h1.mul h1).const_mul b).div_const 2))).const_add q
  refine h2.congr_deriv ?_
  simp
  ring

/-- Parallel vectors are multiples of a unit vector. -/
theorem parallel_axis {w d : Vec3 ℝ} (h : w.cross d = 0) : ∃ (u : Vec3 ℝ) (a b : ℝ), u.normSq = 1 ∧ w = a • u ∧ d = b • u := by
  have unit : ∀ v : Vec3 ℝ, v ≠ 0 → v.normSq ≠ 0 := by
    intro v hv h0
    apply hv
    have e : v.x * v.x + v.y * v.y + v.z * v.z = 0 := h0
    have := mul_self_nonneg v.x
    have := mul_self_nonneg v.y
    have := mul_self_nonneg v.z
    ext
    · exact mul_self_eq_zero.1 (by linarith)
    · exact mul_self_eq_zero.1 (by linarith)
    · exact mul_self_eq_zero.1 (by linarith)
  have key : ∀ w d : Vec3 ℝ, w ≠ 0 → w.cross d = 0 →
      ∃ (u : Vec3 ℝ) (a b : ℝ), u.normSq = 1 ∧ w = a • u ∧ d = b • u := by
    intro w d hw h
    have hn := unit w hw
    have hpos : 0 < w.normSq := lt_of_le_of_ne w.normSq_nonneg (Ne.symm hn)
    have hs : √w.normSq * √w.normSq = w.normSq := Real.mul_self_sqrt hpos.le
    have hs0 : √w.normSq ≠ 0 := (Real.sqrt_pos.2 hpos).ne'
    refine ⟨(√w.normSq)⁻¹ • w, √w.normSq, (w.dot d) / √w.normSq, ?_, ?_, ?_⟩
    · rw [Vec3.normSq_smul]
      field_simp
      rw [sq]; exact hs.symm
    · rw [smul_smul, mul_inv_cancel₀ hs0, one_smul]
    · rw [smul_smul]
      have e : (w.dot d) / √w.normSq * (√w.normSq)⁻¹ = w.dot d / w.normSq := by
        rw [div_eq_mul_inv, div_eq_mul_inv, mul_assoc, ← mul_inv, hs]
      rw [e]
      have hx := congrArg Vec3.x h
      have hy := congrArg Vec3.y h
      have hz := congrArg Vec3.z h
      simp only [Vec3.cross_x, Vec3.cross_y, Vec3.cross_z, Vec3.zero_x, Vec3.zero_y, Vec3.zero_z] at hx hy hz
      have en : w.normSq = w.x * w.x + w.y * w.y + w.z * w.z := rfl
      have ed : w.dot d = w.x * d.x + w.y * d.y + w.z * d.z := rfl
      ext
      · simp only [Vec3.smul_x]
        rw [div_mul_eq_mul_div, eq_div_iff hn, en, ed]
        linear_combination w.z * hy - w.y * hz
      · simp only [Vec3.smul_y]
        rw [div_mul_eq_mul_div, eq_div_iff hn, en, ed]
        linear_combination w.x * hz - w.z * hx
      · simp only [Vec3.smul_z]
        rw [div_mul_eq_mul_div, eq_div_iff hn, en, ed]
        linear_combination w.y * hx - w.x * hy
  by_cases hw : w = 0
  · by_cases hd : d = 0
    · exact ⟨⟨1, 0, 0⟩, 0, 0, by simp [Vec3.normSq, Vec3.dot], by simp [hw], by simp [hd]⟩
    · obtain ⟨u, a, b, h1, h2, h3⟩ := key d w hd (by rw [hw]; ext <;> simp)
      exact ⟨u, b, a, h1, h3, h2⟩
  · exact key w d hw h

theorem half_deriv (a b s : ℝ) : HasDerivAt (fun s => (a * s + b * (s * s) / 2) / 2) ((a + b * s) / 2) s := by
  have := (quad_deriv 0 a b s).div_const 2
  simpa using this

theorem spherical_closed (x : Quat ℝ) {u : Vec3 ℝ} (hu : u.normSq = 1) (a b : ℝ) {prec : ℝ} (hp : prec ≠ 0) (s : ℝ)
    (brk : Bool) : SO3Integration x (a • u) (b • u) s prec prec brk =
      (x.mul ⟨Real.cos ((a * s + b * (s * s) / 2) / 2), Real.sin ((a * s + b * (s * s) / 2) / 2) * u.x,
        Real.sin ((a * s + b * (s * s) / 2) / 2) * u.y, Real.sin ((a * s + b * (s * s) / 2) / 2) * u.z⟩, false) := by
  have hc : (a • u).cross (b • u) = 0 := by ext <;> simp <;> ring
  have h1 := magnus_parallel hc s prec prec
  have h2 := magnus_parallel_ok hc s hp hp
  have h3 : (1 / 2 : ℝ) • (s • a • u + (s * s / 2) • b • u) = ((a * s + b * (s * s) / 2) / 2) • u := by
    ext <;> simp <;> ring
  cases brk
  · rw [so3_eq, h1, h2, h3, qexp_axis hu]
  · rw [so3_break, h1, h2, h3, qexp_axis hu]; rfl

theorem spherical_exact {x : Quat ℝ} (hx : x.normSq = 1) {w d : Vec3 ℝ} (hc : w.cross d = 0) {prec : ℝ} (hp : prec ≠ 0) :
    ∃ Q : ℝ → Quat ℝ, Q 0 = x ∧ (∀ s, (Q s).normSq = 1) ∧
      (∀ s fuel, sphericalJointIntegration (fuel + 1) x w d s prec = .ok (Q s)) ∧
      ∀ s, HasDerivAt (fun s => (Q s).w) ((-(Q s).x * (w.x + d.x * s) - (Q s).y * (w.y + d.y * s) - (Q s).z * (w.z + d.z * s)) / 2) s ∧
        HasDerivAt (fun s => (Q s).x) (((Q s).w * (w.x + d.x * s) + (Q s).y * (w.z + d.z * s) - (Q s).z * (w.y + d.y * s)) / 2) s ∧
        HasDerivAt (fun s => (Q s).y) (((Q s).w * (w.y + d.y * s) + (Q s).z * (w.x + d.x * s) - (Q s).x * (w.z + d.z * s)) / 2) s ∧
        HasDerivAt (fun s => (Q s).z) (((Q s).w * (w.z + d.z * s) + (Q s).x * (w.y + d.y * s) - (Q s).y * (w.x + d.x * s)) / 2) s := by
  obtain ⟨u, a, b, hu, rfl, rfl⟩ := parallel_axis hc
  let θ : ℝ → ℝ := fun s => (a * s + b * (s * s) / 2) / 2
  let E : ℝ → Quat ℝ := fun s => ⟨Real.cos (θ s), Real.sin (θ s) * u.x, Real.sin (θ s) * u.y, Real.sin (θ s) * u.z⟩
  have hso : ∀ s brk, SO3Integration x (a • u) (b • u) s prec prec brk = (x.mul (E s), false) :=
    fun s brk => spherical_closed x hu a b hp s brk
  refine ⟨fun s => x.mul (E s), ?_, ?_, ?_, ?_⟩
  · have : E 0 = ⟨1, 0, 0, 0⟩ := by simp [E, θ]
    show x.mul (E 0) = x
    rw [this, Quat.mul_one]
  · intro s
    have := so3_normSq x (a • u) (b • u) s prec prec true
    rw [hso] at this
    exact this.trans hx
  · intro s fuel
    rw [sphericalJointIntegration, hso]
    rfl
  · intro s
    have hθ : HasDerivAt θ ((a + b * s) / 2) s := half_deriv a b s
    have hcos := hθ.cos
    have hsin := hθ.sin
    have hu' : u.x * u.x + u.y * u.y + u.z * u.z = 1 := hu
    simp only [E, Quat.mul, Vec3.smul_x, Vec3.smul_y, Vec3.smul_z]
    generalize hth : Real.cos (θ s) = c at *
    generalize Real.sin (θ s) = n at *
    have hX := hsin.mul_const u.x
    have hY := hsin.mul_const u.y
    have hZ := hsin.mul_const u.z
    refine ⟨?_, ?_, ?_, ?_⟩
    · refine ((((hcos.const_mul x.w).sub (hX.const_mul x.x)).sub (hY.const_mul x.y)).sub (hZ.const_mul x.z)).congr_deriv ?_
      linear_combination (x.w * n * (a + b * s) / 2) * hu'
    · refine ((((hX.const_mul x.w).add (hcos.const_mul x.x)).add (hZ.const_mul x.y)).sub (hY.const_mul x.z)).congr_deriv ?_
      linear_combination (x.x * n * (a + b * s) / 2) * hu'
    · refine ((((hY.const_mul x.w).add (hcos.const_mul x.y)).add (hX.const_mul x.z)).sub (hZ.const_mul x.x)).congr_deriv ?_
      linear_combination (x.y * n * (a + b * s) / 2) * hu'
    · refine ((((hZ.const_mul x.w).add (hcos.const_mul x.z)).add (hY.const_mul x.x)).sub (hX.const_mul x.y)).congr_deriv ?_
      linear_combination (x.z * n * (a + b * s) / 2) * hu'


theorem planar_exact (q x y a1 a2 b1 b2 : ℝ) {prec : ℝ} (hp : prec ≠ 0) (s : ℝ) :
    planarJointIntegration q (x, y) 0 (a1, a2) 0 (b1, b2) s prec =
      .ok (q, (x + (a1 * s + b1 * (s * s) / 2), y + (a2 * s + b2 * (s * s) / 2))) := by
  have h4 : ∀ v : ℝ × ℝ, fourthDerivativeSquaredNormPlanar v 0 ((b1, b2) : ℝ × ℝ) 0 = 0 := by
    intro v
    simp [fourthDerivativeSquaredNormPlanar, fourthDerivativePlanar]
  have hc := Real.cos_sq_add_sin_sq q
  unfold planarJointIntegration
  simp only [mul_zero, add_zero, h4, max_self, Real.sqrt_zero, subSteps_zero hp, Res.bind_ok]
  simp [rot2, rot2T]
  constructor
  · linear_combination (x + (a1 * s + b1 * (s * s) / 2)) * hc
  · linear_combination (y + (a2 * s + b2 * (s * s) / 2)) * hc

theorem free_exact {q : Quat ℝ} (x v vD : Vec3 ℝ) {prec : ℝ} (hp : prec ≠ 0) (s : ℝ) (fuel : Nat) :
    freeJointIntegration (fuel + 1) q x 0 v 0 vD s prec =
      .ok (q, x + q.toRot *ᵥ (s • v + (s * s / 2) • vD)) := by
  have h4 : ∀ v : Vec3 ℝ, fourthDerivativeSquaredNormFree v 0 vD 0 = 0 := by
    intro v
    simp [fourthDerivativeSquaredNormFree, fourthDerivativeFree, Vec3.normSq, Vec3.dot]
  have e0 : (1 : ℝ) / 10 ^ 12 ≠ 0 := by norm_num
  have e1 : dblEps ≠ 0 := by unfold dblEps; norm_num
  rw [freeJointIntegration, so3_rest _ _ false hp hp]
  simp only [Bool.not_false, if_true]
  unfold freeJointIntegration_
  simp only [smul_zero, add_zero, h4, max_self, Real.sqrt_zero, subSteps_zero hp, Res.bind_ok]
  have h5 : ∀ h : ℝ, SO3Integration q 0 0 h = (q, false) := fun h => so3_rest q h false e0 e1
  have h6 : (List.range (((1 : Int) - 1).toNat)) = [] := rfl
  simp only [h6, List.foldl_nil, h5, Int.cast_one, div_one]
  refine congrArg Except.ok (congrArg (Prod.mk q) ?_)
  ext <;> simp [Mat3.mulVec] <;> ring

/-- C52 for one joint: the position obtained by integrating over a step `s`, as a function of `s`, is the solution of the
kinematic equation of the joint with velocity `alpha + alphaD * s`. -/
theorem C52_joint (t : JointType) {x a b : List ℝ} (hx : ValidParam t x) (ha : a.length = Joint.nDof t)
    (hb : b.length = Joint.nDof t) (hc : ClosedForm t a b) {prec : ℝ} (hp : prec ≠ 0) :
    ∃ Q : ℝ → List ℝ, Q 0 = x ∧ (∀ s fuel, jointIntegration (fuel + 1) t a b s x prec = .ok (Q s)) ∧
      ∀ s, ValidParam t (Q s) ∧ HasDerivList Q (coordRate t (Q s) (List.zipWith (fun u v => u + v * s) a b)) s := by
  obtain ⟨hl, hv⟩ := hx
  cases t with
  | Rev =>
    obtain ⟨a0, rfl⟩ := List.length_eq_one_iff.1 ha
    obtain ⟨b0, rfl⟩ := List.length_eq_one_iff.1 hb
    obtain ⟨x0, rfl⟩ := List.length_eq_one_iff.1 hl
    exact ⟨fun s => [x0 + (a0 * s + b0 * (s * s) / 2)], by simp, fun _ _ => rfl, fun s => ⟨⟨rfl, trivial⟩,
      hasDerivList_map (fs := [fun s => x0 + (a0 * s + b0 * (s * s) / 2)]) (.cons (quad_deriv x0 a0 b0 s) .nil)⟩⟩
  | Prism =>
    obtain ⟨a0, rfl⟩ := List.length_eq_one_iff.1 ha
    obtain ⟨b0, rfl⟩ := List.length_eq_one_iff.1 hb
    obtain ⟨x0, rfl⟩ := List.length_eq_one_iff.1 hl
    exact ⟨fun s => [x0 + (a0 * s + b0 * (s * s) / 2)], by simp, fun _ _ => rfl, fun s => ⟨⟨rfl, trivial⟩,
      hasDerivList_map (fs := [fun s => x0 + (a0 * s + b0 * (s * s) / 2)]) (.cons (quad_deriv x0 a0 b0 s) .nil)⟩⟩
  | Cylindrical =>
    obtain ⟨a0, a1, rfl⟩ := List.length_eq_two.1 ha
    obtain ⟨b0, b1, rfl⟩ := List.length_eq_two.1 hb
    obtain ⟨x0, x1, rfl⟩ := List.length_eq_two.1 hl
    exact ⟨fun s => [x0 + (a0 * s + b0 * (s * s) / 2), x1 + (a1 * s + b1 * (s * s) / 2)], by simp, fun _ _ => rfl,
      fun s => ⟨⟨rfl, trivial⟩,
      hasDerivList_map (fs := [fun s => x0 + (a0 * s + b0 * (s * s) / 2), fun s => x1 + (a1 * s + b1 * (s * s) / 2)])
        (.cons (quad_deriv x0 a0 b0 s) (.cons (quad_deriv x1 a1 b1 s) .nil))⟩⟩
  | Fixed =>
    obtain rfl := List.length_eq_zero_iff.1 ha
    obtain rfl := List.length_eq_zero_iff.1 hl
    exact ⟨fun s => [], rfl, fun _ _ => rfl, fun s => ⟨⟨rfl, trivial⟩, hasDerivList_map (fs := []) .nil⟩⟩
  | Planar =>
    obtain ⟨a0, a1, a2, rfl⟩ := list3 ha
    obtain ⟨b0, b1, b2, rfl⟩ := list3 hb
    obtain ⟨x0, x1, x2, rfl⟩ := list3 hl
    obtain ⟨h1, h2⟩ := hc
    obtain rfl : a0 = 0 := by simpa using h1
    obtain rfl : b0 = 0 := by simpa using h2
    refine ⟨fun s => [x0, x1 + (a1 * s + b1 * (s * s) / 2), x2 + (a2 * s + b2 * (s * s) / 2)], by simp, fun s fuel => ?_,
      fun s => ⟨⟨rfl, trivial⟩, ?_⟩⟩
    · rw [planar_list, planar_exact _ _ _ _ _ _ _ hp]; rfl
    · refine hasDerivList_map (fs := [fun _ => x0, fun s => x1 + (a1 * s + b1 * (s * s) / 2),
        fun s => x2 + (a2 * s + b2 * (s * s) / 2)]) (.cons ?_ (.cons ?_ (.cons ?_ .nil)))
      · simpa using hasDerivAt_const s x0
      · simpa using quad_deriv x1 a1 b1 s
      · simpa using quad_deriv x2 a2 b2 s
  | Spherical =>
    obtain ⟨a0, a1, a2, rfl⟩ := list3 ha
    obtain ⟨b0, b1, b2, rfl⟩ := list3 hb
    obtain ⟨x0, x1, x2, x3, rfl⟩ := list4 hl
    obtain ⟨Q, h0, h1, h2, h3⟩ := spherical_exact (x := ⟨x0, x1, x2, x3⟩) hv hc hp
    refine ⟨fun s => [(Q s).w, (Q s).x, (Q s).y, (Q s).z], by simp [h0], fun s fuel => ?_, fun s => ⟨⟨rfl, h1 s⟩, ?_⟩⟩
    · rw [spherical_list, h2]
      simp [h1 s]
    · obtain ⟨d0, d1, d2, d3⟩ := h3 s
      exact hasDerivList_map (fs := [fun s => (Q s).w, fun s => (Q s).x, fun s => (Q s).y, fun s => (Q s).z])
        (.cons d0 (.cons d1 (.cons d2 (.cons d3 .nil))))
  | Free =>
    obtain ⟨a0, a1, a2, a3, a4, a5, rfl⟩ := list6 ha
    obtain ⟨b0, b1, b2, b3, b4, b5, rfl⟩ := list6 hb
    obtain ⟨x0, x1, x2, x3, x4, x5, x6, rfl⟩ := list7 hl
    obtain ⟨c1, c2⟩ := hc
    have hn : (⟨x0, x1, x2, x3⟩ : Quat ℝ).normSq = 1 := hv
    let R := (⟨x0, x1, x2, x3⟩ : Quat ℝ).toRot
    let V := R *ᵥ ⟨a3, a4, a5⟩
    let A := R *ᵥ ⟨b3, b4, b5⟩
    refine ⟨fun s => [x0, x1, x2, x3, x4 + (V.x * s + A.x * (s * s) / 2), x5 + (V.y * s + A.y * (s * s) / 2),
      x6 + (V.z * s + A.z * (s * s) / 2)], by simp, fun s fuel => ?_, fun s => ⟨⟨rfl, hv⟩, ?_⟩⟩
    · rw [free_list, c1, c2, free_exact _ _ _ hp, Res.bind_ok]
      simp [hn, V, A, R, Mat3.mulVec]
      refine ⟨?_, ?_, ?_⟩ <;> ring
    · obtain ⟨rfl, rfl, rfl⟩ : a0 = 0 ∧ a1 = 0 ∧ a2 = 0 :=
        ⟨congrArg Vec3.x c1, congrArg Vec3.y c1, congrArg Vec3.z c1⟩
      obtain ⟨rfl, rfl, rfl⟩ : b0 = 0 ∧ b1 = 0 ∧ b2 = 0 :=
        ⟨congrArg Vec3.x c2, congrArg Vec3.y c2, congrArg Vec3.z c2⟩
      refine hasDerivList_map (fs := [fun _ => x0, fun _ => x1, fun _ => x2, fun _ => x3,
        fun s => x4 + (V.x * s + A.x * (s * s) / 2), fun s => x5 + (V.y * s + A.y * (s * s) / 2),
        fun s => x6 + (V.z * s + A.z * (s * s) / 2)])
        (.cons ?_ (.cons ?_ (.cons ?_ (.cons ?_ (.cons ?_ (.cons ?_ (.cons ?_ .nil)))))))
      · simpa using hasDerivAt_const s x0
      · simpa using hasDerivAt_const s x1
      · simpa using hasDerivAt_const s x2
      · simpa using hasDerivAt_const s x3
      · refine (quad_deriv x4 V.x A.x s).congr_deriv ?_
        simp [V, A, R, Mat3.mulVec]; ring
      · refine (quad_deriv x5 V.y A.y s).congr_deriv ?_
        simp [V, A, R, Mat3.mulVec]; ring
      · refine (quad_deriv x6 V.z A.z s).congr_deriv ?_
        simp [V, A, R, Mat3.mulVec]; ring

/-- C52 for a robot: integrating over a step `s`, as a function of `s`, gives a trajectory of valid positions whose
velocity is the integrated velocity, and whose acceleration is `alphaD`. -/
theorem C52_integration {mb : MultiBody ℝ} (wf : mb.WF) {mbc : MBC ℝ} (hq : ValidQ mb mbc.q)
    (ha : SizedDof mb mbc.alpha) (hd : SizedDof mb mbc.alphaD)
    (hc : ∀ (i : Nat) (j : Joint ℝ) (a b : List ℝ), mb.joints[i]? = some j → mbc.alpha[i]? = some a → mbc.alphaD[i]? = some b →
      ClosedForm j.type a b) {prec : ℝ} (hp : prec ≠ 0) :
    ∃ (Q A : ℝ → List (List ℝ)), Q 0 = mbc.q ∧ A 0 = mbc.alpha ∧
      (∀ s fuel, integration (fuel + 1) mb mbc s prec = .ok { mbc with q := Q s, alpha := A s }) ∧
      ∀ s, Trajectory mb Q (A s) s ∧ HasDerivDof mb A mbc.alphaD s := by
  have hqs : SizedQ mb mbc.q := by
    have := List.forall₂_iff_get.1 hq
    refine List.ext_getElem (by simpa using this.1.symm) fun i h1 h2 => ?_
    have hi : i < mb.joints.length := by simpa using h2
    have h3 := (this.2 i hi (by omega)).1
    have h4 := (wf.built _ (List.getElem_mem hi)).sizes.1
    simpa [h4] using h3
  have lq := hqs.length
  have la := ha.length
  have ld := hd.length
  have hall : ∀ i : Fin mb.joints.length, ∃ Q : ℝ → List ℝ, Q 0 = mbc.q[i] ∧
      (∀ s fuel, jointIntegration (fuel + 1) mb.joints[i].type mbc.alpha[i] mbc.alphaD[i] s mbc.q[i] prec = .ok (Q s)) ∧
      ∀ s, ValidParam mb.joints[i].type (Q s) ∧ HasDerivList Q (coordRate mb.joints[i].type (Q s)
        (List.zipWith (fun u v => u + v * s) mbc.alpha[i] mbc.alphaD[i])) s := by
    intro i
    have hj := wf.built _ (List.getElem_mem i.2)
    have gj : mb.joints[i.1]? = some mb.joints[i] := List.getElem?_eq_getElem i.2
    have ga := List.getElem?_eq_getElem (l := mbc.alpha) (i := i.1) (by omega)
    have gd := List.getElem?_eq_getElem (l := mbc.alphaD) (i := i.1) (by omega)
    exact C52_joint mb.joints[i].type ((List.forall₂_iff_get.1 hq).2 i.1 i.2 (by omega))
      ((ha.get ga gj).trans hj.sizes.2) ((hd.get gd gj).trans hj.sizes.2) (hc i.1 _ _ _ gj ga gd) hp
  choose Y h0 hN hY using hall
  have hAi : ∀ (s : ℝ) (i : Nat) (hi : i < mb.joints.length),
      (List.zipWith (List.zipWith (fun u v => u + v * s)) mbc.alpha mbc.alphaD)[i]? =
        some (List.zipWith (fun u v => u + v * s) mbc.alpha[i] mbc.alphaD[i]) := by
    intro s i hi
    rw [List.getElem?_zipWith, List.getElem?_eq_getElem (l := mbc.alpha) (by omega),
      List.getElem?_eq_getElem (l := mbc.alphaD) (by omega)]
  have hQi : ∀ (s : ℝ) (i : Nat) (hi : i < mb.joints.length), (List.ofFn fun k => Y k s)[i]? = some (Y ⟨i, hi⟩ s) := by
    intro s i hi
    simp [hi]
  refine ⟨fun s => List.ofFn fun k => Y k s, fun s => List.zipWith (List.zipWith (fun u v => u + v * s)) mbc.alpha mbc.alphaD,
    ?_, ?_, ?_, ?_⟩
  · refine List.ext_getElem (by simp; omega) fun i h1 h2 => ?_
    have hi : i < mb.joints.length := by simpa using h1
    simpa using h0 ⟨i, hi⟩
  · refine List.ext_getElem (by simp; omega) fun i h1 h2 => ?_
    have hi : i < mb.joints.length := by omega
    have gj := List.getElem?_eq_getElem hi
    have l2 := ha.get (List.getElem?_eq_getElem (l := mbc.alpha) (i := i) (by omega)) gj
    have l3 := hd.get (List.getElem?_eq_getElem (l := mbc.alphaD) (i := i) (by omega)) gj
    simp only [List.getElem_zipWith, mul_zero, add_zero]
    refine List.ext_getElem (by simp; omega) fun k h3 h4 => ?_
    simp
  · intro s fuel
    obtain ⟨m, e, h1, h2, h3, h4⟩ := integration_loop hqs ha hd (fuel := fuel + 1) (step := s) (prec := prec)
      (fun i j x a b hj hx hal had => by
        obtain ⟨hi, rfl⟩ := List.getElem?_eq_some_iff.1 hj
        obtain ⟨_, rfl⟩ := List.getElem?_eq_some_iff.1 hx
        obtain ⟨_, rfl⟩ := List.getElem?_eq_some_iff.1 hal
        obtain ⟨_, rfl⟩ := List.getElem?_eq_some_iff.1 had
        exact ⟨_, hN ⟨i, hi⟩ s fuel⟩)
    rw [e, h1]
    have key : ∀ i : Nat, m.q[i]? = (List.ofFn fun k => Y k s)[i]? ∧
        m.alpha[i]? = (List.zipWith (List.zipWith (fun u v => u + v * s)) mbc.alpha mbc.alphaD)[i]? := by
      intro i
      by_cases hi : i < mb.joints.length
      · have hj := List.getElem?_eq_getElem hi
        have hx := List.getElem?_eq_getElem (l := mbc.q) (i := i) (by omega)
        have hal := List.getElem?_eq_getElem (l := mbc.alpha) (i := i) (by omega)
        have had := List.getElem?_eq_getElem (l := mbc.alphaD) (i := i) (by omega)
        obtain ⟨k1, y, hy, k⟩ := h4 i _ _ _ _ hj hx hal had
        have k' := hN ⟨i, hi⟩ s fuel
        rw [hAi s i hi, hQi s i hi, k1, hy]
        refine ⟨?_, rfl⟩
        rw [Except.ok.inj (k.symm.trans k')]
      · constructor
        · rw [List.getElem?_eq_none (by omega), List.getElem?_eq_none (by simp; omega)]
        · rw [List.getElem?_eq_none (by omega), List.getElem?_eq_none (by simp; omega)]
    rw [List.ext_getElem? fun i => (key i).1, List.ext_getElem? fun i => (key i).2]
  · intro s
    refine ⟨⟨?_, ?_, ?_⟩, ?_⟩
    · intro s
      refine List.forall₂_iff_get.2 ⟨by simp, fun i h1 h2 => ?_⟩
      simpa using (hY ⟨i, h1⟩ s).1
    · refine List.ext_getElem (by simp; omega) fun i h1 h2 => ?_
      have hi : i < mb.joints.length := by simpa using h2
      have gj := List.getElem?_eq_getElem hi
      have l2 := ha.get (List.getElem?_eq_getElem (l := mbc.alpha) (i := i) (by omega)) gj
      have l3 := hd.get (List.getElem?_eq_getElem (l := mbc.alphaD) (i := i) (by omega)) gj
      simp
      omega
    · intro i j hj
      obtain ⟨hi, rfl⟩ := List.getElem?_eq_some_iff.1 hj
      simp only [hQi _ i hi, hAi s i hi, Option.getD_some]
      exact (hY ⟨i, hi⟩ s).2
    · intro i hi
      have hi' : i < mb.joints.length := by rw [wf.njoints]; exact hi
      have had := List.getElem?_eq_getElem (l := mbc.alphaD) (i := i) (by omega)
      have gj := List.getElem?_eq_getElem hi'
      have l2 := ha.get (List.getElem?_eq_getElem (l := mbc.alpha) (i := i) (by omega)) gj
      have l3 := hd.get had gj
      simp only [hAi _ i hi', had, Option.getD_some]
      generalize mbc.alpha[i]'(by omega) = a at *
      generalize mbc.alphaD[i]'(by omega) = b at *
      refine ⟨fun s => by simp; omega, fun k => ?_⟩
      by_cases hk : k < a.length
      · have hkb : k < b.length := by omega
        simp only [List.getD, List.getElem?_zipWith, List.getElem?_eq_getElem hk, List.getElem?_eq_getElem hkb,
          Option.getD_some]
        have h1 : HasDerivAt (fun s : ℝ => s) 1 s := hasDerivAt_id s
        simpa using (h1.const_mul b[k]).const_add a[k]
      · have hkb : ¬ k < b.length := by omega
        simp only [List.getD, List.getElem?_zipWith, List.getElem?_eq_none (Nat.not_lt.1 hk),
          List.getElem?_eq_none (Nat.not_lt.1 hkb), Option.getD_none]
        exact hasDerivAt_const s 0

/-- `C52_integration` applies to a moving robot with free, spherical, planar and revolute joints. -/
example : ∃ (mb : MultiBody ℝ) (mbc : MBC ℝ) (Q A : ℝ → List (List ℝ)),
    (∀ s fuel, integration (fuel + 1) mb mbc s = .ok { mbc with q := Q s, alpha := A s }) ∧
      ∀ s, Trajectory mb Q (A s) s ∧ HasDerivDof mb A mbc.alphaD s := by
  obtain ⟨mb, mbc, wf, hv, hq, ha, hd, ht, e1, e2⟩ := Sample.real_mobile
  obtain ⟨Q, A, -, -, h1, h2⟩ := C52_integration wf hv ha hd (prec := 1 / 10 ^ 10) (by
    intro i j a b hj h1 h2
    have hl : mb.joints.length = 4 := by simpa using congrArg List.length ht
    have hi : i < 4 := by rw [← hl]; exact (List.getElem?_eq_some_iff.1 hj).1
    have htj : [JointType.Free, .Spherical, .Planar, .Rev][i]? = some j.type := by rw [← ht, List.getElem?_map, hj]; rfl
    rw [e1] at h1
    rw [e2] at h2
    obtain rfl | rfl | rfl | rfl : i = 0 ∨ i = 1 ∨ i = 2 ∨ i = 3 := by omega
    all_goals
      rw [← Option.some.inj htj, ← Option.some.inj h1, ← Option.some.inj h2]
    · exact ⟨rfl, rfl⟩
    · change (⟨1, 2, 0⟩ : Vec3 ℝ).cross ⟨2, 4, 0⟩ = 0
      ext <;> simp
      norm_num
    · exact ⟨rfl, rfl⟩
    · trivial) (by positivity)
  exact ⟨mb, mbc, Q, A, h1, h2⟩

end RBDyn
