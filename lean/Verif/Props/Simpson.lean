import Verif.Lemmas.Simpson
import Verif.Props.IntegrationExact
import Verif.Props.Magnus

/-! Property C65: the translation obtained by integrating a `Planar` or `Free` joint is within `prec` of the exact one. -/

namespace RBDyn
open scoped Mat3

theorem eq_of_deriv {f g f' : ℝ → ℝ} (hf : ∀ t, HasDerivAt f (f' t) t) (hg : ∀ t, HasDerivAt g (f' t) t) (h0 : f 0 = g 0) (t : ℝ) :
    f t = g t := by
  have hd : ∀ t, HasDerivAt (fun t => f t - g t) 0 t := fun t => ((hf t).sub (hg t)).congr_deriv (sub_self _)
  have := is_const_of_deriv_eq_zero (fun t => (hd t).differentiableAt) (fun t => (hd t).deriv) t 0
  simp only [h0, sub_self] at this
  linarith

/-! Planar joints -/

theorem planar_loop (wD : ℝ) (vD : ℝ × ℝ) (h q w : ℝ) (X v : ℝ × ℝ) {θ : ℝ → ℝ} (hθ : ∀ t, θ t = q + w * t + wD * (t * t / 2)) (m : ℕ) :
    (List.range m).foldl (planarSubStep wD vD h) (q, X, v, w) =
      (θ (m * h), X + ∑ j ∈ Finset.range m, h • ((4 : ℝ) • rot2 (θ (j * h + h / 2)) (v + (j * h + h / 2) • vD) +
        (2 : ℝ) • rot2 (θ ((j + 1) * h)) (v + ((j + 1) * h) • vD)), v + (m * h) • vD, w + m * h * wD) := by
  induction m with
  | zero => simp [hθ]
  | succ m ih =>
    rw [List.range_succ, List.foldl_append, ih, Finset.sum_range_succ]
    simp only [List.foldl_cons, List.foldl_nil, planarSubStep]
    have e1 : θ (m * h) + (w + m * h * wD) * h + wD * (h * (h / 2)) = θ ((m + 1) * h) := by rw [hθ, hθ]; ring
    have e2 : θ (m * h) + (w + m * h * wD) * (h / 2) + wD * (h / 2 * (h / 2) / 2) = θ (m * h + h / 2) := by rw [hθ, hθ]; ring
    have e3 : v + (m * h) • vD + (h / 2) • vD = v + (m * h + h / 2) • vD := by module
    have e4 : v + (m * h) • vD + h • vD = v + ((m + 1) * h) • vD := by module
    rw [e1, e2, e3, e4]
    push_cast
    refine Prod.ext rfl (Prod.ext ?_ (Prod.ext rfl ?_))
    · simp only [add_assoc]
    · simp only []; ring

/-- The position computed for a planar joint is a composite Simpson rule. -/
theorem planar_run (q w wD : ℝ) (x v vD : ℝ × ℝ) {T prec : ℝ} {m : ℕ} {θ : ℝ → ℝ} (hθ : ∀ t, θ t = q + w * t + wD * (t * t / 2))
    (hn : subSteps (√(max (fourthDerivativeSquaredNormPlanar v w vD wD)
      (fourthDerivativeSquaredNormPlanar (v + T • vD) (w + T * wD) vD wD))) T prec = .ok ((m + 1 : ℕ) : Int)) :
    planarJointIntegration q x w v wD vD T prec = .ok (θ T, rot2T (θ T)
      (rot2 q x + simpsonSum (fun t => rot2 (θ t) (v + t • vD)) (T / ((m + 1 : ℕ) : ℝ)) (m + 1))) := by
  unfold planarJointIntegration
  dsimp only
  rw [hn, Res.bind_ok]
  have hm : (((m + 1 : ℕ) : Int) - 1).toNat = m := by omega
  have hm0 : ((m + 1 : ℕ) : ℝ) ≠ 0 := by positivity
  generalize hh : T / ((m + 1 : ℕ) : ℝ) = h
  have hT : T = (m + 1) * h := by rw [← hh]; field_simp; push_cast; ring
  rw [hm, planar_loop _ _ _ _ _ _ _ hθ]
  dsimp only
  have e1 : θ (m * h) + ((w + m * h * wD) * h + wD * (h * (h / 2))) = θ T := by rw [hT, hθ, hθ]; ring
  have e2 : θ (m * h) + (w + m * h * wD) * (h / 2) + wD * (h / 2 * (h / 2) / 2) = θ (m * h + h / 2) := by rw [hθ, hθ]; ring
  have e3 : v + (m * h) • vD + (h / 2) • vD = v + (m * h + h / 2) • vD := by module
  have e4 : v + (m * h) • vD + h • vD = v + T • vD := by rw [hT]; module
  rw [e1, e2, e3, e4]
  refine congrArg Except.ok (Prod.ext rfl (congrArg (rot2T (θ T)) ?_))
  have acc := simpson_accum (fun t => rot2 (θ t) (v + t • vD)) h (rot2 q x) m
  have e0 : rot2 q ((6 : ℝ) • x + h • v) = (6 : ℝ) • rot2 q x + h • rot2 (θ 0) (v + (0 : ℝ) • vD) := by
    have : θ 0 = q := by rw [hθ]; ring
    rw [this]
    ext <;> simp [rot2] <;> ring
  rw [e0, acc, simpsonSum_succ, hT]
  module

theorem rot2_rot2T (q : ℝ) (v : ℝ × ℝ) : rot2 q (rot2T q v) = v := by
  have := Real.cos_sq_add_sin_sq q
  ext
  · simp only [rot2, rot2T]; linear_combination v.1 * this
  · simp only [rot2, rot2T]; linear_combination v.2 * this

/-- The plane position of the body moved by a `Planar` joint with coordinates `q`: the coordinates `q[1], q[2]` are given in the
rotated frame. -/
noncomputable def planarPos (q : List ℝ) : ℝ × ℝ :=
  (Real.cos (q.getD 0 0) * q.getD 1 0 - Real.sin (q.getD 0 0) * q.getD 2 0,
   Real.sin (q.getD 0 0) * q.getD 1 0 + Real.cos (q.getD 0 0) * q.getD 2 0)

/-- Squared length in the plane. -/
noncomputable def sqLen (u : ℝ × ℝ) : ℝ := u.1 ^ 2 + u.2 ^ 2

/-- The scalar product of the plane. -/
noncomputable def dot2 (e : ℝ × ℝ) : ℝ × ℝ →ₗ[ℝ] ℝ where
  toFun u := e.1 * u.1 + e.2 * u.2
  map_add' u v := by simp; ring
  map_smul' c u := by simp; ring

theorem dot2_self (u : ℝ × ℝ) : dot2 u u = sqLen u := by simp [dot2, sqLen]; ring

theorem dot2_cs (e u : ℝ × ℝ) : |dot2 e u| ≤ √(dot2 e e) * √(dot2 u u) := by
  rw [dot2_self, dot2_self, ← Real.sqrt_mul (by unfold sqLen; positivity)]
  refine Real.abs_le_sqrt ?_
  simp only [dot2, sqLen, LinearMap.coe_mk, AddHom.coe_mk]
  nlinarith [sq_nonneg (e.1 * u.2 - e.2 * u.1)]

theorem dot2_deriv (e : ℝ × ℝ) {f : ℝ → ℝ × ℝ} {f' : ℝ × ℝ} {t : ℝ} (h : HasDerivAt f f' t) :
    HasDerivAt (fun t => dot2 e (f t)) (dot2 e f') t := by
  have h1 : HasDerivAt (fun t => (f t).1) f'.1 t := h.fst
  have h2 : HasDerivAt (fun t => (f t).2) f'.2 t := h.snd
  exact (h1.const_mul e.1).add (h2.const_mul e.2)

/-- A planar motion with the given initial position, velocity and acceleration. -/
theorem planar_motion {a0 a1 a2 b0 b1 b2 x0 x1 x2 : ℝ} {Q : ℝ → List ℝ} (h0 : Q 0 = [x0, x1, x2])
    (hQ : ∀ s, HasDerivList Q (coordRate .Planar (Q s) [a0 + b0 * s, a1 + b1 * s, a2 + b2 * s]) s) :
    (∀ s, (Q s).getD 0 0 = x0 + a0 * s + b0 * (s * s / 2)) ∧
      ∀ s, HasDerivAt (fun s => planarPos (Q s)) (rot2 (x0 + a0 * s + b0 * (s * s / 2)) ((a1, a2) + s • (b1, b2))) s := by
  have hlen : ∀ s, (Q s).length = 3 := by
    intro s
    rw [(hQ s).1 s]
    unfold coordRate
    split <;> simp_all
  have hl : ∀ s, Q s = [(Q s).getD 0 0, (Q s).getD 1 0, (Q s).getD 2 0] := by
    intro s
    obtain ⟨c0, c1, c2, e⟩ := list3 (hlen s)
    rw [e]; rfl
  have hr : ∀ s, coordRate .Planar (Q s) [a0 + b0 * s, a1 + b1 * s, a2 + b2 * s] =
      [a0 + b0 * s, a1 + b1 * s + (a0 + b0 * s) * (Q s).getD 2 0, a2 + b2 * s - (a0 + b0 * s) * (Q s).getD 1 0] := by
    intro s
    obtain ⟨c0, c1, c2, e⟩ := list3 (hlen s)
    rw [e]; rfl
  have d0 : ∀ s, HasDerivAt (fun s => (Q s).getD 0 0) (a0 + b0 * s) s := fun s => by
    have := (hQ s).2 0
    rwa [hr s] at this
  have d1 : ∀ s, HasDerivAt (fun s => (Q s).getD 1 0) (a1 + b1 * s + (a0 + b0 * s) * (Q s).getD 2 0) s := fun s => by
    have := (hQ s).2 1
    rwa [hr s] at this
  have d2 : ∀ s, HasDerivAt (fun s => (Q s).getD 2 0) (a2 + b2 * s - (a0 + b0 * s) * (Q s).getD 1 0) s := fun s => by
    have := (hQ s).2 2
    rwa [hr s] at this
  have hθ : ∀ s, (Q s).getD 0 0 = x0 + a0 * s + b0 * (s * s / 2) := by
    intro s
    refine eq_of_deriv (g := fun s => x0 + a0 * s + b0 * (s * s / 2)) d0 (fun s => ?_) (by simp [h0]) s
    have := quad_deriv x0 a0 b0 s
    refine (this.congr_of_eventuallyEq (Filter.Eventually.of_forall fun s => ?_))
    simp only []; ring
  refine ⟨hθ, fun s => ?_⟩
  have := rotating_deriv2 d0 (fun s => (d1 s).prodMk (d2 s)) s
  rw [hθ s] at this
  refine this.congr_deriv (congrArg _ ?_)
  ext <;> simp <;> ring

/-- Derivatives are unique. -/
theorem chain_unique {f g : ℕ → ℝ → ℝ × ℝ} {n : ℕ} (h0 : f 0 = g 0) (hf : ∀ k < n, ∀ t, HasDerivAt (f k) (f (k + 1) t) t)
    (hg : ∀ k < n, ∀ t, HasDerivAt (g k) (g (k + 1) t) t) : ∀ k ≤ n, f k = g k := by
  intro k
  induction k with
  | zero => exact fun _ => h0
  | succ k ih =>
    intro hk
    funext t
    have h1 := hf k (by omega) t
    rw [ih (by omega)] at h1
    exact h1.unique (hg k (by omega) t)

theorem planar_dist (φ : ℝ) (p S x : ℝ × ℝ) :
    ((rot2T φ (p + S)).1 - x.1) ^ 2 + ((rot2T φ (p + S)).2 - x.2) ^ 2 = sqLen (rot2 φ x - p - S) := by
  have hc := Real.cos_sq_add_sin_sq φ
  simp only [sqLen, rot2, rot2T, Prod.fst_sub, Prod.snd_sub, Prod.fst_add, Prod.snd_add]
  generalize Real.cos φ = c at *
  generalize Real.sin φ = s at *
  obtain ⟨S1, S2⟩ := S
  obtain ⟨p1, p2⟩ := p
  simp only
  grind

/-- The derivatives of the position of a planar joint. -/
theorem planar_chain {a b x : List ℝ} (ha : a.length = 3) (hb : b.length = 3) (hx : x.length = 3) {Q : ℝ → List ℝ} (h0 : Q 0 = x)
    (hQ : ∀ s, HasDerivList Q (coordRate .Planar (Q s) (List.zipWith (fun u v => u + v * s) a b)) s) :
    ∃ g : ℕ → ℝ → ℝ × ℝ, (∀ t, g 0 t = planarPos (Q t)) ∧ (∀ k < 5, ∀ t, HasDerivAt (g k) (g (k + 1) t) t) ∧
      ∀ t, fourthDerivativeSquaredNormPlanar ((a.getD 1 0, a.getD 2 0) + t • (b.getD 1 0, b.getD 2 0)) (a.getD 0 0 + t * b.getD 0 0)
        (b.getD 1 0, b.getD 2 0) (b.getD 0 0) = sqLen (g 5 t) := by
  obtain ⟨a0, a1, a2, rfl⟩ := list3 ha
  obtain ⟨b0, b1, b2, rfl⟩ := list3 hb
  obtain ⟨x0, x1, x2, rfl⟩ := list3 hx
  obtain ⟨hθ, hP⟩ := planar_motion (Q := Q) h0 hQ
  let θ : ℝ → ℝ := fun s => x0 + a0 * s + b0 * (s * s / 2)
  have dθ : ∀ t, HasDerivAt θ (a0 + t * b0) t := fun s => by
    have := quad_deriv x0 a0 b0 s
    refine (this.congr_of_eventuallyEq (Filter.Eventually.of_forall fun s => ?_)).congr_deriv (by ring)
    simp only [θ]; ring
  obtain ⟨f1, f2, f3, f4, c1, c2, c3, c4, c5⟩ := C53_planar (a1, a2) (b1, b2) a0 b0 dθ
  refine ⟨fun k => match k with
    | 0 => fun t => planarPos (Q t)
    | 1 => fun t => rot2 (θ t) ((a1, a2) + t • (b1, b2))
    | 2 => f1
    | 3 => f2
    | 4 => f3
    | _ => f4, fun t => rfl, ?_, c5⟩
  intro k hk t
  match k, hk with
  | 0, _ => exact hP t
  | 1, _ => exact c1 t
  | 2, _ => exact c2 t
  | 3, _ => exact c3 t
  | 4, _ => exact c4 t

/-- C65 for planar joints, without conditions on the motion: the angle is exact, and the error of the translation is at most
`κ * prec` if the fifth derivative of the position is nowhere on the step more than `κ` times what it is at the larger end. -/
theorem C65_planar_ratio (fuel : Nat) {a b x : List ℝ} (ha : a.length = 3) (hb : b.length = 3) (hx : x.length = 3)
    {Q : ℝ → List ℝ} (h0 : Q 0 = x)
    (hQ : ∀ s, HasDerivList Q (coordRate .Planar (Q s) (List.zipWith (fun u v => u + v * s) a b)) s)
    {f : ℕ → ℝ → ℝ × ℝ} (hf0 : ∀ t, f 0 t = planarPos (Q t)) (hf : ∀ k < 5, ∀ t, HasDerivAt (f k) (f (k + 1) t) t)
    {step prec κ : ℝ} (hs : 0 ≤ step) (hp : 0 < prec) (hκ : 0 ≤ κ)
    (hmax : ∀ t, 0 ≤ t → t ≤ step → sqLen (f 5 t) ≤ κ ^ 2 * max (sqLen (f 5 0)) (sqLen (f 5 step))) :
    ∃ y, jointIntegration fuel .Planar a b step x prec = .ok y ∧ y.length = 3 ∧ y.getD 0 0 = (Q step).getD 0 0 ∧
      (y.getD 1 0 - (Q step).getD 1 0) ^ 2 + (y.getD 2 0 - (Q step).getD 2 0) ^ 2 ≤ (κ * prec) ^ 2 := by
  obtain ⟨g, hg0, hg, hE⟩ := planar_chain ha hb hx h0 hQ
  have h5 : f 5 = g 5 := chain_unique ((funext hf0).trans (funext hg0).symm) hf hg 5 le_rfl
  rw [h5] at hmax
  obtain ⟨a0, a1, a2, rfl⟩ := list3 ha
  obtain ⟨b0, b1, b2, rfl⟩ := list3 hb
  obtain ⟨x0, x1, x2, rfl⟩ := list3 hx
  obtain ⟨hθ, hP⟩ := planar_motion (Q := Q) h0 hQ
  let θ : ℝ → ℝ := fun s => x0 + a0 * s + b0 * (s * s / 2)
  have hE0 := hE 0
  have hET := hE step
  simp only [List.getD_cons_zero, List.getD_cons_succ, zero_smul, add_zero, zero_mul] at hE0 hET
  have g0 : g 0 = fun t => planarPos (Q t) := funext hg0
  have g1 : g 1 = fun t => rot2 (θ t) ((a1, a2) + t • (b1, b2)) := funext fun t => by
    have := hg 0 (by omega) t
    rw [g0] at this
    exact this.unique (hP t)
  have hnn : ∀ u, 0 ≤ sqLen u := fun u => by unfold sqLen; positivity
  obtain ⟨m, e, hb⟩ := subSteps_bound (Real.sqrt_nonneg (max (sqLen (g 5 0)) (sqLen (g 5 step)))) hs hp
  have hrun := planar_run x0 a0 b0 (x1, x2) (a1, a2) (b1, b2) (T := step) (prec := prec) (m := m) (θ := θ) (fun _ => rfl)
    (by rw [hE0, hET]; exact e)
  rw [planar_list, hrun, Res.bind_ok]
  refine ⟨_, rfl, rfl, (hθ step).symm, ?_⟩
  have hmT : ((m + 1 : ℕ) : ℝ) * (step / ((m + 1 : ℕ) : ℝ)) = step := by
    have : ((m + 1 : ℕ) : ℝ) ≠ 0 := by positivity
    field_simp
  have err := simpson_vector dot2 (fun u => by rw [dot2_self]; exact hnn u) dot2_cs
    (fun e t => dot2_deriv e (hg 0 (by omega) t)) (fun e t => dot2_deriv e (hg 1 (by omega) t))
    (fun e t => dot2_deriv e (hg 2 (by omega) t)) (fun e t => dot2_deriv e (hg 3 (by omega) t))
    (fun e t => dot2_deriv e (hg 4 (by omega) t)) (h := step / ((m + 1 : ℕ) : ℝ)) (by positivity) (m + 1)
    (M := κ * √(max (sqLen (g 5 0)) (sqLen (g 5 step)))) (fun t ht hth => by
      rw [hmT] at hth
      rw [dot2_self, ← Real.sqrt_sq hκ, ← Real.sqrt_mul (sq_nonneg κ)]
      exact Real.sqrt_le_sqrt (hmax t ht hth))
  rw [hmT, zero_add, g1, g0] at err
  beta_reduce at err
  have err' := err.trans (le_trans (le_of_eq (by ring)) (mul_le_mul_of_nonneg_left hb hκ))
  rw [dot2_self, Real.sqrt_le_left (by positivity)] at err'
  refine le_trans (le_of_eq ?_) err'
  have hp0 : planarPos (Q 0) = rot2 x0 (x1, x2) := by rw [h0]; rfl
  have hpT : planarPos (Q step) = rot2 (θ step) ((Q step).getD 1 0, (Q step).getD 2 0) := by
    show _ = rot2 (x0 + a0 * step + b0 * (step * step / 2)) _
    rw [← hθ step]; rfl
  rw [hp0, hpT]
  exact planar_dist (θ step) _ _ ((Q step).getD 1 0, (Q step).getD 2 0)

/-- C65 for planar joints: whatever the motion, the angle obtained by integration is exact and the translation is within `prec` of
the exact one.

Missing: this needs the fifth derivative of the position to be largest at one of the ends of the step, where the code evaluates
it (`f k` is the k-th derivative of the position). -/
theorem C65_planar_partial (fuel : Nat) {a b x : List ℝ} (ha : a.length = 3) (hb : b.length = 3) (hx : x.length = 3)
    {Q : ℝ → List ℝ} (h0 : Q 0 = x)
    (hQ : ∀ s, HasDerivList Q (coordRate .Planar (Q s) (List.zipWith (fun u v => u + v * s) a b)) s)
    {f : ℕ → ℝ → ℝ × ℝ} (hf0 : ∀ t, f 0 t = planarPos (Q t)) (hf : ∀ k < 5, ∀ t, HasDerivAt (f k) (f (k + 1) t) t)
    {step prec : ℝ} (hs : 0 ≤ step) (hp : 0 < prec)
    (hmax : ∀ t, 0 ≤ t → t ≤ step → sqLen (f 5 t) ≤ max (sqLen (f 5 0)) (sqLen (f 5 step))) :
    ∃ y, jointIntegration fuel .Planar a b step x prec = .ok y ∧ y.length = 3 ∧ y.getD 0 0 = (Q step).getD 0 0 ∧
      (y.getD 1 0 - (Q step).getD 1 0) ^ 2 + (y.getD 2 0 - (Q step).getD 2 0) ^ 2 ≤ prec ^ 2 := by
  simpa using C65_planar_ratio fuel ha hb hx h0 hQ hf0 hf hs hp zero_le_one (by simpa using hmax)

theorem quad_max {α β γ t T : ℝ} (hα : 0 ≤ α) (ht : 0 ≤ t) (hT : t ≤ T) :
    α * t ^ 2 + β * t + γ ≤ max γ (α * T ^ 2 + β * T + γ) := by
  rcases le_total 0 (α * t + β) with h | h
  · refine le_max_of_le_right ?_
    nlinarith [mul_nonneg (sub_nonneg.2 hT) (add_nonneg h (mul_nonneg hα (ht.trans hT)))]
  · refine le_max_of_le_left ?_
    nlinarith [mul_nonneg ht (neg_nonneg.2 h)]

theorem sq_line_max {w d t T : ℝ} (ht : 0 ≤ t) (hT : t ≤ T) : (w + t * d) ^ 2 ≤ max (w ^ 2) ((w + T * d) ^ 2) := by
  have := quad_max (α := d ^ 2) (β := 2 * w * d) (γ := w ^ 2) (sq_nonneg d) ht hT
  refine le_trans (le_of_eq ?_) (this.trans (le_of_eq ?_))
  · ring
  · congr 1; ring

/-- A growing function of a quantity that is largest at an end. -/
theorem max_of_mono {F : ℝ → ℝ} (hF : ∀ a b, 0 ≤ a → a ≤ b → F a ≤ F b) {x y z : ℝ} (hx : 0 ≤ x) (h : x ≤ max y z) :
    F x ≤ max (F y) (F z) := by
  rcases le_max_iff.1 h with h | h
  · exact le_max_of_le_left (hF _ _ hx h)
  · exact le_max_of_le_right (hF _ _ hx h)

theorem planar_max {v dv : ℝ × ℝ} {w dw t T : ℝ} (hc : dw = 0 ∨ dv = 0) (ht : 0 ≤ t) (hT : t ≤ T) :
    fourthDerivativeSquaredNormPlanar (v + t • dv) (w + t * dw) dv dw ≤
      max (fourthDerivativeSquaredNormPlanar v w dv dw) (fourthDerivativeSquaredNormPlanar (v + T • dv) (w + T * dw) dv dw) := by
  obtain ⟨v1, v2⟩ := v
  obtain ⟨d1, d2⟩ := dv
  rcases hc with rfl | h
  · have := quad_max (α := w ^ 8 * (d1 ^ 2 + d2 ^ 2)) (β := 2 * (w ^ 4 * d1 * (w ^ 4 * v1 + 4 * w ^ 3 * d2) +
      w ^ 4 * d2 * (w ^ 4 * v2 - 4 * w ^ 3 * d1)))
      (γ := (w ^ 4 * v1 + 4 * w ^ 3 * d2) ^ 2 + (w ^ 4 * v2 - 4 * w ^ 3 * d1) ^ 2) (by positivity) ht hT
    have e : ∀ t, fourthDerivativeSquaredNormPlanar ((v1, v2) + t • (d1, d2)) (w + t * 0) (d1, d2) 0 =
        w ^ 8 * (d1 ^ 2 + d2 ^ 2) * t ^ 2 + 2 * (w ^ 4 * d1 * (w ^ 4 * v1 + 4 * w ^ 3 * d2) +
      w ^ 4 * d2 * (w ^ 4 * v2 - 4 * w ^ 3 * d1)) * t + ((w ^ 4 * v1 + 4 * w ^ 3 * d2) ^ 2 + (w ^ 4 * v2 - 4 * w ^ 3 * d1) ^ 2) := by
      intro t
      simp [fourthDerivativeSquaredNormPlanar, fourthDerivativePlanar]
      ring
    have e0 := e 0
    simp only [zero_smul, add_zero, zero_mul] at e0
    rw [e, e, e0]
    refine this.trans (le_of_eq ?_)
    congr 1; ring
  · obtain ⟨rfl, rfl⟩ : d1 = 0 ∧ d2 = 0 := by simpa using h
    have e : ∀ t, fourthDerivativeSquaredNormPlanar ((v1, v2) + t • ((0, 0) : ℝ × ℝ)) (w + t * dw) (0, 0) dw =
        (((w + t * dw) ^ 2) ^ 4 + 30 * dw ^ 2 * ((w + t * dw) ^ 2) ^ 2 + 9 * dw ^ 4) * (v1 ^ 2 + v2 ^ 2) := by
      intro t
      simp [fourthDerivativeSquaredNormPlanar, fourthDerivativePlanar]
      ring
    have e0 := e 0
    simp only [zero_smul, add_zero, zero_mul] at e0
    rw [e, e, e0]
    exact max_of_mono (F := fun s => (s ^ 4 + 30 * dw ^ 2 * s ^ 2 + 9 * dw ^ 4) * (v1 ^ 2 + v2 ^ 2))
      (fun a b ha hab => by beta_reduce; gcongr) (by positivity) (sq_line_max ht hT)

/-- C65 for planar joints that turn at a constant rate, or move with a constant linear velocity in their own frame: the angle
obtained by integration is exact and the translation is within `prec` of the exact one. -/
theorem C65_planar (fuel : Nat) {a b x : List ℝ} (ha : a.length = 3) (hb : b.length = 3) (hx : x.length = 3)
    (hc : b.getD 0 0 = 0 ∨ (b.getD 1 0 = 0 ∧ b.getD 2 0 = 0)) {Q : ℝ → List ℝ} (h0 : Q 0 = x)
    (hQ : ∀ s, HasDerivList Q (coordRate .Planar (Q s) (List.zipWith (fun u v => u + v * s) a b)) s)
    {step prec : ℝ} (hs : 0 ≤ step) (hp : 0 < prec) :
    ∃ y, jointIntegration fuel .Planar a b step x prec = .ok y ∧ y.length = 3 ∧ y.getD 0 0 = (Q step).getD 0 0 ∧
      (y.getD 1 0 - (Q step).getD 1 0) ^ 2 + (y.getD 2 0 - (Q step).getD 2 0) ^ 2 ≤ prec ^ 2 := by
  obtain ⟨f, hf0, hf, he⟩ := planar_chain ha hb hx h0 hQ
  refine C65_planar_partial fuel ha hb hx h0 hQ hf0 hf hs hp fun t ht hT => ?_
  obtain ⟨a0, a1, a2, rfl⟩ := list3 ha
  obtain ⟨b0, b1, b2, rfl⟩ := list3 hb
  have := planar_max (v := (a1, a2)) (dv := (b1, b2)) (w := a0) (dw := b0) (by simpa using hc) ht hT
  have e0 := he 0
  simp only [List.getD_cons_zero, List.getD_cons_succ, zero_smul, add_zero, zero_mul] at e0
  rw [← he t, ← he step, ← e0]
  exact this

/-! Free joints -/

/-- The unit quaternion that turns by `2 φ` around `u`. -/
noncomputable def axisQuat (u : Vec3 ℝ) (φ : ℝ) : Quat ℝ := ⟨Real.cos φ, Real.sin φ * u.x, Real.sin φ * u.y, Real.sin φ * u.z⟩

theorem axisQuat_add (x : Quat ℝ) {u : Vec3 ℝ} (hu : u.normSq = 1) (φ ψ : ℝ) :
    (x.mul (axisQuat u φ)).mul (axisQuat u ψ) = x.mul (axisQuat u (φ + ψ)) := by
  have hu' : u.x * u.x + u.y * u.y + u.z * u.z = 1 := hu
  ext <;> simp only [Quat.mul, axisQuat, Real.cos_add, Real.sin_add]
  all_goals
    generalize Real.cos φ = c1
    generalize Real.sin φ = s1
    generalize Real.cos ψ = c2
    generalize Real.sin ψ = s2
  · linear_combination (-x.w * s1 * s2) * hu'
  · linear_combination (-x.x * s1 * s2) * hu'
  · linear_combination (-x.y * s1 * s2) * hu'
  · linear_combination (-x.z * s1 * s2) * hu'

theorem so3_axis (x : Quat ℝ) {u : Vec3 ℝ} (hu : u.normSq = 1) (a b : ℝ) {re ae : ℝ} (hr : re ≠ 0) (ha : ae ≠ 0) (s : ℝ) :
    SO3Integration x (a • u) (b • u) s re ae = (x.mul (axisQuat u ((a * s + b * (s * s) / 2) / 2)), false) := by
  have hc : (a • u).cross (b • u) = 0 := by ext <;> simp <;> ring
  have h1 := magnus_parallel hc s re ae
  have h2 := magnus_parallel_ok hc s hr ha
  have h3 : (1 / 2 : ℝ) • (s • a • u + (s * s / 2) • b • u) = ((a * s + b * (s * s) / 2) / 2) • u := by
    ext <;> simp <;> ring
  rw [so3_eq, h1, h2, h3, qexp_axis hu]
  rfl

/-- Orientation after the time `t`. -/
noncomputable def turned (x : Quat ℝ) (u : Vec3 ℝ) (a b t : ℝ) : Quat ℝ := x.mul (axisQuat u ((a * t + b * (t * t) / 2) / 2))

theorem turned_zero (x : Quat ℝ) (u : Vec3 ℝ) (a b : ℝ) : turned x u a b 0 = x := by
  have : axisQuat u ((a * 0 + b * (0 * 0) / 2) / 2) = ⟨1, 0, 0, 0⟩ := by simp [axisQuat]
  unfold turned
  rw [this, Quat.mul_one]

theorem turned_step (x : Quat ℝ) {u : Vec3 ℝ} (hu : u.normSq = 1) (a b t s : ℝ) {re ae : ℝ} (hr : re ≠ 0) (ha : ae ≠ 0) :
    SO3Integration (turned x u a b t) (a • u + t • b • u) (b • u) s re ae = (turned x u a b (t + s), false) := by
  have e : a • u + t • b • u = (a + t * b) • u := by module
  rw [e, so3_axis _ hu _ _ hr ha]
  unfold turned
  rw [axisQuat_add _ hu]
  congr 3
  ring

theorem free_loop (x : Quat ℝ) {u : Vec3 ℝ} (hu : u.normSq = 1) (a b : ℝ) (X v vD : Vec3 ℝ) (h : ℝ) (m : ℕ) :
    (List.range m).foldl (freeSubStep (b • u) vD h) (x, X, v, a • u) =
      (turned x u a b (m * h), X + ∑ j ∈ Finset.range m, h • ((4 : ℝ) • ((turned x u a b (j * h + h / 2)).toRot *ᵥ
        (v + (j * h + h / 2) • vD)) + (2 : ℝ) • ((turned x u a b ((j + 1) * h)).toRot *ᵥ (v + ((j + 1) * h) • vD))),
        v + (m * h) • vD, a • u + (m * h) • b • u) := by
  have e0 : (1 : ℝ) / 10 ^ 12 ≠ 0 := by norm_num
  have e1 : dblEps ≠ 0 := by unfold dblEps; norm_num
  induction m with
  | zero => simp [turned_zero]
  | succ m ih =>
    rw [List.range_succ, List.foldl_append, ih, Finset.sum_range_succ]
    simp only [List.foldl_cons, List.foldl_nil, freeSubStep]
    rw [turned_step x hu a b _ _ e0 e1, turned_step x hu a b _ _ e0 e1]
    have e3 : v + (m * h) • vD + (h / 2) • vD = v + (m * h + h / 2) • vD := by module
    have e4 : v + (m * h) • vD + h • vD = v + ((m + 1) * h) • vD := by module
    have e5 : a • u + (m * h) • b • u + h • b • u = a • u + ((m + 1) * h) • b • u := by module
    have e6 : (m : ℝ) * h + h = (m + 1) * h := by ring
    rw [e3, e4, e5, e6]
    push_cast
    refine Prod.ext rfl (Prod.ext ?_ rfl)
    simp only [add_assoc]

/-- The position computed for a free joint that turns around a fixed axis is a composite Simpson rule. -/
theorem free_run (fuel : ℕ) (q : Quat ℝ) {u : Vec3 ℝ} (hu : u.normSq = 1) (a b : ℝ) (x v vD : Vec3 ℝ) {T prec : ℝ} (hp : prec ≠ 0)
    {m : ℕ} (hn : subSteps (√(max (fourthDerivativeSquaredNormFree v (a • u) vD (b • u))
      (fourthDerivativeSquaredNormFree (v + T • vD) (a • u + T • b • u) vD (b • u)))) T prec = .ok ((m + 1 : ℕ) : Int)) :
    freeJointIntegration (fuel + 1) q x (a • u) v (b • u) vD T prec = .ok (turned q u a b T,
      x + simpsonSum (fun t => (turned q u a b t).toRot *ᵥ (v + t • vD)) (T / ((m + 1 : ℕ) : ℝ)) (m + 1)) := by
  have e0 : (1 : ℝ) / 10 ^ 12 ≠ 0 := by norm_num
  have e1 : dblEps ≠ 0 := by unfold dblEps; norm_num
  rw [freeJointIntegration, so3_axis q hu a b hp hp]
  simp only [Bool.not_false, if_true]
  show freeJointIntegration_ q x (turned q u a b T) (a • u) v (b • u) vD T prec = _
  unfold freeJointIntegration_
  dsimp only
  rw [hn, Res.bind_ok]
  have hm : (((m + 1 : ℕ) : Int) - 1).toNat = m := by omega
  have hm0 : ((m + 1 : ℕ) : ℝ) ≠ 0 := by positivity
  generalize hh : T / ((m + 1 : ℕ) : ℝ) = h
  have hT : T = (m + 1) * h := by rw [← hh]; field_simp; push_cast; ring
  rw [hm, free_loop q hu a b]
  dsimp only
  rw [turned_step q hu a b _ _ e0 e1]
  have e3 : v + (m * h) • vD + (h / 2) • vD = v + (m * h + h / 2) • vD := by module
  have e4 : v + (m * h) • vD + h • vD = v + T • vD := by rw [hT]; module
  rw [e3, e4]
  refine congrArg Except.ok (Prod.ext rfl ?_)
  have acc := simpson_accum (fun t => (turned q u a b t).toRot *ᵥ (v + t • vD)) h x m
  simp only [turned_zero, zero_smul, add_zero] at acc
  dsimp only
  rw [acc, simpsonSum_succ, hT]
  module

/-- The scalar product of the space. -/
noncomputable def dot3 (e : Vec3 ℝ) : Vec3 ℝ →ₗ[ℝ] ℝ where
  toFun u := e.dot u
  map_add' u v := by simp [Vec3.dot]; ring
  map_smul' c u := by simp [Vec3.dot]; ring

theorem dot3_self (u : Vec3 ℝ) : dot3 u u = u.normSq := rfl

theorem dot3_cs (e u : Vec3 ℝ) : |dot3 e u| ≤ √(dot3 e e) * √(dot3 u u) := by
  rw [dot3_self, dot3_self, ← Real.sqrt_mul e.normSq_nonneg]
  refine Real.abs_le_sqrt ?_
  have : e.normSq * u.normSq - (e.dot u) ^ 2 = (e.cross u).normSq := by simp [Vec3.normSq, Vec3.dot]; ring
  have := (e.cross u).normSq_nonneg
  show (e.dot u) ^ 2 ≤ _
  linarith

theorem dot3_deriv (e : Vec3 ℝ) {f : ℝ → Vec3 ℝ} {f' : Vec3 ℝ} {t : ℝ} (h : HasDerivVec f f' t) :
    HasDerivAt (fun t => dot3 e (f t)) (dot3 e f') t :=
  ((h.x.const_mul e.x).add (h.y.const_mul e.y)).add (h.z.const_mul e.z)

theorem HasDerivVec.unique {f : ℝ → Vec3 ℝ} {a b : Vec3 ℝ} {t : ℝ} (h : HasDerivVec f a t) (h' : HasDerivVec f b t) : a = b := by
  ext
  · exact h.x.unique h'.x
  · exact h.y.unique h'.y
  · exact h.z.unique h'.z

theorem chain_unique3 {f g : ℕ → ℝ → Vec3 ℝ} {n : ℕ} (h0 : f 0 = g 0) (hf : ∀ k < n, ∀ t, HasDerivVec (f k) (f (k + 1) t) t)
    (hg : ∀ k < n, ∀ t, HasDerivVec (g k) (g (k + 1) t) t) : ∀ k ≤ n, f k = g k := by
  intro k
  induction k with
  | zero => exact fun _ => h0
  | succ k ih =>
    intro hk
    funext t
    have h1 := hf k (by omega) t
    rw [ih (by omega)] at h1
    exact h1.unique (hg k (by omega) t)

/-- The quaternion equation has a single solution. -/
theorem quat_unique {p q : ℝ → Quat ℝ} {w : ℝ → Vec3 ℝ} (h0 : p 0 = q 0)
    (hp : ∀ s, HasDerivAt (fun s => (p s).w) ((-(p s).x * (w s).x - (p s).y * (w s).y - (p s).z * (w s).z) / 2) s ∧
      HasDerivAt (fun s => (p s).x) (((p s).w * (w s).x + (p s).y * (w s).z - (p s).z * (w s).y) / 2) s ∧
      HasDerivAt (fun s => (p s).y) (((p s).w * (w s).y + (p s).z * (w s).x - (p s).x * (w s).z) / 2) s ∧
      HasDerivAt (fun s => (p s).z) (((p s).w * (w s).z + (p s).x * (w s).y - (p s).y * (w s).x) / 2) s)
    (hq : ∀ s, HasDerivAt (fun s => (q s).w) ((-(q s).x * (w s).x - (q s).y * (w s).y - (q s).z * (w s).z) / 2) s ∧
      HasDerivAt (fun s => (q s).x) (((q s).w * (w s).x + (q s).y * (w s).z - (q s).z * (w s).y) / 2) s ∧
      HasDerivAt (fun s => (q s).y) (((q s).w * (w s).y + (q s).z * (w s).x - (q s).x * (w s).z) / 2) s ∧
      HasDerivAt (fun s => (q s).z) (((q s).w * (w s).z + (q s).x * (w s).y - (q s).y * (w s).x) / 2) s) (s : ℝ) : p s = q s := by
  let D : ℝ → ℝ := fun s => ((p s).w - (q s).w) ^ 2 + ((p s).x - (q s).x) ^ 2 + ((p s).y - (q s).y) ^ 2 + ((p s).z - (q s).z) ^ 2
  have hD : ∀ s, HasDerivAt D 0 s := by
    intro s
    obtain ⟨p0, p1, p2, p3⟩ := hp s
    obtain ⟨q0, q1, q2, q3⟩ := hq s
    refine (((((p0.sub q0).pow 2).add ((p1.sub q1).pow 2)).add ((p2.sub q2).pow 2)).add ((p3.sub q3).pow 2)).congr_deriv ?_
    simp
    ring
  have hc : D s = D 0 := is_const_of_deriv_eq_zero (fun t => (hD t).differentiableAt) (fun t => (hD t).deriv) s 0
  have hz : D 0 = 0 := by simp [D, h0]
  have hs : ((p s).w - (q s).w) ^ 2 + ((p s).x - (q s).x) ^ 2 + ((p s).y - (q s).y) ^ 2 + ((p s).z - (q s).z) ^ 2 = 0 := hc.trans hz
  have n1 := sq_nonneg ((p s).w - (q s).w)
  have n2 := sq_nonneg ((p s).x - (q s).x)
  have n3 := sq_nonneg ((p s).y - (q s).y)
  have n4 := sq_nonneg ((p s).z - (q s).z)
  ext
  · exact sub_eq_zero.1 (pow_eq_zero_iff (two_ne_zero)|>.1 (by linarith))
  · exact sub_eq_zero.1 (pow_eq_zero_iff (two_ne_zero)|>.1 (by linarith))
  · exact sub_eq_zero.1 (pow_eq_zero_iff (two_ne_zero)|>.1 (by linarith))
  · exact sub_eq_zero.1 (pow_eq_zero_iff (two_ne_zero)|>.1 (by linarith))

theorem turned_motion {x : Quat ℝ} (hx : x.normSq = 1) {u : Vec3 ℝ} (hu : u.normSq = 1) (a b : ℝ) :
    (∀ s, (turned x u a b s).normSq = 1) ∧ ∀ s, let q := turned x u a b; let w := a • u + s • b • u
      HasDerivAt (fun s => (q s).w) ((-(q s).x * w.x - (q s).y * w.y - (q s).z * w.z) / 2) s ∧
      HasDerivAt (fun s => (q s).x) (((q s).w * w.x + (q s).y * w.z - (q s).z * w.y) / 2) s ∧
      HasDerivAt (fun s => (q s).y) (((q s).w * w.y + (q s).z * w.x - (q s).x * w.z) / 2) s ∧
      HasDerivAt (fun s => (q s).z) (((q s).w * w.z + (q s).x * w.y - (q s).y * w.x) / 2) s := by
  have hc : (a • u).cross (b • u) = 0 := by ext <;> simp <;> ring
  obtain ⟨Q, -, h1, h2, h3⟩ := spherical_exact hx hc (prec := 1) one_ne_zero
  have hQ : Q = turned x u a b := by
    funext s
    have := h2 s 0
    rw [sphericalJointIntegration, spherical_closed x hu a b one_ne_zero s] at this
    exact (Except.ok.inj this).symm
  subst hQ
  refine ⟨h1, fun s => ?_⟩
  obtain ⟨e0, e1, e2, e3⟩ := h3 s
  refine ⟨e0.congr_deriv ?_, e1.congr_deriv ?_, e2.congr_deriv ?_, e3.congr_deriv ?_⟩ <;> simp <;> ring

theorem toRot_deriv {q : ℝ → Quat ℝ} (hn : ∀ s, (q s).normSq = 1) {w : Vec3 ℝ} {s : ℝ}
    (h : HasDerivAt (fun s => (q s).w) ((-(q s).x * w.x - (q s).y * w.y - (q s).z * w.z) / 2) s ∧
      HasDerivAt (fun s => (q s).x) (((q s).w * w.x + (q s).y * w.z - (q s).z * w.y) / 2) s ∧
      HasDerivAt (fun s => (q s).y) (((q s).w * w.y + (q s).z * w.x - (q s).x * w.z) / 2) s ∧
      HasDerivAt (fun s => (q s).z) (((q s).w * w.z + (q s).x * w.y - (q s).y * w.x) / 2) s) :
    HasDerivMat (fun s => (q s).toRot) ((q s).toRot * Mat3.crossMat w) s := by
  have key := (hasDeriv_quatToE (w := fun s => (q s).w) (x := fun s => (q s).x) (y := fun s => (q s).y) (z := fun s => (q s).z)
    h.1 h.2.1 h.2.2.1 h.2.2.2 (hn s)).tr
  have e : ∀ s, (Joint.quatToE (q s).w (q s).x (q s).y (q s).z).tr = (q s).toRot := by
    intro s
    rw [Joint.quatToE_eq_toRot (hn s)]
    ext <;> simp [Quat.toRot] <;> ring
  simp only [e] at key
  refine key.congr ?_
  rw [← e s]
  ext <;> simp [Mat3.crossMat] <;> ring

/-- A free motion around a fixed axis with the given initial position, velocity and acceleration. -/
theorem free_motion {u : Vec3 ℝ} (hu : u.normSq = 1) {a b : ℝ} {v vD : Vec3 ℝ} {q0 : Quat ℝ} (hq : q0.normSq = 1) {x0 x1 x2 : ℝ}
    {Q : ℝ → List ℝ} (h0 : Q 0 = [q0.w, q0.x, q0.y, q0.z, x0, x1, x2])
    (hQ : ∀ s, HasDerivList Q (coordRate .Free (Q s) [(a • u + s • b • u).x, (a • u + s • b • u).y, (a • u + s • b • u).z,
      (v + s • vD).x, (v + s • vD).y, (v + s • vD).z]) s) :
    (∀ s, (⟨(Q s).getD 0 0, (Q s).getD 1 0, (Q s).getD 2 0, (Q s).getD 3 0⟩ : Quat ℝ) = turned q0 u a b s) ∧
      ∀ s, HasDerivVec (fun s => ⟨(Q s).getD 4 0, (Q s).getD 5 0, (Q s).getD 6 0⟩) ((turned q0 u a b s).toRot *ᵥ (v + s • vD)) s := by
  have h7 : ∀ s, (Q s).length = 7 := by
    have h6 : (Q 0).length = 7 := by rw [h0]; rfl
    intro s
    rw [(hQ 0).1 s, ← (hQ 0).1 0, h6]
  let q : ℝ → Quat ℝ := fun s => ⟨(Q s).getD 0 0, (Q s).getD 1 0, (Q s).getD 2 0, (Q s).getD 3 0⟩
  have hr : ∀ s, coordRate .Free (Q s) [(a • u + s • b • u).x, (a • u + s • b • u).y, (a • u + s • b • u).z,
      (v + s • vD).x, (v + s • vD).y, (v + s • vD).z] =
      [(-(q s).x * (a • u + s • b • u).x - (q s).y * (a • u + s • b • u).y - (q s).z * (a • u + s • b • u).z) / 2,
       ((q s).w * (a • u + s • b • u).x + (q s).y * (a • u + s • b • u).z - (q s).z * (a • u + s • b • u).y) / 2,
       ((q s).w * (a • u + s • b • u).y + (q s).z * (a • u + s • b • u).x - (q s).x * (a • u + s • b • u).z) / 2,
       ((q s).w * (a • u + s • b • u).z + (q s).x * (a • u + s • b • u).y - (q s).y * (a • u + s • b • u).x) / 2,
       ((q s).toRot *ᵥ (v + s • vD)).x, ((q s).toRot *ᵥ (v + s • vD)).y, ((q s).toRot *ᵥ (v + s • vD)).z] := by
    intro s
    obtain ⟨c0, c1, c2, c3, c4, c5, c6, e⟩ := list7 (h7 s)
    simp only [q]
    rw [e]; rfl
  have hd : ∀ s i, HasDerivAt (fun s => (Q s).getD i 0) _ s := fun s i => (hQ s).2 i
  simp only [hr] at hd
  obtain ⟨tn, td⟩ := turned_motion hq hu a b
  have hqt : ∀ s, q s = turned q0 u a b s := by
    refine quat_unique (w := fun s => a • u + s • b • u) ?_ (fun s => ⟨hd s 0, hd s 1, hd s 2, hd s 3⟩) td
    rw [turned_zero]
    simp only [q, h0]
    rfl
  refine ⟨hqt, fun s => ?_⟩
  rw [← hqt s]
  exact ⟨hd s 4, hd s 5, hd s 6⟩

/-- The rotational part of a vector of a free joint. -/
noncomputable def angPart (l : List ℝ) : Vec3 ℝ := ⟨l.getD 0 0, l.getD 1 0, l.getD 2 0⟩

/-- The linear part of a vector of a free joint. -/
noncomputable def linPart (l : List ℝ) : Vec3 ℝ := ⟨l.getD 3 0, l.getD 4 0, l.getD 5 0⟩

/-- The translation of a free joint. -/
noncomputable def freePos (l : List ℝ) : Vec3 ℝ := ⟨l.getD 4 0, l.getD 5 0, l.getD 6 0⟩

/-- The derivatives of the position of a free joint. -/
theorem free_chain {u : Vec3 ℝ} (hu : u.normSq = 1) {a b : ℝ} {v vD : Vec3 ℝ} {q0 : Quat ℝ} (hq : q0.normSq = 1) {P : ℝ → Vec3 ℝ}
    (hP : ∀ s, HasDerivVec P ((turned q0 u a b s).toRot *ᵥ (v + s • vD)) s) :
    ∃ g : ℕ → ℝ → Vec3 ℝ, (∀ t, g 0 t = P t) ∧ (∀ k < 5, ∀ t, HasDerivVec (g k) (g (k + 1) t) t) ∧
      ∀ t, fourthDerivativeSquaredNormFree (v + t • vD) (a • u + t • b • u) vD (b • u) = (g 5 t).normSq := by
  obtain ⟨tn, td⟩ := turned_motion hq hu a b
  obtain ⟨f1, f2, f3, f4, c1, c2, c3, c4, c5⟩ := C53_free v (a • u) vD (b • u) (R := fun s => (turned q0 u a b s).toRot)
    (fun t => Joint.isRot_toRot (tn t)) (fun t => toRot_deriv tn (td t))
  refine ⟨fun k => match k with
    | 0 => P
    | 1 => fun t => (turned q0 u a b t).toRot *ᵥ (v + t • vD)
    | 2 => f1
    | 3 => f2
    | 4 => f3
    | _ => f4, fun t => rfl, ?_, c5⟩
  intro k hk t
  match k, hk with
  | 0, _ => exact hP t
  | 1, _ => exact c1 t
  | 2, _ => exact c2 t
  | 3, _ => exact c3 t
  | 4, _ => exact c4 t

theorem free_error (fuel : Nat) {u : Vec3 ℝ} (hu : u.normSq = 1) {a b : ℝ} {x v vD : Vec3 ℝ} {q0 : Quat ℝ} (hq : q0.normSq = 1)
    {P : ℝ → Vec3 ℝ} (h0 : P 0 = x) (hP : ∀ s, HasDerivVec P ((turned q0 u a b s).toRot *ᵥ (v + s • vD)) s)
    {step prec κ : ℝ} (hs : 0 ≤ step) (hp : 0 < prec) (hκ : 0 ≤ κ)
    (hmax : ∀ t, 0 ≤ t → t ≤ step → fourthDerivativeSquaredNormFree (v + t • vD) (a • u + t • b • u) vD (b • u) ≤
      κ ^ 2 * max (fourthDerivativeSquaredNormFree v (a • u) vD (b • u))
        (fourthDerivativeSquaredNormFree (v + step • vD) (a • u + step • b • u) vD (b • u))) :
    ∃ y, freeJointIntegration (fuel + 1) q0 x (a • u) v (b • u) vD step prec = .ok (turned q0 u a b step, y) ∧
      (P step - y).normSq ≤ (κ * prec) ^ 2 := by
  obtain ⟨g, hg0, hg, hE⟩ := free_chain hu hq hP
  obtain ⟨m, e, hb⟩ := subSteps_bound (Real.sqrt_nonneg (max (fourthDerivativeSquaredNormFree v (a • u) vD (b • u))
        (fourthDerivativeSquaredNormFree (v + step • vD) (a • u + step • b • u) vD (b • u)))) hs hp
  refine ⟨_, free_run fuel q0 hu a b x v vD hp.ne' e, ?_⟩
  have g0 : g 0 = P := funext hg0
  have g1 : g 1 = fun t => (turned q0 u a b t).toRot *ᵥ (v + t • vD) := funext fun t => by
    have := hg 0 (by omega) t
    rw [g0] at this
    exact this.unique (hP t)
  have hmT : ((m + 1 : ℕ) : ℝ) * (step / ((m + 1 : ℕ) : ℝ)) = step := by
    have : ((m + 1 : ℕ) : ℝ) ≠ 0 := by positivity
    field_simp
  have err := simpson_vector dot3 (fun u => u.normSq_nonneg) dot3_cs
    (fun e t => dot3_deriv e (hg 0 (by omega) t)) (fun e t => dot3_deriv e (hg 1 (by omega) t))
    (fun e t => dot3_deriv e (hg 2 (by omega) t)) (fun e t => dot3_deriv e (hg 3 (by omega) t))
    (fun e t => dot3_deriv e (hg 4 (by omega) t)) (h := step / ((m + 1 : ℕ) : ℝ)) (by positivity) (m + 1)
    (M := κ * √(max (fourthDerivativeSquaredNormFree v (a • u) vD (b • u))
        (fourthDerivativeSquaredNormFree (v + step • vD) (a • u + step • b • u) vD (b • u)))) (fun t ht hth => by
      rw [hmT] at hth
      rw [← Real.sqrt_sq hκ, ← Real.sqrt_mul (sq_nonneg κ)]
      refine Real.sqrt_le_sqrt (le_trans (le_of_eq ?_) (hmax t ht hth))
      exact (hE t).symm)
  rw [hmT, zero_add, g1, g0] at err
  have err' := err.trans (le_trans (le_of_eq (by ring)) (mul_le_mul_of_nonneg_left hb hκ))
  rw [dot3_self, Real.sqrt_le_left (by positivity), h0] at err'
  rwa [sub_sub] at err'

/-- The derivatives of the position, in terms of the lists. -/
theorem free_chain' {a b x : List ℝ} (ha : a.length = 6) (hb : b.length = 6) (hx : ValidParam .Free x)
    (hpar : (angPart a).cross (angPart b) = 0) {Q : ℝ → List ℝ} (h0 : Q 0 = x)
    (hQ : ∀ s, HasDerivList Q (coordRate .Free (Q s) (List.zipWith (fun u v => u + v * s) a b)) s) :
    ∃ g : ℕ → ℝ → Vec3 ℝ, (∀ t, g 0 t = freePos (Q t)) ∧ (∀ k < 5, ∀ t, HasDerivVec (g k) (g (k + 1) t) t) ∧
      ∀ t, fourthDerivativeSquaredNormFree (linPart a + t • linPart b) (angPart a + t • angPart b) (linPart b) (angPart b) =
        (g 5 t).normSq := by
  obtain ⟨hl, hv⟩ := hx
  obtain ⟨a0, a1, a2, a3, a4, a5, rfl⟩ := list6 ha
  obtain ⟨b0, b1, b2, b3, b4, b5, rfl⟩ := list6 hb
  obtain ⟨w, i, j, k, x0, x1, x2, rfl⟩ := list7 hl
  obtain ⟨u, α, β, hu, eα, eβ⟩ := parallel_axis hpar
  have eα' : (⟨a0, a1, a2⟩ : Vec3 ℝ) = α • u := eα
  have eβ' : (⟨b0, b1, b2⟩ : Vec3 ℝ) = β • u := eβ
  have hZ : ∀ s, List.zipWith (fun u v => u + v * s) [a0, a1, a2, a3, a4, a5] [b0, b1, b2, b3, b4, b5] =
      [(α • u + s • β • u).x, (α • u + s • β • u).y, (α • u + s • β • u).z, ((⟨a3, a4, a5⟩ : Vec3 ℝ) + s • ⟨b3, b4, b5⟩).x,
        ((⟨a3, a4, a5⟩ : Vec3 ℝ) + s • ⟨b3, b4, b5⟩).y, ((⟨a3, a4, a5⟩ : Vec3 ℝ) + s • ⟨b3, b4, b5⟩).z] := by
    intro s
    rw [← eα', ← eβ']
    simp [mul_comm s]
  simp only [hZ] at hQ
  obtain ⟨-, hP⟩ := free_motion hu (q0 := ⟨w, i, j, k⟩) hv h0 hQ
  obtain ⟨g, hg0, hg, hE⟩ := free_chain hu (show (⟨w, i, j, k⟩ : Quat ℝ).normSq = 1 from hv) hP
  refine ⟨g, hg0, hg, fun t => ?_⟩
  rw [eα, eβ]
  exact hE t

/-- C65 for free joints that turn around a fixed axis: the orientation is exact, and the error of the translation is at most
`κ * prec` if the fifth derivative of the position is nowhere on the step more than `κ` times what it is at the larger end. -/
theorem C65_free_ratio (fuel : Nat) {a b x : List ℝ} (ha : a.length = 6) (hb : b.length = 6) (hx : ValidParam .Free x)
    (hpar : (angPart a).cross (angPart b) = 0) {Q : ℝ → List ℝ} (h0 : Q 0 = x)
    (hQ : ∀ s, HasDerivList Q (coordRate .Free (Q s) (List.zipWith (fun u v => u + v * s) a b)) s)
    {f : ℕ → ℝ → Vec3 ℝ} (hf0 : ∀ t, f 0 t = freePos (Q t)) (hf : ∀ k < 5, ∀ t, HasDerivVec (f k) (f (k + 1) t) t)
    {step prec κ : ℝ} (hs : 0 ≤ step) (hp : 0 < prec) (hκ : 0 ≤ κ)
    (hmax : ∀ t, 0 ≤ t → t ≤ step → (f 5 t).normSq ≤ κ ^ 2 * max (f 5 0).normSq (f 5 step).normSq) :
    ∃ y, jointIntegration (fuel + 1) .Free a b step x prec = .ok y ∧ y.length = 7 ∧ (∀ k < 4, y.getD k 0 = (Q step).getD k 0) ∧
      (freePos (Q step) - freePos y).normSq ≤ (κ * prec) ^ 2 := by
  obtain ⟨hl, hv⟩ := hx
  obtain ⟨a0, a1, a2, a3, a4, a5, rfl⟩ := list6 ha
  obtain ⟨b0, b1, b2, b3, b4, b5, rfl⟩ := list6 hb
  obtain ⟨w, i, j, k, x0, x1, x2, rfl⟩ := list7 hl
  obtain ⟨u, α, β, hu, eα, eβ⟩ := parallel_axis hpar
  have eα' : (⟨a0, a1, a2⟩ : Vec3 ℝ) = α • u := eα
  have eβ' : (⟨b0, b1, b2⟩ : Vec3 ℝ) = β • u := eβ
  have hq0 : (⟨w, i, j, k⟩ : Quat ℝ).normSq = 1 := hv
  have hZ : ∀ s, List.zipWith (fun u v => u + v * s) [a0, a1, a2, a3, a4, a5] [b0, b1, b2, b3, b4, b5] =
      [(α • u + s • β • u).x, (α • u + s • β • u).y, (α • u + s • β • u).z, ((⟨a3, a4, a5⟩ : Vec3 ℝ) + s • ⟨b3, b4, b5⟩).x,
        ((⟨a3, a4, a5⟩ : Vec3 ℝ) + s • ⟨b3, b4, b5⟩).y, ((⟨a3, a4, a5⟩ : Vec3 ℝ) + s • ⟨b3, b4, b5⟩).z] := by
    intro s
    rw [← eα', ← eβ']
    simp [mul_comm s]
  simp only [hZ] at hQ
  obtain ⟨hq, hP⟩ := free_motion hu (q0 := ⟨w, i, j, k⟩) hq0 h0 hQ
  obtain ⟨g, hg0, hg, hE⟩ := free_chain hu hq0 hP
  have h5 : f 5 = g 5 := chain_unique3 ((funext hf0).trans (funext hg0).symm) hf hg 5 le_rfl
  simp only [h5, ← hE, zero_smul, add_zero] at hmax
  obtain ⟨y, hy, he⟩ := free_error fuel hu hq0 (x := ⟨x0, x1, x2⟩) (by rw [h0]; rfl) hP hs hp hκ hmax
  rw [free_list, eα', eβ', hy, Res.bind_ok]
  obtain ⟨tn, -⟩ := turned_motion hq0 hu α β
  refine ⟨_, rfl, rfl, ?_, he⟩
  intro k hk
  simp only [tn, Real.sqrt_one, div_one]
  rw [← hq step]
  match k, hk with
  | 0, _ => rfl
  | 1, _ => rfl
  | 2, _ => rfl
  | 3, _ => rfl

/-- C65 for free joints that turn around a fixed axis: the orientation obtained by integration is exact and the translation is
within `prec` of the exact one.

Missing: rotations whose axis moves; and the fifth derivative of the position has to be largest at one of the ends of the step,
where the code evaluates it (`f k` is the k-th derivative of the position). -/
theorem C65_free_partial (fuel : Nat) {a b x : List ℝ} (ha : a.length = 6) (hb : b.length = 6) (hx : ValidParam .Free x)
    (hpar : (angPart a).cross (angPart b) = 0) {Q : ℝ → List ℝ} (h0 : Q 0 = x)
    (hQ : ∀ s, HasDerivList Q (coordRate .Free (Q s) (List.zipWith (fun u v => u + v * s) a b)) s)
    {f : ℕ → ℝ → Vec3 ℝ} (hf0 : ∀ t, f 0 t = freePos (Q t)) (hf : ∀ k < 5, ∀ t, HasDerivVec (f k) (f (k + 1) t) t)
    {step prec : ℝ} (hs : 0 ≤ step) (hp : 0 < prec)
    (hmax : ∀ t, 0 ≤ t → t ≤ step → (f 5 t).normSq ≤ max (f 5 0).normSq (f 5 step).normSq) :
    ∃ y, jointIntegration (fuel + 1) .Free a b step x prec = .ok y ∧ y.length = 7 ∧ (∀ k < 4, y.getD k 0 = (Q step).getD k 0) ∧
      (freePos (Q step) - freePos y).normSq ≤ prec ^ 2 := by
  simpa using C65_free_ratio fuel ha hb hx hpar h0 hQ hf0 hf hs hp zero_le_one (by simpa using hmax)

theorem free_max_const {v dv w : Vec3 ℝ} {t T : ℝ} (ht : 0 ≤ t) (hT : t ≤ T) :
    fourthDerivativeSquaredNormFree (v + t • dv) w dv 0 ≤
      max (fourthDerivativeSquaredNormFree v w dv 0) (fourthDerivativeSquaredNormFree (v + T • dv) w dv 0) := by
  have e : ∀ t : ℝ, fourthDerivativeFree (v + t • dv) w dv 0 = fourthDerivativeFree v w dv 0 + t • fourthDerivativeFree dv w 0 0 := by
    intro t
    ext <;> simp [fourthDerivativeFree, Vec3.normSq, Vec3.dot] <;> ring
  generalize fourthDerivativeFree v w dv 0 = p at e
  generalize fourthDerivativeFree dv w 0 0 = d at e
  have e0 := e 0
  simp only [zero_smul, add_zero] at e0
  simp only [fourthDerivativeSquaredNormFree, e, e0]
  have h := quad_max (α := d.normSq) (β := 2 * p.dot d) (γ := p.normSq) d.normSq_nonneg ht hT
  have en : ∀ t : ℝ, (p + t • d).normSq = d.normSq * t ^ 2 + 2 * p.dot d * t + p.normSq := by
    intro t
    simp [Vec3.normSq, Vec3.dot]; ring
  rw [en, en]
  exact h

theorem free_max_axis {v u : Vec3 ℝ} (hu : u.normSq = 1) {a b t T : ℝ} (ht : 0 ≤ t) (hT : t ≤ T) :
    fourthDerivativeSquaredNormFree v (a • u + t • b • u) 0 (b • u) ≤
      max (fourthDerivativeSquaredNormFree v (a • u) 0 (b • u)) (fourthDerivativeSquaredNormFree v (a • u + T • b • u) 0 (b • u)) := by
  have e : ∀ t : ℝ, fourthDerivativeSquaredNormFree v (a • u + t • b • u) 0 (b • u) =
      (((a + t * b) ^ 2) ^ 4 + 30 * b ^ 2 * ((a + t * b) ^ 2) ^ 2 + 9 * b ^ 4) * (u.cross v).normSq := by
    intro t
    have ew : a • u + t • b • u = (a + t * b) • u := by module
    rw [ew]
    generalize a + t * b = w
    have h1 : fourthDerivativeFree v (w • u) 0 (b • u) =
        (w ^ 4 - 3 * b ^ 2) • (v - (u.dot v) • u) - (6 * b * w ^ 2) • u.cross v := by
      have hu' : u.x * u.x + u.y * u.y + u.z * u.z = 1 := hu
      have hw : (w • u).normSq = w ^ 2 := by rw [Vec3.normSq_smul, hu]; ring
      have hb : (b • u).normSq = b ^ 2 := by rw [Vec3.normSq_smul, hu]; ring
      have hwb : (w • u).dot (b • u) = w * b := by
        simp only [Vec3.dot, Vec3.smul_x, Vec3.smul_y, Vec3.smul_z]; linear_combination (w * b) * hu'
      unfold fourthDerivativeFree
      simp only [hw, hb, hwb]
      ext <;> simp [Vec3.dot] <;> ring
    unfold fourthDerivativeSquaredNormFree
    rw [h1]
    have h2 : (v - (u.dot v) • u).normSq = (u.cross v).normSq := by
      have hu' : u.x * u.x + u.y * u.y + u.z * u.z = 1 := hu
      simp only [Vec3.normSq, Vec3.dot, Vec3.sub_x, Vec3.sub_y, Vec3.sub_z, Vec3.smul_x, Vec3.smul_y, Vec3.smul_z, Vec3.cross_x,
        Vec3.cross_y, Vec3.cross_z]
      linear_combination (u.x * v.x + u.y * v.y + u.z * v.z) ^ 2 * hu' - (v.x * v.x + v.y * v.y + v.z * v.z) * hu'
    have h3 : (v - (u.dot v) • u).dot (u.cross v) = 0 := by
      simp [Vec3.dot]; ring
    have h4 : ∀ (x y : ℝ) (p q : Vec3 ℝ), (x • p - y • q).normSq = x ^ 2 * p.normSq - 2 * x * y * p.dot q + y ^ 2 * q.normSq := by
      intro x y p q
      simp [Vec3.normSq, Vec3.dot]; ring
    rw [h4, h2, h3]
    ring
  have e0 := e 0
  simp only [zero_smul, add_zero, zero_mul] at e0
  rw [e, e, e0]
  have hn := (u.cross v).normSq_nonneg
  exact max_of_mono (F := fun s => (s ^ 4 + 30 * b ^ 2 * s ^ 2 + 9 * b ^ 4) * (u.cross v).normSq)
    (fun a b ha hab => by gcongr) (by positivity) (sq_line_max ht hT)

/-- C65 for free joints that turn around a fixed axis, and turn at a constant rate or move with a constant linear velocity in
their own frame: the orientation obtained by integration is exact and the translation is within `prec` of the exact one. -/
theorem C65_free (fuel : Nat) {a b x : List ℝ} (ha : a.length = 6) (hb : b.length = 6) (hx : ValidParam .Free x)
    (hc : angPart b = 0 ∨ ((angPart a).cross (angPart b) = 0 ∧ linPart b = 0)) {Q : ℝ → List ℝ} (h0 : Q 0 = x)
    (hQ : ∀ s, HasDerivList Q (coordRate .Free (Q s) (List.zipWith (fun u v => u + v * s) a b)) s)
    {step prec : ℝ} (hs : 0 ≤ step) (hp : 0 < prec) :
    ∃ y, jointIntegration (fuel + 1) .Free a b step x prec = .ok y ∧ y.length = 7 ∧ (∀ k < 4, y.getD k 0 = (Q step).getD k 0) ∧
      (freePos (Q step) - freePos y).normSq ≤ prec ^ 2 := by
  have hpar : (angPart a).cross (angPart b) = 0 := by
    rcases hc with h | h
    · rw [h]; ext <;> simp
    · exact h.1
  obtain ⟨f, hf0, hf, he⟩ := free_chain' ha hb hx hpar h0 hQ
  refine C65_free_partial fuel ha hb hx hpar h0 hQ hf0 hf hs hp fun t ht hT => ?_
  have e0 := he 0
  simp only [zero_smul, add_zero] at e0
  rw [← he t, ← he step, ← e0]
  rcases hc with h | ⟨-, h⟩
  · rw [h]
    simp only [smul_zero, add_zero]
    exact free_max_const ht hT
  · obtain ⟨u, α, β, hu, eα, eβ⟩ := parallel_axis hpar
    rw [h, eα, eβ]
    simp only [smul_zero, add_zero]
    exact free_max_axis hu ht hT

/-- `C65_planar` applies to a motion along a circle, and `C65_planar_partial` with it. -/
example (step prec : ℝ) (hs : 0 ≤ step) (hp : 0 < prec) :
    ∃ y, jointIntegration 1 .Planar [1, 1, 0] [0, 0, 0] step [0, 0, 0] prec = .ok y ∧ y.length = 3 ∧ y.getD 0 0 = step ∧
      (y.getD 1 0 - Real.sin step) ^ 2 + (y.getD 2 0 - (Real.cos step - 1)) ^ 2 ≤ prec ^ 2 := by
  refine C65_planar 1 (Q := fun t => [t, Real.sin t, Real.cos t - 1]) rfl rfl rfl (Or.inl rfl) (by simp) (fun s => ?_) hs hp
  refine hasDerivList_map (fs := [fun t => t, fun t => Real.sin t, fun t => Real.cos t - 1]) (.cons ?_ (.cons ?_ (.cons ?_ .nil)))
  · exact (hasDerivAt_id s).congr_deriv (by simp)
  · simpa using Real.hasDerivAt_sin s
  · simpa using (Real.hasDerivAt_cos s).sub_const 1

/-- `C65_free` applies to a motion along a helix. -/
example (step prec : ℝ) (hs : 0 ≤ step) (hp : 0 < prec) :
    ∃ y, jointIntegration 1 .Free [0, 0, 2, 2, 0, 1] [0, 0, 0, 0, 0, 0] step [1, 0, 0, 0, 0, 0, 0] prec = .ok y ∧ y.length = 7 ∧
      (∀ k < 4, y.getD k 0 = [Real.cos step, 0, 0, Real.sin step, Real.sin (2 * step), 1 - Real.cos (2 * step), step].getD k 0) ∧
      (⟨Real.sin (2 * step), 1 - Real.cos (2 * step), step⟩ - freePos y).normSq ≤ prec ^ 2 := by
  refine C65_free 0 (Q := fun t => [Real.cos t, 0, 0, Real.sin t, Real.sin (2 * t), 1 - Real.cos (2 * t), t]) rfl rfl
    ⟨rfl, by norm_num⟩ (Or.inl (by ext <;> rfl)) (by simp) (fun s => ?_) hs hp
  have h2 : HasDerivAt (fun t : ℝ => 2 * t) 2 s := by simpa using (hasDerivAt_id s).const_mul 2
  have e1 := Real.cos_two_mul' s
  have e2 := Real.sin_two_mul s
  have e3 := Real.sin_sq_add_cos_sq s
  refine hasDerivList_map (fs := [fun t => Real.cos t, fun _ => 0, fun _ => 0, fun t => Real.sin t, fun t => Real.sin (2 * t),
    fun t => 1 - Real.cos (2 * t), fun t => t])
    (.cons ?_ (.cons ?_ (.cons ?_ (.cons ?_ (.cons ?_ (.cons ?_ (.cons ?_ .nil)))))))
  · exact (Real.hasDerivAt_cos s).congr_deriv (by simp; ring)
  · exact (hasDerivAt_const s 0).congr_deriv (by simp)
  · exact (hasDerivAt_const s 0).congr_deriv (by simp)
  · exact (Real.hasDerivAt_sin s).congr_deriv (by simp)
  · refine h2.sin.congr_deriv ?_
    simp [Quat.toRot, e1]
    nlinarith
  · refine (h2.cos.const_sub 1).congr_deriv ?_
    simp [Quat.toRot, e2]
    done
  · exact (hasDerivAt_id s).congr_deriv (by simp [Quat.toRot])

end RBDyn
