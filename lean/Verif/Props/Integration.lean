import Verif.Lemmas.Integration
import Verif.Lemmas.Config

/-! Properties C41 and C42: numerical integration. -/

namespace RBDyn
open scoped Mat3

/-- C41: closed form for `Rev` and `Prism`, for every step and precision. -/
theorem C41_one_parameter (fuel : Nat) (q a d step prec : ℝ) :
    jointIntegration fuel .Rev [a] [d] step [q] prec = .ok [q + a * step + d * step ^ 2 / 2] ∧
    jointIntegration fuel .Prism [a] [d] step [q] prec = .ok [q + a * step + d * step ^ 2 / 2] := by
  have e : q + a * step + d * step ^ 2 / 2 = q + (a * step + d * (step * step) / 2) := by ring
  rw [e]
  exact ⟨rfl, rfl⟩

/-- C41: closed form for `Cylindrical`. -/
theorem C41_cylindrical (fuel : Nat) (q0 q1 a0 a1 d0 d1 step prec : ℝ) :
    jointIntegration fuel .Cylindrical [a0, a1] [d0, d1] step [q0, q1] prec =
      .ok [q0 + a0 * step + d0 * step ^ 2 / 2, q1 + a1 * step + d1 * step ^ 2 / 2] := by
  have e : ∀ q a d : ℝ, q + a * step + d * step ^ 2 / 2 = q + (a * step + d * (step * step) / 2) := fun q a d => by ring
  rw [e, e]
  rfl

/-- C41: `Fixed` joints are unchanged. -/
theorem C41_fixed (fuel : Nat) (q a d : List ℝ) (step prec : ℝ) :
    jointIntegration fuel .Fixed a d step q prec = .ok q := rfl

theorem qexp_zero : qexp 0 = ⟨1, 0, 0, 0⟩ := by
  have : (0 : Vec3 ℝ).normSq = 0 := by simp [Vec3.normSq, Vec3.dot]
  unfold qexp
  rw [this]
  ext <;> simp

theorem so3_rest (q : Quat ℝ) (step : ℝ) {re ae : ℝ} (b : Bool) (hr : re ≠ 0) (ha : ae ≠ 0) :
    SO3Integration q 0 0 step re ae b = (q, false) := by
  have hc : (0 : Vec3 ℝ).cross 0 = 0 := by ext <;> simp
  have h1 := magnus_parallel hc step re ae
  have h2 := magnus_parallel_ok hc step hr ha
  rw [smul_zero, smul_zero, add_zero] at h1
  cases b
  · rw [so3_eq, h1, h2, smul_zero, qexp_zero, Quat.mul_one]
  · rw [so3_break, h1, h2, smul_zero, qexp_zero, Quat.mul_one]; rfl

theorem subSteps_zero {prec : ℝ} (hp : prec ≠ 0) (step : ℝ) : subSteps 0 step prec = .ok 1 := by
  unfold subSteps
  rw [if_neg hp]
  simp

/-- C41: zero velocity and acceleration leave every valid configuration unchanged. -/
theorem C41_rest (fuel : Nat) (t : JointType) {x : List ℝ} (hx : ValidParam t x) (step : ℝ) {prec : ℝ} (hp : prec ≠ 0) :
    jointIntegration (fuel + 1) t (List.replicate (Joint.nDof t) 0) (List.replicate (Joint.nDof t) 0) step x prec = .ok x := by
  obtain ⟨hl, hv⟩ := hx
  cases t with
  | Rev =>
    obtain ⟨x0, rfl⟩ := List.length_eq_one_iff.1 hl
    refine (C41_one_parameter (fuel + 1) x0 0 0 step prec).1.trans ?_
    norm_num
  | Prism =>
    obtain ⟨x0, rfl⟩ := List.length_eq_one_iff.1 hl
    refine (C41_one_parameter (fuel + 1) x0 0 0 step prec).2.trans ?_
    norm_num
  | Cylindrical =>
    obtain ⟨x0, x1, rfl⟩ := List.length_eq_two.1 hl
    refine (C41_cylindrical (fuel + 1) x0 x1 0 0 0 0 step prec).trans ?_
    norm_num
  | Fixed => rfl
  | Planar =>
    obtain ⟨x0, x1, x2, rfl⟩ := list3 hl
    refine (planar_list (fuel + 1) x0 x1 x2 0 0 0 0 0 0 step prec).trans ?_
    have h4 : ∀ w : ℝ, fourthDerivativeSquaredNormPlanar (((0 : ℝ), (0 : ℝ)) + step • ((0 : ℝ), (0 : ℝ))) w ((0 : ℝ), (0 : ℝ)) 0 = 0 := by
      intro w
      simp [fourthDerivativeSquaredNormPlanar, fourthDerivativePlanar]
    have h5 : fourthDerivativeSquaredNormPlanar ((0 : ℝ), (0 : ℝ)) 0 (0, 0) 0 = 0 := by
      simp [fourthDerivativeSquaredNormPlanar, fourthDerivativePlanar]
    have hc := Real.cos_sq_add_sin_sq x0
    unfold planarJointIntegration
    simp only [h4, h5, max_self, Real.sqrt_zero, subSteps_zero hp, Res.bind_ok]
    simp [rot2, rot2T]
    constructor
    · linear_combination x1 * hc
    · linear_combination x2 * hc
  | Spherical =>
    obtain ⟨x0, x1, x2, x3, rfl⟩ := list4 hl
    refine (spherical_list (fuel + 1) x0 x1 x2 x3 0 0 0 0 0 0 step prec).trans ?_
    have h1 : (⟨x0, x1, x2, x3⟩ : Quat ℝ).normSq = 1 := hv
    have hz : (⟨0, 0, 0⟩ : Vec3 ℝ) = 0 := rfl
    rw [sphericalJointIntegration, hz, so3_rest _ _ true hp hp]
    simp [h1]
  | Free =>
    obtain ⟨x0, x1, x2, x3, x4, x5, x6, rfl⟩ := list7 hl
    refine (free_list (fuel + 1) x0 x1 x2 x3 x4 x5 x6 0 0 0 0 0 0 0 0 0 0 0 0 step prec).trans ?_
    have h1 : (⟨x0, x1, x2, x3⟩ : Quat ℝ).normSq = 1 := hv
    have hz : (⟨0, 0, 0⟩ : Vec3 ℝ) = 0 := rfl
    have h4 : fourthDerivativeSquaredNormFree (0 : Vec3 ℝ) 0 0 0 = 0 := by
      simp [fourthDerivativeSquaredNormFree, fourthDerivativeFree, Vec3.normSq, Vec3.dot]
    have e : freeJointIntegration_ ⟨x0, x1, x2, x3⟩ ⟨x4, x5, x6⟩ ⟨x0, x1, x2, x3⟩ 0 0 0 0 step prec =
        .ok ((⟨x0, x1, x2, x3⟩ : Quat ℝ), (⟨x4, x5, x6⟩ : Vec3 ℝ)) := by
      unfold freeJointIntegration_
      simp only [smul_zero, add_zero, h4, max_self, Real.sqrt_zero, subSteps_zero hp, Res.bind_ok]
      simp [Mat3.mulVec_zero]
    rw [freeJointIntegration, hz, so3_rest _ _ false hp hp]
    simp only [Bool.not_false, if_true]
    rw [e, Res.bind_ok]
    simp [h1]

theorem Joint.Built.sizes {j : Joint ℝ} (h : j.Built) : j.params = Joint.nParams j.type ∧ j.dof = Joint.nDof j.type := by
  obtain ⟨t, a, f, n, rfl | ⟨mn, m, o, rfl⟩⟩ := h.exists_mk <;> exact ⟨rfl, rfl⟩

/-- C41 for a whole robot: with a positive precision (and a non-negative step if there are `Free` or `Planar` joints)
`integration` returns; it changes nothing but positions and velocities, every velocity becomes `alpha + alphaD * step`, and
the position of each joint is the one given by `jointIntegration`. -/
theorem C41_integration {mb : MultiBody ℝ} (hb : ∀ j ∈ mb.joints, j.Built) {mbc : MBC ℝ} (hq : SizedQ mb mbc.q)
    (ha : SizedDof mb mbc.alpha) (hd : SizedDof mb mbc.alphaD) {step prec : ℝ} (hp : 0 < prec)
    (hs : 0 ≤ step ∨ ∀ j ∈ mb.joints, j.type ≠ .Free ∧ j.type ≠ .Planar) :
    ∃ N mbc', (∀ fuel, N ≤ fuel → integration fuel mb mbc step prec = .ok mbc') ∧
      mbc' = { mbc with q := mbc'.q, alpha := mbc'.alpha } ∧
      SizedQ mb mbc'.q ∧ SizedDof mb mbc'.alpha ∧ (ValidQ mb mbc.q → ValidQ mb mbc'.q) ∧
      ∀ (i : Nat) (j : Joint ℝ) (x a b : List ℝ), mb.joints[i]? = some j → mbc.q[i]? = some x → mbc.alpha[i]? = some a →
        mbc.alphaD[i]? = some b → mbc'.alpha[i]? = some (List.zipWith (fun u v => u + v * step) a b) ∧
        ∃ y, mbc'.q[i]? = some y ∧ ∀ fuel, N ≤ fuel → jointIntegration fuel j.type a b step x prec = .ok y := by
  have lq := hq.length
  have la := ha.length
  have ld := hd.length
  have hall : ∀ i : Fin mb.joints.length, ∃ (y : List ℝ) (N : Nat), y.length = mb.joints[i].params ∧
      (ValidParam mb.joints[i].type mbc.q[i] → ValidParam mb.joints[i].type y) ∧
      ∀ fuel, N ≤ fuel → jointIntegration fuel mb.joints[i].type mbc.alpha[i] mbc.alphaD[i] step mbc.q[i] prec = .ok y := by
    intro i
    have hj := hb _ (List.getElem_mem i.2)
    have gj : mb.joints[i.1]? = some mb.joints[i] := List.getElem?_eq_getElem i.2
    have l1 := hq.get (List.getElem?_eq_getElem (l := mbc.q) (i := i.1) (by omega)) gj
    have l2 := ha.get (List.getElem?_eq_getElem (l := mbc.alpha) (i := i.1) (by omega)) gj
    have l3 := hd.get (List.getElem?_eq_getElem (l := mbc.alphaD) (i := i.1) (by omega)) gj
    obtain ⟨y, N, h1, h2, h3⟩ := joint_ok mb.joints[i].type (l2.trans hj.sizes.2) (l3.trans hj.sizes.2)
      (l1.trans hj.sizes.1) hp (hs.imp_right (fun h => h _ (List.getElem_mem i.2)))
    exact ⟨y, N, h1.trans hj.sizes.1.symm, h2, h3⟩
  choose Y N hY hV hN using hall
  have hsup : ∀ i, N i ≤ Finset.univ.sup N := fun i => Finset.le_sup (Finset.mem_univ i)
  have joint : ∀ fuel, Finset.univ.sup N ≤ fuel → ∀ (i : Nat) (j : Joint ℝ) (x a b : List ℝ) (hi : i < mb.joints.length),
      mb.joints[i]? = some j → mbc.q[i]? = some x → mbc.alpha[i]? = some a → mbc.alphaD[i]? = some b →
      jointIntegration fuel j.type a b step x prec = .ok (Y ⟨i, hi⟩) := by
    intro fuel hf i j x a b hi hj hx hal had
    have := hN ⟨i, hi⟩ fuel ((hsup _).trans hf)
    obtain ⟨_, rfl⟩ := List.getElem?_eq_some_iff.1 hj
    obtain ⟨_, rfl⟩ := List.getElem?_eq_some_iff.1 hx
    obtain ⟨_, rfl⟩ := List.getElem?_eq_some_iff.1 hal
    obtain ⟨_, rfl⟩ := List.getElem?_eq_some_iff.1 had
    exact this
  have run : ∀ fuel, Finset.univ.sup N ≤ fuel → integration fuel mb mbc step prec =
      .ok { mbc with q := List.ofFn Y
                     alpha := List.zipWith (List.zipWith (fun u v => u + v * step)) mbc.alpha mbc.alphaD } := by
    intro fuel hf
    obtain ⟨m, e, h1, h2, h3, h4⟩ := integration_loop hq ha hd (fuel := fuel) (step := step) (prec := prec)
      (fun i j x a b hj hx hal had => ⟨_, joint fuel hf i j x a b ((List.getElem?_eq_some_iff.1 hj).1) hj hx hal had⟩)
    rw [e, h1]
    have e1 : m.q = List.ofFn Y := by
      refine List.ext_getElem? fun i => ?_
      by_cases hi : i < mb.joints.length
      · have hj := List.getElem?_eq_getElem hi
        have hx := List.getElem?_eq_getElem (l := mbc.q) (i := i) (by omega)
        have hal := List.getElem?_eq_getElem (l := mbc.alpha) (i := i) (by omega)
        have had := List.getElem?_eq_getElem (l := mbc.alphaD) (i := i) (by omega)
        obtain ⟨-, y, hy, k⟩ := h4 i _ _ _ _ hj hx hal had
        rw [joint fuel hf i _ _ _ _ hi hj hx hal had] at k
        rw [hy, ← Except.ok.inj k]
        simp [hi]
      · rw [List.getElem?_eq_none (by omega), List.getElem?_eq_none (by simp; omega)]
    have e2 : m.alpha = List.zipWith (List.zipWith (fun u v => u + v * step)) mbc.alpha mbc.alphaD := by
      refine List.ext_getElem? fun i => ?_
      by_cases hi : i < mb.joints.length
      · have hj := List.getElem?_eq_getElem hi
        have hx := List.getElem?_eq_getElem (l := mbc.q) (i := i) (by omega)
        have hal := List.getElem?_eq_getElem (l := mbc.alpha) (i := i) (by omega)
        have had := List.getElem?_eq_getElem (l := mbc.alphaD) (i := i) (by omega)
        rw [(h4 i _ _ _ _ hj hx hal had).1, List.getElem?_zipWith, hal, had]
      · rw [List.getElem?_eq_none (by omega), List.getElem?_eq_none (by simp; omega)]
    rw [e1, e2]
  refine ⟨Finset.univ.sup N, _, run, rfl, ?_, ?_, ?_, ?_⟩
  · refine List.ext_getElem (by simp) fun i h1 h2 => ?_
    have hi : i < mb.joints.length := by simpa using h2
    simpa using hY ⟨i, hi⟩
  · refine List.ext_getElem (by simp; omega) fun i h1 h2 => ?_
    have hi : i < mb.joints.length := by simpa using h2
    have gj := List.getElem?_eq_getElem hi
    have l2 := ha.get (List.getElem?_eq_getElem (l := mbc.alpha) (i := i) (by omega)) gj
    have l3 := hd.get (List.getElem?_eq_getElem (l := mbc.alphaD) (i := i) (by omega)) gj
    simp
    omega
  · intro hv
    refine List.forall₂_iff_get.2 ⟨by simp, fun i h1 h2 => ?_⟩
    have := (List.forall₂_iff_get.1 hv).2 i h1 (by omega)
    simpa using hV ⟨i, h1⟩ this
  · intro i j x a b hj hx hal had
    have hi := (List.getElem?_eq_some_iff.1 hj).1
    refine ⟨by simp [List.getElem?_zipWith, hal, had], Y ⟨i, hi⟩, by simp [hi], ?_⟩
    exact fun fuel hf => joint fuel hf i j x a b hi hj hx hal had

/-- C42: the rotation part: `SO3Integration` preserves the norm of the quaternion, for all inputs. -/
theorem C42_so3 (q : Quat ℝ) (w wD : Vec3 ℝ) (step relEps absEps : ℝ) (brk : Bool) :
    (SO3Integration q w wD step relEps absEps brk).1.normSq = q.normSq := so3_normSq q w wD step relEps absEps brk

theorem spherical_norm : ∀ (fuel : Nat) (q : Quat ℝ) (w wD : Vec3 ℝ) (step prec : ℝ) (r : Quat ℝ),
    sphericalJointIntegration fuel q w wD step prec = .ok r → r.normSq = q.normSq
  | 0, _, _, _, _, _, _, h => by cases h
  | fuel + 1, q, w, wD, step, prec, r, h => by
    rw [sphericalJointIntegration] at h
    dsimp only at h
    split at h
    · rw [← Except.ok.inj h]; exact so3_normSq ..
    · obtain ⟨a, h1, h2⟩ := Res.bind_eq_ok.1 h
      exact (spherical_norm fuel _ _ _ _ _ _ h2).trans (spherical_norm fuel _ _ _ _ _ _ h1)

theorem free_norm : ∀ (fuel : Nat) (q : Quat ℝ) (x w v wD vD : Vec3 ℝ) (step prec : ℝ) (r : Quat ℝ × Vec3 ℝ),
    freeJointIntegration fuel q x w v wD vD step prec = .ok r → r.1.normSq = q.normSq
  | 0, _, _, _, _, _, _, _, _, _, h => by cases h
  | fuel + 1, q, x, w, v, wD, vD, step, prec, r, h => by
    rw [freeJointIntegration] at h
    dsimp only at h
    split at h
    · unfold freeJointIntegration_ at h
      dsimp only at h
      obtain ⟨a, h1, h2⟩ := Res.bind_eq_ok.1 h
      rw [← Except.ok.inj h2]; exact so3_normSq ..
    · obtain ⟨a, h1, h2⟩ := Res.bind_eq_ok.1 h
      exact (free_norm fuel _ _ _ _ _ _ _ _ _ h2).trans (free_norm fuel _ _ _ _ _ _ _ _ _ h1)

/-- C42: whenever the integration of a joint returns, for any step and precision, a valid configuration (unit quaternion)
is mapped to a valid configuration. -/
theorem C42_valid {fuel : Nat} {t : JointType} {a b x y : List ℝ} (ha : a.length = Joint.nDof t) (hb : b.length = Joint.nDof t)
    {step prec : ℝ} (hx : ValidParam t x) (h : jointIntegration fuel t a b step x prec = .ok y) : ValidParam t y := by
  obtain ⟨hl, hv⟩ := hx
  cases t with
  | Rev =>
    obtain ⟨a0, rfl⟩ := List.length_eq_one_iff.1 ha
    obtain ⟨b0, rfl⟩ := List.length_eq_one_iff.1 hb
    obtain ⟨x0, rfl⟩ := List.length_eq_one_iff.1 hl
    rw [← Except.ok.inj h]; exact ⟨rfl, trivial⟩
  | Prism =>
    obtain ⟨a0, rfl⟩ := List.length_eq_one_iff.1 ha
    obtain ⟨b0, rfl⟩ := List.length_eq_one_iff.1 hb
    obtain ⟨x0, rfl⟩ := List.length_eq_one_iff.1 hl
    rw [← Except.ok.inj h]; exact ⟨rfl, trivial⟩
  | Cylindrical =>
    obtain ⟨a0, a1, rfl⟩ := List.length_eq_two.1 ha
    obtain ⟨b0, b1, rfl⟩ := List.length_eq_two.1 hb
    obtain ⟨x0, x1, rfl⟩ := List.length_eq_two.1 hl
    rw [← Except.ok.inj h]; exact ⟨rfl, trivial⟩
  | Fixed => rw [← Except.ok.inj h]; exact ⟨hl, hv⟩
  | Planar =>
    obtain ⟨a0, a1, a2, rfl⟩ := list3 ha
    obtain ⟨b0, b1, b2, rfl⟩ := list3 hb
    obtain ⟨x0, x1, x2, rfl⟩ := list3 hl
    rw [planar_list] at h
    obtain ⟨H, -, h2⟩ := Res.bind_eq_ok.1 h
    rw [← Except.ok.inj h2]; exact ⟨rfl, trivial⟩
  | Spherical =>
    obtain ⟨a0, a1, a2, rfl⟩ := list3 ha
    obtain ⟨b0, b1, b2, rfl⟩ := list3 hb
    obtain ⟨x0, x1, x2, x3, rfl⟩ := list4 hl
    rw [spherical_list] at h
    obtain ⟨r, h1, h2⟩ := Res.bind_eq_ok.1 h
    have hr : r.normSq = 1 := (spherical_norm _ _ _ _ _ _ _ h1).trans hv
    rw [← Except.ok.inj h2]
    simp only [hr, Real.sqrt_one, div_one, zero_lt_one, if_true]
    exact ⟨rfl, hr⟩
  | Free =>
    obtain ⟨a0, a1, a2, a3, a4, a5, rfl⟩ := list6 ha
    obtain ⟨b0, b1, b2, b3, b4, b5, rfl⟩ := list6 hb
    obtain ⟨x0, x1, x2, x3, x4, x5, x6, rfl⟩ := list7 hl
    rw [free_list] at h
    obtain ⟨r, h1, h2⟩ := Res.bind_eq_ok.1 h
    have hr : r.1.normSq = 1 := (free_norm _ _ _ _ _ _ _ _ _ _ h1).trans hv
    rw [← Except.ok.inj h2]
    simp only [hr, Real.sqrt_one, div_one]
    exact ⟨rfl, hr⟩

/-- C42: the unbounded recursion of the integrators terminates for every positive precision: there is a depth from which the
integration of a joint returns, with a valid configuration.  `Free` and `Planar` joints need a non-negative step. -/
theorem C42_terminates (t : JointType) {a b x : List ℝ} (ha : a.length = Joint.nDof t) (hb : b.length = Joint.nDof t)
    (hx : ValidParam t x) {step prec : ℝ} (hp : 0 < prec) (hs : 0 ≤ step ∨ t ≠ .Free ∧ t ≠ .Planar) :
    ∃ (y : List ℝ) (N : Nat), ValidParam t y ∧ ∀ fuel, N ≤ fuel → jointIntegration fuel t a b step x prec = .ok y := by
  obtain ⟨y, N, -, h2, h3⟩ := joint_ok t ha hb hx.1 hp hs
  exact ⟨y, N, h2 hx, h3⟩

/-- With precision zero the recursion never ends for spherical and free joints, even at rest. -/
theorem C42_zero_precision_diverges (fuel : Nat) (q : Quat ℝ) (x w v wD vD : Vec3 ℝ) (step : ℝ) :
    sphericalJointIntegration fuel q w wD step 0 = .error .diverges ∧
    freeJointIntegration fuel q x w v wD vD step 0 = .error .diverges := by
  induction fuel generalizing q x w v step with
  | zero => exact ⟨rfl, rfl⟩
  | succ fuel ih =>
    have h1 : (SO3Integration q w wD step 0 0 true).2 = true := by rw [so3_break, magnus_zero_prec]; rfl
    have h2 : (SO3Integration q w wD step 0 0).2 = true := magnus_zero_prec w wD step
    constructor
    · rw [sphericalJointIntegration]
      simp only [h1, Bool.not_true, Bool.false_eq_true, if_false]
      rw [(ih q x w v (step / 2)).1]; rfl
    · rw [freeJointIntegration]
      simp only [h2, Bool.not_true, Bool.false_eq_true, if_false]
      rw [(ih q x w v (step / 2)).2]; rfl

/-- A negative step is undefined behaviour for a planar joint whose velocity direction turns (the square root of a negative
number is converted to an integer). -/
theorem C41_negative_step_counterexample (fuel : Nat) :
    jointIntegration fuel .Planar [1, 1, 0] [0, 0, 0] (-1) [0, 0, 0] = .error .ub := by
  have h : ∀ v : ℝ × ℝ, v = (1, 0) → fourthDerivativeSquaredNormPlanar v 1 ((0 : ℝ), (0 : ℝ)) 0 = 1 := by
    rintro v rfl
    simp [fourthDerivativeSquaredNormPlanar, fourthDerivativePlanar]
  rw [planar_list]
  unfold planarJointIntegration
  have h1 := h ((1, 0) : ℝ × ℝ) rfl
  have h2 := h (((1, 0) : ℝ × ℝ) + (-1 : ℝ) • ((0 : ℝ), (0 : ℝ))) (by ext <;> simp)
  simp only [mul_zero, add_zero, h1, h2, max_self, Real.sqrt_one]
  unfold subSteps
  rw [if_neg (by norm_num), if_pos (by norm_num)]
  rfl

namespace Sample

/-- A floating base with a spherical, a planar and a revolute joint, moving and accelerating. -/
theorem real_mobile : ∃ (mb : MultiBody ℝ) (mbc : MBC ℝ), mb.WF ∧ ValidQ mb mbc.q ∧ SizedQ mb mbc.q ∧
    SizedDof mb mbc.alpha ∧ SizedDof mb mbc.alphaD ∧ mb.joints.map (·.type) = [.Free, .Spherical, .Planar, .Rev] ∧
    mbc.alpha = [[0, 0, 0, 1, 2, 3], [1, 2, 0], [0, 4, 5], [6]] ∧
    mbc.alphaD = [[0, 0, 0, 3, 2, 1], [2, 4, 0], [0, 5, 5], [-1]] := by
  let J : List (Joint ℝ) := [Joint.mk' .Free ⟨0, 0, 1⟩ true "f", Joint.mk' .Spherical ⟨1, 0, 0⟩ true "s",
    Joint.mk' .Planar ⟨0, 0, 1⟩ true "p", Joint.mk' .Rev ⟨0, 0, 1⟩ true "r"]
  have hbu : ∀ j ∈ J, j.Built := by
    intro j hj
    simp only [J, List.mem_cons, List.not_mem_nil, or_false] at hj
    rcases hj with rfl | rfl | rfl | rfl <;> exact .mk _ _ _ _
  obtain ⟨mb, -, wf, hb, hj, -, -, -, hX⟩ := MultiBody.mk'_wf
    [⟨⟨2, 0, ⟨1, 0, 1, 0, 0, 1⟩⟩, "x"⟩, ⟨⟨2, 0, ⟨1, 0, 1, 0, 0, 1⟩⟩, "y"⟩, ⟨⟨2, 0, ⟨1, 0, 1, 0, 0, 1⟩⟩, "z"⟩,
      ⟨⟨2, 0, ⟨1, 0, 1, 0, 0, 1⟩⟩, "t"⟩] J [-1, 0, 1, 2] [0, 1, 2, 3] [-1, 0, 1, 2] [1, 1, 1, 1] rfl rfl rfl
    (by intro i hi
        have : i < 4 := hi
        obtain rfl | rfl | rfl | rfl : i = 0 ∨ i = 1 ∨ i = 2 ∨ i = 3 := by omega
        all_goals rfl)
    (by intro i p hp
        obtain ⟨hi, -⟩ := List.getElem?_eq_some_iff.1 hp
        have : i < 4 := hi
        obtain rfl | rfl | rfl | rfl : i = 0 ∨ i = 1 ∨ i = 2 ∨ i = 3 := by omega
        all_goals (cases hp; decide))
    rfl hbu
  let c : MBC ℝ :=
    { q := [[1, 0, 0, 0, 7, 8, 9], [0, 1, 0, 0], [1, 2, 3], [4]],
      alpha := [[0, 0, 0, 1, 2, 3], [1, 2, 0], [0, 4, 5], [6]], alphaD := [[0, 0, 0, 3, 2, 1], [2, 4, 0], [0, 5, 5], [-1]],
      force := [], jointConfig := [], jointVelocity := [], jointTorque := [], motionSubspace := [], bodyPosW := [],
      parentToSon := [], bodyVelW := [], bodyVelB := [], bodyAccB := [], gravity := 0 }
  refine ⟨mb, c, wf, ?_, ?_, ?_, ?_, ?_, rfl, rfl⟩
  · unfold ValidQ
    rw [hj]
    exact .cons ⟨rfl, show (1 : ℝ) * 1 + 0 * 0 + 0 * 0 + 0 * 0 = 1 by norm_num⟩
      (.cons ⟨rfl, show (0 : ℝ) * 0 + 1 * 1 + 0 * 0 + 0 * 0 = 1 by norm_num⟩ (.cons ⟨rfl, trivial⟩ (.cons ⟨rfl, trivial⟩ .nil)))
  all_goals simp [c, SizedQ, SizedDof, hj, J]
  all_goals exact ⟨rfl, rfl, rfl, rfl⟩

end Sample

/-- `C41_integration` applies to a robot with a free, a spherical, a planar and a revolute joint in motion; the new velocity of
the revolute joint differs from the old one. -/
example : ∃ (mb : MultiBody ℝ) (mbc mbc' : MBC ℝ) (N : Nat),
    (∀ fuel, N ≤ fuel → integration fuel mb mbc 2 (1 / 10 ^ 10) = .ok mbc') ∧ ValidQ mb mbc'.q ∧ mbc'.alpha[3]? = some [4] := by
  obtain ⟨mb, mbc, wf, hv, hq, ha, hd, ht, e1, e2⟩ := Sample.real_mobile
  obtain ⟨N, mbc', h1, -, -, -, h4, h5⟩ := C41_integration (step := 2) (prec := 1 / 10 ^ 10) wf.built hq ha hd (by positivity)
    (.inl (by norm_num))
  refine ⟨mb, mbc, mbc', N, h1, h4 hv, ?_⟩
  have hl : mb.joints.length = 4 := by simpa using congrArg List.length ht
  have hlq : mbc.q.length = 4 := by rw [hq.length, hl]
  have := (h5 3 _ (mbc.q[3]'(by omega)) [6] [-1] (List.getElem?_eq_getElem (by omega)) (List.getElem?_eq_getElem (by omega))
    (by rw [e1]; rfl) (by rw [e2]; rfl)).1
  rw [this]
  norm_num

/-- `C41_rest` applies to a tilted free joint, `C42_terminates` and `C42_valid` to a spherical joint whose axis of rotation is
not constant. -/
example : jointIntegration 1 .Free [0, 0, 0, 0, 0, 0] [0, 0, 0, 0, 0, 0] 3 [3 / 5, 0, 4 / 5, 0, 1, 2, 3] =
    .ok [3 / 5, 0, 4 / 5, 0, 1, 2, 3] ∧
    ∃ (y : List ℝ) (N : Nat), ValidParam .Spherical y ∧
      ∀ fuel, N ≤ fuel → jointIntegration fuel .Spherical [1, 0, 0] [0, 5, 0] 3 [3 / 5, 0, 4 / 5, 0] = .ok y :=
  ⟨C41_rest 0 .Free ⟨rfl, by norm_num⟩ 3 (by norm_num), C42_terminates .Spherical rfl rfl ⟨rfl, by norm_num⟩ (by positivity)
    (.inl (by norm_num))⟩

end RBDyn
