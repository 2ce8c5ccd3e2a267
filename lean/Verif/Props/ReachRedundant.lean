import Verif.Props.ReachLocal
import Verif.Lemmas.ReachRedundant

/-! C86, arms with more coordinates than needed: near every configuration where the body can move in all directions the inverse kinematics converges. -/

namespace RBDyn
open scoped Mat3 RealInnerProductSpace
variable {mb : MultiBody ℝ}

/-- The pseudo-inverse: exact least squares whose solution is a combination of the rows, that is the shortest one (`JacobiSVD::solve`). -/
def PseudoInverse (solve : List (MotionVec ℝ) → MotionVec ℝ → List ℝ) : Prop :=
  LeastSquares solve ∧ ∀ A v, ∃ y : MotionVec ℝ, solve A v = A.map fun c => c.ang.dot y.ang + c.lin.dot y.lin

/-- The body can move in all directions: no direction is nearly orthogonal to all columns. -/
def RowRegular (A : List (MotionVec ℝ)) (σ : ℝ) : Prop :=
  ∀ y : MotionVec ℝ, σ ^ 2 * (y.ang.normSq + y.lin.normSq) ≤ (A.map fun c => (c.ang.dot y.ang + c.lin.dot y.lin) ^ 2).sum

theorem six_surj (y : Six) : ∃ m, six m = y := ⟨⟨⟨y 0, y 1, y 2⟩, ⟨y 3, y 4, y 5⟩⟩, by ext i; fin_cases i <;> rfl⟩

theorem list_sum_fin (f : MotionVec ℝ → ℝ) : ∀ A : List (MotionVec ℝ), (A.map f).sum = ∑ c : Fin A.length, f (A.getD c 0)
  | [] => by simp
  | a :: A => by
    rw [List.map_cons, List.sum_cons, list_sum_fin f A]
    show _ = ∑ c : Fin (A.length + 1), _
    rw [Fin.sum_univ_succ]
    rfl

theorem RowRegular.rowMap {A : List (MotionVec ℝ)} {σ : ℝ} (h : RowRegular A σ) {D : Nat} (hD : A.length = D) (y : Six) :
    σ * ‖y‖ ≤ ‖rowMap D A y‖ := by
  subst hD
  obtain ⟨m, rfl⟩ := six_surj y
  refine le_of_sq_le_sq ?_ (norm_nonneg _)
  rw [mul_pow, six_norm_sq, EuclideanSpace.norm_sq_eq]
  refine (h m).trans (le_of_eq ?_)
  rw [list_sum_fin]
  refine Finset.sum_congr rfl fun c _ => ?_
  rw [Real.norm_eq_abs, sq_abs]
  show _ = ⟪six (A.getD c 0), six m⟫ ^ 2
  rw [six_inner]

/-- C86, redundant paths. The path to body `N` consists of revolute, sliding, cylindrical and fixed joints, any number of them, and at the configuration
`mt.q`, which brings body `N` to the target, the body can move in all directions: the rows of the Jacobian are independent, with `σ` large
enough compared to the rounding threshold of the code. Then from every configuration in a neighbourhood of `mt.q` every iteration makes the
error smaller by the factor `|1 - λ| + |λ| η`, the coordinates stay near `mt.q`, and true is returned as soon as the error is smaller than the
threshold. For every pseudo-inverse and every rotation error that is right to first order. -/
theorem C86_redundant_partial (wf : mb.WF) (hr : mb.Rigid) (hd : mb.DirOK) {solve : List (MotionVec ℝ) → MotionVec ℝ → List ℝ}
    (hs : PseudoInverse solve) {rotErr : Mat3 ℝ → Mat3 ℝ → Vec3 ℝ} (he : FirstOrder rotErr) {ik : IK ℝ} {N : Nat} (hN : ik.efIndex = N)
    (hax : mb.AxisPath N) (hJ : ik.jac.Of mb N 0) {mt m₀ : MBC ℝ} (szt : mt.Sized mb) (hqt : ValidQ mb mt.q)
    (hf : forwardKinematics mb mt = .ok m₀) {target : PTransform ℝ} (hT : m₀.bodyPosW[N]? = some target) {J₀ : Jac ℝ}
    (hJ₀ : ik.jac.jacobian mb m₀ = .ok J₀) {σ η : ℝ} (hσ : RowRegular J₀.jac σ) (hz : 0 ≤ ik.almostZero) (hη : 0 < η)
    (hsmall : 3 * J₀.jac.length * ik.almostZero * (1 + η) < η * σ) (hrate : |1 - ik.lambda| + |ik.lambda| * η < 1) :
    ∃ r > 0, ∃ K L, ∀ (mbc : MBC ℝ) (d : ℝ), mbc.Sized mb → ValidQ mb mbc.q → (∀ i, i ∉ pathUp mb.par N → mbc.q[i]? = mt.q[i]?) →
      (∀ c, |(pathVec J₀.path mbc.q).getD c 0 - (pathVec J₀.path mt.q).getD c 0| ≤ d) → d < r →
      ∃ (n : Nat) (Q : Nat → List (List ℝ)) (m : MBC ℝ) (J : Jac ℝ) (b : Bool),
        inverseKinematics solve rotErr ik mb mbc target = .ok (m, J, b) ∧ n ≤ ik.maxIterations.toNat ∧ Q 0 = mbc.q ∧ m.q = Q n ∧
        (∀ x ≤ n, ValidQ mb (Q x) ∧ (∀ i, i ∉ pathUp mb.par N → (Q x)[i]? = mt.q[i]?) ∧
          (∀ c, |(pathVec J₀.path (Q x)).getD c 0 - (pathVec J₀.path mt.q).getD c 0| ≤ K * d) ∧
          (mb.ikResidual rotErr target N (Q x)).ang.normSq + (mb.ikResidual rotErr target N (Q x)).lin.normSq ≤
            ((|1 - ik.lambda| + |ik.lambda| * η) ^ x * (L * d)) ^ 2) ∧
        (∀ x < n, (mb.ikResidual rotErr target N (Q (x + 1))).ang.normSq + (mb.ikResidual rotErr target N (Q (x + 1))).lin.normSq ≤
          (|1 - ik.lambda| + |ik.lambda| * η) ^ 2 * ((mb.ikResidual rotErr target N (Q x)).ang.normSq + (mb.ikResidual rotErr target N (Q x)).lin.normSq)) ∧
        (b = false → n = ik.maxIterations.toNat) ∧
        (b = true → 0 < n ∧ normLt (mb.ikResidual rotErr target N (Q (n - 1))) ik.threshold) ∧
        (∀ x < ik.maxIterations.toNat, (|1 - ik.lambda| + |ik.lambda| * η) ^ x * (L * d) < ik.threshold → b = true) := by
  obtain ⟨m', f1, f2, -, f4, -⟩ := C23_posReady wf szt
  rw [hf] at f1
  cases f1
  have hJe := hJ₀
  rw [hJ.jacobian_eq wf f2] at hJe
  cases hJe
  rw [f2.bodyPosW, range_map_getElem? hJ.isBody, Option.some.injEq] at hT
  rw [f4] at hT
  dsimp only at hσ hsmall ⊢
  rw [f4] at hσ hsmall
  obtain ⟨D, hD⟩ : ∃ D, D = (ik.jac.path.map mb.dofAt).sum := ⟨_, rfl⟩
  have hlen : ∀ q, (ikCols mb ik.jac N q).length = D := fun q => (jacCols_length _ _ _ _).trans hD.symm
  have hsp : ∀ q, ValidQ mb q → (∀ i, i ∉ pathUp mb.par N → q[i]? = mt.q[i]?) →
      mb.spread ik.jac.path (coordFun (coordsOf D (pathVec ik.jac.path q))) mt.q = q := fun q hq ho =>
    spread_coords wf hax.plain hJ hD hq hqt ho
  set v := coordsOf D (pathVec ik.jac.path mt.q) with hv
  have ev := hsp mt.q hqt fun _ _ => rfl
  change RowRegular (ikCols mb ik.jac N mt.q) σ at hσ
  change 3 * ((ikCols mb ik.jac N mt.q).length : ℝ) * ik.almostZero * (1 + η) < η * σ at hsmall
  rw [hlen] at hsmall
  have hlam : ik.lambda ≠ 0 := fun h => by
    rw [h] at hrate
    norm_num at hrate
  obtain ⟨s, s0, L, L0, R, R0, hstp⟩ := redundant_step he wf hr hd hax hJ hD hqt v hz hη
    (fun y => by rw [← hv] at ev; rw [ev]; exact hσ.rowMap (hlen _) y) hsmall hlam
  rw [ev, hT] at hstp
  set ρ := |1 - ik.lambda| + |ik.lambda| * η with hρ
  have hρ0 : 0 ≤ ρ := by positivity
  have hρ1 : 0 < 1 - ρ := by linarith
  obtain ⟨k, k0, hk⟩ : ∃ k ≥ 0, k * (1 - ρ) = |ik.lambda| * (L / s) :=
    ⟨|ik.lambda| * (L / s) / (1 - ρ), by positivity, by field_simp⟩
  refine ⟨R / (1 + k), by positivity, 1 + k, L, fun mbc d sz hq hoff hdist hdr => ?_⟩
  have hd0 : 0 ≤ d := (abs_nonneg _).trans (hdist 0)
  rw [lt_div_iff₀ (by positivity)] at hdr
  obtain ⟨n, Q, m, J, b, h1, h2, h3, h4, h5, h6, h7, h8, -⟩ :=
    C45_inverse_kinematics wf hr (fun A v => (hs.1 A v).1) rotErr target hN hax.plain sz hq hJ
  have stay : ∀ x u, ‖u - v‖ ≤ d + k * (1 - ρ ^ x) * d → ‖u - v‖ ≤ (1 + k) * d ∧ ‖u - v‖ < R := fun x u hu => by
    have : k * (1 - ρ ^ x) * d ≤ k * d := mul_le_mul_of_nonneg_right (mul_le_of_le_one_right k0 (by linarith [pow_nonneg hρ0 x])) hd0
    constructor <;> linarith
  have key : ∀ x ≤ n, (ValidQ mb (Q x) ∧ (∀ i, i ∉ pathUp mb.par N → (Q x)[i]? = mt.q[i]?) ∧
      ‖coordsOf D (pathVec ik.jac.path (Q x)) - v‖ ≤ d + k * (1 - ρ ^ x) * d ∧
      ‖six (mb.ikResidual rotErr target N (Q x))‖ ≤ ρ ^ x * (L * d)) ∧ ∀ y, x = y + 1 →
        ‖six (mb.ikResidual rotErr target N (Q x))‖ ≤ ρ * ‖six (mb.ikResidual rotErr target N (Q y))‖ := by
    intro x
    induction x with
    | zero =>
      intro _
      have hn : ‖coordsOf D (pathVec ik.jac.path mbc.q) - v‖ ≤ d := (pi_norm_le_iff_of_nonneg hd0).2 fun c => hdist c
      have hn' : ‖coordsOf D (pathVec ik.jac.path mbc.q) - v‖ ≤ d + k * (1 - ρ ^ 0) * d := by simpa using hn
      have hc := (hstp _ (stay 0 _ hn').2).1
      rw [hsp _ hq hoff] at hc
      rw [h3]
      refine ⟨⟨hq, hoff, hn', ?_⟩, fun y hy => by omega⟩
      rw [pow_zero, one_mul]
      exact hc.trans (mul_le_mul_of_nonneg_left hn L0)
    | succ x ih =>
      intro hx
      obtain ⟨⟨i1, i2, i3, i4⟩, -⟩ := ih (by omega)
      have st := h5 x (by omega)
      have hc := (hstp _ (stay x _ i3).2).2
      rw [hsp _ i1 i2] at hc
      obtain ⟨m₁, g1, g2, -, g4, -⟩ := C23_posReady wf (mbc := { mbc with q := Q x }) { sz with q := i1.sizes wf }
      obtain ⟨J₁, e, hstep⟩ := st.step ik.jac m₁ hJ g2 g4
      rw [hJ.jacobian_eq wf g2] at e
      cases e
      dsimp only at hstep
      rw [g4] at hstep
      dsimp only at hstep
      obtain ⟨y, hy⟩ := hs.2 (roundCols ik.almostZero (ikCols mb ik.jac N (Q x))) (mb.ikResidual rotErr target N (Q x))
      have hrl : (roundCols ik.almostZero (ikCols mb ik.jac N (Q x))).length = D := by rw [roundCols, List.length_map, hlen]
      set p := coordsOf D (solve (roundCols ik.almostZero (ikCols mb ik.jac N (Q x))) (mb.ikResidual rotErr target N (Q x))) with hp
      obtain ⟨c1, c2⟩ := hc p (six y) (fun w => hs.1.normal hrl _ w) (fun c => by
        rw [hp, coordsOf, hy, six_inner, List.getD_eq_getElem?_getD, List.getElem?_map, List.getD_eq_getElem?_getD,
          List.getElem?_eq_getElem (by rw [hrl]; exact c.2)]
        rfl)
      have ecoord : coordsOf D (pathVec ik.jac.path (Q (x + 1))) = coordsOf D (pathVec ik.jac.path (Q x)) + ik.lambda • p := by
        funext c
        have l1 : (c : Nat) < (pathVec ik.jac.path (Q x)).length := by
          rw [pathVec_len wf hax.plain hJ i1, ← hD]; exact c.2
        have l2 : (c : Nat) < (solve (roundCols ik.almostZero (ikCols mb ik.jac N (Q x))) (mb.ikResidual rotErr target N (Q x))).length := by
          rw [(hs.1 _ _).1, hrl]; exact c.2
        rw [hp]
        unfold coordsOf
        rw [hstep]
        simp only [Pi.add_apply, Pi.smul_apply, smul_eq_mul, List.getD_eq_getElem?_getD]
        rw [List.getElem?_zipWith, List.getElem?_eq_getElem l1, List.getElem?_eq_getElem l2]
        rfl
      have ho' : ∀ i, i ∉ pathUp mb.par N → (Q (x + 1))[i]? = mt.q[i]? := fun i hi => (st.frame i hi).trans (i2 i hi)
      rw [← ecoord, hsp _ st.valid ho'] at c2
      have hpn : ‖p‖ ≤ ρ ^ x * (L * d) / s := by rw [le_div_iff₀ s0]; linarith
      have hnew : ‖coordsOf D (pathVec ik.jac.path (Q (x + 1))) - v‖ ≤ d + k * (1 - ρ ^ (x + 1)) * d := by
        rw [ecoord, add_sub_right_comm]
        refine (norm_add_le _ _).trans ?_
        rw [norm_smul, Real.norm_eq_abs]
        have t1 : |ik.lambda| * ‖p‖ ≤ |ik.lambda| * (ρ ^ x * (L * d) / s) := mul_le_mul_of_nonneg_left hpn (abs_nonneg _)
        have t2 : |ik.lambda| * (ρ ^ x * (L * d) / s) = k * (1 - ρ) * (ρ ^ x * d) := by rw [hk]; ring
        rw [t2] at t1
        have t3 : d + k * (1 - ρ ^ (x + 1)) * d = d + k * (1 - ρ ^ x) * d + k * (1 - ρ) * (ρ ^ x * d) := by rw [pow_succ]; ring
        linarith
      have c3 := c2 (stay (x + 1) _ hnew).2
      refine ⟨⟨st.valid, ho', hnew, c3.trans ?_⟩, fun y hy => ?_⟩
      · rw [pow_succ', mul_assoc]
        exact mul_le_mul_of_nonneg_left i4 hρ0
      · obtain rfl : x = y := by omega
        exact c3
  refine ⟨n, Q, m, J, b, h1, h2, h3, h4, fun x hx => ⟨(key x hx).1.1, (key x hx).1.2.1, fun c => ?_, ?_⟩, fun x hx => ?_, fun hb => (h8 hb).1, h7,
    fun x hx hlt => ?_⟩
  · by_cases hc : c < D
    · exact (norm_le_pi_norm (coordsOf D (pathVec ik.jac.path (Q x)) - v) ⟨c, hc⟩).trans (stay x _ (key x hx).1.2.2.1).1
    · have o : ∀ q, ValidQ mb q → (pathVec ik.jac.path q).getD c 0 = 0 := fun q hq => by
        rw [List.getD_eq_getElem?_getD, List.getElem?_eq_none_iff.2 (by rw [pathVec_len wf hax.plain hJ hq, ← hD]; omega)]; rfl
      rw [o _ (key x hx).1.1, o _ hqt, sub_zero, abs_zero]
      positivity
  · rw [← six_norm_sq]
    exact pow_le_pow_left₀ (norm_nonneg _) (key x hx).1.2.2.2 2
  · rw [← six_norm_sq, ← six_norm_sq, ← mul_pow]
    exact pow_le_pow_left₀ (norm_nonneg _) ((key (x + 1) hx).2 x rfl) 2
  · cases hb : b with
    | true => rfl
    | false =>
      obtain ⟨e1, e2⟩ := h8 hb
      obtain ⟨⟨i1, i2, i3, i4⟩, -⟩ := key x (by omega)
      refine absurd ?_ (e2 x (by omega))
      have hlt2 := i4.trans_lt hlt
      have h0 := (norm_nonneg _).trans_lt hlt2
      refine ⟨h0, ?_⟩
      rw [← six_norm_sq, ← sq]
      exact pow_lt_pow_left₀ hlt2 (norm_nonneg _) two_ne_zero

/-- C86, redundant paths, for an object as the constructor makes it: if the body can move in all directions at the target configuration, then from all
configurations in a neighbourhood every iteration makes the error at least five times smaller, and the answer is true after at most 50 iterations. -/
theorem C86_redundant_default_partial (wf : mb.WF) (hr : mb.Rigid) (hd : mb.DirOK) {solve : List (MotionVec ℝ) → MotionVec ℝ → List ℝ}
    (hs : PseudoInverse solve) {rotErr : Mat3 ℝ → Mat3 ℝ → Vec3 ℝ} (he : FirstOrder rotErr) {junk : Nat → MotionVec ℝ} {ik : IK ℝ} {N : Nat}
    {bd : Body ℝ} (hb : mb.bodies[N]? = some bd) (hn : mb.sBodyIndexByName bd.name = .ok (N : Int)) (hik : IK.mk' junk mb N = .ok ik)
    (hax : mb.AxisPath N) {mt m₀ : MBC ℝ} (szt : mt.Sized mb) (hqt : ValidQ mb mt.q) (hf : forwardKinematics mb mt = .ok m₀)
    {target : PTransform ℝ} (hT : m₀.bodyPosW[N]? = some target) {J₀ : Jac ℝ} (hJ₀ : ik.jac.jacobian mb m₀ = .ok J₀) {σ : ℝ}
    (hσ : RowRegular J₀.jac σ) (hsmall : 3 / 10 ^ 7 * J₀.jac.length < σ) :
    ∃ r > 0, ∀ (mbc : MBC ℝ), mbc.Sized mb → ValidQ mb mbc.q → (∀ i, i ∉ pathUp mb.par N → mbc.q[i]? = mt.q[i]?) →
      (∀ c, |(pathVec J₀.path mbc.q).getD c 0 - (pathVec J₀.path mt.q).getD c 0| < r) →
      ∃ (n : Nat) (Q : Nat → List (List ℝ)) (m : MBC ℝ) (J : Jac ℝ), inverseKinematics solve rotErr ik mb mbc target = .ok (m, J, true) ∧
        0 < n ∧ n ≤ 50 ∧ Q 0 = mbc.q ∧ m.q = Q n ∧
        (∀ x < n, (mb.ikResidual rotErr target N (Q (x + 1))).ang.normSq + (mb.ikResidual rotErr target N (Q (x + 1))).lin.normSq ≤
          (1 / 5) ^ 2 * ((mb.ikResidual rotErr target N (Q x)).ang.normSq + (mb.ikResidual rotErr target N (Q x)).lin.normSq)) ∧
        normLt (mb.ikResidual rotErr target N (Q (n - 1))) (1 / 10 ^ 8) ∧ normLt (mb.ikResidual rotErr target N m.q) (1 / 10 ^ 8) := by
  obtain ⟨ik', e, hJ, h1, h2, h3, h4, h5⟩ := C45_constructor wf junk hb hn
  rw [hik] at e
  cases e
  have hρ : |1 - ik.lambda| + |ik.lambda| * (1 / 9) = 1 / 5 := by rw [h3]; norm_num
  obtain ⟨r, hr0, K, L, h⟩ := C86_redundant_partial (η := 1 / 9) wf hr hd hs he h1 hax hJ szt hqt hf hT hJ₀ hσ (by rw [h5]; positivity) (by norm_num)
    (by rw [h5]; linarith) (by rw [hρ]; norm_num)
  rw [hρ] at h
  obtain ⟨t, ht0, htr, htL⟩ : ∃ t > 0, t < r ∧ (1 / 5) ^ 49 * (L * t) < 1 / 10 ^ 8 := by
    refine ⟨min (r / 2) (1 / (|L| + 1)), by positivity, (min_le_left _ _).trans_lt (by linarith), ?_⟩
    have a1 : min (r / 2) (1 / (|L| + 1)) ≤ 1 / (|L| + 1) := min_le_right _ _
    have a2 : 0 < min (r / 2) (1 / (|L| + 1)) := by positivity
    rw [le_div_iff₀ (by positivity)] at a1
    have a3 := mul_le_mul_of_nonneg_right (le_abs_self L) a2.le
    have a4 : (1 / 5 : ℝ) ^ 49 * (L * min (r / 2) (1 / (|L| + 1))) ≤ (1 / 5) ^ 49 * 1 := mul_le_mul_of_nonneg_left (by linarith) (by positivity)
    exact a4.trans_lt (by norm_num)
  refine ⟨t, ht0, fun mbc sz hq ho hdist => ?_⟩
  obtain ⟨n, Q, m, J, b, a1, a2, a3, a4, a5, a6, a7, a8, a9⟩ := h mbc t sz hq ho (fun c => (hdist c).le) htr
  rw [h2] at a2 a9
  have hbt : b = true := a9 49 (by norm_num) (by rw [h4]; exact htL)
  subst hbt
  obtain ⟨b1, b2⟩ := a8 rfl
  rw [h4] at b2
  refine ⟨n, Q, m, J, a1, b1, a2, a3, a4, a6, b2, ?_⟩
  have c1 := a6 (n - 1) (by omega)
  rw [show n - 1 + 1 = n by omega, ← a4] at c1
  refine ⟨b2.1, ?_⟩
  have c2 := b2.2
  have := Vec3.normSq_nonneg (mb.ikResidual rotErr target N (Q (n - 1))).ang
  have := Vec3.normSq_nonneg (mb.ikResidual rotErr target N (Q (n - 1))).lin
  nlinarith

theorem rowMap_add {D : Nat} (A : List (MotionVec ℝ)) (x y : Six) : rowMap D A (x + y) = rowMap D A x + rowMap D A y := by
  ext c
  simp [rowMap, inner_add_right]

theorem rowMap_smul {D : Nat} (A : List (MotionVec ℝ)) (s : ℝ) (y : Six) : rowMap D A (s • y) = s • rowMap D A y := by
  ext c
  simp [rowMap, inner_smul_right]

/-- The pseudo-inverse exists. -/
theorem pseudoInverse_exists : ∃ solve, PseudoInverse solve := by
  obtain ⟨solve, hs⟩ := leastSquares_exists
  have key : ∀ (A : List (MotionVec ℝ)) (v : MotionVec ℝ), ∃ y : MotionVec ℝ,
      applyCols A (A.map fun c => c.ang.dot y.ang + c.lin.dot y.lin) = applyCols A (solve A v) := by
    intro A v
    let F : Six →ₗ[ℝ] EuclideanSpace ℝ (Fin A.length) := ⟨⟨rowMap A.length A, rowMap_add A⟩, rowMap_smul A⟩
    obtain ⟨w, hw, z, hz, e⟩ := F.range.exists_add_mem_mem_orthogonal (WithLp.toLp 2 (coordsOf A.length (solve A v)))
    obtain ⟨y, hy⟩ := hw
    obtain ⟨m, hm⟩ := six_surj y
    have hy' : w = rowMap A.length A y := hy.symm
    refine ⟨m, ?_⟩
    have hz0 : colMap A.length A (WithLp.ofLp z) = 0 := by
      refine ext_inner_right ℝ fun u => ?_
      rw [inner_zero_left, ← rowMap_adjoint, WithLp.toLp_ofLp, real_inner_comm]
      exact (Submodule.mem_orthogonal _ z).1 hz _ ⟨u, rfl⟩
    have inj : ∀ a b : MotionVec ℝ, six a = six b → a = b := fun a b h => by
      have k := fun i => congrFun (congrArg WithLp.ofLp h) i
      ext
      exacts [k 0, k 1, k 2, k 3, k 4, k 5]
    apply inj
    rw [colMap_applyCols A _ (by simp), colMap_applyCols A _ (hs A v).1]
    have e2 : coordsOf A.length (solve A v) = WithLp.ofLp w + WithLp.ofLp z := congrArg WithLp.ofLp e
    change _ = colMap A.length A (coordsOf A.length (solve A v))
    rw [e2, colMap_add, hz0, add_zero]
    congr 1
    funext c
    rw [hy', List.getD_eq_getElem?_getD, List.getElem?_map, List.getElem?_eq_getElem c.2]
    show _ = ⟪six (A.getD c 0), y⟫
    rw [← hm, six_inner, List.getD_eq_getElem?_getD, List.getElem?_eq_getElem c.2]
    rfl
  choose f hf using key
  refine ⟨fun A v => A.map fun c => c.ang.dot (f A v).ang + c.lin.dot (f A v).lin, fun A v => ⟨by simp, ?_⟩, fun A v => ⟨_, rfl⟩⟩
  rw [hf]
  exact (hs A v).2

namespace Sample

noncomputable def stackJoints : List (Joint ℝ) := [Joint.mk' .Cylindrical ⟨1, 0, 0⟩ true "a", Joint.mk' .Cylindrical ⟨0, 1, 0⟩ true "b",
  Joint.mk' .Cylindrical ⟨0, 0, 1⟩ true "c", Joint.mk' .Cylindrical ⟨1, 0, 0⟩ true "d"]

noncomputable def stackBodies : List (Body ℝ) := ["w", "x", "y", "z"].map fun n => ⟨⟨1, 0, ⟨1, 0, 1, 0, 0, 1⟩⟩, n⟩

noncomputable def stackMbc : MBC ℝ :=
  { q := [[0, 0], [0, 0], [0, 0], [0, 0]], alpha := [[0, 0], [0, 0], [0, 0], [0, 0]], alphaD := [[0, 0], [0, 0], [0, 0], [0, 0]], force := [0, 0, 0, 0],
    jointConfig := [1, 1, 1, 1], jointVelocity := [0, 0, 0, 0], jointTorque := [[0, 0], [0, 0], [0, 0], [0, 0]],
    motionSubspace := [[0, 0], [0, 0], [0, 0], [0, 0]], bodyPosW := [1, 1, 1, 1],
    parentToSon := [1, 1, 1, 1], bodyVelW := [0, 0, 0, 0], bodyVelB := [0, 0, 0, 0], bodyAccB := [0, 0, 0, 0], gravity := 0 }

theorem stack_units : ∀ j ∈ stackJoints, j.BuiltUnit := by
  intro j hj
  simp only [stackJoints, List.mem_cons, List.not_mem_nil, or_false] at hj
  rcases hj with rfl | rfl | rfl | rfl <;> exact .mk _ _ _ _ (by simp [ValidAxis, IsUnit3])

/-- Four cylindrical joints on top of each other, about the first, second, third and again the first axis: eight coordinates for six directions. At the
zero configuration the last body can move in all directions. -/
example : ∃ (mb : MultiBody ℝ) (ik : IK ℝ) (m₀ : MBC ℝ) (J₀ : Jac ℝ) (target : PTransform ℝ) (solve : List (MotionVec ℝ) → MotionVec ℝ → List ℝ),
    mb.WF ∧ mb.Rigid ∧ mb.DirOK ∧ PseudoInverse solve ∧ FirstOrder logErr ∧ ik.efIndex = (3 : Nat) ∧ mb.AxisPath 3 ∧ ik.jac.Of mb 3 0 ∧
      stackMbc.Sized mb ∧ ValidQ mb stackMbc.q ∧ forwardKinematics mb stackMbc = .ok m₀ ∧ m₀.bodyPosW[3]? = some target ∧
      ik.jac.jacobian mb m₀ = .ok J₀ ∧ J₀.jac.length = 8 ∧ RowRegular J₀.jac 1 ∧ ik.almostZero = 1 / 10 ^ 8 ∧ ik.lambda = 9 / 10 := by
  obtain ⟨solve, hs⟩ := pseudoInverse_exists
  obtain ⟨mb, hmk, wf, hbo, hjo, hpr, -, -, hXt⟩ := MultiBody.mk'_wf stackBodies stackJoints [-1, 0, 1, 2] [0, 1, 2, 3] [-1, 0, 1, 2] [1, 1, 1, 1] rfl rfl rfl
    (by intro i hi
        have : i < 4 := hi
        obtain rfl | rfl | rfl | rfl : i = 0 ∨ i = 1 ∨ i = 2 ∨ i = 3 := by omega
        all_goals rfl)
    (by intro i p hp
        obtain ⟨hi, -⟩ := List.getElem?_eq_some_iff.1 hp
        have : i < 4 := hi
        obtain rfl | rfl | rfl | rfl : i = 0 ∨ i = 1 ∨ i = 2 ∨ i = 3 := by omega
        all_goals (cases hp; decide))
    rfl (fun j hj => (stack_units j hj).built)
  have hb : mb.bodies[3]? = some ⟨⟨1, 0, ⟨1, 0, 1, 0, 0, 1⟩⟩, "z"⟩ := by rw [hbo]; rfl
  have hi : mb.sBodyIndexByName "z" = .ok 3 := by
    have e : (MultiBody.mk' stackBodies stackJoints [-1, 0, 1, 2] [0, 1, 2, 3] [-1, 0, 1, 2] [1, 1, 1, 1] >>= fun m => m.sBodyIndexByName "z") = .ok 3 := by
      rfl
    rw [hmk] at e
    exact e
  obtain ⟨ik, e, hJ, h1, h2, h3, h4, h5⟩ := C45_constructor wf (fun _ => 0) hb hi
  have ht : ∀ j ∈ mb.joints, j.type = .Cylindrical := by
    rw [hjo]
    intro j hj
    simp only [stackJoints, List.mem_cons, List.not_mem_nil, or_false] at hj
    rcases hj with rfl | rfl | rfl | rfl <;> rfl
  have hrig : mb.Rigid := by
    constructor
    · rw [hjo]; exact stack_units
    · rw [hXt]
      intro X hX
      simp only [List.mem_cons, List.not_mem_nil, or_false] at hX
      rcases hX with rfl | rfl | rfl | rfl <;> exact IsRot.one
  have hl : mb.bodies.length = 4 := by rw [hbo]; rfl
  have sz : stackMbc.Sized mb := by
    constructor <;> first | (unfold SizedQ; rw [hjo]; rfl) | (unfold SizedDof; rw [hjo]; rfl) | (rw [hjo]; rfl) | (rw [hl]; rfl)
  have hq : ValidQ mb stackMbc.q := by
    unfold ValidQ
    rw [hjo]
    exact .cons ⟨rfl, trivial⟩ (.cons ⟨rfl, trivial⟩ (.cons ⟨rfl, trivial⟩ (.cons ⟨rfl, trivial⟩ .nil)))
  obtain ⟨m₀, f1, f2, -, f4, -⟩ := C23_posReady wf sz
  have p0 : mb.par 0 = none := by unfold MultiBody.par; rw [hpr]; rfl
  have p1 : mb.par 1 = some 0 := by unfold MultiBody.par; rw [hpr]; rfl
  have p2 : mb.par 2 = some 1 := by unfold MultiBody.par; rw [hpr]; rfl
  have p3 : mb.par 3 = some 2 := by unfold MultiBody.par; rw [hpr]; rfl
  have pts : ∀ k < 4, mb.ptsAt stackMbc.q k = 1 := fun k hk => by
    have e : ∀ (a : Vec3 ℝ) (n : String), (Joint.mk' .Cylindrical a true n : Joint ℝ).pose [0, 0] = .ok 1 := fun a n => by
      rw [Joint.pose_cylindrical]
      congr 1
      ext <;> simp [angleAxis]
    unfold MultiBody.ptsAt MultiBody.poseAt MultiBody.XtAt
    rw [hjo, hXt]
    obtain rfl | rfl | rfl | rfl : k = 0 ∨ k = 1 ∨ k = 2 ∨ k = 3 := by omega
    all_goals
      simp only [stackJoints, stackMbc, List.getElem?_cons_zero, List.getElem?_cons_succ, e, Except.toOption, Option.getD_some]
      ext <;> simp
  have one : (1 : PTransform ℝ) * 1 = 1 := by ext <;> simp
  have q0 : mb.posAt stackMbc.q 0 = 1 := by rw [wf.posAt_none _ p0, pts 0 (by omega)]
  have q1 : mb.posAt stackMbc.q 1 = 1 := by rw [wf.posAt_some _ p1, q0, pts 1 (by omega), one]
  have q2 : mb.posAt stackMbc.q 2 = 1 := by rw [wf.posAt_some _ p2, q1, pts 2 (by omega), one]
  have q3 : mb.posAt stackMbc.q 3 = 1 := by rw [wf.posAt_some _ p3, q2, pts 3 (by omega), one]
  have hc : mb.jacCols stackMbc.q (.ofTrans (PTransform.ofTrans 0 * mb.posAt stackMbc.q 3).r) ik.jac.path ik.jac.sign =
      [⟨⟨1, 0, 0⟩, 0⟩, ⟨0, ⟨1, 0, 0⟩⟩, ⟨⟨0, 1, 0⟩, 0⟩, ⟨0, ⟨0, 1, 0⟩⟩, ⟨⟨0, 0, 1⟩, 0⟩, ⟨0, ⟨0, 0, 1⟩⟩, ⟨⟨1, 0, 0⟩, 0⟩, ⟨0, ⟨1, 0, 0⟩⟩] := by
    have hp : ik.jac.path = [0, 1, 2, 3] := by
      rw [hJ.path_eq, pathUp_some p3 (by omega), pathUp_some p2 (by omega), pathUp_some p1 (by omega), pathUp_none p0]; rfl
    have hdof : ∀ k < 4, mb.dofAt k = 2 := fun k hk => by
      unfold MultiBody.dofAt
      rw [hjo]
      obtain rfl | rfl | rfl | rfl : k = 0 ∨ k = 1 ∨ k = 2 ∨ k = 3 := by omega
      all_goals rfl
    have S : mb.SAt 0 = [⟨⟨1, 0, 0⟩, 0⟩, ⟨0, ⟨1, 0, 0⟩⟩] ∧ mb.SAt 1 = [⟨⟨0, 1, 0⟩, 0⟩, ⟨0, ⟨0, 1, 0⟩⟩] ∧ mb.SAt 2 = [⟨⟨0, 0, 1⟩, 0⟩, ⟨0, ⟨0, 0, 1⟩⟩] ∧
        mb.SAt 3 = [⟨⟨1, 0, 0⟩, 0⟩, ⟨0, ⟨1, 0, 0⟩⟩] := by
      unfold MultiBody.SAt
      rw [hjo]
      refine ⟨?_, ?_, ?_, ?_⟩ <;> simp [stackJoints, Joint.mk', Joint.mkS]
    rw [jacCols_eq_homCols hJ, hp, q3]
    unfold MultiBody.homCols MultiBody.pathCols
    simp only [List.length_cons, List.length_nil, show List.range (0 + 1 + 1 + 1 + 1) = [0, 1, 2, 3] from rfl, List.flatMap_cons, List.flatMap_nil,
      List.getD_cons_zero, List.getD_cons_succ, hdof 0 (by omega), hdof 1 (by omega), hdof 2 (by omega), hdof 3 (by omega), S.1, S.2.1, S.2.2.1, S.2.2.2,
      q0, q1, q2, q3, show List.range 2 = [0, 1] from rfl, List.map_cons, List.map_nil, PTransform.motionHom_apply]
    simp only [List.cons_append, List.nil_append, List.append_nil, List.cons.injEq, and_true]
    refine ⟨?_, ?_, ?_, ?_, ?_, ?_, ?_, ?_⟩ <;> ext <;> simp [PTransform.mulMotion, PTransform.inv, PTransform.ofTrans]
  refine ⟨mb, ik, m₀, _, _, solve, wf, hrig, fun j hj => .inr (.inr (.inr (.inl (ht j hj)))), hs, logErr_firstOrder, h1,
    fun i _ j e => .inr (.inr (.inl (ht j (List.mem_of_getElem? e)))), hJ, sz, hq, f1,
    by rw [f2.bodyPosW, range_map_getElem? hJ.isBody], hJ.jacobian_eq wf f2, ?_, ?_, h5, h3⟩
  · dsimp only
    rw [f4, hc]
    rfl
  · dsimp only
    rw [f4, hc]
    intro y
    simp [Vec3.normSq, Vec3.dot]
    nlinarith [mul_self_nonneg y.ang.x, mul_self_nonneg y.lin.x]
end Sample
end RBDyn
