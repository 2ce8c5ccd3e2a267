import Mathlib.Analysis.SpecialFunctions.Trigonometric.Sinc
import Verif.Lemmas.ReachNewton

/-! C86, turning joints: near every configuration with a regular Jacobian the inverse kinematics converges to it. -/

namespace RBDyn
open scoped Mat3 RealInnerProductSpace
variable {mb : MultiBody ℝ}

/-- Exact least squares: the residual is orthogonal to all columns (the normal equations). -/
def LeastSquares (solve : List (MotionVec ℝ) → MotionVec ℝ → List ℝ) : Prop :=
  ∀ A v, (solve A v).length = A.length ∧
    ∀ c ∈ A, c.ang.dot (v - applyCols A (solve A v)).ang + c.lin.dot (v - applyCols A (solve A v)).lin = 0

/-- No coordinate can move without the body moving: the body moves at least `σ` times as much as each coordinate. -/
def Regular (A : List (MotionVec ℝ)) (σ : ℝ) : Prop :=
  ∀ x : List ℝ, x.length = A.length → ∀ a ∈ x, (σ * a) ^ 2 ≤ (applyCols A x).ang.normSq + (applyCols A x).lin.normSq

def coordsOf (D : Nat) (l : List ℝ) (c : Fin D) : ℝ := l.getD c 0

theorem coordFun_coordsOf {D : Nat} {l : List ℝ} (hl : l.length = D) : (List.range D).map (coordFun (coordsOf D l)) = l := by
  refine List.ext_getElem (by simp [hl]) fun i h1 h2 => ?_
  have hi : i < D := by rw [← hl]; exact h2
  simp [coordFun, coordsOf, hi, h2]

theorem Regular.colMap {A : List (MotionVec ℝ)} {σ : ℝ} (h : Regular A σ) {D : Nat} (hD : A.length = D) (hσ : 0 ≤ σ) (w : Fin D → ℝ) :
    σ * ‖w‖ ≤ ‖colMap D A w‖ := by
  subst hD
  rcases isEmpty_or_nonempty (Fin A.length) with he | he
  · rw [Subsingleton.elim w 0, norm_zero, mul_zero]; exact norm_nonneg _
  obtain ⟨c, -, hc⟩ := Finset.exists_max_image Finset.univ (fun c => ‖w c‖) ⟨he.some, Finset.mem_univ _⟩
  have e : ‖w‖ = ‖w c‖ := le_antisymm ((pi_norm_le_iff_of_nonneg (norm_nonneg _)).2 fun i => hc i (Finset.mem_univ _)) (norm_le_pi_norm w c)
  refine le_of_sq_le_sq ?_ (norm_nonneg _)
  have h1 := h (List.ofFn w) (by simp) (w c) (List.mem_ofFn.2 ⟨c, rfl⟩)
  have e2 : (fun c : Fin A.length => (List.ofFn w).getD c 0) = w := by
    funext i
    simp [List.getD_eq_getElem?_getD]
  rw [← six_norm_sq, colMap_applyCols A _ (by simp), e2] at h1
  rw [e, Real.norm_eq_abs, mul_pow, sq_abs, ← mul_pow]
  exact h1

theorem LeastSquares.normal {solve : List (MotionVec ℝ) → MotionVec ℝ → List ℝ} (hs : LeastSquares solve) {A : List (MotionVec ℝ)} {D : Nat}
    (hD : A.length = D) (v : MotionVec ℝ) (w : Fin D → ℝ) : ⟪colMap D A w, six v - colMap D A (coordsOf D (solve A v))⟫ = 0 := by
  subst hD
  have e : colMap A.length A (coordsOf A.length (solve A v)) = six (applyCols A (solve A v)) := (colMap_applyCols A _ (hs A v).1).symm
  rw [e, ← six_sub, colMap, sum_inner]
  refine Finset.sum_eq_zero fun c _ => ?_
  rw [real_inner_smul_left, six_inner, (hs A v).2 _ (by simp [List.getD_eq_getElem?_getD]), mul_zero]

theorem pathVec_len (wf : mb.WF) {N : Nat} (hpl : mb.PlainPath N) {J : Jac ℝ} (hJ : J.Of mb N 0) {q : List (List ℝ)} (hq : ValidQ mb q) :
    (pathVec J.path q).length = (J.path.map mb.dofAt).sum := by
  refine (hq.sizes wf).pathVec_length wf fun i hi => ⟨hJ.path i hi, fun j ej => ?_⟩
  obtain ⟨t1, t2⟩ := hpl i (by rwa [hJ.path_eq, List.mem_reverse] at hi) j ej
  exact ((wf.built j (List.mem_of_getElem? ej)).plain t1 t2).1

theorem spread_coords (wf : mb.WF) {N : Nat} (hpl : mb.PlainPath N) {J : Jac ℝ} (hJ : J.Of mb N 0) {D : Nat}
    (hD : D = (J.path.map mb.dofAt).sum) {q qt : List (List ℝ)} (hq : ValidQ mb q) (hqt : ValidQ mb qt)
    (hoff : ∀ i, i ∉ pathUp mb.par N → q[i]? = qt[i]?) : mb.spread J.path (coordFun (coordsOf D (pathVec J.path q))) qt = q := by
  have hpa : ∀ i, i ∈ J.path ↔ i ∈ pathUp mb.par N := fun i => by rw [hJ.path_eq, List.mem_reverse]
  have hv := spread_sizes wf hJ.isBody hpa hpl hqt (coordFun (coordsOf D (pathVec J.path q)))
  have e1 : pathVec J.path (mb.spread J.path (coordFun (coordsOf D (pathVec J.path q))) qt) = pathVec J.path q := by
    rw [pathVec_spread hJ.path (by rw [hJ.path_eq]; exact List.nodup_reverse.2 (pathUp_nodup N)), ← hD]
    exact coordFun_coordsOf ((pathVec_len wf hpl hJ hq).trans hD.symm)
  refine List.ext_getElem? fun i => ?_
  by_cases hi : i ∈ pathUp mb.par N
  · exact pathVec_inj ((hv.sizes wf).trans (hq.sizes wf).symm) e1 i ((hpa i).2 hi)
  · rw [hoff i hi]
    by_cases hb : i < mb.bodies.length
    · rw [spread_get _ _ _ hb, if_neg (fun h => hi ((hpa i).1 h))]
      have : i < qt.length := by rw [← hqt.length_eq, wf.njoints]; exact hb
      rw [List.getElem?_eq_getElem this]; rfl
    · rw [List.getElem?_eq_none_iff.2 (by rw [← hv.length_eq, wf.njoints]; omega),
        List.getElem?_eq_none_iff.2 (by rw [← hqt.length_eq, wf.njoints]; omega)]

/-- C86, turning joints. The path to body `N` consists of revolute, sliding, cylindrical and fixed joints, and at the configuration `mt.q`, which
brings body `N` to the target, its Jacobian has independent columns: the body moves at least `σ` times as much as each coordinate, with `σ` large enough
compared to the rounding threshold of the code. Then there is a neighbourhood of `mt.q` from where the inverse kinematics converges to `mt.q`: every
iteration brings the coordinates nearer by the factor `|1 - λ| + |λ| η`, and true is returned as soon as that makes the error, which is at most
`L` times the distance of the coordinates, smaller than the threshold. For every exact least squares solver and every rotation error that is right
to first order. -/
theorem C86_regular_partial (wf : mb.WF) (hr : mb.Rigid) (hd : mb.DirOK) {solve : List (MotionVec ℝ) → MotionVec ℝ → List ℝ}
    (hs : LeastSquares solve) {rotErr : Mat3 ℝ → Mat3 ℝ → Vec3 ℝ} (he : FirstOrder rotErr) {ik : IK ℝ} {N : Nat} (hN : ik.efIndex = N)
    (hax : mb.AxisPath N) (hJ : ik.jac.Of mb N 0) {mt m₀ : MBC ℝ} (szt : mt.Sized mb) (hqt : ValidQ mb mt.q)
    (hf : forwardKinematics mb mt = .ok m₀) {target : PTransform ℝ} (hT : m₀.bodyPosW[N]? = some target) {J₀ : Jac ℝ}
    (hJ₀ : ik.jac.jacobian mb m₀ = .ok J₀) {σ η : ℝ} (hσ : Regular J₀.jac σ) (hz : 0 ≤ ik.almostZero) (hη : 0 < η)
    (hsmall : 3 * J₀.jac.length * ik.almostZero * (1 + η) < η * σ) (hrate : |1 - ik.lambda| + |ik.lambda| * η ≤ 1) :
    ∃ r > 0, ∃ L, ∀ (mbc : MBC ℝ) (d : ℝ), mbc.Sized mb → ValidQ mb mbc.q → (∀ i, i ∉ pathUp mb.par N → mbc.q[i]? = mt.q[i]?) →
      (∀ c, |(pathVec J₀.path mbc.q).getD c 0 - (pathVec J₀.path mt.q).getD c 0| ≤ d) → d < r →
      ∃ (n : Nat) (Q : Nat → List (List ℝ)) (m : MBC ℝ) (J : Jac ℝ) (b : Bool),
        inverseKinematics solve rotErr ik mb mbc target = .ok (m, J, b) ∧ n ≤ ik.maxIterations.toNat ∧ Q 0 = mbc.q ∧ m.q = Q n ∧
        (∀ x ≤ n, ValidQ mb (Q x) ∧ (∀ i, i ∉ pathUp mb.par N → (Q x)[i]? = mt.q[i]?) ∧
          ∀ c, |(pathVec J₀.path (Q x)).getD c 0 - (pathVec J₀.path mt.q).getD c 0| ≤ (|1 - ik.lambda| + |ik.lambda| * η) ^ x * d) ∧
        (b = false → n = ik.maxIterations.toNat) ∧
        (b = true → 0 < n ∧ normLt (mb.ikResidual rotErr target N (Q (n - 1))) ik.threshold) ∧
        (∀ x < ik.maxIterations.toNat, L * ((|1 - ik.lambda| + |ik.lambda| * η) ^ x * d) < ik.threshold → b = true) := by
  obtain ⟨m', f1, f2, -, f4, -⟩ := C23_posReady wf szt
  rw [hf] at f1
  cases f1
  have hJe := hJ₀
  rw [hJ.jacobian_eq wf f2] at hJe
  cases hJe
  rw [f2.bodyPosW, range_map_getElem? hJ.isBody, Option.some.injEq] at hT
  rw [f4] at hT
  dsimp only at hσ hsmall ⊢
  rw [f4] at hσ hsmall
  obtain ⟨D, hD⟩ : ∃ D, D = (ik.jac.path.map mb.dofAt).sum := ⟨_, rfl⟩
  have hlen : ∀ q, (ikCols mb ik.jac N q).length = D := fun q => (jacCols_length _ _ _ _).trans hD.symm
  have hsp : ∀ q, ValidQ mb q → (∀ i, i ∉ pathUp mb.par N → q[i]? = mt.q[i]?) →
      mb.spread ik.jac.path (coordFun (coordsOf D (pathVec ik.jac.path q))) mt.q = q := fun q hq ho =>
    spread_coords wf hax.plain hJ hD hq hqt ho
  set v := coordsOf D (pathVec ik.jac.path mt.q) with hv
  have ev := hsp mt.q hqt fun _ _ => rfl
  change Regular (ikCols mb ik.jac N mt.q) σ at hσ
  change 3 * ((ikCols mb ik.jac N mt.q).length : ℝ) * ik.almostZero * (1 + η) < η * σ at hsmall
  rw [hlen] at hsmall
  have hσ0 : 0 ≤ σ := by
    have h0 : 0 ≤ 3 * (D : ℝ) * ik.almostZero * (1 + η) := by positivity
    exact (pos_of_mul_pos_right (h0.trans_lt hsmall) hη.le).le
  obtain ⟨L, hL⟩ := newton_contraction he wf hr hd hax hJ hD hqt v hz hη
    (fun w => by rw [← hv] at ev; rw [ev]; exact hσ.colMap (hlen _) hσ0 w) hsmall ik.lambda
  rw [ev, hT] at hL
  obtain ⟨r, hr0, hball⟩ := Metric.eventually_nhds_iff.1 hL
  set ρ := |1 - ik.lambda| + |ik.lambda| * η with hρ
  have hρ0 : 0 ≤ ρ := by positivity
  refine ⟨r, hr0, |L|, fun mbc d sz hq hoff hdist hdr => ?_⟩
  have hd0 : 0 ≤ d := (abs_nonneg _).trans (hdist 0)
  obtain ⟨n, Q, m, J, b, h1, h2, h3, h4, h5, h6, h7, h8, -⟩ :=
    C45_inverse_kinematics wf hr (fun A v => (hs A v).1) rotErr target hN hax.plain sz hq hJ
  have key : ∀ x ≤ n, ValidQ mb (Q x) ∧ (∀ i, i ∉ pathUp mb.par N → (Q x)[i]? = mt.q[i]?) ∧
      ‖coordsOf D (pathVec ik.jac.path (Q x)) - v‖ ≤ ρ ^ x * d := by
    intro x
    induction x with
    | zero =>
      intro _
      rw [h3, pow_zero, one_mul]
      exact ⟨hq, hoff, (pi_norm_le_iff_of_nonneg hd0).2 fun c => hdist c⟩
    | succ x ih =>
      intro hx
      obtain ⟨i1, i2, i3⟩ := ih (by omega)
      have st := h5 x (by omega)
      have hnear : dist (coordsOf D (pathVec ik.jac.path (Q x))) v < r := by
        rw [dist_eq_norm]
        refine i3.trans_lt (lt_of_le_of_lt ?_ hdr)
        exact mul_le_of_le_one_left hd0 (pow_le_one₀ hρ0 hrate)
      have hc := (hball hnear).1
      rw [hsp _ i1 i2] at hc
      obtain ⟨m₁, g1, g2, -, g4, -⟩ := C23_posReady wf (mbc := { mbc with q := Q x }) { sz with q := i1.sizes wf }
      obtain ⟨J₁, e, hstep⟩ := st.step ik.jac m₁ hJ g2 g4
      rw [hJ.jacobian_eq wf g2] at e
      cases e
      dsimp only at hstep
      rw [g4] at hstep
      dsimp only at hstep
      have hc' := hc _ fun w => hs.normal (by rw [roundCols, List.length_map, hlen]) _ w
      have ecoord : coordsOf D (pathVec ik.jac.path (Q (x + 1))) = coordsOf D (pathVec ik.jac.path (Q x)) +
          ik.lambda • coordsOf D (solve (roundCols ik.almostZero (ikCols mb ik.jac N (Q x))) (mb.ikResidual rotErr target N (Q x))) := by
        funext c
        have l1 : (c : Nat) < (pathVec ik.jac.path (Q x)).length := by
          rw [pathVec_len wf hax.plain hJ i1, ← hD]; exact c.2
        have l2 : (c : Nat) < (solve (roundCols ik.almostZero (ikCols mb ik.jac N (Q x))) (mb.ikResidual rotErr target N (Q x))).length := by
          rw [(hs _ _).1, roundCols, List.length_map, hlen]; exact c.2
        unfold coordsOf
        rw [hstep]
        simp only [Pi.add_apply, Pi.smul_apply, smul_eq_mul, List.getD_eq_getElem?_getD]
        rw [List.getElem?_zipWith, List.getElem?_eq_getElem l1, List.getElem?_eq_getElem l2]
        rfl
      refine ⟨st.valid, fun i hi => (st.frame i hi).trans (i2 i hi), ?_⟩
      rw [ecoord]
      refine hc'.trans ?_
      rw [pow_succ', mul_assoc]
      exact mul_le_mul_of_nonneg_left i3 hρ0
  refine ⟨n, Q, m, J, b, h1, h2, h3, h4, fun x hx => ⟨(key x hx).1, (key x hx).2.1, fun c => ?_⟩, fun hb => (h8 hb).1, h7, fun x hx hlt => ?_⟩
  · by_cases hc : c < D
    · exact (norm_le_pi_norm (coordsOf D (pathVec ik.jac.path (Q x)) - v) ⟨c, hc⟩).trans (key x hx).2.2
    · have o : ∀ q, ValidQ mb q → (pathVec ik.jac.path q).getD c 0 = 0 := fun q hq => by
        rw [List.getD_eq_getElem?_getD, List.getElem?_eq_none_iff.2 (by rw [pathVec_len wf hax.plain hJ hq, ← hD]; omega)]; rfl
      rw [o _ (key x hx).1, o _ hqt, sub_zero, abs_zero]
      positivity
  · cases hb : b with
    | true => rfl
    | false =>
      obtain ⟨e1, e2⟩ := h8 hb
      obtain ⟨i1, i2, i3⟩ := key x (by omega)
      have hnear : dist (coordsOf D (pathVec ik.jac.path (Q x))) v < r := by
        rw [dist_eq_norm]
        refine i3.trans_lt (lt_of_le_of_lt ?_ hdr)
        exact mul_le_of_le_one_left hd0 (pow_le_one₀ hρ0 hrate)
      have hc := (hball hnear).2
      rw [hsp _ i1 i2] at hc
      refine absurd ?_ (e2 x (by omega))
      have hlt2 : ‖six (mb.ikResidual rotErr target N (Q x))‖ < ik.threshold := by
        refine (hc.trans ((mul_le_mul_of_nonneg_right (le_abs_self L) (norm_nonneg _)).trans
          (mul_le_mul_of_nonneg_left i3 (abs_nonneg _)))).trans_lt hlt
      have h0 := (norm_nonneg _).trans_lt hlt2
      refine ⟨h0, ?_⟩
      rw [← six_norm_sq, ← sq]
      exact pow_lt_pow_left₀ hlt2 (norm_nonneg _) two_ne_zero

/-- The rotation vector of the rotation from `E` to `T`, as `sva::rotationError` computes it: angle times axis. -/
noncomputable def logErr (E T : Mat3 ℝ) : Vec3 ℝ :=
  let θ := Real.arccos ((E.m00 * T.m00 + E.m01 * T.m01 + E.m02 * T.m02 + E.m10 * T.m10 + E.m11 * T.m11 + E.m12 * T.m12 + E.m20 * T.m20 +
    E.m21 * T.m21 + E.m22 * T.m22 - 1) / 2)
  (θ / Real.sin θ) • crossErr E T

theorem frob_rot {E T : Mat3 ℝ} (hE : IsRot E) (hT : IsRot T) :
    E.m00 * T.m00 + E.m01 * T.m01 + E.m02 * T.m02 + E.m10 * T.m10 + E.m11 * T.m11 + E.m12 * T.m12 + E.m20 * T.m20 +
      E.m21 * T.m21 + E.m22 * T.m22 = 3 - frob (E - T) / 2 := by
  have h1 := hE.1
  have h2 := hT.1
  simp only [Mat3.ext_iff, Mat3.mul_m00, Mat3.mul_m11, Mat3.mul_m22, Mat3.tr, Mat3.one_m00, Mat3.one_m11, Mat3.one_m22] at h1 h2
  unfold frob
  simp only [Mat3.sub_m00, Mat3.sub_m01, Mat3.sub_m02, Mat3.sub_m10, Mat3.sub_m11, Mat3.sub_m12, Mat3.sub_m20, Mat3.sub_m21, Mat3.sub_m22]
  linear_combination (1 / 2) * (h1.1 + h1.2.2.2.2.1 + h1.2.2.2.2.2.2.2.2 + h2.1 + h2.2.2.2.2.1 + h2.2.2.2.2.2.2.2.2)

theorem six_terms {a1 a2 a3 a4 a5 a6 b1 b2 b3 b4 b5 b6 : ℝ} (h1 : b1 ^ 2 ≤ 1) (h2 : b2 ^ 2 ≤ 1) (h3 : b3 ^ 2 ≤ 1) (h4 : b4 ^ 2 ≤ 1) (h5 : b5 ^ 2 ≤ 1)
    (h6 : b6 ^ 2 ≤ 1) : (1 / 2 * (a1 * b1 - a2 * b2 + (a3 * b3 - a4 * b4) + (a5 * b5 - a6 * b6))) ^ 2 ≤
      3 / 2 * (a1 ^ 2 + a2 ^ 2 + a3 ^ 2 + a4 ^ 2 + a5 ^ 2 + a6 ^ 2) := by
  have k : ∀ a b : ℝ, b ^ 2 ≤ 1 → (a * b) ^ 2 ≤ a ^ 2 := fun a b h => by rw [mul_pow]; exact mul_le_of_le_one_right (sq_nonneg _) h
  have g : ∀ x y : ℝ, (x + y) ^ 2 ≤ 2 * (x ^ 2 + y ^ 2) := fun x y => by nlinarith [sq_nonneg (x - y)]
  have g' : ∀ x y : ℝ, (x - y) ^ 2 ≤ 2 * (x ^ 2 + y ^ 2) := fun x y => by nlinarith [sq_nonneg (x + y)]
  have g3 : ∀ x y z : ℝ, (x + y + z) ^ 2 ≤ 3 * (x ^ 2 + y ^ 2 + z ^ 2) := fun x y z => by
    nlinarith [sq_nonneg (x - y), sq_nonneg (y - z), sq_nonneg (x - z)]
  have e := g3 (a1 * b1 - a2 * b2) (a3 * b3 - a4 * b4) (a5 * b5 - a6 * b6)
  have e1 := g' (a1 * b1) (a2 * b2)
  have e2 := g' (a3 * b3) (a4 * b4)
  have e3 := g' (a5 * b5) (a6 * b6)
  rw [mul_pow]
  linarith [k a1 b1 h1, k a2 b2 h2, k a3 b3 h3, k a4 b4 h4, k a5 b5 h5, k a6 b6 h6]

theorem IsRot.entries_le {T : Mat3 ℝ} (hT : IsRot T) : (T.m00 ^ 2 ≤ 1 ∧ T.m10 ^ 2 ≤ 1 ∧ T.m20 ^ 2 ≤ 1) ∧ (T.m01 ^ 2 ≤ 1 ∧ T.m11 ^ 2 ≤ 1 ∧ T.m21 ^ 2 ≤ 1) ∧
    (T.m02 ^ 2 ≤ 1 ∧ T.m12 ^ 2 ≤ 1 ∧ T.m22 ^ 2 ≤ 1) := by
  have k : ∀ a b c : ℝ, a * a + b * b + c * c = 1 → a ^ 2 ≤ 1 ∧ b ^ 2 ≤ 1 ∧ c ^ 2 ≤ 1 := fun a b c h =>
    ⟨by nlinarith [mul_self_nonneg b, mul_self_nonneg c], by nlinarith [mul_self_nonneg a, mul_self_nonneg c],
      by nlinarith [mul_self_nonneg b, mul_self_nonneg a]⟩
  exact ⟨k _ _ _ (congrArg Mat3.m00 hT.1), k _ _ _ (congrArg Mat3.m11 hT.1), k _ _ _ (congrArg Mat3.m22 hT.1)⟩

theorem crossErr_bound {E T : Mat3 ℝ} (hT : IsRot T) : (crossErr E T).normSq ≤ 9 / 2 * frob (E - T) := by
  obtain ⟨⟨b00, b10, b20⟩, ⟨b01, b11, b21⟩, b02, b12, b22⟩ := hT.entries_le
  have ex := six_terms (a1 := (E - T).m01) (a2 := (E - T).m02) (a3 := (E - T).m11) (a4 := (E - T).m12) (a5 := (E - T).m21) (a6 := (E - T).m22)
    b02 b01 b12 b11 b22 b21
  have ey := six_terms (a1 := (E - T).m02) (a2 := (E - T).m00) (a3 := (E - T).m12) (a4 := (E - T).m10) (a5 := (E - T).m22) (a6 := (E - T).m20)
    b00 b02 b10 b12 b20 b22
  have ez := six_terms (a1 := (E - T).m00) (a2 := (E - T).m01) (a3 := (E - T).m10) (a4 := (E - T).m11) (a5 := (E - T).m20) (a6 := (E - T).m21)
    b01 b00 b11 b10 b21 b20
  have cx : (crossErr E T).x = 1 / 2 * ((E - T).m01 * T.m02 - (E - T).m02 * T.m01 + ((E - T).m11 * T.m12 - (E - T).m12 * T.m11) +
      ((E - T).m21 * T.m22 - (E - T).m22 * T.m21)) := by
    simp [crossErr, Vec3.cross]; ring
  have cy : (crossErr E T).y = 1 / 2 * ((E - T).m02 * T.m00 - (E - T).m00 * T.m02 + ((E - T).m12 * T.m10 - (E - T).m10 * T.m12) +
      ((E - T).m22 * T.m20 - (E - T).m20 * T.m22)) := by
    simp [crossErr, Vec3.cross]; ring
  have cz : (crossErr E T).z = 1 / 2 * ((E - T).m00 * T.m01 - (E - T).m01 * T.m00 + ((E - T).m10 * T.m11 - (E - T).m11 * T.m10) +
      ((E - T).m20 * T.m21 - (E - T).m21 * T.m20)) := by
    simp [crossErr, Vec3.cross]; ring
  have en : (crossErr E T).normSq = (crossErr E T).x ^ 2 + (crossErr E T).y ^ 2 + (crossErr E T).z ^ 2 := by
    simp only [Vec3.normSq, Vec3.dot]; ring
  rw [en, cx, cy, cz]
  refine (add_le_add (add_le_add ex ey) ez).trans ?_
  unfold frob
  linarith [sq_nonneg (E - T).m00, sq_nonneg (E - T).m01, sq_nonneg (E - T).m02, sq_nonneg (E - T).m10, sq_nonneg (E - T).m11,
    sq_nonneg (E - T).m12, sq_nonneg (E - T).m20, sq_nonneg (E - T).m21, sq_nonneg (E - T).m22]

/-- The rotation vector is right to first order. -/
theorem logErr_firstOrder : FirstOrder logErr := by
  intro T hT ε hε
  have hg : ContinuousAt (fun f : ℝ => ((Real.sinc (Real.arccos (1 - f / 4)))⁻¹ - 1) ^ 2) 0 := by
    have h0 : Real.sinc (Real.arccos (1 - 0 / 4)) ≠ 0 := by simp
    have hc : ContinuousAt (fun f : ℝ => Real.sinc (Real.arccos (1 - f / 4))) 0 :=
      (Real.continuous_sinc.comp (Real.continuous_arccos.comp (by fun_prop))).continuousAt
    exact ((hc.inv₀ h0).sub continuousAt_const).pow 2
  have := (Metric.continuousAt_iff.1 hg) (ε / (9 / 2)) (by positivity)
  obtain ⟨δ, hδ, h⟩ := this
  refine ⟨min δ 4, by positivity, fun E hE hf => ?_⟩
  have hf0 := frob_nonneg (E - T)
  have h1 := h (x := frob (E - T)) (by rw [Real.dist_eq, sub_zero, abs_of_nonneg hf0]; exact hf.trans_le (min_le_left _ _))
  rw [Real.dist_eq] at h1
  have e0 : ((Real.sinc (Real.arccos (1 - 0 / 4)))⁻¹ - 1) ^ 2 = (0 : ℝ) := by simp
  rw [e0, sub_zero, abs_of_nonneg (sq_nonneg _)] at h1
  have hb := crossErr_bound (E := E) hT
  rcases eq_or_lt_of_le hf0 with hz | hz
  · rw [← hz, mul_zero] at hb
    have hc : (crossErr E T).normSq = 0 := le_antisymm hb (Vec3.normSq_nonneg _)
    have hv : crossErr E T = 0 := by
      simp only [Vec3.normSq, Vec3.dot] at hc
      ext <;> simp <;> nlinarith [mul_self_nonneg (crossErr E T).x, mul_self_nonneg (crossErr E T).y, mul_self_nonneg (crossErr E T).z]
    unfold logErr
    rw [hv, ← hz]
    simp [Vec3.normSq, Vec3.dot]
  · have hθ : Real.arccos (1 - frob (E - T) / 4) ≠ 0 := by
      rw [Ne, Real.arccos_eq_zero]
      linarith
    have e : logErr E T - crossErr E T = ((Real.sinc (Real.arccos (1 - frob (E - T) / 4)))⁻¹ - 1) • crossErr E T := by
      unfold logErr
      rw [frob_rot hE hT, show (3 - frob (E - T) / 2 - 1) / 2 = 1 - frob (E - T) / 4 from by ring, Real.sinc_of_ne_zero hθ, inv_div, sub_smul, one_smul]
    rw [e, Vec3.normSq_smul, ← sq]
    calc _ ≤ ε / (9 / 2) * (9 / 2 * frob (E - T)) := mul_le_mul h1.le hb (Vec3.normSq_nonneg _) (by positivity)
      _ = ε * frob (E - T) := by ring

/-- C86, turning joints, for an object as the constructor makes it: if the target configuration is regular with `σ` above `3e-7` times the number of
coordinates, then from all configurations in a neighbourhood the answer is true after at most 50 iterations, and each of them brings every
coordinate at least five times nearer to the target configuration. -/
theorem C86_regular_default_partial (wf : mb.WF) (hr : mb.Rigid) (hd : mb.DirOK) {solve : List (MotionVec ℝ) → MotionVec ℝ → List ℝ}
    (hs : LeastSquares solve) {rotErr : Mat3 ℝ → Mat3 ℝ → Vec3 ℝ} (he : FirstOrder rotErr) {junk : Nat → MotionVec ℝ} {ik : IK ℝ} {N : Nat}
    {bd : Body ℝ} (hb : mb.bodies[N]? = some bd) (hn : mb.sBodyIndexByName bd.name = .ok (N : Int)) (hik : IK.mk' junk mb N = .ok ik)
    (hax : mb.AxisPath N) {mt m₀ : MBC ℝ} (szt : mt.Sized mb) (hqt : ValidQ mb mt.q) (hf : forwardKinematics mb mt = .ok m₀)
    {target : PTransform ℝ} (hT : m₀.bodyPosW[N]? = some target) {J₀ : Jac ℝ} (hJ₀ : ik.jac.jacobian mb m₀ = .ok J₀) {σ : ℝ}
    (hσ : Regular J₀.jac σ) (hsmall : 3 / 10 ^ 7 * J₀.jac.length < σ) :
    ∃ r > 0, ∀ (mbc : MBC ℝ) (d : ℝ), mbc.Sized mb → ValidQ mb mbc.q → (∀ i, i ∉ pathUp mb.par N → mbc.q[i]? = mt.q[i]?) →
      (∀ c, |(pathVec J₀.path mbc.q).getD c 0 - (pathVec J₀.path mt.q).getD c 0| ≤ d) → d < r →
      ∃ (n : Nat) (Q : Nat → List (List ℝ)) (m : MBC ℝ) (J : Jac ℝ), inverseKinematics solve rotErr ik mb mbc target = .ok (m, J, true) ∧
        0 < n ∧ n ≤ 50 ∧ Q 0 = mbc.q ∧ m.q = Q n ∧
        (∀ x ≤ n, ValidQ mb (Q x) ∧ (∀ i, i ∉ pathUp mb.par N → (Q x)[i]? = mt.q[i]?) ∧
          ∀ c, |(pathVec J₀.path (Q x)).getD c 0 - (pathVec J₀.path mt.q).getD c 0| ≤ (1 / 5) ^ x * d) ∧
        normLt (mb.ikResidual rotErr target N (Q (n - 1))) (1 / 10 ^ 8) := by
  obtain ⟨ik', e, hJ, h1, h2, h3, h4, h5⟩ := C45_constructor wf junk hb hn
  rw [hik] at e
  cases e
  have hρ : |1 - ik.lambda| + |ik.lambda| * (1 / 9) = 1 / 5 := by rw [h3]; norm_num
  obtain ⟨r, hr0, L, h⟩ := C86_regular_partial (η := 1 / 9) wf hr hd hs he h1 hax hJ szt hqt hf hT hJ₀ hσ (by rw [h5]; positivity) (by norm_num)
    (by rw [h5]; linarith) (by rw [hρ]; norm_num)
  rw [hρ] at h
  refine ⟨min r (1 / (|L| + 1)), by positivity, fun mbc d sz hq ho hdist hdr => ?_⟩
  obtain ⟨n, Q, m, J, b, a1, a2, a3, a4, a5, a6, a7, a8⟩ := h mbc d sz hq ho hdist (hdr.trans_le (min_le_left _ _))
  rw [h2] at a2 a8
  have hd0 : 0 ≤ d := (abs_nonneg _).trans (hdist 0)
  have hbt : b = true := by
    refine a8 49 (by norm_num) ?_
    rw [h4]
    have h6 := (lt_div_iff₀ (by positivity)).1 (hdr.trans_le (min_le_right _ _))
    have h7 := mul_le_mul_of_nonneg_right (le_abs_self L) hd0
    have h8 : (1 / 5 : ℝ) ^ 49 * (L * d) ≤ (1 / 5) ^ 49 * 1 := mul_le_mul_of_nonneg_left (by linarith) (by positivity)
    have h9 : (1 / 5 : ℝ) ^ 49 * 1 < 1 / 10 ^ 8 := by norm_num
    linarith
  subst hbt
  obtain ⟨b1, b2⟩ := a7 rfl
  rw [h4] at b2
  exact ⟨n, Q, m, J, a1, b1, a2, a3, a4, a5, b2⟩

/-- Exact least squares exists. -/
theorem leastSquares_exists : ∃ solve, LeastSquares solve := by
  have key : ∀ (A : List (MotionVec ℝ)) (v : MotionVec ℝ), ∃ x : List ℝ, x.length = A.length ∧
      ∀ c ∈ A, c.ang.dot (v - applyCols A x).ang + c.lin.dot (v - applyCols A x).lin = 0 := by
    intro A v
    let U : Submodule ℝ Six := Submodule.span ℝ (Set.range fun c : Fin A.length => six (A.getD c 0))
    obtain ⟨y, hy, z, hz, e⟩ := U.exists_add_mem_mem_orthogonal (six v)
    obtain ⟨w, hw⟩ := (Submodule.mem_span_range_iff_exists_fun ℝ).1 hy
    refine ⟨List.ofFn w, by simp, fun c hc => ?_⟩
    have e2 : (fun c : Fin A.length => (List.ofFn w).getD c 0) = w := by
      funext i
      simp [List.getD_eq_getElem?_getD]
    rw [← six_inner, six_sub, colMap_applyCols A _ (by simp), e2, e, ← hw]
    obtain ⟨i, hi, rfl⟩ := List.mem_iff_getElem.1 hc
    have := (Submodule.mem_orthogonal U z).1 hz (six A[i]) (Submodule.subset_span ⟨⟨i, hi⟩, by simp [hi]⟩)
    simpa [colMap] using this
  choose f hf using key
  exact ⟨f, hf⟩

namespace Sample

/-- The stretched arm, seen from its second link: the two coordinates before it are regular, and the hypotheses on the solver and the rotation error
are met by exact least squares and by the rotation vector. -/
example : ∃ (mb : MultiBody ℝ) (ik : IK ℝ) (m₀ : MBC ℝ) (J₀ : Jac ℝ) (target : PTransform ℝ) (solve : List (MotionVec ℝ) → MotionVec ℝ → List ℝ),
    mb.WF ∧ mb.Rigid ∧ mb.DirOK ∧ LeastSquares solve ∧ FirstOrder logErr ∧ ik.efIndex = (1 : Nat) ∧ mb.AxisPath 1 ∧ ik.jac.Of mb 1 0 ∧ armMbc.Sized mb ∧
      ValidQ mb armMbc.q ∧ forwardKinematics mb armMbc = .ok m₀ ∧ m₀.bodyPosW[1]? = some target ∧ ik.jac.jacobian mb m₀ = .ok J₀ ∧
      J₀.jac.length = 2 ∧ Regular J₀.jac (1 / 2) ∧ ik.almostZero = 1 / 10 ^ 8 ∧ ik.lambda = 9 / 10 := by
  obtain ⟨mb, hmk, h⟩ := arm_exists
  obtain ⟨solve, hs⟩ := leastSquares_exists
  have hb : mb.bodies[1]? = some ⟨⟨1, 0, ⟨1, 0, 1, 0, 0, 1⟩⟩, "y"⟩ := by rw [h.bodies]; rfl
  have hi : mb.sBodyIndexByName "y" = .ok 1 := by
    have e : (MultiBody.mk' armBodies armJoints [-1, 0, 1] [0, 1, 2] [-1, 0, 1] armXt >>= fun m => m.sBodyIndexByName "y") = .ok 1 := by rfl
    rw [hmk] at e
    exact e
  obtain ⟨ik, e, hJ, h1, h2, h3, h4, h5⟩ := C45_constructor h.wf (fun _ => 0) hb hi
  obtain ⟨m₀, f1, f2, -, f4, -⟩ := C23_posReady h.wf h.sized
  have ht : ∀ j ∈ mb.joints, j.type = .Rev := by
    rw [h.joints]
    intro j hj
    simp only [armJoints, List.mem_cons, List.not_mem_nil, or_false] at hj
    rcases hj with rfl | rfl | rfl <;> rfl
  have hc : mb.jacCols armMbc.q (.ofTrans (PTransform.ofTrans 0 * mb.posAt armMbc.q 1).r) ik.jac.path ik.jac.sign =
      [⟨⟨0, 0, 1⟩, ⟨0, 1, 0⟩⟩, ⟨⟨0, 0, 1⟩, ⟨0, 0, 0⟩⟩] := by
    have hS : ∀ k < 3, mb.SAt k = [⟨⟨0, 0, 1⟩, 0⟩] := fun k hk => by
      unfold MultiBody.SAt
      rw [h.joints]
      obtain rfl | rfl | rfl : k = 0 ∨ k = 1 ∨ k = 2 := by omega
      all_goals simp [armJoints, Joint.mk', Joint.mkS]
    have hdof : ∀ k < 3, mb.dofAt k = 1 := fun k hk => by
      unfold MultiBody.dofAt
      rw [h.joints]
      obtain rfl | rfl | rfl : k = 0 ∨ k = 1 ∨ k = 2 := by omega
      all_goals rfl
    have hp : ik.jac.path = [0, 1] := by
      rw [hJ.path_eq, pathUp_some h.par1 (by omega), pathUp_none h.par0]; rfl
    rw [jacCols_eq_homCols hJ, hp, h.pos0 1 (by omega)]
    unfold MultiBody.homCols MultiBody.pathCols
    simp only [List.length_cons, List.length_nil, show List.range (0 + 1 + 1) = [0, 1] from rfl, List.flatMap_cons, List.flatMap_nil, List.getD_cons_zero,
      List.getD_cons_succ, hdof 0 (by omega), hdof 1 (by omega), hS 0 (by omega), hS 1 (by omega), h.pos0 0 (by omega), h.pos0 1 (by omega),
      show List.range 1 = [0] from rfl, List.map_cons, List.map_nil, PTransform.motionHom_apply]
    simp only [List.cons_append, List.nil_append, List.append_nil, List.cons.injEq, and_true]
    constructor <;> ext <;> simp [PTransform.mulMotion, PTransform.inv, PTransform.ofTrans]
  refine ⟨mb, ik, m₀, _, _, solve, h.wf, h.rigid, fun j hj => .inr (.inl (ht j hj)), hs, logErr_firstOrder, h1,
    fun i _ j e => .inl (ht j (List.mem_of_getElem? e)), hJ, h.sized, h.valid 0 0 0, f1,
    by rw [f2.bodyPosW, range_map_getElem? hJ.isBody], hJ.jacobian_eq h.wf f2, ?_, ?_, h5, h3⟩
  · dsimp only
    rw [f4, hc]
    rfl
  · dsimp only
    rw [f4, hc]
    intro x hx a ha
    obtain ⟨x0, x1, rfl⟩ : ∃ x0 x1, x = [x0, x1] := List.length_eq_two.1 hx
    simp only [List.mem_cons, List.not_mem_nil, or_false] at ha
    simp only [applyCols, List.zipWith_cons_cons, List.zipWith_nil_left, List.sum_cons, List.sum_nil, Vec3.normSq, Vec3.dot]
    simp
    rcases ha with rfl | rfl
    · nlinarith [mul_self_nonneg (a + x1), mul_self_nonneg a]
    · nlinarith [mul_self_nonneg (x0 + a), mul_self_nonneg (x0 + (x0 + a)), mul_self_nonneg x0]
end Sample
end RBDyn
