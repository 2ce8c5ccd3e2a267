import Verif.Lemmas.ReachNewton
import Verif.Lemmas.Integration

/-! The step of the inverse kinematics near a configuration in which the body can move in all directions. -/

namespace RBDyn
open scoped Mat3 RealInnerProductSpace
variable {mb : MultiBody ℝ}

/-- Rows: the components of a vector along the columns. -/
noncomputable def rowMap (D : Nat) (A : List (MotionVec ℝ)) (y : Six) : EuclideanSpace ℝ (Fin D) :=
  WithLp.toLp 2 fun c => ⟪six (A.getD c 0), y⟫

theorem rowMap_diff {D : Nat} {A B : List (MotionVec ℝ)} {ε : ℝ} (h0 : 0 ≤ ε) (h : ∀ c : Fin D, ‖six (A.getD c 0) - six (B.getD c 0)‖ ≤ ε) (y : Six) :
    ‖rowMap D A y - rowMap D B y‖ ≤ D * ε * ‖y‖ := by
  refine le_of_sq_le_sq ?_ (by positivity)
  rw [EuclideanSpace.norm_sq_eq]
  have k : ∀ c ∈ Finset.univ, ‖(rowMap D A y - rowMap D B y) c‖ ^ 2 ≤ (ε * ‖y‖) ^ 2 := fun c _ => by
    have e : (rowMap D A y - rowMap D B y) c = ⟪six (A.getD c 0) - six (B.getD c 0), y⟫ := by
      simp [rowMap, inner_sub_left]
    rw [e]
    refine pow_le_pow_left₀ (norm_nonneg _) ((norm_inner_le_norm _ _).trans ?_) 2
    exact mul_le_mul_of_nonneg_right (h c) (norm_nonneg _)
  refine (Finset.sum_le_card_nsmul _ _ _ k).trans ?_
  rw [Finset.card_univ, Fintype.card_fin, nsmul_eq_mul]
  have hD : (D : ℝ) ≤ D ^ 2 := by
    rcases Nat.eq_zero_or_pos D with rfl | hp
    · simp
    · have : (1 : ℝ) ≤ D := by exact_mod_cast hp
      nlinarith
  calc (D : ℝ) * (ε * ‖y‖) ^ 2 ≤ D ^ 2 * (ε * ‖y‖) ^ 2 := mul_le_mul_of_nonneg_right hD (sq_nonneg _)
    _ = (D * ε * ‖y‖) ^ 2 := by ring

theorem rowMap_adjoint {D : Nat} (A : List (MotionVec ℝ)) (p : Fin D → ℝ) (y : Six) :
    ⟪(WithLp.toLp 2 p : EuclideanSpace ℝ (Fin D)), rowMap D A y⟫ = ⟪colMap D A p, y⟫ := by
  rw [PiLp.inner_apply, colMap, sum_inner]
  refine Finset.sum_congr rfl fun c _ => ?_
  rw [real_inner_smul_left]
  simp [rowMap, mul_comm]

/-- With independent rows the pseudo-inverse solves the system, and its solution is not much larger than the right-hand side. -/
theorem pinv_step {D : Nat} {A : List (MotionVec ℝ)} {e y : Six} {p : Fin D → ℝ} (ho : ∀ w, ⟪colMap D A w, e - colMap D A p⟫ = 0)
    (hp : ∀ c, p c = ⟪six (A.getD c 0), y⟫) {s : ℝ} (s0 : 0 < s) (hs : ∀ y, s * ‖y‖ ≤ ‖rowMap D A y‖) : colMap D A p = e ∧ s * ‖p‖ ≤ ‖e‖ := by
  have h1 : rowMap D A (e - colMap D A p) = 0 := by
    ext c
    have := ho (Pi.single c 1)
    have e1 : colMap D A (Pi.single c 1) = six (A.getD c 0) := by
      unfold colMap
      rw [Finset.sum_eq_single c (fun b _ hb => by rw [Pi.single_eq_of_ne hb, zero_smul]) (by simp), Pi.single_eq_same, one_smul]
    rw [e1] at this
    exact this
  have h2 := hs (e - colMap D A p)
  rw [h1, norm_zero] at h2
  have h3 : ‖e - colMap D A p‖ = 0 := by
    rcases eq_or_lt_of_le (norm_nonneg (e - colMap D A p)) with h | h
    · exact h.symm
    · nlinarith
  have h4 : colMap D A p = e := (sub_eq_zero.1 (norm_eq_zero.1 h3)).symm
  refine ⟨h4, ?_⟩
  set P : EuclideanSpace ℝ (Fin D) := WithLp.toLp 2 p with hP
  have h5 : P = rowMap D A y := by
    ext c
    exact hp c
  have h6 : ‖P‖ ^ 2 ≤ ‖e‖ * ‖y‖ := by
    rw [← real_inner_self_eq_norm_sq]
    calc ⟪P, P⟫ = ⟪P, rowMap D A y⟫ := by rw [← h5]
      _ = ⟪e, y⟫ := by rw [hP, rowMap_adjoint, h4]
      _ ≤ _ := real_inner_le_norm _ _
  have h7 : s * ‖y‖ ≤ ‖P‖ := by rw [h5]; exact hs y
  have h8 : ‖p‖ ≤ ‖P‖ := (pi_norm_le_iff_of_nonneg (norm_nonneg _)).2 fun c => PiLp.norm_apply_le P c
  have h9 : s * ‖P‖ ≤ ‖e‖ := by
    rcases eq_or_lt_of_le (norm_nonneg P) with h | h
    · rw [← h, mul_zero]; exact norm_nonneg _
    · refine le_of_mul_le_mul_right ?_ h
      calc s * ‖P‖ * ‖P‖ = s * ‖P‖ ^ 2 := by ring
        _ ≤ s * (‖e‖ * ‖y‖) := mul_le_mul_of_nonneg_left h6 s0.le
        _ = ‖e‖ * (s * ‖y‖) := by ring
        _ ≤ ‖e‖ * ‖P‖ := mul_le_mul_of_nonneg_left h7 (norm_nonneg _)
  exact (mul_le_mul_of_nonneg_left h8 s0.le).trans h9

/-! ### The cross products of the axes measure the rotation -/

theorem crossErr_one {R : Mat3 ℝ} (h : IsRot R) : (crossErr R 1).normSq = frob (R - 1) / 2 - frob (R - 1) ^ 2 / 16 := by
  have o0 := congrArg Mat3.m00 h.1
  have o1 := congrArg Mat3.m11 h.1
  have o2 := congrArg Mat3.m22 h.1
  have a0 := congrArg Mat3.m00 h.adj_eq_tr
  have a1 := congrArg Mat3.m11 h.adj_eq_tr
  have a2 := congrArg Mat3.m22 h.adj_eq_tr
  simp only [Mat3.mul_m00, Mat3.mul_m11, Mat3.mul_m22, Mat3.tr, Mat3.one_m00, Mat3.one_m11, Mat3.one_m22, Mat3.adj] at o0 o1 o2 a0 a1 a2
  have e1 : frob (R - 1) = 6 - 2 * (R.m00 + R.m11 + R.m22) := by
    simp [frob]
    linear_combination o0 + o1 + o2
  have e2 : (crossErr R 1).normSq = (3 - (R.m00 + R.m11 + R.m22)) * (1 + (R.m00 + R.m11 + R.m22)) / 4 := by
    simp [crossErr, Vec3.normSq, Vec3.dot, Vec3.cross]
    linear_combination (1 / 4) * (o0 + o1 + o2) + (1 / 2) * (a0 + a1 + a2)
  rw [e1, e2]
  ring

theorem crossErr_conj {E T : Mat3 ℝ} (hT : IsRot T) : crossErr E T = T.tr *ᵥ crossErr (E * T.tr) 1 := by
  have k : ∀ a b : Vec3 ℝ, (T.tr *ᵥ a).cross (T.tr *ᵥ b) = T.tr *ᵥ a.cross b := fun a b => (hT.tr.mulVec_cross a b).symm
  have r : ∀ a : Vec3 ℝ, T.tr *ᵥ (T *ᵥ a) = a := hT.tr_mulVec
  have k0 := k (T *ᵥ ⟨E.m00, E.m01, E.m02⟩) ⟨1, 0, 0⟩
  have k1 := k (T *ᵥ ⟨E.m10, E.m11, E.m12⟩) ⟨0, 1, 0⟩
  have k2 := k (T *ᵥ ⟨E.m20, E.m21, E.m22⟩) ⟨0, 0, 1⟩
  rw [r] at k0 k1 k2
  have t0 : T.tr *ᵥ (⟨1, 0, 0⟩ : Vec3 ℝ) = ⟨T.m00, T.m01, T.m02⟩ := by ext <;> simp [Mat3.mulVec, Mat3.tr]
  have t1 : T.tr *ᵥ (⟨0, 1, 0⟩ : Vec3 ℝ) = ⟨T.m10, T.m11, T.m12⟩ := by ext <;> simp [Mat3.mulVec, Mat3.tr]
  have t2 : T.tr *ᵥ (⟨0, 0, 1⟩ : Vec3 ℝ) = ⟨T.m20, T.m21, T.m22⟩ := by ext <;> simp [Mat3.mulVec, Mat3.tr]
  rw [t0] at k0
  rw [t1] at k1
  rw [t2] at k2
  have c : crossErr (E * T.tr) 1 = (1 / 2 : ℝ) • ((T *ᵥ ⟨E.m00, E.m01, E.m02⟩).cross ⟨1, 0, 0⟩ + (T *ᵥ ⟨E.m10, E.m11, E.m12⟩).cross ⟨0, 1, 0⟩ +
      (T *ᵥ ⟨E.m20, E.m21, E.m22⟩).cross ⟨0, 0, 1⟩) := by
    unfold crossErr
    ext <;> simp [Vec3.cross, Mat3.mulVec, Mat3.tr] <;> ring
  rw [c, Mat3.mulVec_smul, Mat3.mulVec_add, Mat3.mulVec_add, ← k0, ← k1, ← k2]
  rfl

theorem frob_eq (E T : Mat3 ℝ) (hE : IsRot E) (hT : IsRot T) : frob (E - T) = 6 - 2 * (E.m00 * T.m00 + E.m01 * T.m01 + E.m02 * T.m02 + E.m10 * T.m10 +
    E.m11 * T.m11 + E.m12 * T.m12 + E.m20 * T.m20 + E.m21 * T.m21 + E.m22 * T.m22) := by
  have o := fun {R : Mat3 ℝ} (h : IsRot R) => And.intro (congrArg Mat3.m00 h.1) (And.intro (congrArg Mat3.m11 h.1) (congrArg Mat3.m22 h.1))
  obtain ⟨a0, a1, a2⟩ := o hE
  obtain ⟨b0, b1, b2⟩ := o hT
  simp only [Mat3.mul_m00, Mat3.mul_m11, Mat3.mul_m22, Mat3.tr, Mat3.one_m00, Mat3.one_m11, Mat3.one_m22] at a0 a1 a2 b0 b1 b2
  simp only [frob, Mat3.sub_m00, Mat3.sub_m01, Mat3.sub_m02, Mat3.sub_m10, Mat3.sub_m11, Mat3.sub_m12, Mat3.sub_m20, Mat3.sub_m21, Mat3.sub_m22]
  linear_combination a0 + a1 + a2 + b0 + b1 + b2

theorem frob_conj {E T : Mat3 ℝ} (hE : IsRot E) (hT : IsRot T) : frob (E * T.tr - 1) = frob (E - T) := by
  rw [frob_eq _ _ (hE.mul hT.tr) IsRot.one, frob_eq _ _ hE hT]
  simp [Mat3.tr]
  ring

theorem crossErr_normSq {E T : Mat3 ℝ} (hE : IsRot E) (hT : IsRot T) : (crossErr E T).normSq = frob (E - T) / 2 - frob (E - T) ^ 2 / 16 := by
  rw [crossErr_conj hT]
  have : ∀ v : Vec3 ℝ, (T.tr *ᵥ v).normSq = v.normSq := fun v => by
    unfold Vec3.normSq
    rw [Mat3.dot_mulVec, Mat3.tr_tr, hT.mulVec_tr]
  rw [this, crossErr_one (hE.mul hT.tr), frob_conj hE hT]

section line
variable {D : Nat}

/-- Near the target the error differs from the cross products of the axes by little compared to the error. -/
theorem rotErr_rel {rotErr : Mat3 ℝ → Mat3 ℝ → Vec3 ℝ} (he : FirstOrder rotErr) (wf : mb.WF) (hr : mb.Rigid) {N : Nat} (hN : N < mb.bodies.length)
    (hax : mb.AxisPath N) {path : List Nat} (hpa : ∀ i, i ∈ path ↔ i ∈ pathUp mb.par N) {q : List (List ℝ)} (hq : ValidQ mb q) (v : Fin D → ℝ)
    {ε : ℝ} (hε : 0 < ε) : ∀ᶠ u in nhds v,
      ‖six (mb.ikResidual rotErr (mb.posAt (mb.spread path (coordFun v) q) N) N (mb.spread path (coordFun u) q)) -
        six (mainErr (mb.posAt (mb.spread path (coordFun u) q) N) (mb.posAt (mb.spread path (coordFun v) q) N))‖ ≤
      ε * ‖six (mainErr (mb.posAt (mb.spread path (coordFun u) q) N) (mb.posAt (mb.spread path (coordFun v) q) N))‖ := by
  have rot : ∀ u : Fin D → ℝ, IsRot (mb.posAt (mb.spread path (coordFun u) q) N).E := fun u =>
    mb.posAt_rigid hr (spread_sizes wf hN hpa hax.plain hq (coordFun u)) N
  obtain ⟨C, hC, hb⟩ := ((spread_posAt_diff (D := D) wf hax hpa q N).E.frob_bigO v).exists_pos
  have hb := hb.bound
  obtain ⟨δ, hδ, hT⟩ := he _ (rot v) (ε ^ 2 / 4) (by positivity)
  have hs : ∀ᶠ u in nhds v, C * ‖u - v‖ ^ 2 < min δ 4 := by
    have : Filter.Tendsto (fun u => C * ‖u - v‖ ^ 2) (nhds v) (nhds (C * ‖v - v‖ ^ 2)) := by
      apply Continuous.tendsto
      fun_prop
    rw [sub_self, norm_zero] at this
    exact this.eventually (gt_mem_nhds (by simpa using hδ))
  filter_upwards [hb, hs] with u h1 h2
  rw [Real.norm_of_nonneg (frob_nonneg _), Real.norm_of_nonneg (by positivity)] at h1
  have hf := h1.trans_lt h2
  have h3 := hT _ (rot u) (hf.trans_le (min_le_left _ _))
  have h4 := crossErr_normSq (rot u) (rot v)
  have h5 := hf.trans_le (min_le_right _ _)
  set f := frob ((mb.posAt (mb.spread path (coordFun u) q) N).E - (mb.posAt (mb.spread path (coordFun v) q) N).E) with hf'
  have h6 : f ≤ 4 * (f / 2 - f ^ 2 / 16) := by nlinarith [frob_nonneg ((mb.posAt (mb.spread path (coordFun u) q) N).E - (mb.posAt (mb.spread path (coordFun v) q) N).E)]
  refine le_of_sq_le_sq ?_ (by positivity)
  rw [← six_sub, six_norm_sq, mul_pow, six_norm_sq]
  have e : (mb.ikResidual rotErr (mb.posAt (mb.spread path (coordFun v) q) N) N (mb.spread path (coordFun u) q) -
      mainErr (mb.posAt (mb.spread path (coordFun u) q) N) (mb.posAt (mb.spread path (coordFun v) q) N)).lin = 0 := by
    show _ - _ - (_ - _) = (0 : Vec3 ℝ)
    rw [sub_self]
  have e0 : (0 : Vec3 ℝ).normSq = 0 := by simp [Vec3.normSq, Vec3.dot]
  rw [e, e0, add_zero]
  refine h3.trans ?_
  have h7 : ε ^ 2 / 4 * f ≤ ε ^ 2 * (f / 2 - f ^ 2 / 16) := by nlinarith [sq_nonneg ε]
  refine h7.trans (mul_le_mul_of_nonneg_left ?_ (sq_nonneg ε))
  rw [← h4]
  exact le_add_of_nonneg_right (Vec3.normSq_nonneg _)

theorem small_margin {a b k σ η : ℝ} (hk : 0 ≤ k) (hη : 0 < η) (hb : 0 < b) (h : k * (1 + η) < η * σ) :
    ∃ ε > 0, ε ≤ 1 / 2 ∧ 0 < σ - k - ε ∧ (1 + ε) * (a + 2 * ε + b * (k + 2 * ε) / (σ - k - ε)) ≤ a + b * η := by
  have hσ : 0 < σ - k := by
    have : 0 < η * (σ - k) := by nlinarith
    exact pos_of_mul_pos_right this hη.le
  have hc : ContinuousAt (fun ε : ℝ => (1 + ε) * (a + 2 * ε + b * (k + 2 * ε) / (σ - k - ε))) 0 := by
    have : ContinuousAt (fun ε : ℝ => b * (k + 2 * ε) / (σ - k - ε)) 0 :=
      ContinuousAt.div (by fun_prop) (by fun_prop) (by simpa using hσ.ne')
    exact ContinuousAt.mul (by fun_prop) (ContinuousAt.add (by fun_prop) this)
  have h0 : (1 + (0 : ℝ)) * (a + 2 * 0 + b * (k + 2 * 0) / (σ - k - 0)) < a + b * η := by
    have : k / (σ - k) < η := by rw [div_lt_iff₀ hσ]; linarith
    have : b * (k / (σ - k)) < b * η := mul_lt_mul_of_pos_left this hb
    simp only [mul_zero, add_zero, sub_zero, one_mul]
    rw [mul_div_assoc]
    linarith
  have h1 : ∀ᶠ ε in nhds (0 : ℝ), (1 + ε) * (a + 2 * ε + b * (k + 2 * ε) / (σ - k - ε)) < a + b * η := hc.eventually_lt_const h0
  have h2 : ∀ᶠ ε in nhds (0 : ℝ), ε < 1 / 2 := gt_mem_nhds (by norm_num)
  have h3 : ∀ᶠ ε in nhds (0 : ℝ), ε < σ - k := gt_mem_nhds hσ
  obtain ⟨δ, hδ, hall⟩ := Metric.eventually_nhds_iff.1 (h1.and (h2.and h3))
  obtain ⟨x1, x2, x3⟩ := hall (y := δ / 2) (by rw [Real.dist_eq, sub_zero, abs_of_pos (by positivity)]; linarith)
  exact ⟨δ / 2, by positivity, x2.le, by linarith, x1.le⟩

/-- Near a solution where the body can move in all directions a step of the inverse kinematics makes the error smaller by a factor. -/
theorem redundant_step {rotErr : Mat3 ℝ → Mat3 ℝ → Vec3 ℝ} (he : FirstOrder rotErr) (wf : mb.WF) (hr : mb.Rigid) (hd : mb.DirOK) {N : Nat}
    (hax : mb.AxisPath N) {J : Jac ℝ} (hJ : J.Of mb N 0) (hD : D = (J.path.map mb.dofAt).sum) {q : List (List ℝ)} (hq : ValidQ mb q)
    (v : Fin D → ℝ) {z σ η : ℝ} (hz : 0 ≤ z) (hη : 0 < η)
    (hσ : ∀ y, σ * ‖y‖ ≤ ‖rowMap D (ikCols mb J N (mb.spread J.path (coordFun v) q)) y‖) (hsmall : 3 * D * z * (1 + η) < η * σ) {lam : ℝ}
    (hlam : lam ≠ 0) :
    ∃ s > 0, ∃ L ≥ 0, ∃ R > 0, ∀ u, ‖u - v‖ < R →
      ‖six (mb.ikResidual rotErr (mb.posAt (mb.spread J.path (coordFun v) q) N) N (mb.spread J.path (coordFun u) q))‖ ≤ L * ‖u - v‖ ∧
      ∀ (p : Fin D → ℝ) (y : Six), (∀ w, ⟪colMap D (roundCols z (ikCols mb J N (mb.spread J.path (coordFun u) q))) w,
          six (mb.ikResidual rotErr (mb.posAt (mb.spread J.path (coordFun v) q) N) N (mb.spread J.path (coordFun u) q)) -
            colMap D (roundCols z (ikCols mb J N (mb.spread J.path (coordFun u) q))) p⟫ = 0) →
        (∀ c : Fin D, p c = ⟪six ((roundCols z (ikCols mb J N (mb.spread J.path (coordFun u) q))).getD c 0), y⟫) →
        s * ‖p‖ ≤ ‖six (mb.ikResidual rotErr (mb.posAt (mb.spread J.path (coordFun v) q) N) N (mb.spread J.path (coordFun u) q))‖ ∧
        (‖u + lam • p - v‖ < R →
          ‖six (mb.ikResidual rotErr (mb.posAt (mb.spread J.path (coordFun v) q) N) N (mb.spread J.path (coordFun (u + lam • p)) q))‖ ≤
            (|1 - lam| + |lam| * η) *
              ‖six (mb.ikResidual rotErr (mb.posAt (mb.spread J.path (coordFun v) q) N) N (mb.spread J.path (coordFun u) q))‖) := by
  have hpa : ∀ i, i ∈ J.path ↔ i ∈ pathUp mb.par N := fun i => by rw [hJ.path_eq, List.mem_reverse]
  obtain ⟨ε, hε, hε2, hs0, hεs⟩ := small_margin (a := |1 - lam|) (b := |lam|) (k := 3 * D * z) (by positivity) hη (abs_pos.2 hlam) hsmall
  obtain ⟨g', hg, hg'⟩ := mainErr_fderiv wf hr hd hax hJ hD hq v
  obtain ⟨R₁, hR₁, h1⟩ := Metric.eventually_nhds_iff.1 (hg.isLittleO.def hε)
  have h2 := rotErr_rel he wf hr hJ.isBody hax hpa hq v hε
  have h3 : ∀ᶠ u in nhds v, ∀ c : Fin D, ‖six ((ikCols mb J N (mb.spread J.path (coordFun u) q)).getD c 0) -
      six ((ikCols mb J N (mb.spread J.path (coordFun v) q)).getD c 0)‖ ≤ ε / (D + 1) := by
    rw [Filter.eventually_all]
    intro c
    have hc := (spread_cols_diff (D := D) wf hax hJ q c).six.continuous.continuousAt (x := v)
    have := (Metric.tendsto_nhds.1 hc) (ε / (D + 1)) (by positivity)
    filter_upwards [this] with u hu
    rw [dist_eq_norm] at hu
    exact hu.le
  obtain ⟨R₂, hR₂, h23⟩ := Metric.eventually_nhds_iff.1 (h2.and h3)
  set B := ikCols mb J N (mb.spread J.path (coordFun v) q) with hB
  set T := mb.posAt (mb.spread J.path (coordFun v) q) N with hT
  obtain ⟨e, he'⟩ : ∃ e : (Fin D → ℝ) → Six, e = fun u => six (mb.ikResidual rotErr T N (mb.spread J.path (coordFun u) q)) := ⟨_, rfl⟩
  obtain ⟨m, hm⟩ : ∃ m : (Fin D → ℝ) → Six, m = fun u => six (mainErr (mb.posAt (mb.spread J.path (coordFun u) q) N) T) := ⟨_, rfl⟩
  have ee : ∀ u, six (mb.ikResidual rotErr T N (mb.spread J.path (coordFun u) q)) = e u := fun u => by rw [he']
  have em : ∀ u, six (mainErr (mb.posAt (mb.spread J.path (coordFun u) q) N) T) = m u := fun u => by rw [hm]
  simp only [ee, em] at h1 h23 ⊢
  have hm0 : m v = 0 := by rw [hm]; show six (mainErr T T) = 0; rw [mainErr_self, six_zero]
  have pair : ∀ a b, ‖a - v‖ < R₁ → ‖b - v‖ < R₁ → ‖m a - m b + colMap D B (a - b)‖ ≤ ε * ‖a - b‖ := fun a b ha hb => by
    have := h1 (y := (a, b)) (by rw [Prod.dist_eq, dist_eq_norm, dist_eq_norm]; exact max_lt ha hb)
    dsimp only at this
    rwa [hg', sub_neg_eq_add] at this
  refine ⟨σ - 3 * D * z - ε, hs0, 2 * (D * (∑ c : Fin D, ‖six (B.getD c 0)‖) + ε), by positivity, min R₁ R₂, lt_min hR₁ hR₂, fun u hu => ?_⟩
  obtain ⟨a2, a3⟩ := h23 (y := u) (by rw [dist_eq_norm]; exact hu.trans_le (min_le_right _ _))
  have hu1 := hu.trans_le (min_le_left _ _)
  constructor
  · have d1 : ‖colMap D B (u - v)‖ ≤ D * (∑ c : Fin D, ‖six (B.getD c 0)‖) * ‖u - v‖ := by
      have := colMap_diff (D := D) (A := B) (B := []) (ε := ∑ c : Fin D, ‖six (B.getD c 0)‖) (fun c => by
        rw [List.getD_nil, six_zero, sub_zero]
        exact Finset.single_le_sum (f := fun c : Fin D => ‖six (B.getD c 0)‖) (fun _ _ => norm_nonneg _) (Finset.mem_univ c)) (u - v)
      simpa [colMap, six_zero] using this
    have d2 := pair u v hu1 (by simpa using hR₁)
    rw [hm0, sub_zero] at d2
    have d3 := norm_sub_le (m u + colMap D B (u - v)) (colMap D B (u - v))
    rw [add_sub_cancel_right] at d3
    have d4 := norm_sub_norm_le (e u) (m u)
    nlinarith [norm_nonneg (m u)]
  · intro p y hp hy
    set A := roundCols z (ikCols mb J N (mb.spread J.path (coordFun u) q)) with hA
    have hAB : ∀ c : Fin D, ‖six (A.getD c 0) - six (B.getD c 0)‖ ≤ 3 * z + ε / (D + 1) := fun c => by
      refine (norm_sub_le_norm_sub_add_norm_sub _ (six ((ikCols mb J N (mb.spread J.path (coordFun u) q)).getD c 0)) _).trans ?_
      exact add_le_add (round_near hz _ c) (a3 c)
    have hk : (D : ℝ) * (3 * z + ε / (D + 1)) ≤ 3 * D * z + ε := by
      have : (D : ℝ) * (ε / (D + 1)) ≤ ε := by
        rw [mul_div_assoc', div_le_iff₀ (by positivity)]
        nlinarith
      linarith
    have rows : ∀ y, (σ - 3 * D * z - ε) * ‖y‖ ≤ ‖rowMap D A y‖ := fun y => by
      have t1 := norm_sub_norm_le (rowMap D B y) (rowMap D A y)
      have t2 := rowMap_diff (by positivity) hAB y
      rw [norm_sub_rev] at t2
      have t3 := mul_le_mul_of_nonneg_right hk (norm_nonneg y)
      linarith [hσ y]
    obtain ⟨c1, c2⟩ := pinv_step hp hy hs0 rows
    refine ⟨c2, fun hu' => ?_⟩
    have c3 := pair (u + lam • p) u (hu'.trans_le (min_le_left _ _)) hu1
    obtain ⟨b2, -⟩ := h23 (y := u + lam • p) (by rw [dist_eq_norm]; exact hu'.trans_le (min_le_right _ _))
    rw [add_sub_cancel_left, norm_smul, Real.norm_eq_abs] at c3
    have c4 := (colMap_diff hAB p).trans (mul_le_mul_of_nonneg_right hk (norm_nonneg p))
    have esm : colMap D B (lam • p) = lam • colMap D B p := by
      simp only [colMap, Pi.smul_apply, smul_eq_mul, mul_smul, Finset.smul_sum]
    rw [esm] at c3
    have dm : ‖m (u + lam • p)‖ ≤ ε * (|lam| * ‖p‖) + 2 * ε * ‖e u‖ + |1 - lam| * ‖e u‖ + |lam| * ((3 * D * z + ε) * ‖p‖) := by
      have e1 : m (u + lam • p) = (m (u + lam • p) - m u + lam • colMap D B p) + (m u - e u) + ((1 - lam) • e u) + lam • (colMap D A p - colMap D B p) := by
        rw [c1, sub_smul, one_smul, smul_sub]; abel
      rw [e1]
      refine (norm_add_le _ _).trans (add_le_add ((norm_add_le _ _).trans (add_le_add ((norm_add_le _ _).trans (add_le_add c3 ?_)) ?_)) ?_)
      · rw [norm_sub_rev]
        have := norm_sub_norm_le (m u) (e u)
        rw [norm_sub_rev] at this
        have h2 : ε * ‖m u‖ ≤ 1 / 2 * ‖m u‖ := mul_le_mul_of_nonneg_right hε2 (norm_nonneg _)
        have h3 : ε * ‖m u‖ ≤ ε * (2 * ‖e u‖) := mul_le_mul_of_nonneg_left (by linarith) hε.le
        linarith
      · rw [norm_smul, Real.norm_eq_abs]
      · rw [norm_smul, Real.norm_eq_abs]
        exact mul_le_mul_of_nonneg_left c4 (abs_nonneg _)
    have hp' : ‖p‖ ≤ ‖e u‖ / (σ - 3 * D * z - ε) := by rw [le_div_iff₀ hs0]; linarith
    have dm2 : ‖m (u + lam • p)‖ ≤ (|1 - lam| + 2 * ε + |lam| * (3 * D * z + 2 * ε) / (σ - 3 * D * z - ε)) * ‖e u‖ := by
      have : |lam| * (3 * D * z + 2 * ε) * ‖p‖ ≤ |lam| * (3 * D * z + 2 * ε) * (‖e u‖ / (σ - 3 * D * z - ε)) :=
        mul_le_mul_of_nonneg_left hp' (by positivity)
      have e2 : |lam| * (3 * D * z + 2 * ε) * (‖e u‖ / (σ - 3 * D * z - ε)) = |lam| * (3 * D * z + 2 * ε) / (σ - 3 * D * z - ε) * ‖e u‖ := by ring
      rw [e2] at this
      linarith
    have de := norm_sub_norm_le (e (u + lam • p)) (m (u + lam • p))
    calc ‖e (u + lam • p)‖ ≤ (1 + ε) * ‖m (u + lam • p)‖ := by linarith
      _ ≤ (1 + ε) * ((|1 - lam| + 2 * ε + |lam| * (3 * D * z + 2 * ε) / (σ - 3 * D * z - ε)) * ‖e u‖) := mul_le_mul_of_nonneg_left dm2 (by positivity)
      _ = (1 + ε) * (|1 - lam| + 2 * ε + |lam| * (3 * D * z + 2 * ε) / (σ - 3 * D * z - ε)) * ‖e u‖ := by ring
      _ ≤ _ := mul_le_mul_of_nonneg_right hεs (norm_nonneg _)
end line
end RBDyn
