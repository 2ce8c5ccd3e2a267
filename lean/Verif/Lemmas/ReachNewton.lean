import Mathlib.Analysis.InnerProductSpace.Calculus
import Mathlib.Analysis.InnerProductSpace.Projection.Basic
import Mathlib.Analysis.Calculus.Deriv.Comp
import Verif.Lemmas.ReachDiff

/-! The Newton step of the inverse kinematics near a regular solution. -/

namespace RBDyn
open scoped Mat3 RealInnerProductSpace
variable {mb : MultiBody ℝ}

abbrev Six := EuclideanSpace ℝ (Fin 6)

/-- Six numbers as a vector with Euclidean norm. -/
noncomputable def six (v : MotionVec ℝ) : Six := WithLp.toLp 2 ![v.ang.x, v.ang.y, v.ang.z, v.lin.x, v.lin.y, v.lin.z]

theorem six_add (u v : MotionVec ℝ) : six (u + v) = six u + six v := by
  ext i; fin_cases i <;> simp [six]

theorem six_sub (u v : MotionVec ℝ) : six (u - v) = six u - six v := by
  ext i; fin_cases i <;> simp [six]

theorem six_smul (s : ℝ) (v : MotionVec ℝ) : six (s • v) = s • six v := by
  ext i; fin_cases i <;> simp [six]

theorem six_zero : six 0 = 0 := by
  ext i; fin_cases i <;> simp [six]

theorem six_inner (u v : MotionVec ℝ) : ⟪six u, six v⟫ = u.ang.dot v.ang + u.lin.dot v.lin := by
  simp [six, PiLp.inner_apply, Fin.sum_univ_succ, Vec3.dot]
  ring

theorem six_norm_sq (v : MotionVec ℝ) : ‖six v‖ ^ 2 = v.ang.normSq + v.lin.normSq := by
  rw [← real_inner_self_eq_norm_sq, six_inner]
  rfl

theorem DiffMotion.six {V : Type} [NormedAddCommGroup V] [NormedSpace ℝ V] {f : V → MotionVec ℝ} (h : DiffMotion f) :
    ContDiff ℝ 1 fun v => six (f v) := by
  rw [contDiff_euclidean]
  intro i
  fin_cases i
  exacts [h.ang.x, h.ang.y, h.ang.z, h.lin.x, h.lin.y, h.lin.z]

/-- Columns times coordinates. -/
noncomputable def colMap (D : Nat) (A : List (MotionVec ℝ)) (w : Fin D → ℝ) : Six := ∑ c : Fin D, w c • six (A.getD c 0)

theorem colMap_add {D : Nat} (A : List (MotionVec ℝ)) (u w : Fin D → ℝ) : colMap D A (u + w) = colMap D A u + colMap D A w := by
  simp [colMap, add_smul, Finset.sum_add_distrib]

theorem colMap_applyCols : ∀ (A : List (MotionVec ℝ)) (x : List ℝ), x.length = A.length →
    six (applyCols A x) = colMap A.length A fun c => x.getD c 0
  | [], [], _ => by simp [applyCols, colMap, six_zero]
  | c :: A, a :: x, h => by
    have ih := colMap_applyCols A x (by simpa using h)
    have e : applyCols (c :: A) (a :: x) = a • c + applyCols A x := by simp [applyCols]
    rw [e, six_add, six_smul, ih]
    unfold colMap
    rw [List.length_cons, Fin.sum_univ_succ]
    rfl

/-- The solution of the normal equations is as close to the Newton step as the system is to being linear. -/
theorem normal_step {D : Nat} {A : List (MotionVec ℝ)} {e : Six} {d p : Fin D → ℝ} (ho : ∀ w, ⟪colMap D A w, e - colMap D A p⟫ = 0) {s b : ℝ}
    (hs : ∀ w, s * ‖w‖ ≤ ‖colMap D A w‖) (hb : ‖e + colMap D A d‖ ≤ b) : s * ‖p + d‖ ≤ b := by
  refine (hs _).trans ?_
  have h : ‖colMap D A (p + d)‖ ^ 2 ≤ ‖colMap D A (p + d)‖ * b := by
    have e1 : colMap D A (p + d) = (e + colMap D A d) - (e - colMap D A p) := by rw [colMap_add]; abel
    have e2 : ‖colMap D A (p + d)‖ ^ 2 = ⟪colMap D A (p + d), e + colMap D A d⟫ := by
      rw [← real_inner_self_eq_norm_sq]
      conv_lhs => rw [show ⟪colMap D A (p + d), colMap D A (p + d)⟫ = ⟪colMap D A (p + d), (e + colMap D A d) - (e - colMap D A p)⟫ from by
        rw [← e1]]
      rw [inner_sub_right, ho, sub_zero]
    rw [e2]
    exact (real_inner_le_norm _ _).trans (mul_le_mul_of_nonneg_left hb (norm_nonneg _))
  rcases eq_or_lt_of_le (norm_nonneg (colMap D A (p + d))) with h0 | h0
  · rw [← h0]; exact (norm_nonneg _).trans hb
  · rw [sq] at h
    exact le_of_mul_le_mul_left h h0

theorem colMap_diff {D : Nat} {A B : List (MotionVec ℝ)} {ε : ℝ} (h : ∀ c : Fin D, ‖six (A.getD c 0) - six (B.getD c 0)‖ ≤ ε) (w : Fin D → ℝ) :
    ‖colMap D A w - colMap D B w‖ ≤ D * ε * ‖w‖ := by
  have e : colMap D A w - colMap D B w = ∑ c : Fin D, w c • (six (A.getD c 0) - six (B.getD c 0)) := by
    simp only [colMap, smul_sub, Finset.sum_sub_distrib]
  rw [e]
  refine (norm_sum_le _ _).trans ?_
  have : ∀ c ∈ Finset.univ, ‖w c • (six (A.getD c 0) - six (B.getD c 0))‖ ≤ ‖w‖ * ε := fun c _ => by
    rw [norm_smul]
    exact mul_le_mul (norm_le_pi_norm w c) (h c) (norm_nonneg _) (norm_nonneg _)
  refine (Finset.sum_le_card_nsmul _ _ _ this).trans (le_of_eq ?_)
  rw [Finset.card_univ, Fintype.card_fin, nsmul_eq_mul]
  ring

theorem roundOp_near {z : ℝ} (hz : 0 ≤ z) (x : ℝ) : |roundOp z x - x| ≤ z := by
  unfold roundOp
  split
  · rename_i h
    rw [zero_sub, abs_neg, abs_le]
    exact ⟨h.1.le, h.2.le⟩
  · simpa using hz

theorem round_near {z : ℝ} (hz : 0 ≤ z) (A : List (MotionVec ℝ)) (c : Nat) : ‖six ((roundCols z A).getD c 0) - six (A.getD c 0)‖ ≤ 3 * z := by
  rw [← six_sub]
  refine le_of_sq_le_sq ?_ (by positivity)
  rw [six_norm_sq]
  unfold roundCols
  rw [List.getD_eq_getElem?_getD, List.getD_eq_getElem?_getD, List.getElem?_map]
  cases A[c]? with
  | none =>
    simp [Vec3.normSq, Vec3.dot]
    positivity
  | some a =>
    have k := fun x => sq_le_sq' (abs_le.1 (roundOp_near hz x)).1 (abs_le.1 (roundOp_near hz x)).2
    simp only [Option.map_some, Option.getD_some, MotionVec.sub_ang, MotionVec.sub_lin, Vec3.normSq, Vec3.dot, Vec3.sub_x, Vec3.sub_y, Vec3.sub_z]
    nlinarith [k a.ang.x, k a.ang.y, k a.ang.z, k a.lin.x, k a.lin.y, k a.lin.z, sq_nonneg z]

/-- Half the sum of the cross products of the axes of two frames: to first order the rotation from the first to the second. -/
noncomputable def crossErr (E T : Mat3 ℝ) : Vec3 ℝ :=
  (1 / 2 : ℝ) • ((⟨E.m00, E.m01, E.m02⟩ : Vec3 ℝ).cross ⟨T.m00, T.m01, T.m02⟩ + (⟨E.m10, E.m11, E.m12⟩ : Vec3 ℝ).cross ⟨T.m10, T.m11, T.m12⟩ +
    (⟨E.m20, E.m21, E.m22⟩ : Vec3 ℝ).cross ⟨T.m20, T.m21, T.m22⟩)

noncomputable def mainErr (X T : PTransform ℝ) : MotionVec ℝ := ⟨crossErr X.E T.E, T.r - X.r⟩

theorem mainErr_self (T : PTransform ℝ) : mainErr T T = 0 := by
  unfold mainErr crossErr
  ext <;> simp [Vec3.cross] <;> ring

theorem DiffPT.mainErr {V : Type} [NormedAddCommGroup V] [NormedSpace ℝ V] {f : V → PTransform ℝ} (h : DiffPT f) (T : PTransform ℝ) :
    DiffMotion fun v => mainErr (f v) T := by
  refine ⟨DiffVec.smul (by fun_prop) (DiffVec.add (DiffVec.add (DiffVec.cross ?_ (.const _)) (DiffVec.cross ?_ (.const _))) (DiffVec.cross ?_ (.const _))),
    (DiffVec.const _).sub h.r⟩
  · exact ⟨h.E.m00, h.E.m01, h.E.m02⟩
  · exact ⟨h.E.m10, h.E.m11, h.E.m12⟩
  · exact ⟨h.E.m20, h.E.m21, h.E.m22⟩

theorem IsRot.crossErr_rate {T : Mat3 ℝ} (h : IsRot T) (w : Vec3 ℝ) : crossErr (-(Mat3.crossMat w * T)) T = -(T.tr *ᵥ w) := by
  have k : ∀ a b : Vec3 ℝ, (T.tr *ᵥ a).cross (T.tr *ᵥ b) = T.tr *ᵥ a.cross b := fun a b => (h.tr.mulVec_cross a b).symm
  have k01 := k ⟨1, 0, 0⟩ ⟨0, 1, 0⟩
  have k12 := k ⟨0, 1, 0⟩ ⟨0, 0, 1⟩
  have k20 := k ⟨0, 0, 1⟩ ⟨1, 0, 0⟩
  simp [Vec3.ext_iff, Vec3.cross, Mat3.mulVec, Mat3.tr] at k01 k12 k20
  obtain ⟨a1, a2, a3⟩ := k01
  obtain ⟨b1, b2, b3⟩ := k12
  obtain ⟨c1, c2, c3⟩ := k20
  unfold crossErr
  ext <;> simp [Vec3.cross, Mat3.crossMat, Mat3.mulVec, Mat3.tr]
  · linear_combination (-w.z) * a1 - w.x * b1 - w.y * c1
  · linear_combination (-w.z) * a2 - w.x * b2 - w.y * c2
  · linear_combination (-w.z) * a3 - w.x * b3 - w.y * c3

theorem HasDerivMat.crossErr {E : ℝ → Mat3 ℝ} {E' : Mat3 ℝ} {t : ℝ} (h : HasDerivMat E E' t) (T : Mat3 ℝ) :
    HasDerivVec (fun s => crossErr (E s) T) (crossErr E' T) t := by
  have k : ∀ {f g : ℝ → ℝ} {f' g' : ℝ} (a b : ℝ), HasDerivAt f f' t → HasDerivAt g g' t → HasDerivAt (fun s => f s * a - g s * b) (f' * a - g' * b) t :=
    fun a b hf hg => (hf.mul_const a).sub (hg.mul_const b)
  unfold RBDyn.crossErr
  constructor <;> simp only [Vec3.smul_x, Vec3.smul_y, Vec3.smul_z, Vec3.add_x, Vec3.add_y, Vec3.add_z, Vec3.cross]
  · exact (((k _ _ h.m01 h.m02).add (k _ _ h.m11 h.m12)).add (k _ _ h.m21 h.m22)).const_mul _
  · exact (((k _ _ h.m02 h.m00).add (k _ _ h.m12 h.m10)).add (k _ _ h.m22 h.m20)).const_mul _
  · exact (((k _ _ h.m00 h.m01).add (k _ _ h.m10 h.m11)).add (k _ _ h.m20 h.m21)).const_mul _

theorem HasSpatialVelocity.mainErr {X : ℝ → PTransform ℝ} {v : MotionVec ℝ} {t : ℝ} (h : HasSpatialVelocity X v t) (hX : IsRigid (X t)) :
    HasDerivMotion (fun s => mainErr (X s) (X t)) (-pointVel (X t) v 0) t := by
  have e1 := h.rot.crossErr (X t).E
  rw [IsRot.crossErr_rate hX] at e1
  refine ⟨e1, ?_⟩
  have e2 : (-pointVel (X t) v 0).lin = -((X t).E.tr *ᵥ v.lin) := by
    show -((X t).E.tr *ᵥ (v.lin + v.ang.cross 0)) = _
    rw [Vec3.cross_zero, add_zero]
  rw [e2]
  exact ⟨h.trans.x.const_sub _, h.trans.y.const_sub _, h.trans.z.const_sub _⟩

theorem HasDerivMotion.six_unique {f : ℝ → MotionVec ℝ} {f' : MotionVec ℝ} {u : Six} {t : ℝ} (h : HasDerivMotion f f' t)
    (hu : HasDerivAt (fun s => six (f s)) u t) : u = six f' := by
  have k : ∀ i, HasDerivAt (fun s => six (f s) i) (u i) t := fun i => (EuclideanSpace.proj (𝕜 := ℝ) i).hasFDerivAt.comp_hasDerivAt t hu
  ext i
  have ki := k i
  fin_cases i
  exacts [ki.unique h.ang.x, ki.unique h.ang.y, ki.unique h.ang.z, ki.unique h.lin.x, ki.unique h.lin.y, ki.unique h.lin.z]

section line
variable {D : Nat}

def MultiBody.zeroDofs (mb : MultiBody ℝ) : List (List ℝ) := (List.range mb.bodies.length).map fun i => List.replicate (mb.dofAt i) 0

theorem coordFun_line (v w : Fin D → ℝ) (k : Nat) : HasDerivAt (fun s : ℝ => coordFun (v + s • w) k) (coordFun w k) 0 := by
  unfold coordFun
  split
  · simp only [Pi.add_apply, Pi.smul_apply, smul_eq_mul]
    simpa using ((hasDerivAt_id (0 : ℝ)).mul_const (w ⟨k, by assumption⟩)).const_add (v ⟨k, by assumption⟩)
  · exact hasDerivAt_const _ _

theorem coordRate_plain {t : JointType} (h : t.Plain) (q α : List ℝ) : coordRate t q α = α := by
  rcases h with rfl | rfl | rfl | rfl <;> rfl

theorem spread_trajectory (wf : mb.WF) {N : Nat} (hN : N < mb.bodies.length) (hax : mb.AxisPath N) {path : List Nat}
    (hpa : ∀ i, i ∈ path ↔ i ∈ pathUp mb.par N) {q : List (List ℝ)} (hq : ValidQ mb q) (v w : Fin D → ℝ) :
    Trajectory mb (fun s => mb.spread path (coordFun (v + s • w)) q) (mb.spread path (coordFun w) mb.zeroDofs) 0 := by
  refine ⟨fun s => spread_sizes wf hN hpa hax.plain hq _, ?_, fun i j e => ?_⟩
  · refine List.ext_getElem (by simp [MultiBody.spread, wf.njoints]) fun i h1 h2 => ?_
    rw [List.length_map] at h1 h2
    rw [List.getElem_map, List.getElem_map]
    have hi : i < mb.bodies.length := by rw [← wf.njoints]; exact h2
    have e := spread_get path (coordFun w) mb.zeroDofs hi
    rw [List.getElem?_eq_getElem h1] at e
    rw [Option.some.inj e, MultiBody.zeroDofs, range_map_getElem? hi]
    have : mb.dofAt i = mb.joints[i].dof := by simp [MultiBody.dofAt, List.getElem?_eq_getElem h2]
    split <;> simp [this]
  · have hi : i < mb.bodies.length := by rw [← wf.njoints]; exact (List.getElem?_eq_some_iff.1 e).1
    have hb := wf.built j (List.mem_of_getElem? e)
    have hd : mb.dofAt i = j.dof := by simp [MultiBody.dofAt, e]
    simp only [spread_get path _ _ hi, Option.getD_some]
    by_cases hm : i ∈ path
    · simp only [if_pos hm]
      rw [coordRate_plain (hax i ((hpa i).1 hm) j e)]
      refine ⟨fun s => by simp, fun a => ?_⟩
      by_cases ha : a < mb.dofAt i
      · simp only [List.getD_eq_getElem?_getD, range_map_getElem? ha, Option.getD_some]
        exact coordFun_line _ _ _
      · have : ∀ f : Nat → ℝ, ((List.range (mb.dofAt i)).map f)[a]? = none := fun f => by
          rw [List.getElem?_eq_none_iff, List.length_map, List.length_range]; omega
        simp only [List.getD_eq_getElem?_getD, this]
        exact hasDerivAt_const _ _
    · simp only [if_neg hm, MultiBody.zeroDofs, range_map_getElem? hi, Option.getD_some]
      have hlt : i < q.length := by rw [← hq.length_eq]; exact (List.getElem?_eq_some_iff.1 e).1
      obtain ⟨x, hx⟩ : ∃ x, q[i]? = some x := ⟨_, List.getElem?_eq_getElem hlt⟩
      have hl := (hq.sizes wf).get hx e
      rw [hx, Option.getD_some, hd, hb.sizes.2, coordRate_zero _ (hl.trans hb.sizes.1)]
      refine ⟨fun s => by simp [hl, hb.sizes.1], fun a => ?_⟩
      have : (List.replicate (Joint.nParams j.type) (0 : ℝ)).getD a 0 = 0 := by
        rw [List.getD_eq_getElem?_getD, List.getElem?_replicate]; split <;> rfl
      rw [this]
      exact hasDerivAt_const _ _

/-- To first order the error changes by minus the Jacobian times the change of the coordinates. -/
theorem mainErr_fderiv (wf : mb.WF) (hr : mb.Rigid) (hd : mb.DirOK) {N : Nat} (hax : mb.AxisPath N) {J : Jac ℝ} (hJ : J.Of mb N 0)
    (hD : D = (J.path.map mb.dofAt).sum) {q : List (List ℝ)} (hq : ValidQ mb q) (v : Fin D → ℝ) :
    ∃ g' : (Fin D → ℝ) →L[ℝ] Six,
      HasStrictFDerivAt (fun u : Fin D → ℝ => six (mainErr (mb.posAt (mb.spread J.path (coordFun u) q) N) (mb.posAt (mb.spread J.path (coordFun v) q) N))) g' v ∧
      ∀ w, g' w = -colMap D (ikCols mb J N (mb.spread J.path (coordFun v) q)) w := by
  have hpa : ∀ i, i ∈ J.path ↔ i ∈ pathUp mb.par N := fun i => by rw [hJ.path_eq, List.mem_reverse]
  have hv := spread_sizes wf hJ.isBody hpa hax.plain hq (coordFun v)
  have hg := ((spread_posAt_diff (D := D) wf hax hpa q N).mainErr (mb.posAt (mb.spread J.path (coordFun v) q) N)).six
  refine ⟨_, hg.contDiffAt.hasStrictFDerivAt (by simp), fun w => ?_⟩
  have htr := spread_trajectory wf hJ.isBody hax hpa hq v w
  have h1 := mb.posAt_hasVelocity wf hr hd htr hJ.isBody
  have e0 : v + (0 : ℝ) • w = v := by simp
  have h2 := h1.mainErr (by rw [e0]; exact mb.posAt_rigid hr hv N)
  have hline : HasDerivAt (fun s : ℝ => v + s • w) w 0 := by
    simpa using ((hasDerivAt_id (0 : ℝ)).smul_const w).const_add v
  have h3 := HasFDerivAt.comp_hasDerivAt (f := fun s : ℝ => v + s • w) 0 (by rw [e0]; exact (hg.differentiable (by simp) v).hasFDerivAt) hline
  simp only [e0] at h2
  rw [h2.six_unique h3]
  have h4 := hJ.apply wf hr hv htr.sized (.ofTrans (PTransform.ofTrans 0 * mb.posAt (mb.spread J.path (coordFun v) q) N).r)
  rw [ofTrans_mul_inv (mb.posAt_rigid hr hv N), pointVel_eq] at h4
  rw [← h4, pathVec_spread hJ.path (by rw [hJ.path_eq]; exact List.nodup_reverse.2 (pathUp_nodup N)), ← hD]
  have hl : (ikCols mb J N (mb.spread J.path (coordFun v) q)).length = D := (jacCols_length _ _ _ _).trans hD.symm
  have e5 : six (-applyCols (ikCols mb J N (mb.spread J.path (coordFun v) q)) ((List.range D).map (coordFun w))) =
      -six (applyCols (ikCols mb J N (mb.spread J.path (coordFun v) q)) ((List.range D).map (coordFun w))) := by
    have := six_smul (-1) (applyCols (ikCols mb J N (mb.spread J.path (coordFun v) q)) ((List.range D).map (coordFun w)))
    simpa using this
  refine e5.trans (congrArg (fun x => -x) ?_)
  rw [colMap_applyCols _ _ (by rw [hl]; simp), hl]
  congr 1
  funext c
  rw [List.getD_eq_getElem?_getD, range_map_getElem? c.2]
  simp [coordFun]

def frob (M : Mat3 ℝ) : ℝ :=
  M.m00 ^ 2 + M.m01 ^ 2 + M.m02 ^ 2 + M.m10 ^ 2 + M.m11 ^ 2 + M.m12 ^ 2 + M.m20 ^ 2 + M.m21 ^ 2 + M.m22 ^ 2

theorem frob_nonneg (M : Mat3 ℝ) : 0 ≤ frob M := by unfold frob; positivity

/-- Near the target orientation the rotation error agrees to first order with half the sum of the cross products of the axes. -/
def FirstOrder (rotErr : Mat3 ℝ → Mat3 ℝ → Vec3 ℝ) : Prop :=
  ∀ T, IsRot T → ∀ ε > 0, ∃ δ > 0, ∀ E, IsRot E → frob (E - T) < δ → (rotErr E T - crossErr E T).normSq ≤ ε * frob (E - T)

open Filter Asymptotics in
theorem DiffMat.frob_bigO {V : Type} [NormedAddCommGroup V] [NormedSpace ℝ V] {E : V → Mat3 ℝ} (h : DiffMat E) (v : V) :
    (fun u => frob (E u - E v)) =O[nhds v] fun u => ‖u - v‖ ^ 2 := by
  have k : ∀ {f : V → ℝ}, ContDiff ℝ 1 f → (fun u => (f u - f v) ^ 2) =O[nhds v] fun u => ‖u - v‖ ^ 2 := fun hf =>
    ((hf.differentiable (by simp) v).isBigO_sub.norm_right).pow 2
  exact ((((((((k h.m00).add (k h.m01)).add (k h.m02)).add (k h.m10)).add (k h.m11)).add (k h.m12)).add (k h.m20)).add (k h.m21)).add (k h.m22)

theorem rotErr_small {rotErr : Mat3 ℝ → Mat3 ℝ → Vec3 ℝ} (he : FirstOrder rotErr) (wf : mb.WF) (hr : mb.Rigid) {N : Nat} (hN : N < mb.bodies.length)
    (hax : mb.AxisPath N) {path : List Nat} (hpa : ∀ i, i ∈ path ↔ i ∈ pathUp mb.par N) {q : List (List ℝ)} (hq : ValidQ mb q) (v : Fin D → ℝ)
    {ε : ℝ} (hε : 0 < ε) : ∀ᶠ u in nhds v,
      ‖six (mb.ikResidual rotErr (mb.posAt (mb.spread path (coordFun v) q) N) N (mb.spread path (coordFun u) q)) -
        six (mainErr (mb.posAt (mb.spread path (coordFun u) q) N) (mb.posAt (mb.spread path (coordFun v) q) N))‖ ≤ ε * ‖u - v‖ := by
  have rot : ∀ u : Fin D → ℝ, IsRot (mb.posAt (mb.spread path (coordFun u) q) N).E := fun u =>
    mb.posAt_rigid hr (spread_sizes wf hN hpa hax.plain hq (coordFun u)) N
  have hO := (spread_posAt_diff (D := D) wf hax hpa q N).E.frob_bigO v
  obtain ⟨C, hC, hb⟩ := hO.exists_pos
  have hb := hb.bound
  obtain ⟨δ, hδ, hT⟩ := he _ (rot v) (ε ^ 2 / C) (by positivity)
  have hs : ∀ᶠ u in nhds v, C * ‖u - v‖ ^ 2 < δ := by
    have : Filter.Tendsto (fun u => C * ‖u - v‖ ^ 2) (nhds v) (nhds (C * ‖v - v‖ ^ 2)) := by
      apply Continuous.tendsto
      fun_prop
    rw [sub_self, norm_zero] at this
    exact this.eventually (gt_mem_nhds (by simpa using hδ))
  filter_upwards [hb, hs] with u h1 h2
  rw [Real.norm_of_nonneg (frob_nonneg _), Real.norm_of_nonneg (by positivity)] at h1
  have h3 := hT _ (rot u) (h1.trans_lt h2)
  refine le_of_sq_le_sq ?_ (by positivity)
  rw [← six_sub, six_norm_sq]
  have e : (mb.ikResidual rotErr (mb.posAt (mb.spread path (coordFun v) q) N) N (mb.spread path (coordFun u) q) -
      mainErr (mb.posAt (mb.spread path (coordFun u) q) N) (mb.posAt (mb.spread path (coordFun v) q) N)).lin = 0 := by
    show _ - _ - (_ - _) = (0 : Vec3 ℝ)
    rw [sub_self]
  have e0 : (0 : Vec3 ℝ).normSq = 0 := by simp [Vec3.normSq, Vec3.dot]
  rw [e, e0, add_zero]
  refine h3.trans ((mul_le_mul_of_nonneg_left h1 (by positivity)).trans (le_of_eq ?_))
  field_simp

/-- Near a regular solution a step of the inverse kinematics comes closer by a factor. -/
theorem newton_contraction {rotErr : Mat3 ℝ → Mat3 ℝ → Vec3 ℝ} (he : FirstOrder rotErr) (wf : mb.WF) (hr : mb.Rigid) (hd : mb.DirOK) {N : Nat}
    (hax : mb.AxisPath N) {J : Jac ℝ} (hJ : J.Of mb N 0) (hD : D = (J.path.map mb.dofAt).sum) {q : List (List ℝ)} (hq : ValidQ mb q)
    (v : Fin D → ℝ) {z σ η : ℝ} (hz : 0 ≤ z) (hη : 0 < η)
    (hσ : ∀ w, σ * ‖w‖ ≤ ‖colMap D (ikCols mb J N (mb.spread J.path (coordFun v) q)) w‖) (hsmall : 3 * D * z * (1 + η) < η * σ) (lam : ℝ) :
    ∃ L, ∀ᶠ u in nhds v,
      (∀ p : Fin D → ℝ, (∀ w, ⟪colMap D (roundCols z (ikCols mb J N (mb.spread J.path (coordFun u) q))) w,
          six (mb.ikResidual rotErr (mb.posAt (mb.spread J.path (coordFun v) q) N) N (mb.spread J.path (coordFun u) q)) -
            colMap D (roundCols z (ikCols mb J N (mb.spread J.path (coordFun u) q))) p⟫ = 0) →
        ‖u + lam • p - v‖ ≤ (|1 - lam| + |lam| * η) * ‖u - v‖) ∧
      ‖six (mb.ikResidual rotErr (mb.posAt (mb.spread J.path (coordFun v) q) N) N (mb.spread J.path (coordFun u) q))‖ ≤ L * ‖u - v‖ := by
  have hpa : ∀ i, i ∈ J.path ↔ i ∈ pathUp mb.par N := fun i => by rw [hJ.path_eq, List.mem_reverse]
  obtain ⟨ε, hε, hεs⟩ : ∃ ε > 0, ε * (3 + η) < η * σ - 3 * D * z * (1 + η) := by
    have : 0 < 3 + η := by linarith
    refine ⟨(η * σ - 3 * D * z * (1 + η)) / (2 * (3 + η)), div_pos (by linarith) (by linarith), ?_⟩
    rw [div_mul_eq_mul_div, div_lt_iff₀ (by linarith)]
    nlinarith
  obtain ⟨g', hg, hg'⟩ := mainErr_fderiv wf hr hd hax hJ hD hq v
  have h1 := hg.hasFDerivAt.isLittleO.def hε
  have h2 := rotErr_small he wf hr hJ.isBody hax hpa hq v hε
  have h3 : ∀ᶠ u in nhds v, ∀ c : Fin D, ‖six ((ikCols mb J N (mb.spread J.path (coordFun u) q)).getD c 0) -
      six ((ikCols mb J N (mb.spread J.path (coordFun v) q)).getD c 0)‖ ≤ ε / (D + 1) := by
    rw [Filter.eventually_all]
    intro c
    have hc := (spread_cols_diff (D := D) wf hax hJ q c).six.continuous.continuousAt (x := v)
    have := (Metric.tendsto_nhds.1 hc) (ε / (D + 1)) (by positivity)
    filter_upwards [this] with u hu
    rw [dist_eq_norm] at hu
    exact hu.le
  refine ⟨D * (∑ c : Fin D, ‖six ((ikCols mb J N (mb.spread J.path (coordFun v) q)).getD c 0)‖) + 2 * ε, ?_⟩
  filter_upwards [h1, h2, h3] with u a1 a2 a3
  set A := ikCols mb J N (mb.spread J.path (coordFun u) q) with hA
  set B := ikCols mb J N (mb.spread J.path (coordFun v) q) with hB
  set e := six (mb.ikResidual rotErr (mb.posAt (mb.spread J.path (coordFun v) q) N) N (mb.spread J.path (coordFun u) q)) with he
  rw [mainErr_self, six_zero, sub_zero, hg', sub_neg_eq_add] at a1
  have b1 : ‖e + colMap D B (u - v)‖ ≤ 2 * ε * ‖u - v‖ := by
    refine (norm_le_norm_add_norm_sub' (e + colMap D B (u - v)) (six (mainErr (mb.posAt (mb.spread J.path (coordFun u) q) N)
      (mb.posAt (mb.spread J.path (coordFun v) q) N)) + colMap D B (u - v))).trans ?_
    rw [add_sub_add_right_eq_sub]
    linarith
  have b2 : ∀ w, ‖colMap D A w - colMap D B w‖ ≤ ε * ‖w‖ := fun w => by
    refine (colMap_diff a3 w).trans (mul_le_mul_of_nonneg_right ?_ (norm_nonneg _))
    rw [mul_div_assoc', div_le_iff₀ (by positivity)]
    nlinarith
  have b3 : ∀ w, ‖colMap D (roundCols z A) w - colMap D A w‖ ≤ 3 * D * z * ‖w‖ := fun w => by
    refine (colMap_diff (fun c => round_near hz A c) w).trans (le_of_eq ?_)
    ring
  constructor
  · intro p hp
    have c1 : ∀ w, (σ - ε - 3 * D * z) * ‖w‖ ≤ ‖colMap D (roundCols z A) w‖ := fun w => by
      have t1 := norm_sub_norm_le (colMap D B w) (colMap D B w - colMap D (roundCols z A) w)
      rw [sub_sub_cancel] at t1
      have t2 : ‖colMap D B w - colMap D (roundCols z A) w‖ ≤ ε * ‖w‖ + 3 * D * z * ‖w‖ := by
        rw [show colMap D B w - colMap D (roundCols z A) w = -((colMap D (roundCols z A) w - colMap D A w) + (colMap D A w - colMap D B w)) from by abel,
          norm_neg]
        refine (norm_add_le _ _).trans ?_
        linarith [b2 w, b3 w]
      linarith [hσ w]
    have c2 : ‖e + colMap D (roundCols z A) (u - v)‖ ≤ (3 * ε + 3 * D * z) * ‖u - v‖ := by
      rw [show e + colMap D (roundCols z A) (u - v) = (e + colMap D B (u - v)) + ((colMap D (roundCols z A) (u - v) - colMap D A (u - v)) +
        (colMap D A (u - v) - colMap D B (u - v))) from by abel]
      refine (norm_add_le _ _).trans ((add_le_add_right (norm_add_le _ _) _).trans ?_)
      linarith [b2 (u - v), b3 (u - v)]
    have c3 := normal_step hp c1 c2
    have c4 : 0 < σ - ε - 3 * D * z := by
      have : 0 ≤ 3 * D * z := by positivity
      have : 0 < η * (σ - ε - 3 * D * z) := by nlinarith
      exact pos_of_mul_pos_right this hη.le
    have c5 : ‖p + (u - v)‖ ≤ η * ‖u - v‖ := by
      refine le_of_mul_le_mul_left (c3.trans ?_) c4
      rw [← mul_assoc]
      refine mul_le_mul_of_nonneg_right ?_ (norm_nonneg _)
      nlinarith
    have c6 : u + lam • p - v = (1 - lam) • (u - v) + lam • (p + (u - v)) := by
      ext c
      simp only [Pi.add_apply, Pi.sub_apply, Pi.smul_apply, smul_eq_mul]
      ring
    rw [c6]
    refine (norm_add_le _ _).trans ?_
    rw [norm_smul, norm_smul, Real.norm_eq_abs, Real.norm_eq_abs, add_mul, mul_assoc]
    exact add_le_add_right (mul_le_mul_of_nonneg_left c5 (abs_nonneg _)) _
  · have d1 : ‖colMap D B (u - v)‖ ≤ D * (∑ c : Fin D, ‖six (B.getD c 0)‖) * ‖u - v‖ := by
      have := colMap_diff (D := D) (A := B) (B := []) (ε := ∑ c : Fin D, ‖six (B.getD c 0)‖) (fun c => by
        rw [List.getD_nil, six_zero, sub_zero]
        exact Finset.single_le_sum (f := fun c : Fin D => ‖six (B.getD c 0)‖) (fun _ _ => norm_nonneg _) (Finset.mem_univ c)) (u - v)
      simpa [colMap, six_zero] using this
    have d2 := norm_sub_le (e + colMap D B (u - v)) (colMap D B (u - v))
    rw [add_sub_cancel_right] at d2
    linarith
end line
end RBDyn
