import Verif.Lemmas.Jacobian

/-! Derivatives of Jacobians and normal accelerations. -/

namespace RBDyn
variable {K : Type} [Scalar K] {mb : MultiBody K}
open scoped Mat3

/-- The cross product as a linear map. -/
def MotionVec.crossHom (a : MotionVec K) : MotionVec K →ₗ[K] MotionVec K where
  toFun := a.cross
  map_add' := a.cross_add
  map_smul' s v := MotionVec.cross_smul s a v
@[simp] theorem MotionVec.crossHom_apply (a v : MotionVec K) : a.crossHom v = a.cross v := rfl

theorem MotionVec.sub_cross (a b c : MotionVec K) : (a - b).cross c = a.cross c - b.cross c := by
  ext <;> simp [MotionVec.cross] <;> ring

theorem MotionVec.cross_sum {ι : Type} (s : Finset ι) (v : MotionVec K) (f : ι → MotionVec K) :
    v.cross (∑ k ∈ s, f k) = ∑ k ∈ s, v.cross (f k) := by
  rw [← MotionVec.crossHom_apply, map_sum]; rfl

theorem PTransform.mulMotion_sum {ι : Type} (s : Finset ι) (X : PTransform K) (f : ι → MotionVec K) :
    X.mulMotion (∑ k ∈ s, f k) = ∑ k ∈ s, X.mulMotion (f k) := by
  rw [← PTransform.motionHom_apply, map_sum]; rfl

/-! ### Columns -/

/-- The transform from body `i` to the frame of the point `p` of body `N`. -/
def MultiBody.toPoint (mb : MultiBody K) (q : List (List K)) (N : Nat) (p : Vec3 K) (i : Nat) : PTransform K :=
  PTransform.ofTrans p * mb.posAt q N * (mb.posAt q i).inv

/-- Column of `bodyJacobianDot`, as a linear function of the column of the motion subspace. -/
def MultiBody.bdotHom (mb : MultiBody K) (q alpha : List (List K)) (N : Nat) (p : Vec3 K) (i : Nat) : MotionVec K →ₗ[K] MotionVec K :=
  ((mb.toPoint q N p i).mulMotion (mb.velAt q alpha i) - (PTransform.ofTrans p).mulMotion (mb.velAt q alpha N)).crossHom ∘ₗ
    (mb.toPoint q N p i).motionHom

/-- Column of `jacobianDot`, as a linear function of the column of the motion subspace. -/
def MultiBody.dotHom (mb : MultiBody K) (q alpha : List (List K)) (N : Nat) (p : Vec3 K) (i : Nat) : MotionVec K →ₗ[K] MotionVec K :=
  (⟨(mb.velWAt q alpha N).ang, 0⟩ : MotionVec K).crossHom ∘ₗ
      (PTransform.ofRot (mb.posAt q N).E.tr * mb.toPoint q N p i).motionHom +
    (PTransform.ofRot (mb.posAt q N).E.tr).motionHom ∘ₗ mb.bdotHom q alpha N p i

/-- The columns of the path as linear functions of the columns of the motion subspaces. -/
def MultiBody.homCols (mb : MultiBody K) (path : List Nat) (L : Nat → MotionVec K →ₗ[K] MotionVec K) : List (MotionVec K) :=
  mb.pathCols path (fun x a => L (path.getD x 0) ((mb.SAt (path.getD x 0)).getD a 0)) path.length

theorem homCols_length (path : List Nat) (L : Nat → MotionVec K →ₗ[K] MotionVec K) :
    (mb.homCols path L).length = (path.map mb.dofAt).sum := by
  unfold MultiBody.homCols
  rw [mb.pathCols_length path _ le_rfl, MultiBody.colOff, List.take_length]

theorem homCols_apply (wf : mb.WF) {v : List (List K)} (hv : SizedDof mb v) {path : List Nat}
    (L : Nat → MotionVec K →ₗ[K] MotionVec K) (hp : ∀ i ∈ path, i < mb.bodies.length) :
    applyCols (mb.homCols path L) (pathVec path v) =
      ∑ x ∈ Finset.range path.length, L (path.getD x 0) (mb.jointMotion v (path.getD x 0)) := by
  unfold MultiBody.homCols
  rw [applyCols_pathCols wf hv path _ hp]
  refine Finset.sum_congr rfl fun x hx => ?_
  rw [Finset.mem_range] at hx
  exact wf.apply_S v (L (path.getD x 0)) (hp _ (getD_mem hx))

theorem Jac.Of.homCols (wf : mb.WF) {J : Jac K} {N : Nat} {p : Vec3 K} (h : J.Of mb N p) {v : List (List K)} (hv : SizedDof mb v)
    (L : Nat → MotionVec K →ₗ[K] MotionVec K) :
    applyCols (mb.homCols J.path L) (pathVec J.path v) = ∑ k ∈ mb.path N, L k (mb.jointMotion v k) := by
  rw [homCols_apply wf hv L h.path, ← wf.sum_path (fun k => L k (mb.jointMotion v k)) h.isBody, ← h.path_eq]

theorem Jac.Of.bodyJacobianDot_eq (wf : mb.WF) {mbc : MBC K} (hv : mbc.VelReady mb) {J : Jac K} {N : Nat} {p : Vec3 K}
    (h : J.Of mb N p) :
    J.bodyJacobianDot mb mbc = .ok { J with jacDot := mb.homCols J.path (mb.bdotHom mbc.q mbc.alpha N p) } := by
  unfold Jac.bodyJacobianDot
  simp only [h.back, Res.bind_ok, hv.rd_pos h.isBody, hv.rd_vB h.isBody, h.point]
  rw [fillCols_eq' wf J.path _ (fun x a => mb.bdotHom mbc.q mbc.alpha N p (J.path.getD x 0) ((mb.SAt (J.path.getD x 0)).getD a 0)) J.jacDot
    h.path h.jacDot]
  · rfl
  · intro x hx
    have hi := h.path _ (List.getElem_mem hx)
    refine ⟨_, by simp only [hv.rd_pos hi, hv.rd_vB hi, Res.bind_ok, Res.pure_eq]; rfl, fun a ha old => ?_⟩
    simp only [hv.rd_S hi, Res.bind_ok, wf.rd_SAt hi ha, Res.pure_eq, List.getD_eq_getElem?_getD,
      List.getElem?_eq_getElem hx, Option.getD_some]
    rfl

theorem Jac.Of.jacobianDot_eq (wf : mb.WF) {mbc : MBC K} (hv : mbc.VelReady mb) {J : Jac K} {N : Nat} {p : Vec3 K}
    (h : J.Of mb N p) :
    J.jacobianDot mb mbc = .ok { J with jacDot := mb.homCols J.path (mb.dotHom mbc.q mbc.alpha N p) } := by
  unfold Jac.jacobianDot
  simp only [h.back, Res.bind_ok, hv.rd_pos h.isBody, hv.rd_vB h.isBody, hv.rd_vW h.isBody, h.point]
  rw [fillCols_eq' wf J.path _ (fun x a => mb.dotHom mbc.q mbc.alpha N p (J.path.getD x 0) ((mb.SAt (J.path.getD x 0)).getD a 0)) J.jacDot
    h.path h.jacDot]
  · rfl
  · intro x hx
    have hi := h.path _ (List.getElem_mem hx)
    refine ⟨_, by simp only [hv.rd_pos hi, hv.rd_vB hi, Res.bind_ok, Res.pure_eq]; rfl, fun a ha old => ?_⟩
    simp only [hv.rd_S hi, Res.bind_ok, wf.rd_SAt hi ha, Res.pure_eq, List.getD_eq_getElem?_getD,
      List.getElem?_eq_getElem hx, Option.getD_some]
    rfl

/-! ### Times the velocity -/

section apply
variable {q : List (List K)}

theorem MultiBody.toPoint_rigid (hr : mb.Rigid) (hq : ValidQ mb q) (N : Nat) (p : Vec3 K) (i : Nat) : IsRigid (mb.toPoint q N p i) :=
  ((ofTrans_rigid p).mul (mb.posAt_rigid hr hq N)).mul (mb.posAt_rigid hr hq i).inv

theorem MultiBody.toPoint_self (hr : mb.Rigid) (hq : ValidQ mb q) (N : Nat) (p : Vec3 K) : mb.toPoint q N p N = .ofTrans p := by
  unfold MultiBody.toPoint
  rw [PTransform.mul_assoc', PTransform.mul_inv (mb.posAt_rigid hr hq N), PTransform.mul_one']

/-- The transported joint motions of the path. -/
theorem MultiBody.sum_toPoint (hr : mb.Rigid) (hq : ValidQ mb q) (N : Nat) (p : Vec3 K) (f : Nat → MotionVec K) :
    ∑ k ∈ mb.path N, (mb.toPoint q N p k).mulMotion (f k) =
      (PTransform.ofTrans p).mulMotion (∑ k ∈ mb.path N, (mb.relAt q k N).mulMotion (f k)) := by
  rw [← mb.toPoint_self hr hq N p]
  exact mb.sum_transport hr hq _ N f

theorem MultiBody.accAt_nil (mb : MultiBody K) (alpha : List (List K)) (N : Nat) : mb.accAt q alpha [] 0 N =
    ∑ k ∈ mb.path N, (mb.relAt q k N).mulMotion ((mb.velAt q alpha k).cross (mb.jointMotion alpha k)) := by
  have h0 : ∀ i, mb.jointMotion [] i = 0 := fun i => by simp [MultiBody.jointMotion, applyCols]
  unfold MultiBody.accAt
  simp [h0]

theorem bdot_sum (hr : mb.Rigid) (hq : ValidQ mb q) (alpha : List (List K)) (N : Nat) (p : Vec3 K) :
    ∑ k ∈ mb.path N, mb.bdotHom q alpha N p k (mb.jointMotion alpha k) =
      (PTransform.ofTrans p).mulMotion (mb.accAt q alpha [] 0 N) := by
  have h1 : ∀ k, mb.bdotHom q alpha N p k (mb.jointMotion alpha k) =
      (mb.toPoint q N p k).mulMotion ((mb.velAt q alpha k).cross (mb.jointMotion alpha k)) -
        ((PTransform.ofTrans p).mulMotion (mb.velAt q alpha N)).cross ((mb.toPoint q N p k).mulMotion (mb.jointMotion alpha k)) := by
    intro k
    rw [PTransform.mulMotion_cross (mb.toPoint_rigid hr hq N p k), ← MotionVec.sub_cross]
    rfl
  rw [Finset.sum_congr rfl fun k _ => h1 k, Finset.sum_sub_distrib, ← MotionVec.cross_sum, mb.sum_toPoint hr hq, mb.sum_toPoint hr hq,
    mb.accAt_nil]
  have : ∑ k ∈ mb.path N, (mb.relAt q k N).mulMotion (mb.jointMotion alpha k) = mb.velAt q alpha N := rfl
  rw [this, MotionVec.cross_self, sub_zero]

theorem dot_sum (hr : mb.Rigid) (hq : ValidQ mb q) (alpha : List (List K)) (N : Nat) (p : Vec3 K) :
    ∑ k ∈ mb.path N, mb.dotHom q alpha N p k (mb.jointMotion alpha k) =
      (⟨(mb.posAt q N).E.tr, p⟩ : PTransform K).mulMotion (mb.accAt q alpha [] 0 N) +
        (⟨(mb.velWAt q alpha N).ang, 0⟩ : MotionVec K).cross
          ((⟨(mb.posAt q N).E.tr, p⟩ : PTransform K).mulMotion (mb.velAt q alpha N)) := by
  have hE := ofRot_rigid (IsRot.tr (mb.posAt_rigid hr hq N))
  have e : PTransform.ofRot (mb.posAt q N).E.tr * PTransform.ofTrans p = ⟨(mb.posAt q N).E.tr, p⟩ := by
    ext1
    · simp [PTransform.ofRot, PTransform.ofTrans]
    · simp [PTransform.ofRot, PTransform.ofTrans]
  have h1 : ∀ k, mb.dotHom q alpha N p k (mb.jointMotion alpha k) =
      (⟨(mb.velWAt q alpha N).ang, 0⟩ : MotionVec K).cross ((PTransform.ofRot (mb.posAt q N).E.tr).mulMotion
        ((mb.toPoint q N p k).mulMotion (mb.jointMotion alpha k))) +
      (PTransform.ofRot (mb.posAt q N).E.tr).mulMotion (mb.bdotHom q alpha N p k (mb.jointMotion alpha k)) := by
    intro k
    rw [← PTransform.mul_mulMotion _ _ _ (mb.toPoint_rigid hr hq N p k)]
    rfl
  rw [Finset.sum_congr rfl fun k _ => h1 k, Finset.sum_add_distrib, ← MotionVec.cross_sum, ← PTransform.mulMotion_sum,
    ← PTransform.mulMotion_sum, bdot_sum hr hq, mb.sum_toPoint hr hq, ← e, PTransform.mul_mulMotion _ _ _ (ofTrans_rigid p),
    PTransform.mul_mulMotion _ _ _ (ofTrans_rigid p), add_comm]
  rfl

end apply

/-! ### Normal acceleration -/

theorem foldlM_congr_mem {α σ : Type} {f g : σ → α → Res σ} {l : List α} (h : ∀ s, ∀ a ∈ l, f s a = g s a) (s : σ) :
    l.foldlM f s = l.foldlM g s := by
  induction l generalizing s with
  | nil => rfl
  | cons a l ih =>
    rw [List.foldlM_cons, List.foldlM_cons, h s a (by simp)]
    congr 1
    funext s'
    exact ih (fun s b hb => h s b (by simp [hb])) s'

/-- A loop over the indices of a vector is a loop over its elements. -/
theorem foldlM_range_rd {α σ : Type} (F : σ → α → Res σ) (l : List α) (s : σ) :
    (List.range l.length).foldlM (fun s x => do F s (← rd l x)) s = l.foldlM F s := by
  induction l using List.reverseRecOn generalizing s with
  | nil => rfl
  | append_singleton l a ih =>
    rw [List.length_append, List.length_singleton, List.range_succ, List.foldlM_append, List.foldlM_append, ← ih]
    have : (List.range l.length).foldlM (fun s x => do F s (← rd (l ++ [a]) x)) s =
        (List.range l.length).foldlM (fun s x => do F s (← rd l x)) s := by
      refine foldlM_congr_mem (fun s x hx => ?_) s
      rw [List.mem_range] at hx
      unfold rd
      rw [List.getElem?_append_left hx]
    rw [this]
    congr 1
    funext s'
    rw [List.foldlM_cons, List.foldlM_cons]
    have : rd (l ++ [a]) l.length = .ok a := rd_of_getElem? (by simp)
    rw [this]
    rfl

theorem normalAccB_eq (wf : mb.WF) (hr : mb.Rigid) {mbc : MBC K} (hq : ValidQ mb mbc.q) (hv : mbc.VelReady mb) {N : Nat}
    (hN : N < mb.bodies.length) : normalAccB mbc (pathUp mb.par N).reverse = .ok (mb.accAt mbc.q mbc.alpha [] 0 N) := by
  have h0 : ∀ i, mb.jointMotion [] i = 0 := fun i => by simp [MultiBody.jointMotion, applyCols]
  have e : ∀ path : List Nat, normalAccB mbc path = path.foldlM (fun accel i => do
      let X ← rd mbc.parentToSon i
      let vj ← rd mbc.jointVelocity i
      let vb ← rd mbc.bodyVelB i
      return X.mulMotion accel + vb.cross vj) 0 := fun path => foldlM_range_rd (fun accel i => do
      let X ← rd mbc.parentToSon i
      let vj ← rd mbc.jointVelocity i
      let vb ← rd mbc.bodyVelB i
      return X.mulMotion accel + vb.cross vj) path 0
  rw [e]
  induction N using Nat.strong_induction_on with
  | _ N ih =>
    cases h : mb.par N with
    | none =>
      rw [pathUp_none h, wf.accAt_none hr hq _ _ _ hN h]
      simp [hv.rd_pts hN, hv.rd_vj hN, hv.rd_vB hN, h0]
    | some k =>
      have hk := wf.par_lt _ _ h
      rw [pathUp_some h hk, List.reverse_cons, List.foldlM_append, ih k hk (by omega), wf.accAt_some hr hq _ _ _ hN h]
      simp [hv.rd_pts hN, hv.rd_vj hN, hv.rd_vB hN, h0]

theorem pointAcc_eq {W : PTransform K} (hW : IsRigid W) (V A : MotionVec K) (p : Vec3 K) :
    (⟨W.E.tr, p⟩ : PTransform K).mulMotion A + (⟨W.E.tr *ᵥ V.ang, 0⟩ : MotionVec K).cross ((⟨W.E.tr, p⟩ : PTransform K).mulMotion V) =
      pointAcc W V A p := by
  rw [pointVel_eq, pointVel_eq]
  unfold pointVel pointAcc
  ext1
  · simp [MotionVec.cross]
  · have := hW.tr_mulVec_cross V.ang (V.lin + V.ang.cross p)
    simp only [MotionVec.add_lin, MotionVec.cross, Vec3.zero_cross, add_zero]
    rw [Mat3.mulVec_add _ (A.lin + _), this]

end RBDyn
