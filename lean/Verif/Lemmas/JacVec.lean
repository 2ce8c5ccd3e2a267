import Verif.Lemmas.JacDeriv

/-! The Jacobians of a vector attached to a body. -/

namespace RBDyn
variable {K : Type} [Scalar K] {mb : MultiBody K}
open scoped Mat3

/-- The linear rows of a product depend on the linear rows only. -/
theorem applyCols_lin_congr : ∀ {A B : List (MotionVec K)} (_ : A.map (·.lin) = B.map (·.lin)) (a : List K),
    (applyCols A a).lin = (applyCols B a).lin
  | [], [], _, _ => rfl
  | [], _ :: _, h, _ => by simp at h
  | _ :: _, [], h, _ => by simp at h
  | x :: A, y :: B, h, a => by
    simp only [List.map_cons, List.cons.injEq] at h
    cases a with
    | nil => simp [applyCols]
    | cons c a =>
      have := applyCols_lin_congr h.2 a
      unfold applyCols at this ⊢
      simp only [List.zipWith_cons_cons, List.sum_cons]
      show (c • x).lin + _ = (c • y).lin + _
      rw [this]
      show c • x.lin + _ = c • y.lin + _
      rw [h.1]

/-- A motion as a linear function of the angular part of a motion. -/
def vecHom (E : Mat3 K) (d : Vec3 K) : MotionVec K →ₗ[K] MotionVec K where
  toFun S := ⟨0, E *ᵥ d.cross S.ang⟩
  map_add' a b := by
    ext <;> simp <;> ring
  map_smul' c a := by
    ext <;> simp <;> ring

@[simp] theorem vecHom_apply (E : Mat3 K) (d : Vec3 K) (S : MotionVec K) : vecHom E d S = ⟨0, E *ᵥ d.cross S.ang⟩ := rfl

/-- The displacement used by both functions. -/
def vecDiff (X : PTransform K) (v : Vec3 K) : Vec3 K := X.r - (PTransform.ofTrans v * X).r

theorem vecDiff_cross {X : PTransform K} (hX : IsRigid X) (v w : Vec3 K) :
    X.E *ᵥ (vecDiff X v).cross w = (X.E *ᵥ w).cross v := by
  have e : vecDiff X v = -(X.E.tr *ᵥ v) := by
    unfold vecDiff
    ext <;> simp [PTransform.ofTrans]
  rw [e, Vec3.neg_cross, Vec3.cross_anti, neg_neg, IsRot.mulVec_cross hX, IsRot.mulVec_tr hX]

/-- The columns with the linear rows replaced. -/
def MultiBody.linCols (mb : MultiBody K) (path : List Nat) (old : List (MotionVec K)) (L : Nat → MotionVec K →ₗ[K] MotionVec K) :
    List (MotionVec K) :=
  mb.pathCols path (fun x a => ⟨(old.getD (mb.colOff path x + a) 0).ang, (L (path.getD x 0) ((mb.SAt (path.getD x 0)).getD a 0)).lin⟩) path.length

omit [Scalar K] in
theorem pathCols_map {α β : Type} (path : List Nat) (h : Nat → Nat → α) (f : α → β) (k : Nat) :
    (mb.pathCols path h k).map f = mb.pathCols path (fun x a => f (h x a)) k := by
  unfold MultiBody.pathCols
  rw [List.map_flatMap]
  simp only [List.map_map]
  rfl

theorem linCols_length (path : List Nat) (old : List (MotionVec K)) (L : Nat → MotionVec K →ₗ[K] MotionVec K) :
    (mb.linCols path old L).length = (path.map mb.dofAt).sum := by
  unfold MultiBody.linCols
  rw [mb.pathCols_length path _ le_rfl, MultiBody.colOff, List.take_length]

theorem linCols_lin (path : List Nat) (old : List (MotionVec K)) (L : Nat → MotionVec K →ₗ[K] MotionVec K) :
    (mb.linCols path old L).map (·.lin) = (mb.homCols path L).map (·.lin) := by
  unfold MultiBody.linCols MultiBody.homCols
  rw [pathCols_map, pathCols_map]

/-- Cutting a list into the pieces of the joints of a path. -/
theorem pathCols_split {α : Type} (path : List Nat) (l : List α) (d : α) : ∀ k, k ≤ path.length → mb.colOff path k ≤ l.length →
    mb.pathCols path (fun x a => l.getD (mb.colOff path x + a) d) k = l.take (mb.colOff path k)
  | 0, _, _ => by simp [MultiBody.pathCols, MultiBody.colOff]
  | k + 1, hk, hl => by
    have hk' : k < path.length := hk
    rw [mb.colOff_succ hk'] at hl
    rw [mb.pathCols_succ path _ hk', pathCols_split path l d k hk'.le (by omega), mb.colOff_succ hk', List.take_add]
    congr 1
    apply List.ext_getElem
    · simp; omega
    · intro a h1 h2
      have : mb.colOff path k + a < l.length := by simp at h1; omega
      simp [List.getElem?_eq_getElem this]

theorem linCols_ang (path : List Nat) {old : List (MotionVec K)} (hl : old.length = (path.map mb.dofAt).sum)
    (L : Nat → MotionVec K →ₗ[K] MotionVec K) : (mb.linCols path old L).map (·.ang) = old.map (·.ang) := by
  have e : mb.colOff path path.length = old.length := by rw [hl, MultiBody.colOff, List.take_length]
  unfold MultiBody.linCols
  rw [pathCols_map]
  have := pathCols_split (mb := mb) path old 0 path.length le_rfl e.le
  rw [e, List.take_length] at this
  conv_rhs => rw [← this]
  rw [pathCols_map]

theorem Jac.Of.vectorJacobian_eq (wf : mb.WF) {mbc : MBC K} (hv : mbc.PosReady mb) {J : Jac K} {N : Nat} {p : Vec3 K}
    (h : J.Of mb N p) (v : Vec3 K) :
    J.vectorJacobian mb mbc v = .ok { J with jac := mb.linCols J.path J.jac (fun i =>
      vecHom ((mb.posAt mbc.q N).E.tr * (mb.toPoint mbc.q N p i).E) (vecDiff (mb.toPoint mbc.q N p i) v)) } := by
  unfold Jac.vectorJacobian
  simp only [h.back, Res.bind_ok, hv.rd_pos h.isBody, h.point]
  rw [fillCols_eq wf J.path _ (fun x a old => ⟨old.ang, (vecHom ((mb.posAt mbc.q N).E.tr * (mb.toPoint mbc.q N p (J.path.getD x 0)).E)
    (vecDiff (mb.toPoint mbc.q N p (J.path.getD x 0)) v) ((mb.SAt (J.path.getD x 0)).getD a 0)).lin⟩) J.jac h.path h.jac]
  · rfl
  · intro x hx
    have hi := h.path _ (List.getElem_mem hx)
    refine ⟨_, by simp only [hv.rd_pos hi, Res.bind_ok, Res.pure_eq]; rfl, fun a ha old => ?_⟩
    simp only [hv.rd_S hi, Res.bind_ok, wf.rd_SAt hi ha, Res.pure_eq, List.getD_eq_getElem?_getD,
      List.getElem?_eq_getElem hx, Option.getD_some]
    rfl

theorem Jac.Of.vectorBodyJacobian_eq (wf : mb.WF) {mbc : MBC K} (hv : mbc.PosReady mb) {J : Jac K} {N : Nat} {p : Vec3 K}
    (h : J.Of mb N p) (v : Vec3 K) :
    J.vectorBodyJacobian mb mbc v = .ok { J with jac := mb.linCols J.path J.jac (fun i =>
      vecHom (mb.toPoint mbc.q N p i).E (vecDiff (mb.toPoint mbc.q N p i) v)) } := by
  unfold Jac.vectorBodyJacobian
  simp only [h.back, Res.bind_ok, hv.rd_pos h.isBody, h.point]
  rw [fillCols_eq wf J.path _ (fun x a old => ⟨old.ang, (vecHom (mb.toPoint mbc.q N p (J.path.getD x 0)).E
    (vecDiff (mb.toPoint mbc.q N p (J.path.getD x 0)) v) ((mb.SAt (J.path.getD x 0)).getD a 0)).lin⟩) J.jac h.path h.jac]
  · rfl
  · intro x hx
    have hi := h.path _ (List.getElem_mem hx)
    refine ⟨_, by simp only [hv.rd_pos hi, Res.bind_ok, Res.pure_eq]; rfl, fun a ha old => ?_⟩
    simp only [hv.rd_S hi, Res.bind_ok, wf.rd_SAt hi ha, Res.pure_eq, List.getD_eq_getElem?_getD,
      List.getElem?_eq_getElem hx, Option.getD_some]
    rfl

/-- The rates of rotation of the joints of the path add up to the one of the body. -/
theorem vec_sum (hr : mb.Rigid) {q : List (List K)} (hq : ValidQ mb q) (v : List (List K)) (N : Nat) (p u : Vec3 K) :
    (∑ k ∈ mb.path N, vecHom (mb.toPoint q N p k).E (vecDiff (mb.toPoint q N p k) u) (mb.jointMotion v k)).lin =
      (mb.velAt q v N).ang.cross u := by
  have h1 : ∀ k, vecHom (mb.toPoint q N p k).E (vecDiff (mb.toPoint q N p k) u) (mb.jointMotion v k) =
      vecHom 1 (-u) ((mb.toPoint q N p k).mulMotion (mb.jointMotion v k)) := by
    intro k
    rw [vecHom_apply, vecDiff_cross (mb.toPoint_rigid hr hq N p k), vecHom_apply]
    congr 1
    rw [Vec3.neg_cross, ← Vec3.cross_anti, Mat3.one_mulVec]
    rfl
  rw [Finset.sum_congr rfl fun k _ => h1 k, ← map_sum, mb.sum_toPoint hr hq]
  have : ∑ k ∈ mb.path N, (mb.relAt q k N).mulMotion (mb.jointMotion v k) = mb.velAt q v N := rfl
  rw [this, vecHom_apply]
  show (1 : Mat3 K) *ᵥ _ = _
  rw [Mat3.one_mulVec, Vec3.neg_cross, ← Vec3.cross_anti]
  congr 1
  ext <;> simp [PTransform.ofTrans, PTransform.mulMotion]

theorem Jac.Of.vectorBodyJacobian_apply (wf : mb.WF) (hr : mb.Rigid) {q : List (List K)} (hq : ValidQ mb q) {J : Jac K} {N : Nat} {p : Vec3 K}
    (h : J.Of mb N p) {v : List (List K)} (hv : SizedDof mb v) (old : List (MotionVec K)) (u : Vec3 K) :
    (applyCols (mb.linCols J.path old fun i => vecHom (mb.toPoint q N p i).E (vecDiff (mb.toPoint q N p i) u)) (pathVec J.path v)).lin =
      (mb.velAt q v N).ang.cross u := by
  rw [applyCols_lin_congr (linCols_lin _ _ _), h.homCols wf hv, vec_sum hr hq]

theorem Jac.Of.vectorJacobian_apply (wf : mb.WF) (hr : mb.Rigid) {q : List (List K)} (hq : ValidQ mb q) {J : Jac K} {N : Nat} {p : Vec3 K}
    (h : J.Of mb N p) {v : List (List K)} (hv : SizedDof mb v) (old : List (MotionVec K)) (u : Vec3 K) :
    (applyCols (mb.linCols J.path old fun i => vecHom ((mb.posAt q N).E.tr * (mb.toPoint q N p i).E) (vecDiff (mb.toPoint q N p i) u))
      (pathVec J.path v)).lin = (mb.posAt q N).E.tr *ᵥ (mb.velAt q v N).ang.cross u := by
  rw [applyCols_lin_congr (linCols_lin _ _ _), h.homCols wf hv, ← vec_sum hr hq v N p u]
  have e : ∀ k S, vecHom ((mb.posAt q N).E.tr * (mb.toPoint q N p k).E) (vecDiff (mb.toPoint q N p k) u) S =
      (PTransform.ofRot (mb.posAt q N).E.tr).motionHom (vecHom (mb.toPoint q N p k).E (vecDiff (mb.toPoint q N p k) u) S) := by
    intro k S
    rw [PTransform.motionHom_apply, vecHom_apply, vecHom_apply]
    ext <;> simp [PTransform.ofRot, PTransform.mulMotion] <;> ring
  rw [Finset.sum_congr rfl fun k _ => e k _, ← map_sum, PTransform.motionHom_apply]
  simp only [PTransform.mulMotion, PTransform.ofRot]
  congr 1
  ext <;> simp

end RBDyn
