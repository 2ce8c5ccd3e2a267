import Verif.Spec.KinDeriv
import Verif.Lemmas.Kinematics
import Verif.Props.JointDeriv

/-! Derivatives of products of moving frames. -/

namespace RBDyn
open scoped Mat3

theorem HasDerivMat.mul {f g : ℝ → Mat3 ℝ} {f' g' : Mat3 ℝ} {t : ℝ} (hf : HasDerivMat f f' t) (hg : HasDerivMat g g' t) :
    HasDerivMat (fun s => f s * g s) (f' * g t + f t * g') t := by
  obtain ⟨a00, a01, a02, a10, a11, a12, a20, a21, a22⟩ := hf
  obtain ⟨b00, b01, b02, b10, b11, b12, b20, b21, b22⟩ := hg
  constructor
  · exact (((a00.mul b00).add (a01.mul b10)).add (a02.mul b20)).congr_deriv (by simp; ring)
  · exact (((a00.mul b01).add (a01.mul b11)).add (a02.mul b21)).congr_deriv (by simp; ring)
  · exact (((a00.mul b02).add (a01.mul b12)).add (a02.mul b22)).congr_deriv (by simp; ring)
  · exact (((a10.mul b00).add (a11.mul b10)).add (a12.mul b20)).congr_deriv (by simp; ring)
  · exact (((a10.mul b01).add (a11.mul b11)).add (a12.mul b21)).congr_deriv (by simp; ring)
  · exact (((a10.mul b02).add (a11.mul b12)).add (a12.mul b22)).congr_deriv (by simp; ring)
  · exact (((a20.mul b00).add (a21.mul b10)).add (a22.mul b20)).congr_deriv (by simp; ring)
  · exact (((a20.mul b01).add (a21.mul b11)).add (a22.mul b21)).congr_deriv (by simp; ring)
  · exact (((a20.mul b02).add (a21.mul b12)).add (a22.mul b22)).congr_deriv (by simp; ring)

theorem HasDerivMat.tr {f : ℝ → Mat3 ℝ} {f' : Mat3 ℝ} {t : ℝ} (hf : HasDerivMat f f' t) :
    HasDerivMat (fun s => (f s).tr) f'.tr t := by
  obtain ⟨a00, a01, a02, a10, a11, a12, a20, a21, a22⟩ := hf
  constructor <;> assumption

theorem HasDerivMat.mulVec {f : ℝ → Mat3 ℝ} {g : ℝ → Vec3 ℝ} {f' : Mat3 ℝ} {g' : Vec3 ℝ} {t : ℝ} (hf : HasDerivMat f f' t)
    (hg : HasDerivVec g g' t) : HasDerivVec (fun s => f s *ᵥ g s) (f' *ᵥ g t + f t *ᵥ g') t := by
  obtain ⟨a00, a01, a02, a10, a11, a12, a20, a21, a22⟩ := hf
  obtain ⟨b0, b1, b2⟩ := hg
  constructor
  · exact (((a00.mul b0).add (a01.mul b1)).add (a02.mul b2)).congr_deriv (by simp; ring)
  · exact (((a10.mul b0).add (a11.mul b1)).add (a12.mul b2)).congr_deriv (by simp; ring)
  · exact (((a20.mul b0).add (a21.mul b1)).add (a22.mul b2)).congr_deriv (by simp; ring)

theorem HasDerivVec.add {f g : ℝ → Vec3 ℝ} {f' g' : Vec3 ℝ} {t : ℝ} (hf : HasDerivVec f f' t) (hg : HasDerivVec g g' t) :
    HasDerivVec (fun s => f s + g s) (f' + g') t :=
  ⟨hf.x.add hg.x, hf.y.add hg.y, hf.z.add hg.z⟩

theorem HasDerivVec.sub {f g : ℝ → Vec3 ℝ} {f' g' : Vec3 ℝ} {t : ℝ} (hf : HasDerivVec f f' t) (hg : HasDerivVec g g' t) :
    HasDerivVec (fun s => f s - g s) (f' - g') t :=
  ⟨hf.x.sub hg.x, hf.y.sub hg.y, hf.z.sub hg.z⟩

theorem HasDerivVec.smul {c : ℝ → ℝ} {g : ℝ → Vec3 ℝ} {c' : ℝ} {g' : Vec3 ℝ} {t : ℝ} (hc : HasDerivAt c c' t)
    (hg : HasDerivVec g g' t) : HasDerivVec (fun s => c s • g s) (c' • g t + c t • g') t :=
  ⟨hc.mul hg.x, hc.mul hg.y, hc.mul hg.z⟩

theorem HasDerivVec.cross {f g : ℝ → Vec3 ℝ} {f' g' : Vec3 ℝ} {t : ℝ} (hf : HasDerivVec f f' t) (hg : HasDerivVec g g' t) :
    HasDerivVec (fun s => (f s).cross (g s)) (f'.cross (g t) + (f t).cross g') t := by
  obtain ⟨a0, a1, a2⟩ := hf
  obtain ⟨b0, b1, b2⟩ := hg
  constructor
  · exact ((a1.mul b2).sub (a2.mul b1)).congr_deriv (by simp; ring)
  · exact ((a2.mul b0).sub (a0.mul b2)).congr_deriv (by simp; ring)
  · exact ((a0.mul b1).sub (a1.mul b0)).congr_deriv (by simp; ring)

theorem HasDerivMotion.congr {f : ℝ → MotionVec ℝ} {a b : MotionVec ℝ} {t : ℝ} (h : HasDerivMotion f a t) (e : a = b) :
    HasDerivMotion f b t := e ▸ h

theorem HasDerivMotion.add {f g : ℝ → MotionVec ℝ} {f' g' : MotionVec ℝ} {t : ℝ} (hf : HasDerivMotion f f' t)
    (hg : HasDerivMotion g g' t) : HasDerivMotion (fun s => f s + g s) (f' + g') t :=
  ⟨hf.ang.add hg.ang, hf.lin.add hg.lin⟩

theorem HasDerivMotion.const (c : MotionVec ℝ) (t : ℝ) : HasDerivMotion (fun _ => c) 0 t :=
  ⟨HasDerivVec.const _ _, HasDerivVec.const _ _⟩

theorem HasDerivMotion.smul_const {c : ℝ → ℝ} {c' t : ℝ} (hc : HasDerivAt c c' t) (v : MotionVec ℝ) :
    HasDerivMotion (fun s => c s • v) (c' • v) t :=
  ⟨HasDerivVec.smul_const hc _, HasDerivVec.smul_const hc _⟩

theorem crossMat_conj {E : Mat3 ℝ} (h : IsRot E) (w : Vec3 ℝ) : E * Mat3.crossMat w = Mat3.crossMat (E *ᵥ w) * E := by
  apply Mat3.ext_mulVec
  intro v
  rw [Mat3.mul_mulVec, Mat3.mul_mulVec, Mat3.crossMat_mulVec, Mat3.crossMat_mulVec, h.mulVec_cross]

theorem HasSpatialVelocity.const (X : PTransform ℝ) (t : ℝ) : HasSpatialVelocity (fun _ => X) 0 t := by
  constructor
  · refine (HasDerivMat.const _ _).congr ?_
    ext <;> simp
  · refine (HasDerivVec.const _ _).congr ?_
    simp

/-- The velocity of a composed moving frame. -/
theorem HasSpatialVelocity.mul {X Y : ℝ → PTransform ℝ} {v w : MotionVec ℝ} {t : ℝ} (hX : HasSpatialVelocity X v t)
    (hY : HasSpatialVelocity Y w t) (rX : IsRigid (X t)) :
    HasSpatialVelocity (fun s => X s * Y s) ((X t).mulMotion w + v) t := by
  constructor
  · refine (hX.rot.mul hY.rot).congr ?_
    have h := crossMat_conj rX w.ang
    have hc : Mat3.crossMat ((X t).E *ᵥ w.ang + v.ang) = Mat3.crossMat ((X t).E *ᵥ w.ang) + Mat3.crossMat v.ang := by
      ext <;> simp <;> ring
    have hn : ∀ A B : Mat3 ℝ, A * -B = -(A * B) := fun A B => by ext <;> simp <;> ring
    have hn' : ∀ A B : Mat3 ℝ, -A * B = -(A * B) := fun A B => by ext <;> simp <;> ring
    simp only [PTransform.mul_E, PTransform.mulMotion, MotionVec.add_ang, hc, hn, hn', Mat3.add_mul']
    rw [← Mat3.mul_assoc' (X t).E, h, Mat3.mul_assoc', Mat3.mul_assoc', neg_add]
    abel
  · refine (hY.trans.add (hY.rot.tr.mulVec hX.trans)).congr ?_
    have h1 : (-(Mat3.crossMat w.ang * (Y t).E)).tr *ᵥ (X t).r = (Y t).E.tr *ᵥ (w.ang.cross (X t).r) := by
      rw [← Mat3.crossMat_mulVec, ← Mat3.mul_mulVec]
      congr 1
      ext <;> simp <;> ring
    rw [h1]
    simp only [PTransform.mul_E, PTransform.mulMotion, MotionVec.add_lin, Mat3.tr_mul, Mat3.mul_mulVec, Mat3.mulVec_add,
      IsRot.tr_mulVec rX, Mat3.mulVec_sub]
    rw [Vec3.cross_anti w.ang, Mat3.mulVec_neg]
    abel

/-- Derivative of a transported motion vector. -/
theorem HasSpatialVelocity.mulMotion {X : ℝ → PTransform ℝ} {v : MotionVec ℝ} {u : ℝ → MotionVec ℝ} {u' : MotionVec ℝ} {t : ℝ}
    (hX : HasSpatialVelocity X v t) (hu : HasDerivMotion u u' t) (rX : IsRigid (X t)) :
    HasDerivMotion (fun s => (X s).mulMotion (u s)) ((X t).mulMotion u' - v.cross ((X t).mulMotion (u t))) t := by
  have hn : ∀ (x : Vec3 ℝ), (-(Mat3.crossMat v.ang * (X t).E)) *ᵥ x = -(v.ang.cross ((X t).E *ᵥ x)) := fun x => by
    rw [Mat3.neg_mulVec, Mat3.mul_mulVec, Mat3.crossMat_mulVec]
  constructor
  · refine (hX.rot.mulVec hu.ang).congr ?_
    simp only [PTransform.mulMotion, MotionVec.sub_ang, MotionVec.cross, hn]
    abel
  · refine (hX.rot.mulVec (hu.lin.sub (hX.trans.cross hu.ang))).congr ?_
    simp only [PTransform.mulMotion, MotionVec.sub_lin, MotionVec.cross, hn, Mat3.mulVec_sub, Mat3.mulVec_add,
      IsRot.mulVec_cross rX, IsRot.mulVec_tr rX]
    abel

section tree
variable {mb : MultiBody ℝ}

theorem MultiBody.poseAt_hasVelocity (hr : mb.Rigid) (hd : mb.DirOK) {q : ℝ → List (List ℝ)} {α : List (List ℝ)} {t : ℝ}
    (h : Trajectory mb q α t) {i : Nat} {j : Joint ℝ} (hj : mb.joints[i]? = some j) :
    HasSpatialVelocity (fun s => mb.poseAt (q s) i) (mb.jointMotion α i) t := by
  have hmem := List.mem_of_getElem? hj
  have hil : i < mb.joints.length := (List.getElem?_eq_some_iff.1 hj).1
  have hij : mb.joints[i] = j := (List.getElem?_eq_some_iff.1 hj).2
  have hl : ∀ s, i < (q s).length := fun s => by have := (h.valid s).length_eq; omega
  have hv : ∀ s, ValidParam j.type (((q s)[i]?).getD []) := fun s => by
    have := hl s
    have : ValidParam (Joint.type mb.joints[i]) (q s)[i] := (h.valid s).get hil this
    rw [hij] at this
    simpa [List.getElem?_eq_getElem (hl s)] using this
  have hla : i < α.length := by rw [h.sized.length]; exact hil
  have hα : ((α[i]?).getD []).length = j.dof := by
    have := h.sized.get (List.getElem?_eq_getElem hla) hj
    simpa [List.getElem?_eq_getElem hla] using this
  have hpose : ∀ s, mb.poseAt (q s) i = (j.pose (((q s)[i]?).getD [])).toOption.getD 1 := fun s => by
    simp [MultiBody.poseAt, hj, List.getElem?_eq_getElem (hl s)]
  have hmot : mb.jointMotion α i = applyCols j.S ((α[i]?).getD []) := by simp [MultiBody.jointMotion, MultiBody.SAt, hj]
  have hrate := h.rate i j hj
  have hdir := hd j hmem
  obtain ⟨ty, a, f, n, ha, hjj⟩ := (hr.joints _ hmem).exists_mk
  have key : ∃ (X : ℝ → PTransform ℝ) (v : MotionVec ℝ), (∀ s, j.pose (((q s)[i]?).getD []) = .ok (X s)) ∧
      j.motion ((α[i]?).getD []) = .ok v ∧ HasSpatialVelocity X v t := by
    rcases hjj with rfl | ⟨mn, m, o, rfl⟩
    · have hf : f = true ∨ ty = .Rev ∨ ty = .Prism ∨ ty = .Cylindrical ∨ ty = .Fixed := by
        rcases hdir with h | h
        · exact .inl (by rw [Joint.isForward_mk'] at h; exact h)
        · exact .inr h
      exact C06_motion_is_derivative ha hf n hα hv hrate
    · have hf : f = true ∨ ty = .Rev ∨ ty = .Prism ∨ ty = .Cylindrical ∨ ty = .Fixed := by
        rcases hdir with h | h
        · refine .inl ?_
          have := Joint.isForward_mk' (K := ℝ) ty a f n
          rw [← this]; exact h
        · exact .inr h
      exact C06_motion_is_derivative ha hf n hα hv hrate
  obtain ⟨X, v, h1, h2, h3⟩ := key
  rw [Joint.motion_eq_applyCols (hr.joints _ hmem).built hα] at h2
  cases h2
  rw [hmot]
  have : (fun s => mb.poseAt (q s) i) = X := by
    funext s; rw [hpose, h1]; rfl
  rw [this]; exact h3

theorem MultiBody.ptsAt_hasVelocity (hr : mb.Rigid) (hd : mb.DirOK) {q : ℝ → List (List ℝ)} {α : List (List ℝ)} {t : ℝ}
    (h : Trajectory mb q α t) {i : Nat} {j : Joint ℝ} (hj : mb.joints[i]? = some j) :
    HasSpatialVelocity (fun s => mb.ptsAt (q s) i) (mb.jointMotion α i) t := by
  have := (mb.poseAt_hasVelocity hr hd h hj).mul (HasSpatialVelocity.const (mb.XtAt i) t) (mb.poseAt_rigid hr (h.valid t) i)
  simpa [MultiBody.ptsAt] using this

theorem MultiBody.posAt_hasVelocity (wf : mb.WF) (hr : mb.Rigid) (hd : mb.DirOK) {q : ℝ → List (List ℝ)}
    {α : List (List ℝ)} {t : ℝ} (h : Trajectory mb q α t) {i : Nat} (hi : i < mb.bodies.length) :
    HasSpatialVelocity (fun s => mb.posAt (q s) i) (mb.velAt (q t) α i) t := by
  induction i using Nat.strong_induction_on with
  | _ i ih =>
    obtain ⟨j, hj, -⟩ := wf.joint_get hi
    have hp := mb.ptsAt_hasVelocity hr hd h hj
    cases hpar : mb.par i with
    | none =>
      rw [wf.velAt_none hr (h.valid t) α hi hpar]
      have : (fun s => mb.posAt (q s) i) = fun s => mb.ptsAt (q s) i := by funext s; exact wf.posAt_none _ hpar
      rw [this]; exact hp
    | some k =>
      have hk := wf.par_lt _ _ hpar
      rw [wf.velAt_some hr (h.valid t) α hi hpar]
      have : (fun s => mb.posAt (q s) i) = fun s => mb.ptsAt (q s) i * mb.posAt (q s) k := by
        funext s; exact wf.posAt_some _ hpar
      rw [this]
      exact hp.mul (ih k hk (by omega)) (mb.ptsAt_rigid hr (h.valid t) i)

theorem hasDeriv_applyCols (S : List (MotionVec ℝ)) {a : ℝ → List ℝ} {a' : List ℝ} {t : ℝ} (h : HasDerivList a a' t) :
    HasDerivMotion (fun s => applyCols S (a s)) (applyCols S a') t := by
  induction S generalizing a a' with
  | nil =>
    have : ∀ l : List ℝ, applyCols ([] : List (MotionVec ℝ)) l = 0 := fun l => by simp [applyCols]
    simp only [this]; exact HasDerivMotion.const 0 t
  | cons c S ih =>
    obtain ⟨hl, hd⟩ := h
    cases a' with
    | nil =>
      have e : ∀ s, a s = [] := fun s => List.length_eq_zero_iff.1 (by rw [hl s]; rfl)
      have : ∀ s, applyCols (c :: S) (a s) = 0 := fun s => by rw [e s]; rfl
      simp only [this]; exact HasDerivMotion.const 0 t
    | cons x a' =>
      have e : ∀ s, a s = (a s).getD 0 0 :: (a s).tail := fun s => by
        have := hl s
        cases h : a s with
        | nil => rw [h] at this; simp at this
        | cons y l => rfl
      have e2 : ∀ s, applyCols (c :: S) (a s) = (a s).getD 0 0 • c + applyCols S (a s).tail := fun s => by
        conv_lhs => rw [e s]
        simp [applyCols]
      simp only [e2]
      have := (HasDerivMotion.smul_const (hd 0) c).add (ih (a := fun s => (a s).tail) (a' := a') ⟨fun s => by
        have := hl s; simp at this ⊢; omega, fun i => by
        have := hd (i + 1)
        have e3 : ∀ s, (a s).tail.getD i 0 = (a s).getD (i + 1) 0 := fun s => by
          conv_rhs => rw [e s]
          simp
        simp only [e3]
        simpa using this⟩)
      exact this.congr (by simp [applyCols])

theorem MultiBody.jointMotion_hasDeriv {α : ℝ → List (List ℝ)} {αD : List (List ℝ)} {t : ℝ} (h : HasDerivDof mb α αD t)
    {i : Nat} (hi : i < mb.bodies.length) :
    HasDerivMotion (fun s => mb.jointMotion (α s) i) (mb.jointMotion αD i) t := hasDeriv_applyCols _ (h i hi)

theorem MultiBody.velAt_hasDeriv (wf : mb.WF) (hr : mb.Rigid) (hd : mb.DirOK) {q : ℝ → List (List ℝ)}
    {α : ℝ → List (List ℝ)} {αD : List (List ℝ)} {t : ℝ} (h : Trajectory mb q (α t) t) (ha : HasDerivDof mb α αD t)
    {i : Nat} (hi : i < mb.bodies.length) :
    HasDerivMotion (fun s => mb.velAt (q s) (α s) i) (mb.accAt (q t) (α t) αD 0 i) t := by
  induction i using Nat.strong_induction_on with
  | _ i ih =>
    obtain ⟨j, hj, -⟩ := wf.joint_get hi
    have hp := mb.ptsAt_hasVelocity hr hd h hj
    have hm := mb.jointMotion_hasDeriv ha hi
    cases hpar : mb.par i with
    | none =>
      have e : (fun s => mb.velAt (q s) (α s) i) = fun s => mb.jointMotion (α s) i := by
        funext s; exact wf.velAt_none hr (h.valid s) _ hi hpar
      rw [wf.accAt_none hr (h.valid t) _ _ _ hi hpar, wf.velAt_none hr (h.valid t) _ hi hpar, e]
      exact hm.congr (by simp)
    | some k =>
      have hk := wf.par_lt _ _ hpar
      have e : (fun s => mb.velAt (q s) (α s) i) =
          fun s => (mb.ptsAt (q s) i).mulMotion (mb.velAt (q s) (α s) k) + mb.jointMotion (α s) i := by
        funext s; exact wf.velAt_some hr (h.valid s) _ hi hpar
      rw [wf.accAt_some hr (h.valid t) _ _ _ hi hpar, wf.velAt_some hr (h.valid t) _ hi hpar, e]
      refine ((hp.mulMotion (ih k hk (by omega)) (mb.ptsAt_rigid hr (h.valid t) i)).add hm).congr ?_
      rw [MotionVec.add_cross, MotionVec.cross_self, MotionVec.cross_anti (mb.jointMotion (α t) i)]
      abel

end tree

end RBDyn
