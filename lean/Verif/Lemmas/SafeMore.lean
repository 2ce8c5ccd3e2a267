import Verif.Lemmas.Safe
import Verif.Lemmas.CoMJac
import Verif.Lemmas.Momentum
import Verif.Lemmas.IDIM
import Verif.Lemmas.JacFull

/-! No access out of bounds in the functions of `CoM.cpp`, `Momentum.cpp`, `IDIM.cpp` and `IS.cpp` if the sizes fit, whatever the values are. -/

namespace RBDyn
open Res
variable {K : Type} [Scalar K] {mb : MultiBody K}

theorem Res.Safe.list {α σ : Type} {f : σ → α → Res σ} (P : σ → Prop) : ∀ (l : List α) (s : σ), P s →
    (∀ a ∈ l, ∀ s, P s → Safe (f s a) P) → Safe (l.foldlM f s) P
  | [], _, h, _ => Safe.pure h
  | a :: l, s, h, hf => by
    rw [List.foldlM_cons]
    exact (hf a (by simp) s h).bind fun s' h' => Safe.list P l s' h' fun b hb => hf b (by simp [hb])

/-! ### Centre of mass -/

/-- A loop over the bodies that adds up something and the masses. -/
theorem massLoop {f : Vec3 K × K → Nat → Res (Vec3 K × K)}
    (hf : ∀ (i : Nat) (s : Vec3 K × K), i < mb.bodies.length → ∃ v, f s i = .ok (v, s.2 + (mb.inertiaAt i).m)) :
    Safe ((List.range mb.nrBodies).foldlM f (0, 0)) fun s => s.2 = mb.totalMass := by
  refine (foldlM_range_inv f (fun n s => s.2 = ∑ k ∈ Finset.range n, (mb.inertiaAt k).m) mb.nrBodies (0, 0) (by simp) ?_)
  intro i s hi hs
  obtain ⟨v, e⟩ := hf i s hi
  exact ⟨_, e, by rw [Finset.sum_range_succ, ← hs]⟩

theorem massEnd {m : Res (Vec3 K × K)} (hM : 0 < mb.totalMass) (h : Safe m fun s => s.2 = mb.totalMass) :
    ∃ r, (m >>= fun s => if 0 < s.2 then (Pure.pure ((1 / s.2) • s.1) : Res (Vec3 K)) else .error .ub) = .ok r := by
  obtain ⟨s, rfl, hs⟩ := h
  refine ⟨(1 / s.2) • s.1, ?_⟩
  rw [Res.bind_ok, if_pos (by rw [hs]; exact hM)]
  rfl

theorem computeCoM_safe (hM : 0 < mb.totalMass) {mbc : MBC K} (hW : mbc.bodyPosW.length = mb.bodies.length) :
    ∃ r, computeCoM mb mbc = .ok r := by
  unfold computeCoM
  refine massEnd hM (massLoop fun i s hi => ?_)
  obtain ⟨b, e, hI, -, -⟩ := mb.rd_bodies hi
  obtain ⟨W, eW, -⟩ := safe_len hW hi
  exact ⟨_, by rw [e, Res.bind_ok, eW, Res.bind_ok, hI]; rfl⟩

theorem computeCoMVelocity_safe (hM : 0 < mb.totalMass) {mbc : MBC K} (hW : mbc.bodyPosW.length = mb.bodies.length)
    (hV : mbc.bodyVelB.length = mb.bodies.length) : ∃ r, computeCoMVelocity mb mbc = .ok r := by
  unfold computeCoMVelocity
  refine massEnd hM (massLoop fun i s hi => ?_)
  obtain ⟨b, e, hI, -, -⟩ := mb.rd_bodies hi
  obtain ⟨W, eW, -⟩ := safe_len hW hi
  obtain ⟨V, eV, -⟩ := safe_len hV hi
  exact ⟨_, by rw [e, Res.bind_ok, eW, Res.bind_ok, eV, Res.bind_ok, hI]; rfl⟩

theorem computeCoMAcceleration_safe (hM : 0 < mb.totalMass) {mbc : MBC K} (hW : mbc.bodyPosW.length = mb.bodies.length)
    (hVW : mbc.bodyVelW.length = mb.bodies.length) (hV : mbc.bodyVelB.length = mb.bodies.length)
    (hA : mbc.bodyAccB.length = mb.bodies.length) : ∃ r, computeCoMAcceleration mb mbc = .ok r := by
  unfold computeCoMAcceleration
  refine massEnd hM (massLoop fun i s hi => ?_)
  obtain ⟨b, e, hI, -, -⟩ := mb.rd_bodies hi
  obtain ⟨W, eW, -⟩ := safe_len hW hi
  obtain ⟨V, eV, -⟩ := safe_len hV hi
  obtain ⟨VW, eVW, -⟩ := safe_len hVW hi
  obtain ⟨A, eA, -⟩ := safe_len hA hi
  exact ⟨_, by rw [e, Res.bind_ok, eW, Res.bind_ok, eVW, Res.bind_ok, eA, Res.bind_ok, eV, Res.bind_ok, hI]; rfl⟩

/-! ### Jacobians of bodies -/

theorem Jac.Of.withJac {J : Jac K} {N : Nat} {p : Vec3 K} (h : J.Of mb N p) {c : List (MotionVec K)}
    (hc : c.length = (J.path.map mb.dofAt).sum) : Jac.Of mb { J with jac := c } N p :=
  ⟨⟨h.path, h.sign, hc, h.jacDot⟩, h.isBody, h.path_eq, h.sign_eq, h.point, h.body, h.ref⟩

theorem Jac.Of.withJacDot {J : Jac K} {N : Nat} {p : Vec3 K} (h : J.Of mb N p) {c : List (MotionVec K)}
    (hc : c.length = (J.path.map mb.dofAt).sum) : Jac.Of mb { J with jacDot := c } N p :=
  ⟨⟨h.path, h.sign, h.jac, hc⟩, h.isBody, h.path_eq, h.sign_eq, h.point, h.body, h.ref⟩

section jac
variable (wf : mb.WF) {mbc : MBC K} (hW : mbc.bodyPosW.length = mb.bodies.length) (hS : Rows mb mbc.motionSubspace)
  {J : Jac K} {N : Nat} {p : Vec3 K} (hJ : J.Of mb N p)
include wf hW hS hJ

theorem Jac.Of.jacobian_safe : Safe (J.jacobian mb mbc) fun J' => J'.Of mb N p ∧ J'.path = J.path := by
  unfold Jac.jacobian
  refine (back_safe hJ.toFits hJ.path_ne).bind fun N hN => ?_
  refine (safe_len hW hN).bind fun W _ => ?_
  refine (jacobianFill_safe wf hW hS hJ.toFits _).bind fun c hc => ?_
  unfold Jac.toRef
  rw [if_neg (by rw [hJ.ref]; simp)]
  exact Safe.pure ⟨hJ.withJac hc, rfl⟩

theorem Jac.Of.bodyJacobian_safe : Safe (J.bodyJacobian mb mbc) fun J' => J'.Of mb N p ∧ J'.path = J.path := by
  unfold Jac.bodyJacobian
  refine (back_safe hJ.toFits hJ.path_ne).bind fun N hN => ?_
  refine (safe_len hW hN).bind fun W _ => ?_
  exact (jacobianFill_safe wf hW hS hJ.toFits _).bind fun c hc => Safe.pure ⟨hJ.withJac hc, rfl⟩

variable (hV : mbc.bodyVelB.length = mb.bodies.length)
include hV

theorem Jac.Of.bodyJacobianDot_safe : Safe (J.bodyJacobianDot mb mbc) fun J' => J'.Of mb N p ∧ J'.path = J.path := by
  unfold Jac.bodyJacobianDot
  refine (back_safe hJ.toFits hJ.path_ne).bind fun N hN => ?_
  refine (safe_len hW hN).bind fun W _ => ?_
  refine (safe_len hV hN).bind fun V _ => ?_
  refine (safe_fillCols wf hJ.path hJ.jacDot fun x i hx => ?_).bind fun r hr => Safe.pure ⟨hJ.withJacDot hr, rfl⟩
  have hi : i < mb.bodies.length := hJ.path i (List.mem_of_getElem? hx)
  refine (safe_len hW hi).bind fun W _ => ?_
  refine (safe_len hV hi).bind fun V _ => Safe.pure fun a ha old => ?_
  exact (hS.rd wf hi).bind fun _ hSl => (safe_len hSl ha).bind fun _ _ => Safe.pure trivial

variable (hVW : mbc.bodyVelW.length = mb.bodies.length)
include hVW

theorem Jac.Of.jacobianDot_safe : Safe (J.jacobianDot mb mbc) fun J' => J'.Of mb N p ∧ J'.path = J.path := by
  unfold Jac.jacobianDot
  refine (back_safe hJ.toFits hJ.path_ne).bind fun N hN => ?_
  refine (safe_len hW hN).bind fun W _ => ?_
  refine (safe_len hV hN).bind fun V _ => ?_
  refine (safe_len hVW hN).bind fun VW _ => ?_
  refine (safe_fillCols wf hJ.path hJ.jacDot fun x i hx => ?_).bind fun r hr => Safe.pure ⟨hJ.withJacDot hr, rfl⟩
  have hi : i < mb.bodies.length := hJ.path i (List.mem_of_getElem? hx)
  refine (safe_len hW hi).bind fun W _ => ?_
  refine (safe_len hV hi).bind fun V _ => Safe.pure fun a ha old => ?_
  exact (hS.rd wf hi).bind fun _ hSl => (safe_len hSl ha).bind fun _ _ => Safe.pure trivial

end jac

/-! ### `CoMJacobianDummy` -/

theorem safe_addScaled {a b : DMat K} {R C : Nat} (h1 : a.rows = R ∧ a.cols = C) (h2 : b.rows = R ∧ b.cols = C) (s : K) :
    Safe (a.addScaled b s) fun m => m.rows = R ∧ m.cols = C := by
  unfold DMat.addScaled
  rw [if_pos ⟨by rw [h1.1, h2.1], by rw [h1.2, h2.2]⟩]
  exact Safe.ok h1

theorem safe_fullJacobian (wf : mb.WF) {J : Jac K} (hJ : J.Fits mb) {jac res : DMat K} {R : Nat} (h1 : jac.rows = R)
    (h2 : jac.cols = (J.path.map mb.dofAt).sum) (h3 : res.rows = R ∧ res.cols = mb.nrDof) :
    Safe (J.fullJacobian mb jac res) fun m => m.rows = R ∧ m.cols = mb.nrDof := by
  obtain ⟨m, e, r, c, -⟩ := J.fullJacobian_eq wf hJ.path (jac := jac) (res := res) h3.2.ge (by omega) h2.ge
  exact ⟨m, e, r.trans h3.1, c.trans h3.2⟩

theorem CoMDummy.For.replace {w : List K} {c : CoMDummy K} (h : c.For mb w) {i : Nat} (hi : i < mb.bodies.length) {J : Jac K}
    (hJ : J.Of mb i (mb.corComAt i)) {m m' m'' : DMat K} (hm : m.rows = 3 ∧ m.cols = mb.nrDof) (hm' : m'.rows = 3 ∧ m'.cols = mb.nrDof)
    (hm'' : m''.rows = 3 ∧ m''.cols = mb.nrDof) :
    CoMDummy.For mb w { c with
      jac := m
      jacDot := m'
      jacFull := m''
      jacVec := c.jacVec.set i J } := by
  obtain ⟨h, hw⟩ := h
  refine ⟨⟨hm, hm', hm'', by simp [h.jacs], fun k J' hJ' => ?_, h.mass, h.weight⟩, hw⟩
  dsimp only at hJ'
  rcases eq_or_ne i k with rfl | hne
  · rw [List.getElem?_set_self (by rw [h.jacs]; exact hi), Option.some.injEq] at hJ'
    subst hJ'
    exact hJ
  · rw [List.getElem?_set_ne hne] at hJ'
    exact h.jacOf k J' hJ'

section dummy
variable (wf : mb.WF) {mbc : MBC K} (hW : mbc.bodyPosW.length = mb.bodies.length) (hS : Rows mb mbc.motionSubspace)
  {w : List K}
include wf hW hS

theorem CoMDummy.jacStep_safe {c : CoMDummy K} (h : c.For mb w) {i : Nat} (hi : i < mb.bodies.length) :
    Safe (CoMDummy.jacStep mb mbc c i) (CoMDummy.For mb w) := by
  unfold CoMDummy.jacStep
  refine (Safe.rd (by rw [h.1.jacs]; exact hi)).bind fun J₀ h0 => ?_
  refine ((h.1.jacOf i J₀ h0).jacobian_safe wf hW hS).bind fun J hJ => ?_
  refine (safe_block (R := 6) rfl rfl (by omega) (by show 0 + J.jac.length ≤ J.jac.length; omega)).bind fun b hb => ?_
  refine (safe_fullJacobian wf hJ.1.toFits hb.1 (hb.2.trans hJ.1.jac) h.1.jacFull).bind fun full hfull => ?_
  refine (safe_body hi).bind fun b _ => ?_
  refine (safe_len (by rw [h.1.weight]; exact h.2) hi).bind fun x _ => ?_
  refine (safe_addScaled h.1.jac hfull _).bind fun jac hjac => ?_
  refine (Safe.wr (by rw [h.1.jacs]; exact hi) J).bind fun l hl => Safe.pure ?_
  subst hl
  exact h.replace hi hJ.1 hjac h.1.jacDot hfull

theorem CoMDummy.jacDotStep_safe (hV : mbc.bodyVelB.length = mb.bodies.length) (hVW : mbc.bodyVelW.length = mb.bodies.length)
    {c : CoMDummy K} (h : c.For mb w) {i : Nat} (hi : i < mb.bodies.length) :
    Safe (CoMDummy.jacDotStep mb mbc c i) (CoMDummy.For mb w) := by
  unfold CoMDummy.jacDotStep
  refine (Safe.rd (by rw [h.1.jacs]; exact hi)).bind fun J₀ h0 => ?_
  refine ((h.1.jacOf i J₀ h0).jacobianDot_safe wf hW hS hV hVW).bind fun J hJ => ?_
  refine (safe_block (R := 6) rfl rfl (by omega) (by show 0 + J.jacDot.length ≤ J.jacDot.length; omega)).bind fun b hb => ?_
  refine (safe_fullJacobian wf hJ.1.toFits hb.1 (hb.2.trans hJ.1.jacDot) h.1.jacFull).bind fun full hfull => ?_
  refine (safe_body hi).bind fun b _ => ?_
  refine (safe_len (by rw [h.1.weight]; exact h.2) hi).bind fun x _ => ?_
  refine (safe_addScaled h.1.jacDot hfull _).bind fun jac hjac => ?_
  refine (Safe.wr (by rw [h.1.jacs]; exact hi) J).bind fun l hl => Safe.pure ?_
  subst hl
  exact h.replace hi hJ.1 h.1.jac hjac hfull

theorem CoMDummy.jacobian_safe (hM : 0 < mb.totalMass) {c : CoMDummy K} (h : c.For mb w) :
    Safe (c.jacobian mb mbc) (CoMDummy.For mb w) := by
  unfold CoMDummy.jacobian
  have h' : CoMDummy.For mb w { c with jac := c.jac.setZero } := ⟨{ h.1 with jac := h.1.jac }, h.2⟩
  refine (Safe.range (CoMDummy.For mb w) h' fun i s hi hs => CoMDummy.jacStep_safe wf hW hS hs hi).bind fun s hs => ?_
  rw [if_pos (by rw [hs.1.mass]; exact hM)]
  exact Safe.pure ⟨{ hs.1 with jac := hs.1.jac }, hs.2⟩

theorem CoMDummy.jacobianDot_safe (hV : mbc.bodyVelB.length = mb.bodies.length) (hVW : mbc.bodyVelW.length = mb.bodies.length)
    (hM : 0 < mb.totalMass) {c : CoMDummy K} (h : c.For mb w) : Safe (c.jacobianDot mb mbc) (CoMDummy.For mb w) := by
  unfold CoMDummy.jacobianDot
  have h' : CoMDummy.For mb w { c with jacDot := c.jacDot.setZero } := ⟨{ h.1 with jacDot := h.1.jacDot }, h.2⟩
  refine (Safe.range (CoMDummy.For mb w) h' fun i s hi hs => CoMDummy.jacDotStep_safe wf hW hS hV hVW hs hi).bind fun s hs => ?_
  rw [if_pos (by rw [hs.1.mass]; exact hM)]
  exact Safe.pure ⟨{ hs.1 with jacDot := hs.1.jacDot }, hs.2⟩

end dummy

/-! ### `CoMJacobian` -/

theorem CoMJac.For.coeff_length {w : List K} {c : CoMJac K} (h : c.For mb w) : c.coeff.length = mb.bodies.length := by rw [h.coeff]; simp
theorem CoMJac.For.com_length {w : List K} {c : CoMJac K} (h : c.For mb w) : c.com.length = mb.bodies.length := by rw [h.com]; simp

theorem CoMJac.update_safe {c : CoMJac K} (h1 : c.coeff.length = mb.bodies.length) (h2 : c.com.length = mb.bodies.length)
    (h3 : c.weight.length = mb.bodies.length) : ∃ r, c.update mb = .ok r := ⟨_, CoMJac.update_eq h3 h1 h2 rfl⟩

/-- The loop over the joints of `jacobian` and `jacobianDot`. -/
theorem comJoints_safe (wf : mb.WF) {F : List (Vec3 K) × Nat → Nat → Res (List (Vec3 K) × Nat)}
    (hF : ∀ (i : Nat) (s : List (Vec3 K)) (cur : Nat), i < mb.bodies.length → s.length = mb.nrDof → cur = mb.dofPosAt i →
      Safe (F (s, cur) i) fun s' => s'.1.length = mb.nrDof ∧ s'.2 = mb.dofPosAt i + mb.dofAt i)
    {cols : List (Vec3 K)} (hc : cols.length = mb.nrDof) :
    Safe ((List.range mb.nrJoints).foldlM F (cols, 0)) fun s => s.1.length = mb.nrDof := by
  have hn : mb.nrJoints = mb.bodies.length := wf.njoints
  rw [hn]
  refine (foldlM_range_inv F (fun k s => s.1.length = mb.nrDof ∧ s.2 = mb.dofPosAt k) mb.bodies.length (cols, 0)
    ⟨hc, by simp [MultiBody.dofPosAt]⟩ ?_).elim fun r hr => ⟨r, hr.1, hr.2.1⟩
  rintro k ⟨s, cur⟩ hk ⟨h1, h2⟩
  obtain ⟨s', e, l, p⟩ := hF k s cur hk h1 h2
  exact ⟨s', e, l, p.trans (mb.dofPosAt_succ (by rw [wf.njoints]; exact hk)).symm⟩

section comjac
variable (wf : mb.WF) {mbc : MBC K} (hW : mbc.bodyPosW.length = mb.bodies.length) (hS : Rows mb mbc.motionSubspace)
  {w : List K} {c : CoMJac K} (h : c.For mb w)
include wf hW hS h

theorem CoMJac.jacobian_safe : Safe (c.jacobian mb mbc) fun _ => True := by
  unfold CoMJac.jacobian
  refine (Safe.range (fun s : CoMJac K => s.For mb w) h fun i s hi hs => ?_).bind fun c hc => ?_
  · unfold CoMJac.worldStep
    refine (safe_len hs.com_length hi).bind fun X _ => (safe_len hW hi).bind fun W _ => ?_
    exact (safe_wr hs.comWorld hi _).bind fun l hl => Safe.pure { hs with comWorld := hl }
  · refine (comJoints_safe wf (fun i s cur hi hs hcur => ?_) (by simp [hc.jac])).bind fun _ _ => Safe.pure trivial
    subst hcur
    unfold CoMJac.jacStep
    obtain ⟨l, hl, hp⟩ := hc.sub i hi
    refine (safe_len hW hi).bind fun W _ => (safe_joint wf hi).bind fun j hj => ?_
    refine Safe.bind (P := fun l' => l' = l) ⟨l, rd_of_getElem? hl, rfl⟩ fun l' e => ?_
    subst e
    refine (Safe.list (fun s : List (Vec3 K) => s.length = mb.nrDof) _ _ hs fun b hb s hs => ?_).bind fun s hs => Safe.pure ⟨hs, by rw [hj]⟩
    have hb := sub_mem hp hb
    refine (safe_len hc.comWorld hb).bind fun X _ => ?_
    refine safe_writeCols hs (by rw [hj]; exact wf.dofPosAt_add_le hi) fun a ha old => ?_
    rw [hj] at ha
    exact (safe_len hc.coeff_length hb).bind fun _ _ => (hS.rd wf hi).bind fun _ hSl => (safe_len hSl ha).bind fun _ _ => Safe.pure trivial

theorem CoMJac.jacobianDot_safe (hV : mbc.bodyVelB.length = mb.bodies.length) (hVW : mbc.bodyVelW.length = mb.bodies.length) :
    Safe (c.jacobianDot mb mbc) fun _ => True := by
  unfold CoMJac.jacobianDot
  refine (Safe.range (fun s : CoMJac K => s.For mb w) h fun i s hi hs => ?_).bind fun c hc => ?_
  · unfold CoMJac.worldVelStep
    refine (safe_len hs.com_length hi).bind fun X _ => (safe_len hW hi).bind fun W _ => ?_
    refine (safe_wr hs.comWorld hi _).bind fun l hl => (safe_len hV hi).bind fun V _ => ?_
    exact (safe_wr hs.comVelB hi _).bind fun l' hl' => Safe.pure { hs with comWorld := hl, comVelB := hl' }
  · refine (comJoints_safe wf (fun i s cur hi hs hcur => ?_) (by simp [hc.jacDot])).bind fun _ _ => Safe.pure trivial
    subst hcur
    unfold CoMJac.jacDotStep
    obtain ⟨l, hl, hp⟩ := hc.sub i hi
    refine (safe_len hW hi).bind fun W _ => (safe_joint wf hi).bind fun j hj => ?_
    refine Safe.bind (P := fun l' => l' = l) ⟨l, rd_of_getElem? hl, rfl⟩ fun l' e => ?_
    subst e
    refine (Safe.list (fun s : List (Vec3 K) => s.length = mb.nrDof) _ _ hs fun b hb s hs => ?_).bind fun s hs => Safe.pure ⟨hs, by rw [hj]⟩
    have hb := sub_mem hp hb
    refine (safe_len hc.comWorld hb).bind fun X _ => (safe_len hW hb).bind fun _ _ => (safe_len hVW hb).bind fun _ _ =>
      (safe_len hV hi).bind fun _ _ => (safe_len hc.comVelB hb).bind fun _ _ => ?_
    refine safe_writeCols hs (by rw [hj]; exact wf.dofPosAt_add_le hi) fun a ha old => ?_
    rw [hj] at ha
    exact (hS.rd wf hi).bind fun _ hSl => (safe_len hSl ha).bind fun _ _ => (safe_len hc.coeff_length hb).bind fun _ _ => Safe.pure trivial

end comjac

theorem CoMJac.velocity_safe {mbc : MBC K} (hW : mbc.bodyPosW.length = mb.bodies.length) (hV : mbc.bodyVelB.length = mb.bodies.length)
    {w : List K} {c : CoMJac K} (h : c.For mb w) : Safe (c.velocity mb mbc) fun _ => True :=
  Safe.range (fun _ => True) trivial fun _ _ hi _ => (safe_len hW hi).bind fun _ _ => (safe_len h.com_length hi).bind fun _ _ =>
    (safe_len h.coeff_length hi).bind fun _ _ => (safe_len hV hi).bind fun _ _ => Safe.pure trivial

theorem CoMJac.normalAccelerationOf_safe {mbc : MBC K} (hW : mbc.bodyPosW.length = mb.bodies.length)
    (hV : mbc.bodyVelB.length = mb.bodies.length) (hVW : mbc.bodyVelW.length = mb.bodies.length) {acc : List (MotionVec K)}
    (hA : acc.length = mb.bodies.length) {w : List K} {c : CoMJac K} (h : c.For mb w) :
    Safe (c.normalAccelerationOf mb mbc acc) fun _ => True :=
  Safe.range (fun _ => True) trivial fun _ _ hi _ => (safe_len hW hi).bind fun _ _ => (safe_len h.com_length hi).bind fun _ _ =>
    (safe_len hVW hi).bind fun _ _ => (safe_len h.coeff_length hi).bind fun _ _ => (safe_len hA hi).bind fun _ _ =>
    (safe_len hV hi).bind fun _ _ => Safe.pure trivial

theorem normalAccStep_safe (wf : mb.WF) {mbc : MBC K} (hX : mbc.parentToSon.length = mb.bodies.length)
    (hvj : mbc.jointVelocity.length = mb.bodies.length) (hV : mbc.bodyVelB.length = mb.bodies.length) {acc : List (MotionVec K)}
    (hA : acc.length = mb.bodies.length) {i : Nat} (hi : i < mb.bodies.length) :
    Safe (normalAccStep mb mbc acc i) fun acc' => acc'.length = mb.bodies.length := by
  unfold normalAccStep
  refine (safe_len hX hi).bind fun X _ => (safe_len hvj hi).bind fun _ _ => (safe_len hV hi).bind fun _ _ => ?_
  refine (safe_pred wf hi).bind fun p hp => ?_
  rw [wf.rd_succ hi, Res.bind_ok]
  rcases hp with rfl | ⟨k, rfl, hk⟩
  · rw [if_neg (by simp), wrI_ofNat]
    exact safe_wr hA hi _
  · rw [if_pos (by omega), rdI_ofNat]
    refine (safe_len hA (by omega : k < mb.bodies.length)).bind fun _ _ => ?_
    rw [wrI_ofNat]
    exact safe_wr hA hi _

theorem CoMJac.normalAcceleration_safe (wf : mb.WF) {mbc : MBC K} (hW : mbc.bodyPosW.length = mb.bodies.length)
    (hV : mbc.bodyVelB.length = mb.bodies.length) (hVW : mbc.bodyVelW.length = mb.bodies.length)
    (hX : mbc.parentToSon.length = mb.bodies.length) (hvj : mbc.jointVelocity.length = mb.bodies.length) {w : List K} {c : CoMJac K}
    (h : c.For mb w) : Safe (c.normalAcceleration mb mbc) fun _ => True := by
  unfold CoMJac.normalAcceleration
  have hn : mb.nrJoints = mb.bodies.length := wf.njoints
  rw [hn]
  refine (Safe.range (fun s : List (MotionVec K) => s.length = mb.bodies.length) h.normalAcc fun i s hi hs =>
    normalAccStep_safe wf hX hvj hV hs hi).bind fun acc hA => ?_
  dsimp only
  exact (CoMJac.normalAccelerationOf_safe hW hV hVW hA (c := { c with normalAcc := acc }) { h with normalAcc := hA }).bind
    fun _ _ => Safe.pure trivial

/-! ### Momentum -/

theorem momentum_safe {mbc : MBC K} (hW : mbc.bodyPosW.length = mb.bodies.length) (hV : mbc.bodyVelB.length = mb.bodies.length) (com : Vec3 K) :
    Safe (computeCentroidalMomentum mb mbc com) fun _ => True :=
  Safe.range (fun _ => True) trivial fun _ _ hi _ => (safe_body hi).bind fun _ _ => (safe_len hV hi).bind fun _ _ =>
    (safe_len hW hi).bind fun _ _ => Safe.pure trivial

theorem momentumDot_safe {mbc : MBC K} (hW : mbc.bodyPosW.length = mb.bodies.length) (hV : mbc.bodyVelB.length = mb.bodies.length)
    (hA : mbc.bodyAccB.length = mb.bodies.length) (com comDot : Vec3 K) :
    Safe (computeCentroidalMomentumDot mb mbc com comDot) fun _ => True :=
  Safe.range (fun _ => True) trivial fun _ _ hi _ => (safe_body hi).bind fun _ _ => (safe_len hW hi).bind fun _ _ =>
    (safe_len hV hi).bind fun _ _ => (safe_len hA hi).bind fun _ _ => Safe.pure trivial

theorem CMM.For.weight_length {w : List K} {c : CMM K} (h : c.For mb w) : c.weight.length = mb.bodies.length := by
  rw [h.init.weight, h.weights]

theorem safe_addFullBlocks (wf : mb.WF) {J : Jac K} {N : Nat} {p : Vec3 K} (hJ : J.Of mb N p) {P : List Blk} (hP : J.compactPath mb = .ok P)
    {jac res : DMat K} (h1 : jac.rows = 6) (h2 : jac.cols = (J.path.map mb.dofAt).sum) (h3 : res.rows = 6 ∧ res.cols = mb.nrDof) :
    Safe (addFullBlocks P jac res) fun m => m.rows = 6 ∧ m.cols = mb.nrDof := by
  obtain ⟨bs, e, hb, -⟩ := J.blocks_eq wf hJ.path hJ.path_ne
  rw [hP, Except.ok.injEq] at e
  subst e
  rw [hb jac res h3.2.ge (by omega) h2.ge, J.addFullJacobian_eq wf hJ.path h3.2.ge (by omega) h2.ge]
  exact Safe.ok h3

theorem compactPath_congr {J J' : Jac K} (h : J'.path = J.path) : J'.compactPath mb = J.compactPath mb := by
  unfold Jac.compactPath
  rw [h]

theorem safe_cmmDotCols (x : K) (X : PTransform K) (I : RBInertia K) (V Vcom : MotionVec K) {a b : List (MotionVec K)} {n : Nat} (ha : a.length = n)
    (hb : b.length = n) : Safe (cmmDotCols x X I V Vcom a b) fun l => l.length = n := by
  unfold cmmDotCols
  rw [if_pos (by omega)]
  exact Safe.ok (by simp [ha, hb])

section cmm
variable (wf : mb.WF) {mbc : MBC K} (hW : mbc.bodyPosW.length = mb.bodies.length) (hS : Rows mb mbc.motionSubspace)
  {w : List K}
include wf hW hS

theorem CMM.matStep_safe (com : Vec3 K) {c : CMM K} (h : c.For mb w) {i : Nat} (hi : i < mb.bodies.length) :
    Safe (CMM.matStep mb mbc com c i) (CMM.For mb w) := by
  unfold CMM.matStep
  refine (Safe.rd (by rw [h.init.jacs]; exact hi)).bind fun J₀ h0 => ?_
  refine ((h.init.jac i J₀ h0).bodyJacobian_safe wf hW hS).bind fun J hJ => ?_
  refine (safe_len hW hi).bind fun W _ => (safe_len h.weight_length hi).bind fun x _ => (safe_body hi).bind fun b _ => ?_
  dsimp only
  refine (Safe.rd (by rw [h.init.blks]; exact hi)).bind fun P hP => ?_
  have hP' : J.compactPath mb = .ok P := (compactPath_congr hJ.2).trans (h.init.path i J₀ P h0 hP)
  refine (safe_addFullBlocks wf hJ.1 hP' rfl (by simp [DMat.ofForceCols, hJ.1.jac]) h.init.mat).bind fun m hm => ?_
  refine (Safe.wr (by rw [h.init.jacs]; exact hi) J).bind fun l hl => ?_
  refine (Safe.wr (by rw [h.init.works]; exact hi) _).bind fun l' hl' => Safe.pure ?_
  subst hl hl'
  exact h.replace hi h0 hJ.1 hJ.2 _ hm h.init.matDot

theorem CMM.computeMatrix_safe (com : Vec3 K) {c : CMM K} (h : c.For mb w) : Safe (c.computeMatrix mb mbc com) (CMM.For mb w) := by
  unfold CMM.computeMatrix
  have h' : CMM.For mb w { c with cmMat := c.cmMat.setZero } := ⟨{ h.init with mat := h.init.mat }, h.weights⟩
  exact Safe.range (CMM.For mb w) h' fun i s hi hs => CMM.matStep_safe wf hW hS com hs hi

variable (hV : mbc.bodyVelB.length = mb.bodies.length)
include hV

theorem CMM.matDotStep_safe (com comDot : Vec3 K) {c : CMM K} (h : c.For mb w) {i : Nat} (hi : i < mb.bodies.length) :
    Safe (CMM.matDotStep mb mbc com comDot c i) (CMM.For mb w) := by
  unfold CMM.matDotStep
  refine (Safe.rd (by rw [h.init.jacs]; exact hi)).bind fun J₀ h0 => ?_
  refine ((h.init.jac i J₀ h0).bodyJacobian_safe wf hW hS).bind fun J₁ hJ₁ => ?_
  refine (hJ₁.1.bodyJacobianDot_safe wf hW hS hV).bind fun J hJ => ?_
  have hJp : J.path = J₀.path := hJ.2.trans hJ₁.2
  refine (safe_len hW hi).bind fun W _ => (safe_len h.weight_length hi).bind fun x _ => (safe_body hi).bind fun b _ => ?_
  refine (safe_len hV hi).bind fun V _ => ?_
  refine (safe_cmmDotCols _ _ _ _ _ hJ.1.jac hJ.1.jacDot).bind fun work hwork => ?_
  refine (Safe.rd (by rw [h.init.blks]; exact hi)).bind fun P hP => ?_
  have hP' : J.compactPath mb = .ok P := (compactPath_congr hJp).trans (h.init.path i J₀ P h0 hP)
  refine (safe_addFullBlocks wf hJ.1 hP' rfl (by simp [DMat.ofForceCols, hwork]) h.init.matDot).bind fun m hm => ?_
  refine (Safe.wr (by rw [h.init.jacs]; exact hi) J).bind fun l hl => ?_
  refine (Safe.wr (by rw [h.init.works]; exact hi) _).bind fun l' hl' => Safe.pure ?_
  subst hl hl'
  exact h.replace hi h0 hJ.1 hJp _ h.init.mat hm

theorem CMM.matBothStep_safe (com comDot : Vec3 K) {c : CMM K} (h : c.For mb w) {i : Nat} (hi : i < mb.bodies.length) :
    Safe (CMM.matBothStep mb mbc com comDot c i) (CMM.For mb w) := by
  unfold CMM.matBothStep
  refine (Safe.rd (by rw [h.init.jacs]; exact hi)).bind fun J₀ h0 => ?_
  refine ((h.init.jac i J₀ h0).bodyJacobian_safe wf hW hS).bind fun J₁ hJ₁ => ?_
  refine (hJ₁.1.bodyJacobianDot_safe wf hW hS hV).bind fun J hJ => ?_
  have hJp : J.path = J₀.path := hJ.2.trans hJ₁.2
  refine (safe_len hW hi).bind fun W _ => (safe_len h.weight_length hi).bind fun x _ => (safe_body hi).bind fun b _ => ?_
  dsimp only
  refine (Safe.rd (by rw [h.init.blks]; exact hi)).bind fun P hP => ?_
  have hP' : J.compactPath mb = .ok P := (compactPath_congr hJp).trans (h.init.path i J₀ P h0 hP)
  refine (safe_addFullBlocks wf hJ.1 hP' rfl (by simp [DMat.ofForceCols, hJ.1.jac]) h.init.mat).bind fun m hm => ?_
  refine (safe_len hV hi).bind fun V _ => ?_
  refine (safe_cmmDotCols _ _ _ _ _ hJ.1.jac hJ.1.jacDot).bind fun work hwork => ?_
  refine Safe.bind (P := fun P' => P' = P) ⟨P, rd_of_getElem? hP, rfl⟩ fun P' e => ?_
  subst e
  refine (safe_addFullBlocks wf hJ.1 hP' rfl (by simp [DMat.ofForceCols, hwork]) h.init.matDot).bind fun m' hm' => ?_
  refine (Safe.wr (by rw [h.init.jacs]; exact hi) J).bind fun l hl => ?_
  refine (Safe.wr (by rw [h.init.works]; exact hi) _).bind fun l' hl' => Safe.pure ?_
  subst hl hl'
  exact h.replace hi h0 hJ.1 hJp _ hm hm'

theorem CMM.computeMatrixDot_safe (com comDot : Vec3 K) {c : CMM K} (h : c.For mb w) :
    Safe (c.computeMatrixDot mb mbc com comDot) (CMM.For mb w) := by
  unfold CMM.computeMatrixDot
  have h' : CMM.For mb w { c with cmMatDot := c.cmMatDot.setZero } := ⟨{ h.init with matDot := h.init.matDot }, h.weights⟩
  exact Safe.range (CMM.For mb w) h' fun i s hi hs => CMM.matDotStep_safe wf hW hS hV com comDot hs hi

theorem CMM.computeMatrixAndMatrixDot_safe (com comDot : Vec3 K) {c : CMM K} (h : c.For mb w) :
    Safe (c.computeMatrixAndMatrixDot mb mbc com comDot) (CMM.For mb w) := by
  unfold CMM.computeMatrixAndMatrixDot
  have h' : CMM.For mb w { c with cmMat := c.cmMat.setZero, cmMatDot := c.cmMatDot.setZero } :=
    ⟨{ h.init with mat := h.init.mat, matDot := h.init.matDot }, h.weights⟩
  exact Safe.range (CMM.For mb w) h' fun i s hi hs => CMM.matBothStep_safe wf hW hS hV com comDot hs hi

end cmm

theorem CMM.momentum_safe {mbc : MBC K} (hW : mbc.bodyPosW.length = mb.bodies.length) (hV : mbc.bodyVelB.length = mb.bodies.length)
    {w : List K} {c : CMM K} (h : c.For mb w) (com : Vec3 K) : Safe (c.momentum mb mbc com) fun _ => True :=
  Safe.range (fun _ => True) trivial fun _ _ hi _ => (safe_body hi).bind fun _ _ => (safe_len hV hi).bind fun _ _ =>
    (safe_len h.weight_length hi).bind fun _ _ => (safe_len hW hi).bind fun _ _ => Safe.pure trivial

theorem CMM.normalMomentumDotOf_safe {mbc : MBC K} (hW : mbc.bodyPosW.length = mb.bodies.length)
    (hV : mbc.bodyVelB.length = mb.bodies.length) {acc : List (MotionVec K)} (hA : acc.length = mb.bodies.length)
    {w : List K} {c : CMM K} (h : c.weight.length = mb.bodies.length) (com comDot : Vec3 K) :
    Safe (c.normalMomentumDotOf mb mbc com comDot acc) fun _ => True :=
  Safe.range (fun _ => True) trivial fun _ _ hi _ => (safe_body hi).bind fun _ _ => (safe_len h hi).bind fun _ _ =>
    (safe_len hW hi).bind fun _ _ => (safe_len hV hi).bind fun _ _ => (safe_len hA hi).bind fun _ _ => Safe.pure trivial

theorem CMM.normalMomentumDot_safe (wf : mb.WF) {mbc : MBC K} (hW : mbc.bodyPosW.length = mb.bodies.length)
    (hV : mbc.bodyVelB.length = mb.bodies.length) (hX : mbc.parentToSon.length = mb.bodies.length)
    (hvj : mbc.jointVelocity.length = mb.bodies.length) {w : List K} {c : CMM K} (h : c.For mb w) (com comDot : Vec3 K) :
    Safe (c.normalMomentumDot mb mbc com comDot) fun _ => True := by
  unfold CMM.normalMomentumDot
  have hn : mb.nrJoints = mb.bodies.length := wf.njoints
  rw [hn]
  refine (Safe.range (fun s : List (MotionVec K) => s.length = mb.bodies.length) h.init.normalAcc fun i s hi hs =>
    normalAccStep_safe wf hX hvj hV hs hi).bind fun acc hA => ?_
  dsimp only
  exact (CMM.normalMomentumDotOf_safe hW hV hA (w := w) (c := { c with normalAcc := acc }) h.weight_length com comDot).bind
    fun _ _ => Safe.pure trivial

/-! ### The regressor -/

theorem yUp_safe (wf : mb.WF) {mbc : MBC K} (hX : mbc.parentToSon.length = mb.bodies.length) (hS : Rows mb mbc.motionSubspace)
    {i : Nat} (hi : i < mb.bodies.length) : ∀ (fuel j : Nat) (F : List (ForceVec K)) (Y : DMat K), j < fuel → j < mb.bodies.length →
      F.length = 10 → (Y.rows = mb.nrDof ∧ Y.cols = mb.bodies.length * 10) →
      Safe (yUp mb mbc i fuel j F Y) fun Y' => Y'.rows = mb.nrDof ∧ Y'.cols = mb.bodies.length * 10 := by
  intro fuel
  induction fuel with
  | zero => intro j F Y h; omega
  | succ fuel ih =>
    intro j F Y hf hj hF hY
    unfold yUp
    refine (safe_pred wf hj).bind fun p hp => ?_
    rcases hp with rfl | ⟨k, rfl, hk⟩
    · rw [if_neg (by simp)]
      exact Safe.pure hY
    · have hk' : k < mb.bodies.length := by omega
      rw [if_pos (by omega)]
      refine (safe_len hX hj).bind fun X _ => ?_
      refine (safe_setCols hF fun c hc => (safe_len hF hc).bind fun _ _ => Safe.pure trivial).bind fun F' hF' => ?_
      rw [if_neg (by omega)]
      show Safe (do
        let jPos ← rd mb.jointPosInDof (k : Int).toNat
        let jj ← rd mb.joints (k : Int).toNat
        let Y ←
          if jj.dof ≠ 0 then do Y.setBlock jPos (i * 10) jj.dof 10 (gram (← rd mbc.motionSubspace (k : Int).toNat) F')
          else pure Y
        yUp mb mbc i fuel (k : Int).toNat F' Y) _
      rw [Int.toNat_natCast, wf.rd_posDof' hk', Res.bind_ok]
      refine (safe_joint wf hk').bind fun jj hjj => ?_
      rw [hjj]
      have hb := wf.dofPosAt_add_le hk'
      by_cases h0 : mb.dofAt k = 0
      · rw [if_neg (by simpa using h0)]
        exact ih k F' Y (by omega) hk' hF' hY
      · rw [if_pos h0]
        refine (hS.rd wf hk').bind fun S hSl => ?_
        exact (safe_setBlock hY.1 hY.2 (by omega) (by omega) hSl hF').bind fun Y' hY' => ih k F' Y' (by omega) hk' hF' hY'

theorem computeY_safe (wf : mb.WF) {mbc : MBC K} (hX : mbc.parentToSon.length = mb.bodies.length) (hS : Rows mb mbc.motionSubspace)
    (hV : mbc.bodyVelB.length = mb.bodies.length) (hA : mbc.bodyAccB.length = mb.bodies.length) {d : IDIM K}
    (hd : d.Y.rows = mb.nrDof ∧ d.Y.cols = mb.bodies.length * 10) : Safe (d.computeY mb mbc) fun _ => True := by
  unfold IDIM.computeY
  refine (Safe.range_reverse (fun Y : DMat K => Y.rows = mb.nrDof ∧ Y.cols = mb.bodies.length * 10) hd fun i Y hi hY => ?_).bind
    fun _ _ => Safe.pure trivial
  unfold yStep
  refine (safe_len hV hi).bind fun V _ => ?_
  dsimp only
  refine (safe_len hA hi).bind fun A _ => ?_
  refine (safe_setCols (n := 10) rfl fun c hc => (safe_len (n := 10) rfl hc).bind fun _ _ =>
    (safe_len (n := 10) rfl hc).bind fun _ _ => Safe.pure trivial).bind fun F hF => ?_
  rw [wf.rd_posDof' hi, Res.bind_ok]
  refine (safe_joint wf hi).bind fun j hj => (hS.rd wf hi).bind fun S hSl => ?_
  rw [hj]
  have hb := wf.dofPosAt_add_le hi
  refine (safe_setBlock hY.1 hY.2 (by omega) (by omega) hSl hF).bind fun Y' hY' => ?_
  exact yUp_safe wf hX hS hi _ i F Y' (by omega) hi hF hY'

/-! ### Inverse statics -/

theorem isStep_safe {mbc : MBC K} (hW : mbc.bodyPosW.length = mb.bodies.length) (hf : mbc.force.length = mb.bodies.length)
    {s : ID K × MBC K} {i : Nat} (hi : i < mb.bodies.length)
    (hs : s.1.f.length = mb.bodies.length ∧ s.2.bodyAccB.length = mb.bodies.length ∧ s.2 = { mbc with bodyAccB := s.2.bodyAccB }) :
    Safe (isStep mb s i) fun s => s.1.f.length = mb.bodies.length ∧ s.2.bodyAccB.length = mb.bodies.length ∧
      s.2 = { mbc with bodyAccB := s.2.bodyAccB } := by
  obtain ⟨d, m⟩ := s
  obtain ⟨h1, h2, h3⟩ := hs
  dsimp only at h1 h2 h3
  have e1 : m.bodyPosW = mbc.bodyPosW := by rw [h3]
  have e2 : m.force = mbc.force := by rw [h3]
  unfold isStep
  dsimp only
  rw [e1, e2]
  refine (safe_len hW hi).bind fun W _ => ?_
  refine (safe_wr h2 hi _).bind fun l hl => (safe_body hi).bind fun b _ => (safe_len hf hi).bind fun _ _ => ?_
  refine (safe_wr h1 hi _).bind fun f hf' => Safe.pure ⟨hf', hl, ?_⟩
  rw [h3]

theorem isBackStep_safe (wf : mb.WF) {mbc : MBC K} (hX : mbc.parentToSon.length = mb.bodies.length)
    (hS : Rows mb mbc.motionSubspace) {s : ID K × MBC K} {i : Nat} (hi : i < mb.bodies.length)
    (hs : s.1.f.length = mb.bodies.length ∧ Rows mb s.2.jointTorque ∧ s.2 = { mbc with jointTorque := s.2.jointTorque }) :
    Safe (isBackStep mb s i) fun s => s.1.f.length = mb.bodies.length ∧ Rows mb s.2.jointTorque ∧
      s.2 = { mbc with jointTorque := s.2.jointTorque } := by
  obtain ⟨d, m⟩ := s
  obtain ⟨h1, h2, h3⟩ := hs
  dsimp only at h1 h2 h3
  have e1 : m.motionSubspace = mbc.motionSubspace := by rw [h3]
  have e2 : m.parentToSon = mbc.parentToSon := by rw [h3]
  unfold isBackStep
  dsimp only
  rw [e1, e2]
  refine (h2.rd wf hi).bind fun t ht => (safe_joint wf hi).bind fun j hj => (safe_len h1 hi).bind fun fi _ => ?_
  refine (hS.rd wf hi).bind fun S hSl => ?_
  rw [if_pos ⟨by omega, by omega⟩]
  refine Safe.bind (P := fun t' : List K => t'.length = mb.dofAt i) (Safe.ok (by simp; omega)) fun t' ht' => ?_
  refine (Safe.wr (by rw [h2.length wf]; exact hi) t').bind fun jt hjt => ?_
  have hjt' : Rows mb jt := by rw [hjt]; exact h2.set wf hi ht'
  refine (safe_pred wf hi).bind fun p hp => ?_
  rcases hp with rfl | ⟨k, rfl, hk⟩
  · rw [if_neg (by simp)]
    refine Safe.pure ⟨h1, hjt', ?_⟩
    rw [h3]
  · rw [if_pos (by omega)]
    have hk' : k < mb.bodies.length := by omega
    refine (safe_len hX hi).bind fun X _ => ?_
    rw [rdI_ofNat]
    refine (safe_len h1 hk').bind fun _ _ => ?_
    rw [wrI_ofNat]
    refine (safe_wr h1 hk' _).bind fun f hf => Safe.pure ⟨hf, hjt', ?_⟩
    rw [h3]

theorem inverseStatics_safe (wf : mb.WF) {mbc : MBC K} (hX : mbc.parentToSon.length = mb.bodies.length)
    (hW : mbc.bodyPosW.length = mb.bodies.length) (hf : mbc.force.length = mb.bodies.length)
    (hacc : mbc.bodyAccB.length = mb.bodies.length) (hS : Rows mb mbc.motionSubspace) (ht : Rows mb mbc.jointTorque) {d : ID K}
    (hd : d.f.length = mb.bodies.length) : Safe (inverseStatics d mb mbc) fun s => s.1.f.length = mb.bodies.length := by
  unfold inverseStatics
  refine (Safe.range (fun s : ID K × MBC K => s.1.f.length = mb.bodies.length ∧ s.2.bodyAccB.length = mb.bodies.length ∧
    s.2 = { mbc with bodyAccB := s.2.bodyAccB }) ⟨hd, hacc, rfl⟩ fun i s hi hs => isStep_safe hW hf hi hs).bind fun s hs => ?_
  obtain ⟨d', m⟩ := s
  obtain ⟨h1, h2, h3⟩ := hs
  dsimp only at h1 h2 h3 ⊢
  rw [wf.njoints]
  refine (Safe.range_reverse (fun s : ID K × MBC K => s.1.f.length = mb.bodies.length ∧ Rows mb s.2.jointTorque ∧
    s.2 = { m with jointTorque := s.2.jointTorque }) ⟨h1, by rw [h3]; exact ht, rfl⟩ fun i s hi hs =>
    isBackStep_safe wf (by rw [h3]; exact hX) (by rw [h3]; exact hS) hi hs).mono fun _ h => h.1

end RBDyn
