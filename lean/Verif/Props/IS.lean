import Verif.Lemmas.ISDeriv
import Verif.Props.IDIM
import Verif.Props.Kinematics
import Verif.Props.Checked

/-! Property C56. -/

namespace RBDyn
open scoped Mat3

/-- C56: the constructor of `InverseStatics` gives an object that fits the robot. -/
theorem C56_constructor {K : Type} [Scalar K] {mb : MultiBody K} (wf : mb.WF)
    (hn : ∀ (i : Nat) (b : Body K), mb.bodies[i]? = some b → mb.sBodyIndexByName b.name = .ok (i : Int))
    (junk : Nat → MotionVec K) (junkF : Nat → ForceVec K) : ∃ s, IS.mk' junk junkF mb = .ok s ∧ s.For mb mb.nrDof ∧
      s.sizeSet = false :=
  IS.mk'_for wf hn junk junkF

/-- A revolute joint turns about its axis, a fixed joint has no columns. -/
theorem MultiBody.turning_of_type {mb : MultiBody ℝ} (wf : mb.WF) (hr : mb.Rigid) {q : List (List ℝ)} (hq : ValidQ mb q)
    (ht : ∀ (i : Nat) (j : Joint ℝ), mb.joints[i]? = some j → mb.pred[i]? ≠ some (-1) → j.type = .Rev ∨ j.type = .Fixed) : mb.Turning q := by
  intro i hi hp v hv
  obtain ⟨j, hj, -⟩ := wf.joint_get hi
  have hpred : mb.pred[i]? ≠ some (-1) := by
    intro h
    obtain ⟨p, hpr, ⟨rfl, h2⟩ | ⟨k, rfl, h2, -⟩⟩ := wf.pred_cases hi
    · exact hp h2
    · rw [rd_eq_ok_iff, h] at hpr
      cases hpr
  have hty := ht i j hj hpred
  obtain ⟨hlt, hje⟩ := List.getElem?_eq_some_iff.1 hj
  have hql : i < q.length := by rw [← hq.length_eq]; exact hlt
  have hpose : mb.poseAt q i = (j.pose q[i]).toOption.getD 1 := by
    unfold MultiBody.poseAt
    rw [hj, List.getElem?_eq_getElem hql]
  have hvp : ValidParam j.type q[i] := hje ▸ hq.get hlt hql
  have hS : mb.SAt i = j.S := by simp [MultiBody.SAt, hj]
  rw [hS] at hv
  rw [hpose]
  generalize q[i] = x at hvp
  obtain ⟨t, a, f, n, ha, h⟩ := (hr.joints _ (hje ▸ List.getElem_mem hlt)).exists_mk
  have hSj : j.S = (Joint.mk' t a f n).S := by rcases h with h | ⟨mn, m, o, h⟩ <;> rw [h] <;> rfl
  have hpj : ∀ x, j.pose x = (Joint.mk' t a f n).pose x := by intro x; rcases h with h | ⟨mn, m, o, h⟩ <;> rw [h] <;> rfl
  have htj : j.type = t := by rcases h with h | ⟨mn, m, o, h⟩ <;> rw [h] <;> rfl
  rw [htj] at hty hvp
  rw [hSj] at hv
  rw [hpj]
  rcases hty with rfl | rfl
  · obtain ⟨x0, rfl⟩ := List.length_eq_one_iff.1 hvp.1
    rw [Joint.pose_rev]
    have hv' : v = ⟨Joint.sgn (K := ℝ) f • a, 0⟩ := by
      cases f <;> (simp [Joint.mk', Joint.mkS] at hv; rw [hv]; ext <;> simp [Joint.sgn])
    subst hv'
    refine ⟨rfl, ?_⟩
    have hu : IsUnit3 (Joint.sgn (K := ℝ) f • a) := by
      have : IsUnit3 a := ha
      cases f <;> simpa [Joint.sgn, IsUnit3, Vec3.dot] using this
    exact Joint.angleAxis_fixes _ hu
  · simp [Joint.mk', Joint.mkS] at hv

/-- C56: the matrices of `computeTorqueJacobianJoint` are the derivatives of the torques of inverse statics with respect to the
generalized velocity, along every trajectory of joint positions with constant gravity. The matrices of the external forces can have more
columns than there are degrees of freedom; these are multiplied by the rates `ρ` of other variables. The object must be new, or must have
been sized for as many columns.
Partial: the joints below a root must be revolute or fixed, and the derivative of the external forces must be *minus* the matrices given
(the matrices of the original statement are the derivative of the forces; see the counterexamples below). -/
theorem C56_torque_jacobian_partial {mb : MultiBody ℝ} (wf : mb.WF) (hr : mb.Rigid) (hd : mb.DirOK) {mbc₀ mbc τ : ℝ → MBC ℝ} {t : ℝ}
    {α : List (List ℝ)} {ρ : List ℝ} (sz : ∀ s, (mbc₀ s).Sized mb) (hfk : ∀ s, forwardKinematics mb (mbc₀ s) = .ok (mbc s))
    (h : Trajectory mb (fun s => (mbc s).q) α t) (hg : ∀ s, (mbc s).gravity = (mbc t).gravity)
    (ht : ∀ (i : Nat) (j : Joint ℝ), mb.joints[i]? = some j → mb.pred[i]? ≠ some (-1) → j.type = .Rev ∨ j.type = .Fixed)
    {d : ID ℝ} {d' : ℝ → ID ℝ} (hf : d.f.length = mb.nrBodies) (hτ : ∀ s, inverseStatics d mb (mbc s) = .ok (d' s, τ s))
    {S : IS ℝ} {jac : List (FMat ℝ)} (hj : ForceJacs mb (mb.nrDof + ρ.length) jac)
    (hS : S.For mb (mb.nrDof + ρ.length) ∨ (S.For mb mb.nrDof ∧ S.sizeSet = false ∧ ∃ e ∈ jac, e.cols = mb.nrDof + ρ.length))
    (hF : ∀ (k : Nat) (e : FMat ℝ), jac[k]? = some e → HasDerivForce (fun s => ((mbc s).force[k]?).getD 0)
      (if 0 < e.cols then -∑ c ∈ Finset.range (mb.nrDof + ρ.length), (α.flatten ++ ρ).getD c 0 • e.col c else 0) t) :
    ∃ (S' : IS ℝ) (m : MBC ℝ), S.computeTorqueJacobian mb (mbc t) jac = .ok (S', m) ∧ S'.For mb (mb.nrDof + ρ.length) ∧ S'.f = (d' t).f ∧
      m.bodyAccB = (τ t).bodyAccB ∧ { m with bodyAccB := (mbc t).bodyAccB } = mbc t ∧
      ∀ (i : Nat) (j : Joint ℝ), mb.joints[i]? = some j → ∃ D : DMat ℝ, S'.jointTorqueDiff[i]? = some D ∧ D.rows = j.dof ∧
        D.cols = mb.nrDof + ρ.length ∧
        ∀ r, r < j.dof → HasDerivAt (fun s => (((τ s).jointTorque[i]?).getD []).getD r 0) (D.mulVecAt (α.flatten ++ ρ) r) t := by
  have hw : mb.nrDof ≤ mb.nrDof + ρ.length := Nat.le_add_right _ _
  have hβ : ∀ c, c < mb.nrDof → (α.flatten ++ ρ).getD c 0 = α.flatten.getD c 0 := by
    intro c hc
    have : c < α.flatten.length := by rw [h.sized.flatten_length wf]; exact hc
    simp only [List.getD_eq_getElem?_getD, List.getElem?_append_left this]
  have hm : ∀ s, mbc s = fkPost mb (mbc₀ s) := fun s => by
    have := (sz s).fk wf
    rw [hfk s] at this
    exact Except.ok.inj this.1
  have szm : ∀ s, (mbc s).Sized mb := fun s => by rw [hm s]; exact ((sz s).fk wf).2.1
  have hv : ∀ s, (mbc s).PosReady mb := fun s => by rw [hm s]; exact ((sz s).fk wf).2.2
  have hc : (mbc t).jointConfig = (List.range mb.bodies.length).map (mb.poseAt (mbc t).q) := by rw [hm t]; rfl
  obtain ⟨D, hD⟩ := SubRec.exists wf.par_lt (mb.isUp (mbc t).q (mb.wrenchAt (mbc t).q (mb.isNet (mbc t).q (mbc t).gravity (mbc t).forceAt)))
    (mb.isLoc (mbc t).q (mbc t).gravity (mbc t).forceAt jac) mb.bodies.length
  obtain ⟨S', e, hS', ef, eD⟩ := IS.computeTorqueJacobian_eq wf hr (szm t) (h.valid t) (hv t) hc hj
    (hS.imp id fun h => ⟨h.1, h.2.1, hw, h.2.2⟩) hD
  have eτ : ∀ s, τ s = { mbc s with
      bodyAccB := (List.range mb.bodies.length).map fun k => (mb.posAt (mbc s).q k).mulMotion ⟨0, (mbc s).gravity⟩
      jointTorque := (List.range mb.bodies.length).map fun i =>
        mb.project i (mb.wrenchAt (mbc s).q (mb.isNet (mbc s).q (mbc s).gravity (mbc s).forceAt) i) } := by
    intro s
    have := is_eq wf hr (szm s) (h.valid s) (hv s) hf rfl
    rw [hτ s] at this
    exact (Prod.mk.inj (Except.ok.inj this)).2
  have ed : (d' t).f = (List.range mb.bodies.length).map (mb.wrenchAt (mbc t).q (mb.isNet (mbc t).q (mbc t).gravity (mbc t).forceAt)) := by
    have := is_eq wf hr (szm t) (h.valid t) (hv t) hf rfl
    rw [hτ t] at this
    exact congrArg ID.f (Prod.mk.inj (Except.ok.inj this)).1
  refine ⟨S', _, e, hS', by rw [ef, ed], by rw [eτ t], rfl, fun i j hij => ?_⟩
  have hi : i < mb.bodies.length := by rw [← wf.njoints]; exact (List.getElem?_eq_some_iff.1 hij).1
  have hdof : mb.dofAt i = j.dof := by simp [MultiBody.dofAt, hij]
  refine ⟨⟨mb.dofAt i, mb.nrDof + ρ.length, fun r c => ((mb.SAt i).getD r 0).dot (D i c)⟩, by rw [eD, range_map_getElem? hi], hdof, rfl, fun r hr' => ?_⟩
  have hnet : ∀ k, k < mb.bodies.length → HasDerivForce (fun s => mb.isNet (mbc s).q (mbc s).gravity (mbc s).forceAt k)
      (∑ c ∈ Finset.range (mb.nrDof + ρ.length), (α.flatten ++ ρ).getD c 0 • mb.isLoc (mbc t).q (mbc t).gravity (mbc t).forceAt jac k c) t := by
    intro k hk
    have b1 : k < S'.jacW.length := by rw [hS'.jacs]; exact hk
    have b2 : k < jac.length := by rw [hj.length]; exact hk
    simp only [hg]
    exact mb.isNet_hasDeriv wf hr hd h hw hβ (hS'.jac k _ (List.getElem?_eq_getElem b1)) _ (fe := fun s => (mbc s).forceAt)
      (List.getElem?_eq_getElem b2) (hF k _ (List.getElem?_eq_getElem b2))
  have hw := wf.isSub_hasDeriv hr hd h hw hβ (MultiBody.turning_of_type wf hr (h.valid t) ht) hnet hD i hi
  have := (HasDerivMotion.const ((mb.SAt i).getD r 0) t).dot hw
  have el : (fun s => (((τ s).jointTorque[i]?).getD []).getD r 0) = fun s =>
      ((mb.SAt i).getD r 0).dot (mb.wrenchAt (mbc s).q (mb.isNet (mbc s).q (mbc s).gravity (mbc s).forceAt) i) := by
    funext s
    rw [eτ s]
    dsimp only
    rw [range_map_getElem? hi, Option.getD_some]
    have hl : r < (mb.SAt i).length := by rw [wf.SAt_length hi, hdof]; exact hr'
    simp [MultiBody.project, hl]
  rw [el]
  refine this.congr_deriv ?_
  have hz : ∀ f : ForceVec ℝ, (0 : MotionVec ℝ).dot f = 0 := fun f => by simp [MotionVec.dot, Vec3.dot]
  rw [hz, zero_add]
  unfold DMat.mulVecAt
  have hom : ∀ (v : MotionVec ℝ) (g : Nat → ForceVec ℝ) (s : Finset Nat), v.dot (∑ c ∈ s, g c) = ∑ c ∈ s, v.dot (g c) := by
    intro v g s
    exact map_sum (⟨⟨fun f => v.dot f, by simp [MotionVec.dot, Vec3.dot]⟩, fun f g => by simp [MotionVec.dot, Vec3.dot]; ring⟩ : ForceVec ℝ →+ ℝ) g s
  rw [hom]
  refine Finset.sum_congr rfl fun c _ => ?_
  simp [MotionVec.dot, Vec3.dot]
  ring

/-- The hypotheses of C56 are met by an arm with two revolute joints under gravity, with a force that depends on a further
variable and a fresh object. -/
theorem Sample.real_statics : ∃ (mb : MultiBody ℝ) (mbc₀ mbc τ : ℝ → MBC ℝ) (d : ID ℝ) (d' : ℝ → ID ℝ) (S : IS ℝ) (jac : List (FMat ℝ)),
    mb.WF ∧ mb.Rigid ∧ mb.DirOK ∧ (∀ s, (mbc₀ s).Sized mb) ∧ (∀ s, forwardKinematics mb (mbc₀ s) = .ok (mbc s)) ∧
    (∀ s, (mbc s).gravity = ⟨0, 0, 9⟩) ∧ mb.nrDof = 2 ∧
    (∀ (i : Nat) (j : Joint ℝ), mb.joints[i]? = some j → mb.pred[i]? ≠ some (-1) → j.type = .Rev ∨ j.type = .Fixed) ∧
    d.f.length = mb.nrBodies ∧ (∀ s, inverseStatics d mb (mbc s) = .ok (d' s, τ s)) ∧
    IS.mk' (fun _ => 0) (fun _ => 0) mb = .ok S ∧ S.For mb mb.nrDof ∧ S.sizeSet = false ∧
    ForceJacs mb (mb.nrDof + [(5 : ℝ)].length) jac ∧ (∃ e ∈ jac, e.cols = mb.nrDof + [(5 : ℝ)].length) ∧
    ∀ t, Trajectory mb (fun s => (mbc s).q) [[2 * t], [3]] t ∧
      ∀ (k : Nat) (e : FMat ℝ), jac[k]? = some e → HasDerivForce (fun s => ((mbc s).force[k]?).getD 0)
        (if 0 < e.cols then -∑ c ∈ Finset.range (mb.nrDof + [(5 : ℝ)].length), (([[2 * t], [3]] : List (List ℝ)).flatten ++ [5]).getD c 0 • e.col c
          else 0) t := by
  let B : List (Body ℝ) := [⟨⟨2, ⟨1, 0, 0⟩, ⟨1, 0, 1, 0, 0, 1⟩⟩, "x"⟩, ⟨⟨3, 0, ⟨2, 0, 2, 0, 0, 2⟩⟩, "y"⟩]
  let J : List (Joint ℝ) := [Joint.mk' .Rev ⟨0, 0, 1⟩ true "a", Joint.mk' .Rev ⟨1, 0, 0⟩ false "b"]
  have hu : ∀ j ∈ J, j.BuiltUnit := by
    intro j hj
    simp only [J, List.mem_cons, List.not_mem_nil, or_false] at hj
    rcases hj with rfl | rfl
    · exact .mk _ _ _ _ (by simp [ValidAxis, IsUnit3])
    · exact .mk _ _ _ _ (by simp [ValidAxis, IsUnit3])
  obtain ⟨mb, hmk, wf, hb, hj, hp, -, -, hX⟩ := MultiBody.mk'_wf B J [-1, 0] [0, 1] [-1, 0] [1, ⟨1, ⟨0, 0, 1⟩⟩] rfl rfl rfl
    (by intro i hi
        have : i < 2 := hi
        obtain rfl | rfl : i = 0 ∨ i = 1 := by omega
        all_goals rfl)
    (by intro i p hp
        obtain ⟨hi, -⟩ := List.getElem?_eq_some_iff.1 hp
        have : i < 2 := hi
        obtain rfl | rfl : i = 0 ∨ i = 1 := by omega
        all_goals (cases hp; decide))
    rfl (fun j hj => (hu j hj).built)
  have hr : mb.Rigid := by
    refine ⟨hj ▸ hu, ?_⟩
    rw [hX]; intro X h
    simp only [List.mem_cons, List.not_mem_nil, or_false] at h
    rcases h with rfl | rfl
    · exact IsRigid.one
    · exact IsRigid.one
  have hd : mb.DirOK := by
    intro j h
    rw [hj] at h
    simp only [J, List.mem_cons, List.not_mem_nil, or_false] at h
    rcases h with rfl | rfl
    · exact .inl (by simp [Joint.mk', Joint.isForward])
    · exact .inr (.inl rfl)
  have hdof : mb.nrDof = 2 := by
    cases hmk
    rfl
  let q : ℝ → List (List ℝ) := fun s => [[s * s], [3 * s]]
  let c : ℝ → MBC ℝ := fun s =>
    { q := q s, alpha := [[2 * s], [3]], alphaD := [[2], [0]], force := [0, ⟨0, ⟨1 - 5 * s, 2, 3⟩⟩], jointConfig := [1, 1], jointVelocity := [0, 0],
      jointTorque := [[0], [0]], motionSubspace := [[0], [0]], bodyPosW := [1, 1], parentToSon := [1, 1], bodyVelW := [0, 0],
      bodyVelB := [0, 0], bodyAccB := [0, 0], gravity := ⟨0, 0, 9⟩ }
  have sz : ∀ s, (c s).Sized mb := by
    intro s
    constructor <;> simp [c, q, SizedQ, SizedDof, hb, hj, J, B] <;> exact ⟨rfl, rfl⟩
  have hq : ∀ s, ValidQ mb (q s) := by
    intro s
    unfold ValidQ
    rw [hj]
    exact .cons ⟨rfl, trivial⟩ (.cons ⟨rfl, trivial⟩ .nil)
  have hfk : ∀ s, forwardKinematics mb (c s) = .ok (fkPost mb (c s)) := fun s => ((sz s).fk wf).1
  have his : ∀ s, ∃ d' m, inverseStatics ⟨[0, 0]⟩ mb (fkPost mb (c s)) = .ok (d', m) := fun s =>
    ⟨_, _, is_eq wf hr ((sz s).fk wf).2.1 (hq s) ((sz s).fk wf).2.2 (by rw [hb]; rfl) rfl⟩
  choose d' τ hτ using his
  obtain ⟨S, hS, hSf⟩ := C56_constructor wf (by
    intro i b hi
    rw [hb] at hi
    obtain ⟨hlt, -⟩ := List.getElem?_eq_some_iff.1 hi
    have : i < 2 := hlt
    cases hmk
    obtain rfl | rfl : i = 0 ∨ i = 1 := by omega
    all_goals (cases hi; rfl)) (fun _ => 0) (fun _ => 0)
  refine ⟨mb, c, fun s => fkPost mb (c s), τ, ⟨[0, 0]⟩, d', S, [⟨0, fun _ => 0⟩, ⟨3, fun c => if c = 2 then ⟨0, ⟨1, 0, 0⟩⟩ else 0⟩], wf, hr, hd, sz, hfk, fun _ => rfl, hdof, ?_,
    by rw [MultiBody.nrBodies, hb]; rfl, hτ, hS, hSf.1, hSf.2, ⟨by rw [hb]; rfl, ?_⟩,
    ⟨_, List.mem_cons_of_mem _ (List.mem_cons_self ..), by rw [hdof]; rfl⟩, fun t => ⟨⟨hq, ?_, ?_⟩, ?_⟩⟩
  · intro i j hij _
    rw [hj] at hij
    have := List.mem_of_getElem? hij
    simp only [J, List.mem_cons, List.not_mem_nil, or_false] at this
    rcases this with rfl | rfl <;> exact .inl rfl
  · intro e he
    rw [hdof]
    simp only [List.mem_cons, List.not_mem_nil, or_false] at he
    rcases he with rfl | rfl
    · exact .inl rfl
    · exact .inr rfl
  · exact (sz t).alpha
  · intro i j hij
    rw [hj] at hij
    obtain ⟨hi, -⟩ := List.getElem?_eq_some_iff.1 hij
    have : i < 2 := hi
    obtain rfl | rfl : i = 0 ∨ i = 1 := by omega
    · cases hij
      refine ⟨fun s => rfl, fun k => ?_⟩
      match k with
      | 0 => exact ((hasDerivAt_id t).mul (hasDerivAt_id t)).congr_deriv (by simp [coordRate, Joint.mk']; ring)
      | n + 1 => exact (hasDerivAt_const _ _).congr_deriv (by simp [coordRate, Joint.mk'])
    · cases hij
      refine ⟨fun s => rfl, fun k => ?_⟩
      match k with
      | 0 => exact ((hasDerivAt_id t).const_mul 3).congr_deriv (by simp [coordRate, Joint.mk'])
      | n + 1 => exact (hasDerivAt_const _ _).congr_deriv (by simp [coordRate, Joint.mk'])
  · intro k e he
    rw [hdof]
    match k with
    | 0 =>
      cases he
      exact ⟨HasDerivVec.const _ _, HasDerivVec.const _ _⟩
    | 1 =>
      cases he
      have hc : (fun s => (((fun s => fkPost mb (c s)) s).force[1]?).getD 0) = fun s : ℝ => (⟨0, ⟨1 - 5 * s, 2, 3⟩⟩ : ForceVec ℝ) := rfl
      rw [hc]
      have e5 : -∑ x ∈ Finset.range (2 + [(5 : ℝ)].length), (([[2 * t], [3]] : List (List ℝ)).flatten ++ [5]).getD x 0 •
          (if x = 2 then ⟨0, ⟨1, 0, 0⟩⟩ else 0 : ForceVec ℝ) = ⟨0, ⟨-5, 0, 0⟩⟩ := by
        simp only [List.length_singleton, Finset.sum_range_succ, Finset.sum_range_zero]
        ext <;> simp
      rw [if_pos (by decide)]
      refine HasDerivForce.congr ?_ e5.symm
      refine ⟨HasDerivVec.const _ _, ?_⟩
      exact ⟨((hasDerivAt_const t (1 : ℝ)).sub ((hasDerivAt_id t).const_mul 5)).congr_deriv (by simp), hasDerivAt_const _ _, hasDerivAt_const _ _⟩
    | n + 2 => cases he

example : ∃ (mb : MultiBody ℝ) (τ : ℝ → MBC ℝ) (S' : IS ℝ), mb.nrDof = 2 ∧ ∀ (i : Nat) (j : Joint ℝ), mb.joints[i]? = some j →
    ∃ D : DMat ℝ, S'.jointTorqueDiff[i]? = some D ∧
      ∀ r, r < j.dof → HasDerivAt (fun s => (((τ s).jointTorque[i]?).getD []).getD r 0) (D.mulVecAt [2 * 1, 3, 5] r) 1 := by
  obtain ⟨mb, mbc₀, mbc, τ, d, d', S, jac, wf, hr, hd, sz, hfk, hg, hdof, ht, hf, hτ, -, hS, hz, hj, he, h⟩ := Sample.real_statics
  obtain ⟨S', m, -, -, -, -, -, hD⟩ := C56_torque_jacobian_partial wf hr hd sz hfk (h 1).1 (fun s => by rw [hg, hg]) ht hf hτ hj (.inr ⟨hS, hz, he⟩) (h 1).2
  exact ⟨mb, τ, S', hdof, fun i j hij => let ⟨D, h1, _, _, h4⟩ := hD i j hij; ⟨D, h1, h4⟩⟩

namespace ISBad
/-- A lever turning about the x axis on which a mass slides along the y axis. -/
def mb : MultiBody ℚ where
  bodies := [⟨⟨0, 0, ⟨0, 0, 0, 0, 0, 0⟩⟩, "lever"⟩, ⟨⟨1, 0, ⟨0, 0, 0, 0, 0, 0⟩⟩, "mass"⟩]
  joints := [Joint.mk' .Rev ⟨1, 0, 0⟩ true "turn", Joint.mk' .Prism ⟨0, 1, 0⟩ true "slide"]
  pred := [-1, 0]
  succ := [0, 1]
  parent := [-1, 0]
  Xt := [1, 1]
  bodyNameToInd := [("mass", 1), ("lever", 0)]
  jointNameToInd := [("slide", 1), ("turn", 0)]
  jointPosInParam := [0, 1]
  jointPosInDof := [0, 1]
  nrParams := 2
  nrDof := 2

theorem mk_eq : MultiBody.mk' mb.bodies mb.joints [-1, 0] [0, 1] [-1, 0] [1, 1] = .ok mb := by
  rfl

def mbc₀ (s : ℚ) : MBC ℚ :=
  { q := [[0], [s]], alpha := [[0], [1]], alphaD := [[0], [0]], force := [0, 0], jointConfig := [1, 1], jointVelocity := [0, 0],
    jointTorque := [[0], [0]], motionSubspace := [[0], [0]], bodyPosW := [1, 1], parentToSon := [1, 1], bodyVelW := [0, 0],
    bodyVelB := [0, 0], bodyAccB := [0, 0], gravity := ⟨0, 0, 10⟩ }

def mbc (s : ℚ) : MBC ℚ := { mbc₀ s with
  jointConfig := [1, ⟨1, ⟨0, s, 0⟩⟩], parentToSon := [1, ⟨1, ⟨0, s, 0⟩⟩], bodyPosW := [1, ⟨1, ⟨0, s, 0⟩⟩],
  motionSubspace := [[⟨⟨1, 0, 0⟩, 0⟩], [⟨0, ⟨0, 1, 0⟩⟩]] }

theorem range2 : List.range 2 = [0, 1] := rfl

theorem fk (s : ℚ) : forwardKinematics mb (mbc₀ s) = .ok (mbc s) := by
  have e0 : fkStep mb (mbc₀ s) 0 = .ok { mbc₀ s with motionSubspace := [[⟨⟨1, 0, 0⟩, 0⟩], [0]] } := by
    have p0 : (Joint.mk' (K := ℚ) .Rev ⟨1, 0, 0⟩ true "turn").pose [0] = .ok 1 := by decide +kernel
    have s0 : (Joint.mk' (K := ℚ) .Rev ⟨1, 0, 0⟩ true "turn").S = [⟨⟨1, 0, 0⟩, 0⟩] := by decide +kernel
    simp [fkStep, mbc₀, mb, rd, wr, wrI, p0, s0]
  have e1 : fkStep mb { mbc₀ s with motionSubspace := [[⟨⟨1, 0, 0⟩, 0⟩], [0]] } 1 = .ok (mbc s) := by
    have s1 : (Joint.mk' (K := ℚ) .Prism ⟨0, 1, 0⟩ true "slide").S = [⟨0, ⟨0, 1, 0⟩⟩] := by decide +kernel
    have v1 : s • (⟨0, 1, 0⟩ : Vec3 ℚ) = ⟨0, s, 0⟩ := by ext <;> simp
    simp [fkStep, mbc₀, mbc, mb, rd, wr, wrI, rdI, Joint.pose_prism, Joint.sgn, s1, v1]
  show (List.range 2).foldlM (fkStep mb) (mbc₀ s) = _
  simp only [range2, List.foldlM_cons, List.foldlM_nil, e0, e1, Res.bind_ok, Res.pure_eq]

theorem statics (s : ℚ) : ∃ m, inverseStatics ⟨[0, 0]⟩ mb (mbc s) = .ok m ∧ m.2.jointTorque = [[10 * s], [0]] := by
  have a0 : (1 : PTransform ℚ).mulMotion ⟨0, ⟨0, 0, 10⟩⟩ = ⟨0, ⟨0, 0, 10⟩⟩ := by decide +kernel
  have a1 : (⟨1, ⟨0, s, 0⟩⟩ : PTransform ℚ).mulMotion ⟨0, ⟨0, 0, 10⟩⟩ = ⟨0, ⟨0, 0, 10⟩⟩ := by
    ext <;> simp [PTransform.mulMotion]
  have i0 : (⟨0, 0, ⟨0, 0, 0, 0, 0, 0⟩⟩ : RBInertia ℚ).mulMotion ⟨0, ⟨0, 0, 10⟩⟩ = 0 := by decide +kernel
  have i1 : (⟨1, 0, ⟨0, 0, 0, 0, 0, 0⟩⟩ : RBInertia ℚ).mulMotion ⟨0, ⟨0, 0, 10⟩⟩ = ⟨0, ⟨0, 0, 10⟩⟩ := by decide +kernel
  have x1 : (⟨1, ⟨0, s, 0⟩⟩ : PTransform ℚ).transMul ⟨0, ⟨0, 0, 10⟩⟩ = ⟨⟨s * 10, 0, 0⟩, ⟨0, 0, 10⟩⟩ := by
    ext <;> simp [PTransform.transMul, Mat3.tr]
  have e0 : isStep mb (⟨[0, 0]⟩, mbc s) 0 = .ok (⟨[0, 0]⟩, { mbc s with bodyAccB := [⟨0, ⟨0, 0, 10⟩⟩, 0] }) := by
    simp [isStep, mbc, mbc₀, mb, rd, wr, a0, i0]
  have e1 : isStep mb (⟨[0, 0]⟩, { mbc s with bodyAccB := [⟨0, ⟨0, 0, 10⟩⟩, 0] }) 1 =
      .ok (⟨[0, ⟨0, ⟨0, 0, 10⟩⟩]⟩, { mbc s with bodyAccB := [⟨0, ⟨0, 0, 10⟩⟩, ⟨0, ⟨0, 0, 10⟩⟩] }) := by
    simp [isStep, mbc, mbc₀, mb, rd, wr, a1, i1]
  have e2 : isBackStep mb (⟨[0, ⟨0, ⟨0, 0, 10⟩⟩]⟩, { mbc s with bodyAccB := [⟨0, ⟨0, 0, 10⟩⟩, ⟨0, ⟨0, 0, 10⟩⟩] }) 1 =
      .ok (⟨[⟨⟨s * 10, 0, 0⟩, ⟨0, 0, 10⟩⟩, ⟨0, ⟨0, 0, 10⟩⟩]⟩,
        { mbc s with bodyAccB := [⟨0, ⟨0, 0, 10⟩⟩, ⟨0, ⟨0, 0, 10⟩⟩], jointTorque := [[0], [0]] }) := by
    simp [isBackStep, mbc, mbc₀, mb, rd, wr, rdI, wrI, x1, Joint.mk', Joint.nDof, MotionVec.dot, Vec3.dot]
  have e3 : isBackStep mb (⟨[⟨⟨s * 10, 0, 0⟩, ⟨0, 0, 10⟩⟩, ⟨0, ⟨0, 0, 10⟩⟩]⟩,
        { mbc s with bodyAccB := [⟨0, ⟨0, 0, 10⟩⟩, ⟨0, ⟨0, 0, 10⟩⟩], jointTorque := [[0], [0]] }) 0 =
      .ok (⟨[⟨⟨s * 10, 0, 0⟩, ⟨0, 0, 10⟩⟩, ⟨0, ⟨0, 0, 10⟩⟩]⟩,
        { mbc s with bodyAccB := [⟨0, ⟨0, 0, 10⟩⟩, ⟨0, ⟨0, 0, 10⟩⟩], jointTorque := [[10 * s], [0]] }) := by
    simp [isBackStep, mbc, mbc₀, mb, rd, wr, Joint.mk', Joint.nDof, MotionVec.dot, Vec3.dot, mul_comm]
  refine ⟨(⟨[⟨⟨s * 10, 0, 0⟩, ⟨0, 0, 10⟩⟩, ⟨0, ⟨0, 0, 10⟩⟩]⟩,
    { mbc s with bodyAccB := [⟨0, ⟨0, 0, 10⟩⟩, ⟨0, ⟨0, 0, 10⟩⟩], jointTorque := [[10 * s], [0]] }), ?_, rfl⟩
  have hl : mb.joints.length = 2 := rfl
  have hb : mb.bodies.length = 2 := rfl
  unfold inverseStatics
  rw [hl, hb]
  simp only [range2, List.reverse_cons, List.reverse_nil, List.nil_append, List.cons_append, List.foldlM_cons, List.foldlM_nil,
    e0, e1, e2, e3, Res.bind_ok, Res.pure_eq]

/-- The object the constructor makes. -/
def obj : IS ℚ := ((IS.mk' (fun _ => 0) (fun _ => 0) mb).toOption).getD ⟨[], [], [], [], ⟨0, 0, fun _ _ => 0⟩, false⟩


/-- One body turning about the z axis, without mass. -/
def mb1 : MultiBody ℚ where
  bodies := [⟨⟨0, 0, ⟨0, 0, 0, 0, 0, 0⟩⟩, "wheel"⟩]
  joints := [Joint.mk' .Rev ⟨0, 0, 1⟩ true "turn"]
  pred := [-1]
  succ := [0]
  parent := [-1]
  Xt := [1]
  bodyNameToInd := [("wheel", 0)]
  jointNameToInd := [("turn", 0)]
  jointPosInParam := [0]
  jointPosInDof := [0]
  nrParams := 1
  nrDof := 1

theorem mk_eq1 : MultiBody.mk' mb1.bodies mb1.joints [-1] [0] [-1] [1] = .ok mb1 := by decide +kernel

/-- The body at rest with a couple `x` about its axis. -/
def mbc1 (x : ℚ) : MBC ℚ :=
  { q := [[0]], alpha := [[1]], alphaD := [[0]], force := [⟨⟨0, 0, x⟩, 0⟩], jointConfig := [1], jointVelocity := [0],
    jointTorque := [[0]], motionSubspace := [[⟨⟨0, 0, 1⟩, 0⟩]], bodyPosW := [1], parentToSon := [1], bodyVelW := [0],
    bodyVelB := [0], bodyAccB := [0], gravity := 0 }

theorem fk1 (x : ℚ) : forwardKinematics mb1 (mbc1 x) = .ok (mbc1 x) := by
  have p0 : (Joint.mk' (K := ℚ) .Rev ⟨0, 0, 1⟩ true "turn").pose [0] = .ok 1 := by decide +kernel
  have s0 : (Joint.mk' (K := ℚ) .Rev ⟨0, 0, 1⟩ true "turn").S = [⟨⟨0, 0, 1⟩, 0⟩] := by decide +kernel
  have e0 : fkStep mb1 (mbc1 x) 0 = .ok (mbc1 x) := by simp [fkStep, mbc1, mb1, rd, wr, wrI, p0, s0]
  show (List.range 1).foldlM (fkStep mb1) (mbc1 x) = _
  simp only [show List.range 1 = [0] from rfl, List.foldlM_cons, List.foldlM_nil, e0, Res.bind_ok, Res.pure_eq]

theorem statics1 (x : ℚ) : ∃ m, inverseStatics ⟨[0]⟩ mb1 (mbc1 x) = .ok m ∧ m.2.jointTorque = [[-x]] := by
  have a0 : (1 : PTransform ℚ).mulMotion ⟨0, 0⟩ = 0 := by decide +kernel
  have i0 : (⟨0, 0, ⟨0, 0, 0, 0, 0, 0⟩⟩ : RBInertia ℚ).mulMotion 0 = 0 := by decide +kernel
  have x0 : (1 : PTransform ℚ).dualMul ⟨⟨0, 0, x⟩, 0⟩ = ⟨⟨0, 0, x⟩, 0⟩ := by ext <;> simp [PTransform.dualMul]
  have e0 : isStep mb1 (⟨[0]⟩, mbc1 x) 0 = .ok (⟨[-⟨⟨0, 0, x⟩, 0⟩]⟩, mbc1 x) := by
    simp [isStep, mbc1, mb1, rd, wr, a0, i0, x0]
  have e1 : isBackStep mb1 (⟨[-⟨⟨0, 0, x⟩, 0⟩]⟩, mbc1 x) 0 = .ok (⟨[-⟨⟨0, 0, x⟩, 0⟩]⟩, { mbc1 x with jointTorque := [[-x]] }) := by
    simp [isBackStep, mbc1, mb1, rd, wr, Joint.mk', Joint.nDof, MotionVec.dot, Vec3.dot]
  refine ⟨(⟨[-⟨⟨0, 0, x⟩, 0⟩]⟩, { mbc1 x with jointTorque := [[-x]] }), ?_, rfl⟩
  have hl : mb1.joints.length = 1 := rfl
  have hb : mb1.bodies.length = 1 := rfl
  unfold inverseStatics
  rw [hl, hb]
  simp only [show List.range 1 = [0] from rfl, List.reverse_cons, List.reverse_nil, List.nil_append, List.foldlM_cons, List.foldlM_nil,
    e0, e1, Res.bind_ok, Res.pure_eq]

/-- Derivative of the force: the couple grows with the angle. -/
def dF : List (FMat ℚ) := [⟨1, fun _ => ⟨⟨0, 0, 1⟩, 0⟩⟩]

end ISBad

/-- C56 fails for a prismatic joint: a mass of 1 slides on a lever of length `s` under gravity 10. The torque of the lever is `10 s` for
all `s`, but the derivative that `computeTorqueJacobianJoint` computes (with a fresh object, at `s = 1`) is `-10`. -/
theorem C56_prismatic_counterexample :
    MultiBody.mk' ISBad.mb.bodies ISBad.mb.joints [-1, 0] [0, 1] [-1, 0] [1, 1] = .ok ISBad.mb ∧
    (∀ s : ℚ, ∃ m r, (ISBad.mbc₀ s).q = [[0], [s]] ∧ forwardKinematics ISBad.mb (ISBad.mbc₀ s) = .ok m ∧
      inverseStatics ⟨[0, 0]⟩ ISBad.mb m = .ok r ∧ r.2.jointTorque = [[10 * s], [0]]) ∧
    ∃ (m : MBC ℚ) (S : IS ℚ) (r : IS ℚ × MBC ℚ) (D : DMat ℚ), forwardKinematics ISBad.mb (ISBad.mbc₀ 1) = .ok m ∧ IS.mk' (fun _ => 0) (fun _ => 0) ISBad.mb = .ok S ∧
      S.computeTorqueJacobian0 ISBad.mb m = .ok r ∧ r.1.jointTorqueDiff[0]? = some D ∧ D.get 0 1 = (-10 : ℚ) := by
  refine ⟨by decide +kernel, fun s => ?_, ?_⟩
  · obtain ⟨r, h1, h2⟩ := ISBad.statics s
    exact ⟨_, r, rfl, ISBad.fk s, h1, h2⟩
  · obtain ⟨S, h1, h2⟩ := ok_and (m := IS.mk' (fun _ => 0) (fun _ => 0) ISBad.mb) (fun S : IS ℚ =>
      ((S.computeTorqueJacobian0 ISBad.mb (ISBad.mbc 1)).toOption.map fun r : IS ℚ × MBC ℚ => (r.1.jointTorqueDiff[0]?.map fun D : DMat ℚ => decide (D.get 0 1 = (-10 : ℚ))).getD
        false).getD false) (by decide +kernel)
    obtain ⟨r, h3, h4⟩ := ok_and _ h2
    cases hD : r.1.jointTorqueDiff[0]? with
    | none => rw [hD] at h4; cases h4
    | some D =>
      rw [hD] at h4
      exact ⟨_, S, r, D, ISBad.fk 1, h1, h3, hD, by simpa using h4⟩

/-- C56 fails when the external forces move with the robot: with the couple `x` about its axis on a body without mass the torque is
`-x`. When the couple is the angle, its matrix of derivatives is `dF`, and the derivative of the torque is `-1`;
`computeTorqueJacobianJoint` computes `1`. -/
theorem C56_force_jacobian_counterexample :
    MultiBody.mk' ISBad.mb1.bodies ISBad.mb1.joints [-1] [0] [-1] [1] = .ok ISBad.mb1 ∧
    (∀ x : ℚ, ∃ r, (ISBad.mbc1 x).force = [⟨⟨0, 0, x⟩, 0⟩] ∧ forwardKinematics ISBad.mb1 (ISBad.mbc1 x) = .ok (ISBad.mbc1 x) ∧
      inverseStatics ⟨[0]⟩ ISBad.mb1 (ISBad.mbc1 x) = .ok r ∧ r.2.jointTorque = [[-x]]) ∧
    ISBad.dF.map (fun e => (e.cols, e.col 0)) = [(1, ⟨⟨0, 0, 1⟩, 0⟩)] ∧
    ∃ (S : IS ℚ) (r : IS ℚ × MBC ℚ) (D : DMat ℚ), IS.mk' (fun _ => 0) (fun _ => 0) ISBad.mb1 = .ok S ∧
      S.computeTorqueJacobian ISBad.mb1 (ISBad.mbc1 0) ISBad.dF = .ok r ∧ r.1.jointTorqueDiff[0]? = some D ∧ D.get 0 0 = 1 := by
  refine ⟨ISBad.mk_eq1, fun x => ?_, rfl, ?_⟩
  · obtain ⟨r, h1, h2⟩ := ISBad.statics1 x
    exact ⟨r, rfl, ISBad.fk1 x, h1, h2⟩
  · obtain ⟨S, h1, h2⟩ := ok_and (m := IS.mk' (fun _ => 0) (fun _ => 0) ISBad.mb1) (fun S : IS ℚ =>
      ((S.computeTorqueJacobian ISBad.mb1 (ISBad.mbc1 0) ISBad.dF).toOption.map fun r : IS ℚ × MBC ℚ =>
        (r.1.jointTorqueDiff[0]?.map fun D : DMat ℚ => decide (D.get 0 0 = 1)).getD false).getD false) (by decide +kernel)
    obtain ⟨r, h3, h4⟩ := ok_and _ h2
    cases hD : r.1.jointTorqueDiff[0]? with
    | none => rw [hD] at h4; cases h4
    | some D =>
      rw [hD] at h4
      exact ⟨S, r, D, h1, h3, hD, by simpa using h4⟩

/-- C56: the width of the matrices is fixed by the first call. An object that was used once without force derivatives runs into undefined
behaviour (an Eigen size mismatch) on force derivatives with more columns, which a fresh object accepts. -/
theorem C56_sticky_size_counterexample : ∃ (S : IS ℚ) (r r' : IS ℚ × MBC ℚ) (dF : List (FMat ℚ)),
    IS.mk' (fun _ => 0) (fun _ => 0) ISBad.mb1 = .ok S ∧
    S.computeTorqueJacobian ISBad.mb1 (ISBad.mbc1 0) dF = .ok r ∧
    S.computeTorqueJacobian0 ISBad.mb1 (ISBad.mbc1 0) = .ok r' ∧
    r'.1.computeTorqueJacobian ISBad.mb1 r'.2 dF = .error .ub := by
  obtain ⟨S, h1, h2⟩ := ok_and (m := IS.mk' (fun _ => 0) (fun _ => 0) ISBad.mb1) (fun S =>
    ((S.computeTorqueJacobian ISBad.mb1 (ISBad.mbc1 0) [⟨2, fun _ => 0⟩]).toOption.map fun _ => true).getD false &&
    ((S.computeTorqueJacobian0 ISBad.mb1 (ISBad.mbc1 0)).toOption.map fun r : IS ℚ × MBC ℚ =>
      isUb (r.1.computeTorqueJacobian ISBad.mb1 r.2 [⟨2, fun _ => 0⟩])).getD false) (by decide +kernel)
  rw [Bool.and_eq_true] at h2
  obtain ⟨r, h3, -⟩ := ok_and _ h2.1
  obtain ⟨r', h4, h5⟩ := ok_and _ h2.2
  exact ⟨S, r, r', _, h1, h3, h4, of_isUb h5⟩

end RBDyn
