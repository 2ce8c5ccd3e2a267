import Verif.Lemmas.Lagrange

/-! The torque of one degree of freedom in terms of derivatives of the energies. -/

namespace RBDyn
open scoped Mat3
variable {mb : MultiBody ℝ}

theorem coordRate_zero (ty : JointType) {q : List ℝ} (hq : q.length = Joint.nParams ty) :
    coordRate ty q (List.replicate (Joint.nDof ty) 0) = List.replicate (Joint.nParams ty) 0 := by
  cases ty with
  | Rev => rfl
  | Prism => rfl
  | Cylindrical => rfl
  | Fixed => rfl
  | Spherical =>
    obtain ⟨w, x, y, z, rfl⟩ : ∃ w x y z, q = [w, x, y, z] := by
      match q, hq with
      | [w, x, y, z], _ => exact ⟨w, x, y, z, rfl⟩
    simp [coordRate, Joint.nDof, Joint.nParams, List.replicate]
  | Planar =>
    obtain ⟨x, y, z, rfl⟩ : ∃ x y z, q = [x, y, z] := by
      match q, hq with
      | [x, y, z], _ => exact ⟨x, y, z, rfl⟩
    simp [coordRate, Joint.nDof, Joint.nParams, List.replicate]
  | Free =>
    obtain ⟨w, x, y, z, a, b, c, rfl⟩ : ∃ w x y z a b c, q = [w, x, y, z, a, b, c] := by
      match q, hq with
      | [w, x, y, z, a, b, c], _ => exact ⟨w, x, y, z, a, b, c, rfl⟩
    simp [coordRate, Joint.nDof, Joint.nParams, List.replicate]

/-- `Rev`, `Prism` and `Cylindrical` joints: the joints whose coordinates are the integrals of their velocities. -/
def JointType.Holonomic (t : JointType) : Prop := t = .Rev ∨ t = .Prism ∨ t = .Cylindrical

theorem JointType.Holonomic.coordRate {t : JointType} (h : t.Holonomic) (q α : List ℝ) : coordRate t q α = α := by
  rcases h with rfl | rfl | rfl <;> rfl

theorem JointType.Holonomic.nDof {t : JointType} (h : t.Holonomic) : Joint.nDof t = Joint.nParams t := by
  rcases h with rfl | rfl | rfl <;> rfl

theorem JointType.Holonomic.valid {t : JointType} (h : t.Holonomic) {q : List ℝ} (hq : q.length = Joint.nParams t) : ValidParam t q := by
  refine ⟨hq, ?_⟩
  rcases h with rfl | rfl | rfl <;> trivial

theorem Joint.BuiltUnit.dof_eq {j : Joint ℝ} (h : j.BuiltUnit) : j.dof = Joint.nDof j.type := by
  obtain ⟨t, a, f, n, -, rfl | ⟨mn, m, o, rfl⟩⟩ := h.exists_mk <;> rfl

/-- The columns of the motion subspace of a holonomic joint commute. -/
theorem Joint.BuiltUnit.cols_commute {j : Joint ℝ} (h : j.BuiltUnit) (ht : j.type.Holonomic) (a b : Nat) :
    (j.S.getD b 0).cross (j.S.getD a 0) = 0 := by
  have key : ∀ (d : ℝ) (t : JointType) (x : Vec3 ℝ), t.Holonomic → ((Joint.mkS d t x).getD b 0).cross ((Joint.mkS d t x).getD a 0) = 0 := by
    intro d t x ht
    rcases ht with rfl | rfl | rfl
    · rcases a with - | a <;> rcases b with - | b <;> simp [Joint.mkS, List.getD]
    · rcases a with - | a <;> rcases b with - | b <;> simp [Joint.mkS, List.getD]
    · rcases a with - | a | a <;> rcases b with - | b | b <;> simp [Joint.mkS, List.getD] <;> ext <;> simp [MotionVec.cross] <;> ring
  obtain ⟨t, x, f, n, -, rfl | ⟨mn, m, o, rfl⟩⟩ := h.exists_mk
  · exact key _ t x ht
  · exact key _ t x ht

theorem MultiBody.WF.jointMotion_commutes (wf : mb.WF) (hr : mb.Rigid) {i : Nat} {j : Joint ℝ} (hj : mb.joints[i]? = some j)
    (ht : j.type.Holonomic) (hi : i < mb.bodies.length) (α : List (List ℝ)) (a : Nat) :
    ((mb.SAt i).getD a 0).cross (mb.jointMotion α i) = 0 := by
  have hb := hr.joints j (List.mem_of_getElem? hj)
  have hS : mb.SAt i = j.S := by simp [MultiBody.SAt, hj]
  rw [wf.jointMotion_eq _ hi, ← MotionVec.crossHom_apply, map_sum]
  refine Finset.sum_eq_zero fun b _ => ?_
  rw [map_smul, MotionVec.crossHom_apply, hS, hb.cols_commute ht b a, smul_zero]

theorem ValidQ.param {q : List (List ℝ)} (h : ValidQ mb q) {i : Nat} {j : Joint ℝ} (hj : mb.joints[i]? = some j) :
    ∃ l, q[i]? = some l ∧ ValidParam j.type l := by
  obtain ⟨hil, hij⟩ := List.getElem?_eq_some_iff.1 hj
  have hl : i < q.length := by rw [← List.Forall₂.length_eq h]; exact hil
  have := List.Forall₂.get h hil hl
  simp only [List.get_eq_getElem, hij] at this
  exact ⟨_, List.getElem?_eq_getElem hl, this⟩

/-- Changing one coordinate of a holonomic joint keeps the joint positions valid. -/
theorem ValidQ.bump {q : List (List ℝ)} (h : ValidQ mb q) {i : Nat} {j : Joint ℝ} (hj : mb.joints[i]? = some j) (ht : j.type.Holonomic)
    (a : Nat) (x : ℝ) : ValidQ mb (bump q i a x) := by
  refine List.forall₂_iff_get.2 ⟨?_, ?_⟩
  · rw [RBDyn.bump, List.length_modify]; exact List.Forall₂.length_eq h
  · intro l h1 h2
    have hl : l < q.length := by rw [← List.Forall₂.length_eq h]; exact h1
    have := List.Forall₂.get h h1 hl
    simp only [List.get_eq_getElem] at this ⊢
    unfold RBDyn.bump
    rw [List.getElem_modify]
    split
    · rename_i e
      subst e
      rw [List.getElem?_eq_getElem h1] at hj
      cases hj
      exact ht.valid (by rw [List.length_modify]; exact this.1)
    · exact this

/-- Moving one coordinate of a holonomic joint with unit speed is a trajectory with the unit generalized velocity. -/
theorem bump_trajectory (hr : mb.Rigid) {q : List (List ℝ)} (hq : ValidQ mb q) {i : Nat} {j : Joint ℝ} (hj : mb.joints[i]? = some j)
    (ht : j.type.Holonomic) {a : Nat} (ha : a < j.dof) : Trajectory mb (fun x => bump q i a x) (mb.unitDof i a) 0 := by
  refine ⟨fun x => hq.bump hj ht a x, unitDof_sized mb i a, fun l jl hl => ?_⟩
  have hb := hr.joints jl (List.mem_of_getElem? hl)
  obtain ⟨ql, e1, e2⟩ := hq.param hl
  have e3 : ((mb.unitDof i a)[l]?).getD [] = if l = i then (List.replicate jl.dof 0).modify a (· + 1) else List.replicate jl.dof 0 := by
    unfold MultiBody.unitDof
    rw [bump_get, List.getElem?_map, hl]
    rfl
  simp only [e3, bump_get, e1, Option.getD_some]
  by_cases h : l = i
  · subst h
    rw [hl] at hj
    cases hj
    simp only [if_true]
    rw [ht.coordRate]
    have hlen : ql.length = j.dof := by rw [e2.1, hb.dof_eq, ht.nDof]
    refine ⟨fun s => by simp [hlen], fun b => ?_⟩
    rw [modify_getD _ _ _ (by simpa using ha)]
    have e4 : ∀ s : ℝ, (ql.modify a (· + s)).getD b 0 = ql.getD b 0 + if b = a then s else 0 := fun s =>
      modify_getD _ _ _ (by rw [hlen]; exact ha) b
    simp only [e4]
    have e5 : (List.replicate j.dof (0 : ℝ)).getD b 0 = 0 := by
      rw [List.getD_eq_getElem?_getD, List.getElem?_replicate]; split <;> rfl
    rw [e5]
    split
    · exact (hasDerivAt_id (0 : ℝ)).const_add _ |>.congr_deriv (by simp)
    · exact (hasDerivAt_const (0 : ℝ) _).congr_deriv (by simp)
  · simp only [if_neg h]
    rw [hb.dof_eq, coordRate_zero _ e2.1]
    refine ⟨fun s => by simp [e2.1], fun b => ?_⟩
    have e5 : (List.replicate (Joint.nParams jl.type) (0 : ℝ)).getD b 0 = 0 := by
      rw [List.getD_eq_getElem?_getD, List.getElem?_replicate]; split <;> rfl
    rw [e5]
    exact hasDerivAt_const _ _

/-- Kinetic energy of the robot in configuration `q` with generalized velocity `α`. -/
noncomputable def MultiBody.kinE (mb : MultiBody ℝ) (q α : List (List ℝ)) : ℝ :=
  (1 / 2) * ∑ k ∈ Finset.range mb.nrBodies, (mb.velAt q α k).dot ((mb.inertiaAt k).mulMotion (mb.velAt q α k))

/-- Potential energy of the robot in configuration `q`. -/
noncomputable def MultiBody.potE (mb : MultiBody ℝ) (g : Vec3 ℝ) (q : List (List ℝ)) : ℝ :=
  ∑ k ∈ Finset.range mb.nrBodies, g.dot (massPos (mb.posAt q k) (mb.inertiaAt k))

/-- Generalized momentum of degree of freedom `a` of joint `i`. -/
noncomputable def MultiBody.genMom (mb : MultiBody ℝ) (q α : List (List ℝ)) (i a : Nat) : ℝ :=
  ∑ k ∈ Finset.range mb.nrBodies, (mb.colAt q k i a).dot ((mb.inertiaAt k).mulMotion (mb.velAt q α k))

theorem RBInertia.mulMotion_smul' {K : Type} [Scalar K] (I : RBInertia K) (s : K) (v : MotionVec K) : I.mulMotion (s • v) = s • I.mulMotion v := by
  ext <;> simp [RBInertia.mulMotion] <;> ring

theorem MultiBody.WF.kinE_bump (wf : mb.WF) {α : List (List ℝ)} (hα : SizedDof mb α) {i a : Nat} (hi : i < mb.bodies.length)
    (ha : a < mb.dofAt i) (q : List (List ℝ)) : HasDerivAt (fun x => mb.kinE q (bump α i a x)) (mb.genMom q α i a) 0 := by
  have key : ∀ k ∈ Finset.range mb.nrBodies, HasDerivAt (fun x => (mb.velAt q (bump α i a x) k).dot
      ((mb.inertiaAt k).mulMotion (mb.velAt q (bump α i a x) k)))
      (2 * (mb.colAt q k i a).dot ((mb.inertiaAt k).mulMotion (mb.velAt q α k))) 0 := by
    intro k _
    have e : ∀ x : ℝ, (mb.velAt q (bump α i a x) k).dot ((mb.inertiaAt k).mulMotion (mb.velAt q (bump α i a x) k)) =
        (mb.velAt q α k).dot ((mb.inertiaAt k).mulMotion (mb.velAt q α k)) +
          x * (2 * (mb.colAt q k i a).dot ((mb.inertiaAt k).mulMotion (mb.velAt q α k))) +
          x * x * (mb.colAt q k i a).dot ((mb.inertiaAt k).mulMotion (mb.colAt q k i a)) := by
      intro x
      rw [wf.velAt_bump hα hi ha, RBInertia.mulMotion_add, RBInertia.mulMotion_smul', MotionVec.add_dot, MotionVec.dot_add, MotionVec.dot_add,
        MotionVec.smul_dot, MotionVec.smul_dot, MotionVec.dot_smul, MotionVec.dot_smul,
        RBInertia.dot_mulMotion_comm (v := mb.velAt q α k) (w := mb.colAt q k i a)]
      ring
    simp only [e]
    have h0 := hasDerivAt_id (0 : ℝ)
    refine (((hasDerivAt_const (0 : ℝ) _).add (h0.mul_const _)).add ((h0.mul h0).mul_const _)).congr_deriv ?_
    simp
  refine ((HasDerivAt.finset_sum key).const_mul _).congr_deriv ?_
  rw [← Finset.mul_sum, MultiBody.genMom]
  ring

/-- Derivative of the potential energy when one degree of freedom moves with unit speed. -/
theorem MultiBody.potE_hasDeriv (wf : mb.WF) (hr : mb.Rigid) (hd : mb.DirOK) {i a : Nat} (hi : i < mb.bodies.length) (ha : a < mb.dofAt i)
    {Q : ℝ → List (List ℝ)} (hQ : Trajectory mb Q (mb.unitDof i a) 0) (g : Vec3 ℝ) :
    HasDerivAt (fun x => mb.potE g (Q x)) (∑ k ∈ Finset.range mb.nrBodies, (mb.colAt (Q 0) k i a).dot
      ((mb.inertiaAt k).mulMotion ((mb.posAt (Q 0) k).mulMotion ⟨0, g⟩))) 0 := by
  refine HasDerivAt.finset_sum fun k hk => ?_
  have hk : k < mb.bodies.length := Finset.mem_range.1 hk
  refine ((HasDerivVec.const g 0).dot (massPos_hasDeriv (mb.posAt_hasVelocity wf hr hd hQ hk) (mb.inertiaAt k))).congr_deriv ?_
  rw [wf.velAt_unit hi ha, RBInertia.dot_mulMotion_comm, Vec3.zero_dot, zero_add, Mat3.dot_mulVec, Mat3.tr_tr]
  simp [MotionVec.dot, PTransform.mulMotion]

/-- The torque of one degree of freedom as the Lagrange operator of the energies, with Hamel's term for a joint whose columns do not commute. -/
theorem MultiBody.hamel (wf : mb.WF) (hr : mb.Rigid) (hd : mb.DirOK) {q α : ℝ → List (List ℝ)} {αD : List (List ℝ)} {t : ℝ}
    (h : Trajectory mb q (α t) t) (had : HasDerivDof mb α αD t) {i a : Nat} (hi : i < mb.bodies.length) (ha : a < mb.dofAt i)
    {Q : ℝ → List (List ℝ)} (hQ : Trajectory mb Q (mb.unitDof i a) 0) (hQ0 : Q 0 = q t) (g : Vec3 ℝ) (fext : Nat → ForceVec ℝ) :
    ∃ p' Tq Uq, HasDerivAt (fun s => mb.genMom (q s) (α s) i a) p' t ∧ HasDerivAt (fun x => mb.kinE (Q x) (α t)) Tq 0 ∧
      HasDerivAt (fun x => mb.potE g (Q x)) Uq 0 ∧
      ((mb.SAt i).getD a 0).dot (mb.wrenchAt (q t) (mb.netForceAt (q t) (α t) αD ⟨0, g⟩ fext) i) =
        p' - Tq + Uq - (∑ k ∈ Finset.range mb.nrBodies, (mb.colAt (q t) k i a).dot ((mb.posAt (q t) k).dualMul (fext k))) +
          (((mb.SAt i).getD a 0).cross (mb.jointMotion (α t) i)).dot
            (mb.wrenchAt (q t) (fun k => (mb.inertiaAt k).mulMotion (mb.velAt (q t) (α t) k)) i) := by
  have hp : HasDerivAt (fun s => mb.genMom (q s) (α s) i a) (∑ k ∈ Finset.range mb.nrBodies,
      ((mb.bdotAt (q t) (α t) k i a).dot ((mb.inertiaAt k).mulMotion (mb.velAt (q t) (α t) k)) +
        (mb.colAt (q t) k i a).dot ((mb.inertiaAt k).mulMotion (mb.accAt (q t) (α t) αD 0 k)))) t :=
    HasDerivAt.finset_sum fun k hk => (mb.colAt_hasDeriv wf hr hd h (Finset.mem_range.1 hk) hi a).dot
      ((mb.velAt_hasDeriv wf hr hd h had (Finset.mem_range.1 hk)).mulInertia (mb.inertiaAt k))
  have hβ : ∀ l, l < mb.bodies.length → l ≠ i → mb.jointMotion (mb.unitDof i a) l = 0 := fun l hl hne => by
    rw [wf.jointMotion_unit hi ha hl, if_neg hne]
  have hβi : mb.jointMotion (mb.unitDof i a) i = (mb.SAt i).getD a 0 := by rw [wf.jointMotion_unit hi ha hi, if_pos rfl]
  have hT : HasDerivAt (fun x => mb.kinE (Q x) (α t)) ((1 / 2) * ∑ k ∈ Finset.range mb.nrBodies, 2 * (if i ∈ pathUp mb.par k then
      (mb.relAt (q t) i k).mulMotion ((mb.velAt (q t) (α t) i - mb.jointMotion (α t) i).cross ((mb.SAt i).getD a 0)) else 0).dot
        ((mb.inertiaAt k).mulMotion (mb.velAt (q t) (α t) k))) 0 := by
    refine HasDerivAt.const_mul _ (HasDerivAt.finset_sum fun k hk => ?_)
    have hv := mb.velAt_displaced wf hr hd hQ hβ (α t) (Finset.mem_range.1 hk)
    rw [hβi, hQ0] at hv
    refine (hv.dot (hv.mulInertia (mb.inertiaAt k))).congr_deriv ?_
    rw [hQ0, RBInertia.dot_mulMotion_comm (v := mb.velAt (q t) (α t) k)]
    ring
  have hU := mb.potE_hasDeriv wf hr hd hi ha hQ g
  rw [hQ0] at hU
  refine ⟨_, _, _, hp, hT, hU, ?_⟩
  have e1 : (((mb.SAt i).getD a 0).cross (mb.jointMotion (α t) i)).dot
      (mb.wrenchAt (q t) (fun k => (mb.inertiaAt k).mulMotion (mb.velAt (q t) (α t) k)) i) =
      -∑ k ∈ Finset.range mb.nrBodies, (if i ∈ pathUp mb.par k then (mb.relAt (q t) i k).mulMotion
        ((mb.jointMotion (α t) i).cross ((mb.SAt i).getD a 0)) else 0).dot ((mb.inertiaAt k).mulMotion (mb.velAt (q t) (α t) k)) := by
    unfold MultiBody.wrenchAt MultiBody.subtree
    rw [MotionVec.cross_anti, MotionVec.neg_dot', MotionVec.dot_sum, Finset.sum_filter]
    congr 1
    refine Finset.sum_congr rfl fun k _ => ?_
    split
    · rw [PTransform.mulMotion_dot]
    · simp
  rw [e1, mb.dot_wrenchAt, Finset.mul_sum, ← Finset.sum_sub_distrib, ← Finset.sum_add_distrib, ← Finset.sum_sub_distrib, ← sub_eq_add_neg,
    ← Finset.sum_sub_distrib]
  refine Finset.sum_congr rfl fun k _ => ?_
  have hm := congrArg (fun v : MotionVec ℝ => v.dot ((mb.inertiaAt k).mulMotion (mb.velAt (q t) (α t) k)))
    (mb.mixed_derivatives hr (h.valid t) (α t) k i a)
  simp only [MotionVec.sub_dot, MotionVec.add_dot, MotionVec.neg_dot'] at hm
  rw [MultiBody.netForceAt, mb.accAt_base, RBInertia.mulMotion_add, MotionVec.dot_sub, MotionVec.dot_add, MotionVec.dot_add,
    MotionVec.dot_crossDual]
  have hc : ((mb.velAt (q t) (α t) k).cross (mb.colAt (q t) k i a)).dot ((mb.inertiaAt k).mulMotion (mb.velAt (q t) (α t) k)) =
      -((mb.colAt (q t) k i a).cross (mb.velAt (q t) (α t) k)).dot ((mb.inertiaAt k).mulMotion (mb.velAt (q t) (α t) k)) := by
    rw [MotionVec.cross_anti, MotionVec.neg_dot']
  linarith

end RBDyn
