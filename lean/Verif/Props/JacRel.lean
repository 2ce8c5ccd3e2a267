import Verif.Lemmas.JacRel
import Verif.Props.Jacobian

/-! Property C37 (relative Jacobians). -/

namespace RBDyn
variable {K : Type} [Scalar K] {mb : MultiBody K}
open scoped Mat3

/-- C37, partial: a Jacobian for the point `p` of body `N` relative to body `R`, times the velocities of the joints of its path, is the
velocity of the point relative to `R`: with the orientation of `R` if `R` is not body 0 (of the world otherwise) for `jacobian`, and with
the orientation of the body for `bodyJacobian`.

Full statement: the same for all pairs of bodies. Missing, because the code is wrong there (see the counterexamples below): `N = R` and `N`
an ancestor of `R`; and bodies of different branches whose deepest common ancestor is the root, if the root joint has degrees of freedom. -/
theorem C37_relative_partial (wf : mb.WF) (hr : mb.Rigid) {mbc : MBC K} (sz : mbc.Sized mb) (hq : ValidQ mb mbc.q) (hv : mbc.VelReady mb)
    (junk : Nat → MotionVec K) {name rname : String} {N R : Nat} (hN : mb.sBodyIndexByName name = .ok (N : Int))
    (hR : mb.sBodyIndexByName rname = .ok (R : Int)) (hNl : N < mb.nrBodies) (hRl : R < mb.nrBodies) (h : mb.RelOK N R) (p : Vec3 K) :
    ∃ (J J₁ J₂ : Jac K) (W W' : PTransform K) (V V' : MotionVec K), Jac.mkRel junk mb name rname p = .ok J ∧
      J.jacobian mb mbc = .ok J₁ ∧ J.bodyJacobian mb mbc = .ok J₂ ∧ mbc.bodyPosW[N]? = some W ∧ mbc.bodyPosW[R]? = some W' ∧
      mbc.bodyVelB[N]? = some V ∧ mbc.bodyVelB[R]? = some V' ∧
      applyCols J₁.jac (pathVec J.path mbc.alpha) =
        ⟨(if 0 < R then W'.E else 1) *ᵥ (relPointVel W V W' V' p).ang, (if 0 < R then W'.E else 1) *ᵥ (relPointVel W V W' V' p).lin⟩ ∧
      applyCols J₂.jac (pathVec J.path mbc.alpha) = ⟨W.E *ᵥ (relPointVel W V W' V' p).ang, W.E *ᵥ (relPointVel W V W' V' p).lin⟩ := by
  obtain ⟨J, e, hJ⟩ := Jac.mkRel_of wf junk hN hR hNl hRl h p
  have hNl : N < mb.bodies.length := hNl
  have hRl : R < mb.bodies.length := hRl
  have rN := mb.posAt_rigid hr hq N
  have rR := mb.posAt_rigid hr hq R
  have key : applyCols (mb.jacCols mbc.q (.ofTrans (PTransform.ofTrans p * mb.posAt mbc.q N).r) J.path J.sign) (pathVec J.path mbc.alpha) =
      relPointVel (mb.posAt mbc.q N) (mb.velAt mbc.q mbc.alpha N) (mb.posAt mbc.q R) (mb.velAt mbc.q mbc.alpha R) p := by
    rw [hJ.apply wf hr hq sz.alpha, ofTrans_mul_inv rN, ofTrans_world, pointVel_eq, pointVel_eq]
    rfl
  refine ⟨J, _, _, _, _, _, _, e, hJ.jacobian_eq wf hv.toPosReady, hJ.bodyJacobian_eq wf hv.toPosReady,
    by rw [hv.bodyPosW, range_map_getElem? hNl], by rw [hv.bodyPosW, range_map_getElem? hRl],
    by rw [hv.bodyVelB, range_map_getElem? hNl], by rw [hv.bodyVelB, range_map_getElem? hRl], ?_, ?_⟩
  · dsimp only
    by_cases h0 : 0 < R
    · simp only [if_pos h0]
      rw [rotCols_apply, key]
      simp [PTransform.mulMotion, PTransform.ofRot]
    · simp only [if_neg h0, id, key, Mat3.one_mulVec]
  · dsimp only
    have hX : PTransform.ofTrans p * mb.posAt mbc.q N =
        PTransform.ofRot (mb.posAt mbc.q N).E * .ofTrans (PTransform.ofTrans p * mb.posAt mbc.q N).r := by
      ext1
      · simp [PTransform.ofRot, PTransform.ofTrans]
      · simp [PTransform.ofRot, PTransform.ofTrans]
    rw [hX, ← jacCols_map hr hq _ _ (ofTrans_rigid _)]
    have : ((mb.jacCols mbc.q (.ofTrans (PTransform.ofTrans p * mb.posAt mbc.q N).r) J.path J.sign).map
        (PTransform.ofRot (mb.posAt mbc.q N).E).mulMotion) =
        rotCols (mb.posAt mbc.q N).E (mb.jacCols mbc.q (.ofTrans (PTransform.ofTrans p * mb.posAt mbc.q N).r) J.path J.sign) := by
      unfold rotCols
      refine List.map_congr_left fun c _ => ?_
      simp [PTransform.mulMotion, PTransform.ofRot]
    rw [this, rotCols_apply, key]
    simp [PTransform.mulMotion, PTransform.ofRot]

/-- C37, partial, with true derivatives: for a reference body other than body 0, the linear rows of the relative Jacobian times `α` are the
time derivative of the coordinates of the point in the frame of the reference body. -/
theorem C37_derivative_partial {mb : MultiBody ℝ} (wf : mb.WF) (hr : mb.Rigid) (hd : mb.DirOK) {mbc : ℝ → MBC ℝ} {t : ℝ}
    (sz : ∀ s, (mbc s).Sized mb) (hv : ∀ s, (mbc s).PosReady mb) (h : Trajectory mb (fun s => (mbc s).q) (mbc t).alpha t)
    (junk : Nat → MotionVec ℝ) {name rname : String} {N R : Nat} (hN : mb.sBodyIndexByName name = .ok (N : Int))
    (hR : mb.sBodyIndexByName rname = .ok (R : Int)) (hNl : N < mb.nrBodies) (hRl : R < mb.nrBodies) (hok : mb.RelOK N R) (hR0 : 0 < R)
    (p : Vec3 ℝ) :
    ∃ (J J₁ : Jac ℝ) (W W' : ℝ → PTransform ℝ), Jac.mkRel junk mb name rname p = .ok J ∧ J.jacobian mb (mbc t) = .ok J₁ ∧
      (∀ s, (mbc s).bodyPosW[N]? = some (W s)) ∧ (∀ s, (mbc s).bodyPosW[R]? = some (W' s)) ∧
      HasDerivVec (fun s => (W' s).E *ᵥ ((PTransform.ofTrans p * W s).r - (W' s).r)) (applyCols J₁.jac (pathVec J.path (mbc t).alpha)).lin t := by
  obtain ⟨J, e, hJ⟩ := Jac.mkRel_of wf junk hN hR hNl hRl hok p
  have hNl : N < mb.bodies.length := hNl
  have hRl : R < mb.bodies.length := hRl
  have hq := h.valid t
  have rN := mb.posAt_rigid hr hq N
  have rR := mb.posAt_rigid hr hq R
  have hvel := (mb.toPoint_hasVelocity wf hr hd h hNl hRl p).trans
  refine ⟨J, _, fun s => mb.posAt (mbc s).q N, fun s => mb.posAt (mbc s).q R, e, hJ.jacobian_eq wf (hv t),
    fun s => by rw [(hv s).bodyPosW, range_map_getElem? hNl], fun s => by rw [(hv s).bodyPosW, range_map_getElem? hRl], ?_⟩
  have e1 : (fun s => (mb.posAt (mbc s).q R).E *ᵥ ((PTransform.ofTrans p * mb.posAt (mbc s).q N).r - (mb.posAt (mbc s).q R).r)) =
      fun s => (mb.toPoint (mbc s).q N p R).r := by
    funext s
    unfold MultiBody.toPoint
    rw [PTransform.mul_r (PTransform.ofTrans p * _)]
    simp only [PTransform.inv, Mat3.tr_tr, Mat3.mulVec_sub]
    abel
  rw [e1]
  refine hvel.congr ?_
  dsimp only
  rw [if_pos hR0, rotCols_apply, hJ.apply wf hr hq (sz t).alpha, toPoint_world hr hq, toPoint_world hr hq, mb.toPoint_self hr hq,
    PTransform.mul_mulMotion _ _ _ (ofTrans_rigid p), PTransform.mul_mulMotion _ _ _ (mb.toPoint_rigid hr hq N p R),
    ← PTransform.mulMotion_sub]
  generalize (PTransform.ofTrans p).mulMotion (mb.velAt (mbc t).q (mbc t).alpha N) -
    (mb.toPoint (mbc t).q N p R).mulMotion (mb.velAt (mbc t).q (mbc t).alpha R) = v
  have hE : (mb.toPoint (mbc t).q N p R).E = (mb.posAt (mbc t).q N).E * (mb.posAt (mbc t).q R).E.tr := by
    simp [MultiBody.toPoint, PTransform.ofTrans, PTransform.inv]
  rw [hE, Mat3.tr_mul, Mat3.tr_tr, Mat3.mul_mulVec]
  simp [PTransform.mulMotion, PTransform.ofRot]

/-! ### Hypotheses can be met -/

/-- The hand relative to the base of the sample robot: the base is an ancestor. -/
example : Sample.mb.RelOK 2 0 := by
  refine ⟨by decide +kernel, .inl (by decide +kernel)⟩

namespace Sample

/-- A robot with two branches that part at body 1: base – torso – (left arm – left hand), right arm. -/
def forkBodies : List (Body ℚ) := ["base", "torso", "left", "hand", "right"].map fun n => ⟨⟨1, 0, ⟨1, 0, 1, 0, 0, 1⟩⟩, n⟩
def forkJoints : List (Joint ℚ) :=
  [Joint.mk' .Fixed ⟨0, 0, 1⟩ true "root", Joint.mk' .Rev ⟨0, 0, 1⟩ true "hip", Joint.mk' .Rev ⟨1, 0, 0⟩ true "ls",
   Joint.mk' .Prism ⟨0, 1, 0⟩ true "lw", Joint.mk' .Rev ⟨0, 1, 0⟩ true "rs"]
def fork : MultiBody ℚ := ((MultiBody.mk' forkBodies forkJoints [-1, 0, 1, 2, 1] [0, 1, 2, 3, 4] [-1, 0, 1, 2, 1] (List.replicate 5 1)).toOption).getD
  ⟨[], [], [], [], [], [], [], [], [], [], 0, 0⟩

theorem fork_eq : MultiBody.mk' forkBodies forkJoints [-1, 0, 1, 2, 1] [0, 1, 2, 3, 4] [-1, 0, 1, 2, 1] (List.replicate 5 1) = .ok fork := by
  decide +kernel

theorem fork_units : ∀ j ∈ forkJoints, j.BuiltUnit := by
  intro j hj
  simp only [forkJoints, List.mem_cons, List.not_mem_nil, or_false] at hj
  rcases hj with rfl | rfl | rfl | rfl | rfl
  · exact .mk _ _ _ _ trivial
  · exact .mk _ _ _ _ (by simp [ValidAxis, IsUnit3])
  · exact .mk _ _ _ _ (by simp [ValidAxis, IsUnit3])
  · exact .mk _ _ _ _ trivial
  · exact .mk _ _ _ _ (by simp [ValidAxis, IsUnit3])

theorem fork_wf : fork.WF := by
  obtain ⟨mb', h, hw, -⟩ := MultiBody.mk'_wf forkBodies forkJoints [-1, 0, 1, 2, 1] [0, 1, 2, 3, 4] [-1, 0, 1, 2, 1] (List.replicate 5 1) rfl rfl rfl
    (by intro i hi
        have : i < 5 := hi
        obtain rfl | rfl | rfl | rfl | rfl : i = 0 ∨ i = 1 ∨ i = 2 ∨ i = 3 ∨ i = 4 := by omega
        all_goals rfl)
    (by intro i p hp
        obtain ⟨hi, -⟩ := List.getElem?_eq_some_iff.1 hp
        have : i < 5 := hi
        obtain rfl | rfl | rfl | rfl | rfl : i = 0 ∨ i = 1 ∨ i = 2 ∨ i = 3 ∨ i = 4 := by omega
        all_goals (cases hp; decide))
    rfl (fun j hj => (fork_units j hj).built)
  rw [fork_eq] at h
  cases h
  exact hw

/-- Left hand and right arm of the forked robot: deepest common ancestor is the torso, which has a parent. -/
theorem fork_relOK : fork.RelOK 3 4 := by
  refine ⟨by decide +kernel, .inr ⟨1, ⟨by decide +kernel, by decide +kernel, ?_⟩, .inl ⟨0, by decide +kernel⟩⟩⟩
  have h3 : pathUp fork.par 3 = [3, 2, 1, 0] := by decide +kernel
  have h4 : pathUp fork.par 4 = [4, 1, 0] := by decide +kernel
  have h1 : pathUp fork.par 1 = [1, 0] := by decide +kernel
  intro x hx hx'
  rw [h3] at hx
  rw [h4] at hx'
  rw [h1]
  simp only [List.mem_cons, List.not_mem_nil, or_false] at *
  omega

end Sample

/-- The relative Jacobian of the left hand in the right arm of the forked robot: its path goes down the right arm with sign -1 and up the
left arm with sign 1. -/
example : ∃ J, Jac.mkRel (fun _ => 0) Sample.fork "hand" "right" ⟨1, 0, 0⟩ = .ok J ∧ J.Rel Sample.fork 3 4 ⟨1, 0, 0⟩ ∧ J.path = [4, 2, 3] ∧
    J.sign = [-1, 1, 1] := by
  obtain ⟨J, e, h⟩ := Jac.mkRel_of Sample.fork_wf (fun _ => 0) (name := "hand") (rname := "right") (N := 3) (R := 4) (by decide +kernel)
    (by decide +kernel) (by decide +kernel) (by decide +kernel) Sample.fork_relOK ⟨1, 0, 0⟩
  have hJ : J = ((Jac.mkRel (fun _ => 0) Sample.fork "hand" "right" ⟨1, 0, 0⟩).toOption).getD ⟨[], [], 1, [], [], 0, 0⟩ := by rw [e]; rfl
  refine ⟨J, e, h, ?_, ?_⟩
  · rw [hJ]; decide +kernel
  · rw [hJ]; decide +kernel

/-! ### Counterexamples -/

/-- What C37 says for one robot, state and pair of bodies (for a reference body other than body 0): the constructor and `jacobian` succeed and the result is
the relative velocity. -/
def RelClaim (mb : MultiBody K) (mbc : MBC K) (name rname : String) (N R : Nat) (p : Vec3 K) : Prop :=
  ∃ (J J₁ : Jac K) (W W' : PTransform K) (V V' : MotionVec K), Jac.mkRel (fun _ => 0) mb name rname p = .ok J ∧
    J.jacobian mb mbc = .ok J₁ ∧ mbc.bodyPosW[N]? = some W ∧ mbc.bodyPosW[R]? = some W' ∧
    mbc.bodyVelB[N]? = some V ∧ mbc.bodyVelB[R]? = some V' ∧
    applyCols J₁.jac (pathVec J.path mbc.alpha) =
      ⟨W'.E *ᵥ (relPointVel W V W' V' p).ang, W'.E *ᵥ (relPointVel W V W' V' p).lin⟩

/-- The same, computed. -/
def relCheck (mb : MultiBody ℚ) (mbc : MBC ℚ) (name rname : String) (N R : Nat) (p : Vec3 ℚ) : Bool :=
  match Jac.mkRel (fun _ => 0) mb name rname p with
  | .ok J => match J.jacobian mb mbc, mbc.bodyPosW[N]?, mbc.bodyPosW[R]?, mbc.bodyVelB[N]?, mbc.bodyVelB[R]? with
    | .ok J₁, some W, some W', some V, some V' => applyCols J₁.jac (pathVec J.path mbc.alpha) =
      ⟨W'.E *ᵥ (relPointVel W V W' V' p).ang, W'.E *ᵥ (relPointVel W V W' V' p).lin⟩
    | _, _, _, _, _ => false
  | .error _ => false

theorem relCheck_of {mb : MultiBody ℚ} {mbc : MBC ℚ} {name rname : String} {N R : Nat} {p : Vec3 ℚ}
    (h : RelClaim mb mbc name rname N R p) : relCheck mb mbc name rname N R p = true := by
  obtain ⟨J, J₁, W, W', V, V', e1, e2, e3, e4, e5, e6, e7⟩ := h
  unfold relCheck
  simp only [e1, e2, e3, e4, e5, e6, e7, decide_true]

/-- C37 fails for the hand relative to the slider of the sample robot: their deepest common ancestor is the root, and the columns of the
free root joint stay in the Jacobian. -/
theorem C37_counterexample_root : ¬ RelClaim Sample.mb Sample.mbcV "hand" "slider" 2 3 ⟨1, 2, 3⟩ := by
  intro h
  have := relCheck_of h
  revert this
  decide +kernel

/-- C37 fails for the arm relative to the hand: the body is an ancestor of the reference body, and the Jacobian is that of a point of the hand. -/
theorem C37_counterexample_ancestor : ¬ RelClaim Sample.mb Sample.mbcV "arm" "hand" 1 2 ⟨1, 2, 3⟩ := by
  intro h
  have := relCheck_of h
  revert this
  decide +kernel

/-- C37 fails for a body relative to itself: the path is empty and `jacobian` reads its last element. -/
theorem C37_counterexample_self : ∃ J, Jac.mkRel (fun _ => 0) Sample.mb "hand" "hand" ⟨1, 2, 3⟩ = .ok J ∧ J.jacobian Sample.mb Sample.mbcV = .error .ub := by
  refine ⟨((Jac.mkRel (fun _ => 0) Sample.mb "hand" "hand" ⟨1, 2, 3⟩).toOption).getD ⟨[], [], 1, [], [], 0, 0⟩, ?_, ?_⟩
  · decide +kernel
  · decide +kernel

end RBDyn
