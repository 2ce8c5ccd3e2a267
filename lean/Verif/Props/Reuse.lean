import Verif.Lemmas.ReuseKeeps
import Verif.Props.IS
import Verif.Props.IK
import Verif.Props.JacVec
import Verif.Props.Checked

/-!
C76: the classes that hold an algorithm (`InverseDynamics`, `ForwardDynamics`, `InverseStatics`, `Jacobian`, `Coriolis`,
`CoMJacobianDummy`, `CoMJacobian`, `CentroidalMomentumMatrix`, `IDIM`, `InverseKinematics`) have working memory that the constructor does
not initialise and that every call overwrites. `X.Used` describes all objects of the class `X` that a program can have: made by a
constructor, with anything in the memory it does not initialise, and then used for any number of calls with any states. Two such objects
give the same results and the same errors.
-/

namespace RBDyn
variable {K : Type} [Scalar K] {mb : MultiBody K}

/-- What can be read from a matrix. -/
def DMat.values (m : DMat K) : Nat × Nat × List (List K) :=
  (m.rows, m.cols, (List.range m.rows).map fun i => (List.range m.cols).map fun j => m.get i j)

theorem DMat.Agree.values {m m' : DMat K} (h : m.Agree m') : m.values = m'.values := by
  unfold DMat.values
  rw [← h.rows, ← h.cols]
  congr 2
  refine List.map_congr_left fun i hi => List.map_congr_left fun j hj => ?_
  rw [h.get i j (List.mem_range.1 hi) (List.mem_range.1 hj)]

/-! ### Inverse dynamics -/

/-- The `InverseDynamics` objects of a program. -/
inductive ID.Used (mb : MultiBody K) : ID K → Prop
  | new (junk : Nat → ForceVec K) : ID.Used mb (ID.mk' junk mb)
  | inverseDynamics {d d' : ID K} {mbc mbc' : MBC K} : ID.Used mb d → d.inverseDynamics mb mbc = .ok (d', mbc') → ID.Used mb d'
  | inverseDynamicsNoInertia {d d' : ID K} {mbc mbc' : MBC K} : ID.Used mb d → d.inverseDynamicsNoInertia mb mbc = .ok (d', mbc') →
      ID.Used mb d'

theorem ID.Used.length {d : ID K} (h : d.Used mb) : d.f.length = mb.bodies.length := by
  induction h with
  | new junk => simp [ID.mk', MultiBody.nrBodies]
  | inverseDynamics _ e ih => exact ID.inverseDynamics_keeps ih _ _ e
  | inverseDynamicsNoInertia _ e ih => exact ID.inverseDynamicsNoInertia_keeps ih _ _ e

/-- C76 for `InverseDynamics`: two objects give the same joint torques, or the same error, whatever they were used for before. -/
theorem C76_inverse_dynamics {d d' : ID K} (h : d.Used mb) (h' : d'.Used mb) (mbc : MBC K) :
    d.inverseDynamics mb mbc = d'.inverseDynamics mb mbc ∧ d.inverseDynamicsNoInertia mb mbc = d'.inverseDynamicsNoInertia mb mbc ∧
    d.sInverseDynamics mb mbc = d'.sInverseDynamics mb mbc ∧ d.sInverseDynamicsNoInertia mb mbc = d'.sInverseDynamicsNoInertia mb mbc := by
  have e1 := ID.inverseDynamics_alike h.length h'.length mbc
  have e2 := ID.inverseDynamicsNoInertia_alike h.length h'.length mbc
  unfold ID.sInverseDynamics ID.sInverseDynamicsNoInertia
  exact ⟨e1, e2, by rw [e1], by rw [e2]⟩

/-- Two inverse dynamics objects of the sample robot with different memory: a new one and one that was used. -/
example : ∃ d d' : ID ℚ, d.Used Sample.mb ∧ d'.Used Sample.mb ∧ d.f ≠ d'.f ∧ ∃ r, d.inverseDynamics Sample.mb Sample.mbcV = .ok r ∧
    r.2.jointTorque[1]? ≠ some [0] := by
  obtain ⟨⟨d', m⟩, e, c⟩ := ok_and (m := Sample.id.inverseDynamics Sample.mb Sample.mbcV)
    (fun r : ID ℚ × MBC ℚ => decide ((ID.mk' (fun _ => ⟨⟨7, 7, 7⟩, 0⟩) Sample.mb).f ≠ r.1.f) && (((ID.mk' (fun _ => ⟨⟨7, 7, 7⟩, 0⟩) Sample.mb).inverseDynamics Sample.mb
      Sample.mbcV).toOption.map fun r : ID ℚ × MBC ℚ => decide (r.2.jointTorque[1]? ≠ some [0])).getD false) (by decide +kernel)
  rw [Bool.and_eq_true, decide_eq_true_eq] at c
  obtain ⟨r, e', c'⟩ := ok_and _ c.2
  exact ⟨_, d', .new fun _ => ⟨⟨7, 7, 7⟩, 0⟩, .inverseDynamics (.new fun _ => 0) e, c.1, r, e', of_decide_eq_true c'⟩

/-- The `InverseStatics` objects of a program, as far as `inverseStatics` uses them. -/
inductive ID.StaticsUsed (mb : MultiBody K) : ID K → Prop
  | new (junk : Nat → ForceVec K) : ID.StaticsUsed mb (ID.mk' junk mb)
  | inverseStatics {d d' : ID K} {mbc mbc' : MBC K} : ID.StaticsUsed mb d → RBDyn.inverseStatics d mb mbc = .ok (d', mbc') →
      ID.StaticsUsed mb d'

theorem ID.StaticsUsed.length {d : ID K} (h : d.StaticsUsed mb) : d.f.length = mb.bodies.length := by
  induction h with
  | new junk => simp [ID.mk', MultiBody.nrBodies]
  | inverseStatics _ e ih => exact inverseStatics_keeps ih _ _ e

/-- C76 for `InverseStatics::inverseStatics`. `computeTorqueJacobian` is different: see `C76_torque_jacobian_counterexample`. -/
theorem C76_inverse_statics {d d' : ID K} (h : d.StaticsUsed mb) (h' : d'.StaticsUsed mb) (mbc : MBC K) :
    inverseStatics d mb mbc = inverseStatics d' mb mbc ∧ sInverseStatics d mb mbc = sInverseStatics d' mb mbc := by
  have e := inverseStatics_alike h.length h'.length mbc
  unfold sInverseStatics
  exact ⟨e, by rw [e]⟩

example : ∃ d d' : ID ℚ, d.StaticsUsed Sample.mb ∧ d'.StaticsUsed Sample.mb ∧ d.f ≠ d'.f ∧
    ∃ r, inverseStatics d Sample.mb Sample.mbcV = .ok r := by
  obtain ⟨⟨d', m⟩, e, c⟩ := ok_and (m := inverseStatics Sample.id Sample.mb Sample.mbcV)
    (fun r : ID ℚ × MBC ℚ => decide ((ID.mk' (fun _ => ⟨⟨7, 7, 7⟩, 0⟩) Sample.mb).f ≠ r.1.f) && ((inverseStatics (ID.mk' (fun _ => ⟨⟨7, 7, 7⟩, 0⟩) Sample.mb) Sample.mb
      Sample.mbcV).toOption.map fun _ => true).getD false) (by decide +kernel)
  rw [Bool.and_eq_true, decide_eq_true_eq] at c
  obtain ⟨r, e', -⟩ := ok_and _ c.2
  exact ⟨_, d', .new fun _ => ⟨⟨7, 7, 7⟩, 0⟩, .inverseStatics (.new fun _ => 0) e, c.1, r, e'⟩

/-- C76, what the code does instead: an `InverseStatics` object that computed a torque Jacobian once without force derivatives runs into
undefined behaviour where a new object does not. -/
theorem C76_torque_jacobian_counterexample : ∃ (S : IS ℚ) (r r' : IS ℚ × MBC ℚ) (dF : List (FMat ℚ)),
    IS.mk' (fun _ => 0) (fun _ => 0) ISBad.mb1 = .ok S ∧
    S.computeTorqueJacobian ISBad.mb1 (ISBad.mbc1 0) dF = .ok r ∧
    S.computeTorqueJacobian0 ISBad.mb1 (ISBad.mbc1 0) = .ok r' ∧
    r'.1.computeTorqueJacobian ISBad.mb1 r'.2 dF = .error .ub := C56_sticky_size_counterexample

/-! ### Forward dynamics -/

/-- The `ForwardDynamics` objects of a program; `solve` is Eigen's linear solver. -/
inductive FD.Used (mb : MultiBody K) (solve : DMat K → List K → List K) : FD K → Prop
  | new {junk d : FD K} : FD.mk' junk mb = .ok d → FD.Used mb solve d
  | computeH {d d' : FD K} {mbc : MBC K} : FD.Used mb solve d → d.computeH mb mbc = .ok d' → FD.Used mb solve d'
  | computeC {d d' : FD K} {mbc : MBC K} : FD.Used mb solve d → d.computeC mb mbc = .ok d' → FD.Used mb solve d'
  | forwardDynamics {d d' : FD K} {mbc mbc' : MBC K} : FD.Used mb solve d → d.forwardDynamics solve mb mbc = .ok (d', mbc') →
      FD.Used mb solve d'

theorem FD.Used.fits (wf : mb.WF) {solve : DMat K → List K → List K} (hsolve : ∀ m v, (solve m v).length = m.cols) {d : FD K}
    (h : d.Used mb solve) : d.Fits mb := by
  induction h with
  | @new junk d e =>
    obtain ⟨d', e', h⟩ := FD.mk'_fits wf junk
    rw [e] at e'; cases e'; exact h
  | @computeH d d' mbc _ e ih => exact ((FD.computeH_alike wf mbc ih ih).of_ok e e).left
  | @computeC d d' mbc _ e ih => exact ((FD.computeC_alike (P := True) wf mbc ih ih fun _ => rfl).of_ok e e).left
  | @forwardDynamics d d' mbc mbc' _ e ih =>
    unfold FD.forwardDynamics at e
    obtain ⟨d1, e1, e⟩ := Res.bind_eq_ok.1 e
    have h1 := ((FD.computeH_alike wf mbc ih ih).of_ok e1 e1).left
    obtain ⟨d2, e2, e⟩ := Res.bind_eq_ok.1 e
    have h2 := ((FD.computeC_alike (P := True) wf mbc h1 h1 fun _ => rfl).of_ok e2 e2).left
    obtain ⟨t, -, e⟩ := Res.bind_eq_ok.1 e
    obtain ⟨r, -, e⟩ := Res.bind_eq_ok.1 e
    obtain ⟨a, -, e⟩ := Res.bind_eq_ok.1 e
    cases e
    exact { h2 with tmpFd := by rw [hsolve, h2.Hcols] }

/-- C76 for `ForwardDynamics`: the mass matrix, the bias vector and the accelerations do not depend on what the object was used for
before. Without the checks of `sForwardDynamics` this needs a torque for every degree of freedom, see
`C76_short_torque_counterexample`. -/
theorem C76_forward_dynamics (wf : mb.WF) {solve : DMat K → List K → List K} (hsolve : ∀ m v, (solve m v).length = m.cols) {d d' : FD K}
    (h : d.Used mb solve) (h' : d'.Used mb solve) (mbc : MBC K) :
    (FD.H <$> d.computeH mb mbc) = (FD.H <$> d'.computeH mb mbc) ∧
    (FD.C <$> d.computeC mb mbc) = (FD.C <$> d'.computeC mb mbc) ∧
    (mbc.jointTorque.flatten.length = mb.nrDof → ((fun r => (r.1.H, r.1.C, r.2)) <$> d.forwardDynamics solve mb mbc) =
      ((fun r => (r.1.H, r.1.C, r.2)) <$> d'.forwardDynamics solve mb mbc)) ∧
    ((fun r => (r.1.H, r.1.C, r.2)) <$> d.sForwardDynamics solve mb mbc) =
      ((fun r => (r.1.H, r.1.C, r.2)) <$> d'.sForwardDynamics solve mb mbc) := by
  have f := h.fits wf hsolve
  have f' := h'.fits wf hsolve
  have hfd : ∀ ht : mbc.jointTorque.flatten.length = mb.nrDof,
      Alike (fun r r' : FD K × MBC K => (r.1.H, r.1.C, r.2) = (r'.1.H, r'.1.C, r'.2)) (d.forwardDynamics solve mb mbc)
        (d'.forwardDynamics solve mb mbc) := fun ht => by
    refine (FD.forwardDynamics_alike wf hsolve mbc f f' ht).imp ?_
    rintro r r' ⟨-, -, e1, e2, e3⟩
    rw [e1, e2, e3]
  refine ⟨(FD.computeH_alike wf mbc f f').map_eq fun _ _ h => h.H,
    (FD.computeC_alike (P := False) wf mbc f f' False.elim).map_eq fun _ _ h => List.ext_getElem? fun i => h.C i (by simp [MultiBody.dofPosAt]),
    fun ht => (hfd ht).map_eq fun _ _ h => h, ?_⟩
  unfold FD.sForwardDynamics
  refine Alike.map_eq (R := fun r r' : FD K × MBC K => (r.1.H, r.1.C, r.2) = (r'.1.H, r'.1.C, r'.2)) ?_ fun _ _ h => h
  refine .same _ fun _ _ => .same _ fun _ _ => .same _ fun _ _ => .same _ fun _ _ => .same _ fun _ _ => .same _ fun _ _ => .same _ fun _ e => ?_
  refine .same _ fun _ _ => hfd ?_
  by_contra hc
  have := (checkMatchJointTorque_decides wf mbc).2 fun hs => hc (SizedDof.flatten_length wf hs)
  rw [this] at e
  cases e

/-- A solver for the examples: it returns the right-hand side, cut to the size of the matrix. -/
def Sample.keepRhs (m : DMat ℚ) (v : List ℚ) : List ℚ := (List.range m.cols).map fun i => v.getD i 0

theorem Sample.keepRhs_length (m : DMat ℚ) (v : List ℚ) : (Sample.keepRhs m v).length = m.cols := by simp [Sample.keepRhs]

/-- Two forward dynamics objects of the sample robot with different memory. -/
example : ∃ d d' : FD ℚ, d.Used Sample.mb Sample.keepRhs ∧ d'.Used Sample.mb Sample.keepRhs ∧ d.H.get 0 0 ≠ d'.H.get 0 0 ∧ d.tmpFd ≠ d'.tmpFd ∧
    ∃ r, d.forwardDynamics Sample.keepRhs Sample.mb Sample.mbcV = .ok r := by
  obtain ⟨d, e, c⟩ := ok_and (m := FD.mk' ⟨⟨0, 0, fun _ _ => 7⟩, [], [], [], [], [], [5], []⟩ Sample.mb)
    (fun d : FD ℚ => ((d.forwardDynamics Sample.keepRhs Sample.mb Sample.mbcV).toOption.map fun r : FD ℚ × MBC ℚ => decide (d.H.get 0 0 ≠ r.1.H.get 0 0) &&
      decide (d.tmpFd ≠ r.1.tmpFd)).getD false) (by decide +kernel)
  obtain ⟨⟨d', m⟩, e', c'⟩ := ok_and _ c
  rw [Bool.and_eq_true, decide_eq_true_eq, decide_eq_true_eq] at c'
  exact ⟨d, d', .new e, .forwardDynamics (.new e) e', c'.1, c'.2, _, e'⟩

/-- C76, what the code does instead: `forwardDynamics` without the checks accepts joint torques with too few entries and takes the missing
ones from the memory of the last call, so two objects disagree. -/
theorem C76_short_torque_counterexample : ∃ (d d' : FD ℚ) (mbc : MBC ℚ) (r r' : FD ℚ × MBC ℚ),
    d.Used Sample.mb Sample.keepRhs ∧ d'.Used Sample.mb Sample.keepRhs ∧
    d.forwardDynamics Sample.keepRhs Sample.mb mbc = .ok r ∧ d'.forwardDynamics Sample.keepRhs Sample.mb mbc = .ok r' ∧
    r.2.alphaD ≠ r'.2.alphaD := by
  obtain ⟨d, e, c⟩ := ok_and (m := FD.mk' ⟨⟨0, 0, fun _ _ => 7⟩, [], [], [], [], [], [5], []⟩ Sample.mb)
    (fun d : FD ℚ => ((d.forwardDynamics Sample.keepRhs Sample.mb { Sample.mbcV with jointTorque := [] }).toOption.map fun r : FD ℚ × MBC ℚ =>
      ((r.1.forwardDynamics Sample.keepRhs Sample.mb { Sample.mbcV with jointTorque := [] }).toOption.map fun r' : FD ℚ × MBC ℚ =>
        decide (r.2.alphaD ≠ r'.2.alphaD)).getD false).getD false) (by decide +kernel)
  obtain ⟨r, e', c⟩ := ok_and _ c
  obtain ⟨r', e'', c⟩ := ok_and _ c
  exact ⟨d, r.1, _, r, r', .new e, .forwardDynamics (.new e) e', e', e'', of_decide_eq_true c⟩

/-! ### Jacobians -/

/-- The two constructors of `Jacobian`: without and with a reference body. -/
def Jac.make (junk : Nat → MotionVec K) (mb : MultiBody K) (name : String) : Option String → Vec3 K → Res (Jac K)
  | none, p => Jac.mk' junk mb name p
  | some ref, p => Jac.mkRel junk mb name ref p

/-- The `Jacobian` objects of a program for one body, one reference body and the point `p`, which can be changed. -/
inductive Jac.Used (mb : MultiBody K) (name : String) (ref : Option String) : Vec3 K → Jac K → Prop
  | new {junk : Nat → MotionVec K} {p : Vec3 K} {J : Jac K} : Jac.make junk mb name ref p = .ok J → Jac.Used mb name ref p J
  | setPoint {p p' : Vec3 K} {J : Jac K} : Jac.Used mb name ref p J → Jac.Used mb name ref p' (J.setPoint p')
  | jacobian {p : Vec3 K} {J J' : Jac K} {mbc : MBC K} : Jac.Used mb name ref p J → J.jacobian mb mbc = .ok J' → Jac.Used mb name ref p J'
  | jacobianX {p : Vec3 K} {J J' : Jac K} {mbc : MBC K} {X : PTransform K} : Jac.Used mb name ref p J → J.jacobianX mb mbc X = .ok J' →
      Jac.Used mb name ref p J'
  | bodyJacobian {p : Vec3 K} {J J' : Jac K} {mbc : MBC K} : Jac.Used mb name ref p J → J.bodyJacobian mb mbc = .ok J' →
      Jac.Used mb name ref p J'
  | jacobianDot {p : Vec3 K} {J J' : Jac K} {mbc : MBC K} : Jac.Used mb name ref p J → J.jacobianDot mb mbc = .ok J' →
      Jac.Used mb name ref p J'
  | bodyJacobianDot {p : Vec3 K} {J J' : Jac K} {mbc : MBC K} : Jac.Used mb name ref p J → J.bodyJacobianDot mb mbc = .ok J' →
      Jac.Used mb name ref p J'
  | vectorJacobian {p : Vec3 K} {J J' : Jac K} {mbc : MBC K} {v : Vec3 K} : Jac.Used mb name ref p J → J.vectorJacobian mb mbc v = .ok J' →
      Jac.Used mb name ref p J'
  | vectorBodyJacobian {p : Vec3 K} {J J' : Jac K} {mbc : MBC K} {v : Vec3 K} : Jac.Used mb name ref p J →
      J.vectorBodyJacobian mb mbc v = .ok J' → Jac.Used mb name ref p J'

variable {name : String} {ref : Option String}

theorem Jac.make_setPoint (junk : Nat → MotionVec K) (p p' : Vec3 K) :
    Alike (fun J J' => J' = J.setPoint p') (Jac.make junk mb name ref p) (Jac.make junk mb name ref p') := by
  cases ref with
  | none => exact .same _ fun _ _ => .same _ fun _ _ => .pure rfl
  | some ref =>
    unfold Jac.make Jac.mkRel
    refine .same _ fun b _ => .same _ fun ref _ => .same _ ?_
    rintro ⟨index, path, sign, dof⟩ -
    dsimp only
    split
    · refine .same _ ?_
      rintro ⟨index, count, path, sign, dof⟩ -
      dsimp only
      split
      · exact .same _ fun c _ => .same _ fun n _ => .pure rfl
      · exact .pure rfl
    · exact .pure rfl

theorem Jac.make_alike (junk junk' : Nat → MotionVec K) (mb : MultiBody K) (name : String) (ref : Option String) (p : Vec3 K) :
    Alike (Jac.Same mb) (Jac.make junk mb name ref p) (Jac.make junk' mb name ref p) := by
  cases ref with
  | none => exact Jac.mk'_alike junk junk' mb name p
  | some ref => exact Jac.mkRel_alike junk junk' mb name ref p

/-- Alike results: if one succeeds, both do. -/
theorem Alike.exists_ok {α β : Type} {R : α → β → Prop} {x : Res α} {y : Res β} (h : Alike R x y) {a : α} (hx : x = .ok a) :
    ∃ b, y = .ok b ∧ R a b := by
  subst hx
  cases y with
  | error e => exact h.elim
  | ok b => exact ⟨b, rfl, h⟩

theorem Jac.Used.like {p : Vec3 K} {J : Jac K} (h : J.Used mb name ref p) : ∃ junk J₀, Jac.make junk mb name ref p = .ok J₀ ∧ J₀.Like J := by
  induction h with
  | @new junk p J e => exact ⟨junk, J, e, .rfl'⟩
  | @setPoint p p' J _ ih =>
    obtain ⟨junk, J₀, e, h⟩ := ih
    obtain ⟨_, e', rfl⟩ := (Jac.make_setPoint junk p p').exists_ok e
    exact ⟨junk, _, e', h.path, h.sign, rfl, h.body, h.ref, h.jac, h.jacDot⟩
  | jacobian _ e ih => obtain ⟨junk, J₀, e', h⟩ := ih; exact ⟨junk, J₀, e', h.trans (Jac.jacobian_keeps _ _ _ e)⟩
  | jacobianX _ e ih => obtain ⟨junk, J₀, e', h⟩ := ih; exact ⟨junk, J₀, e', h.trans (Jac.jacobianX_keeps _ _ _ _ e)⟩
  | bodyJacobian _ e ih => obtain ⟨junk, J₀, e', h⟩ := ih; exact ⟨junk, J₀, e', h.trans (Jac.bodyJacobian_keeps _ _ _ e)⟩
  | jacobianDot _ e ih => obtain ⟨junk, J₀, e', h⟩ := ih; exact ⟨junk, J₀, e', h.trans (Jac.jacobianDot_keeps _ _ _ e)⟩
  | bodyJacobianDot _ e ih => obtain ⟨junk, J₀, e', h⟩ := ih; exact ⟨junk, J₀, e', h.trans (Jac.bodyJacobianDot_keeps _ _ _ e)⟩
  | vectorJacobian _ e ih => obtain ⟨junk, J₀, e', h⟩ := ih; exact ⟨junk, J₀, e', h.trans (Jac.vectorJacobian_keeps _ _ _ _ e)⟩
  | vectorBodyJacobian _ e ih => obtain ⟨junk, J₀, e', h⟩ := ih; exact ⟨junk, J₀, e', h.trans (Jac.vectorBodyJacobian_keeps _ _ _ _ e)⟩

theorem Jac.Used.same {p : Vec3 K} {J J' : Jac K} (h : J.Used mb name ref p) (h' : J'.Used mb name ref p) : J.Same mb J' := by
  obtain ⟨junk, J₀, e, hl⟩ := h.like
  obtain ⟨junk', J₁, e', hl'⟩ := h'.like
  exact hl.same (hl'.same ((Jac.make_alike junk junk' mb name ref p).of_ok e e').symm).symm

/-- C76 for `Jacobian`: two objects for the same body, reference body and point have the same Jacobians, time derivatives, velocities and
normal accelerations in every state, or the same errors. Of the vector Jacobians only the translation component, the last three rows,
is filled; see `C76_vector_jacobian_rows`. -/
theorem C76_jacobian {p : Vec3 K} {J J' : Jac K} (h : J.Used mb name ref p) (h' : J'.Used mb name ref p) (mbc : MBC K) :
    (Jac.jac <$> J.jacobian mb mbc) = (Jac.jac <$> J'.jacobian mb mbc) ∧
    (∀ X, (Jac.jac <$> J.jacobianX mb mbc X) = (Jac.jac <$> J'.jacobianX mb mbc X)) ∧
    (Jac.jac <$> J.bodyJacobian mb mbc) = (Jac.jac <$> J'.bodyJacobian mb mbc) ∧
    (Jac.jacDot <$> J.jacobianDot mb mbc) = (Jac.jacDot <$> J'.jacobianDot mb mbc) ∧
    (Jac.jacDot <$> J.bodyJacobianDot mb mbc) = (Jac.jacDot <$> J'.bodyJacobianDot mb mbc) ∧
    (∀ v, ((fun r => r.jac.map MotionVec.lin) <$> J.vectorJacobian mb mbc v) =
      ((fun r => r.jac.map MotionVec.lin) <$> J'.vectorJacobian mb mbc v)) ∧
    (∀ v, ((fun r => r.jac.map MotionVec.lin) <$> J.vectorBodyJacobian mb mbc v) =
      ((fun r => r.jac.map MotionVec.lin) <$> J'.vectorBodyJacobian mb mbc v)) ∧
    J.velocity mbc = J'.velocity mbc ∧ J.bodyVelocity mbc = J'.bodyVelocity mbc ∧
    J.normalAcceleration mbc = J'.normalAcceleration mbc ∧ J.bodyNormalAcceleration mbc = J'.bodyNormalAcceleration mbc := by
  have s := h.same h'
  refine ⟨(s.jacobian mbc).map_eq fun _ _ h => h.1, fun X => (s.jacobianX mbc X).map_eq fun _ _ h => h.1,
    (s.bodyJacobian mbc).map_eq fun _ _ h => h.1, (s.jacobianDot mbc).map_eq fun _ _ h => h.1, (s.bodyJacobianDot mbc).map_eq fun _ _ h => h.1,
    fun v => (s.vectorJacobian mbc v).map_eq fun _ _ h => h.1, fun v => (s.vectorBodyJacobian mbc v).map_eq fun _ _ h => h.1, ?_, ?_, ?_, ?_⟩
  · unfold Jac.velocity; rw [s.back, s.point]
  · unfold Jac.bodyVelocity; rw [s.back, s.point]
  · unfold Jac.normalAcceleration Jac.normalAccOf; rw [s.back, s.point, s.path]
  · unfold Jac.bodyNormalAcceleration; rw [s.point, s.path]

/-- Two Jacobians of the sample robot with different memory, one of which was used at another point. -/
example : ∃ J J' : Jac ℚ, J.Used Sample.mb "hand" none ⟨1, 2, 3⟩ ∧ J'.Used Sample.mb "hand" none ⟨1, 2, 3⟩ ∧ J.jac ≠ J'.jac ∧
    ∃ r, J.jacobian Sample.mb Sample.mbcV = .ok r ∧ r.jac ≠ J'.jac := by
  obtain ⟨J, e, c⟩ := ok_and (m := Jac.make (fun _ => ⟨⟨7, 7, 7⟩, 0⟩) Sample.mb "hand" none (⟨1, 2, 3⟩ : Vec3 ℚ))
    (fun J : Jac ℚ => (((J.setPoint ⟨4, 5, 6⟩).jacobian Sample.mb Sample.mbcV).toOption.map fun J' : Jac ℚ => decide (J.jac ≠ (J'.setPoint ⟨1, 2, 3⟩).jac) &&
      ((J.jacobian Sample.mb Sample.mbcV).toOption.map fun r : Jac ℚ => decide (r.jac ≠ (J'.setPoint ⟨1, 2, 3⟩).jac)).getD false).getD false)
    (by decide +kernel)
  obtain ⟨J', e', c⟩ := ok_and _ c
  rw [Bool.and_eq_true, decide_eq_true_eq] at c
  obtain ⟨r, e'', c'⟩ := ok_and _ c.2
  exact ⟨J, J'.setPoint ⟨1, 2, 3⟩, .new e, .setPoint (.jacobian (.setPoint (p := ⟨1, 2, 3⟩) (.new e)) e'), c.1, r, e'', of_decide_eq_true c'⟩

/-- A relative Jacobian. -/
example : ∃ J : Jac ℚ, J.Used Sample.mb "hand" (some "base") ⟨1, 2, 3⟩ := by
  obtain ⟨J, e, -⟩ := ok_and (m := Jac.make (fun _ => ⟨⟨7, 7, 7⟩, 0⟩) Sample.mb "hand" (some "base") (⟨1, 2, 3⟩ : Vec3 ℚ)) (fun _ => true)
    (by decide +kernel)
  exact ⟨J, .new e⟩

/-- The restriction of C76 for `vectorJacobian` to the last three rows is needed: the first three rows are what the memory held before.
Jacobian.h:194-206 documents that only the translation component is filled. -/
theorem C76_vector_jacobian_rows : ∃ (J J' r r' : Jac ℚ) (v : Vec3 ℚ), J.Used Sample.mb "hand" none 0 ∧ J'.Used Sample.mb "hand" none 0 ∧
    J.vectorJacobian Sample.mb Sample.mbcV v = .ok r ∧ J'.vectorJacobian Sample.mb Sample.mbcV v = .ok r' ∧ r.jac ≠ r'.jac := by
  obtain ⟨J, e, c⟩ := ok_and (m := Jac.make (fun _ => ⟨⟨7, 7, 7⟩, 0⟩) Sample.mb "hand" none (0 : Vec3 ℚ))
    (fun J : Jac ℚ => ((J.jacobian Sample.mb Sample.mbcV).toOption.map fun J' : Jac ℚ =>
      ((J.vectorJacobian Sample.mb Sample.mbcV ⟨1, 2, 3⟩).toOption.map fun r : Jac ℚ =>
        ((J'.vectorJacobian Sample.mb Sample.mbcV ⟨1, 2, 3⟩).toOption.map fun r' : Jac ℚ => decide (r.jac ≠ r'.jac)).getD false).getD false).getD false)
    (by decide +kernel)
  obtain ⟨J', e', c⟩ := ok_and _ c
  obtain ⟨r, e1, c⟩ := ok_and _ c
  obtain ⟨r', e2, c⟩ := ok_and _ c
  exact ⟨J, J', r, r', _, .new e, .jacobian (.new e) e', e1, e2, of_decide_eq_true c⟩

/-! ### Coriolis -/

/-- The `Coriolis` objects of a program. -/
inductive Cor.Used (mb : MultiBody K) : Cor K → Prop
  | new {junk : Nat → MotionVec K} {junkM : Nat → Nat → K} {c : Cor K} : Cor.mk' junk junkM mb = .ok c → Cor.Used mb c
  | coriolis {c c' : Cor K} {mbc : MBC K} : Cor.Used mb c → c.coriolis mb mbc = .ok c' → Cor.Used mb c'

theorem Cor.Used.same {c c' : Cor K} (h : c.Used mb) (h' : c'.Used mb) : c.Same mb c' := by
  have one : ∀ {c : Cor K}, c.Used mb → ∀ {junk : Nat → MotionVec K} {junkM : Nat → Nat → K} {c₀ : Cor K}, Cor.mk' junk junkM mb = .ok c₀ →
      c.Same mb c₀ ∧ c₀.Same mb c := by
    intro c h junk junkM c₀ e₀
    induction h with
    | new e => exact ⟨(Cor.mk'_alike _ _ _ _ mb).of_ok e e₀, (Cor.mk'_alike _ _ _ _ mb).of_ok e₀ e⟩
    | coriolis _ e ih => exact ⟨(Cor.coriolis_keeps _ _ _ e).same ih.1, ((Cor.coriolis_keeps _ _ _ e).same ih.1).symm⟩
  induction h with
  | new e => exact (one h' e).2
  | coriolis _ e ih => exact (Cor.coriolis_keeps _ _ _ e).same ih

/-- C76 for `Coriolis`. -/
theorem C76_coriolis {c c' : Cor K} (h : c.Used mb) (h' : c'.Used mb) (mbc : MBC K) :
    (Cor.mat <$> c.coriolis mb mbc) = (Cor.mat <$> c'.coriolis mb mbc) :=
  (Cor.coriolis_alike (h.same h') mbc).map_eq fun _ _ h => h.1

/-- A new and a used `Coriolis` object of the sample robot. -/
example : ∃ c c' : Cor ℚ, c.Used Sample.mb ∧ c'.Used Sample.mb ∧ c.mat.get 0 1 = 7 ∧ c'.mat.get 0 1 ≠ 7 := by
  obtain ⟨c, e, h⟩ := ok_and (m := Cor.mk' (fun _ => 0) (fun _ _ => 7) Sample.mb)
    (fun c : Cor ℚ => decide (c.mat.get 0 1 = 7) && ((c.coriolis Sample.mb Sample.mbcV).toOption.map fun c' : Cor ℚ =>
      decide (c'.mat.get 0 1 ≠ 7)).getD false) (by decide +kernel)
  rw [Bool.and_eq_true, decide_eq_true_eq] at h
  obtain ⟨c', e', h'⟩ := ok_and _ h.2
  exact ⟨c, c', .new e, .coriolis (.new e) e', h.1, of_decide_eq_true h'⟩

/-! ### Centre of mass -/

/-- The `CoMJacobianDummy` objects of a program with the weights `w`. -/
inductive CoMDummy.Used (mb : MultiBody K) (w : List K) : CoMDummy K → Prop
  | new {junk : Nat → MotionVec K} {junkM : Nat → Nat → K} {c : CoMDummy K} : CoMDummy.mk' junk junkM mb w = .ok c → CoMDummy.Used mb w c
  | jacobian {c c' : CoMDummy K} {mbc : MBC K} : CoMDummy.Used mb w c → c.jacobian mb mbc = .ok c' → CoMDummy.Used mb w c'
  | jacobianDot {c c' : CoMDummy K} {mbc : MBC K} : CoMDummy.Used mb w c → c.jacobianDot mb mbc = .ok c' → CoMDummy.Used mb w c'

theorem CoMDummy.Used.same {w : List K} {c c' : CoMDummy K} (h : c.Used mb w) (h' : c'.Used mb w) : c.Same mb c' := by
  have one : ∀ {c : CoMDummy K}, c.Used mb w → ∀ {junk : Nat → MotionVec K} {junkM : Nat → Nat → K} {c₀ : CoMDummy K},
      CoMDummy.mk' junk junkM mb w = .ok c₀ → c.Same mb c₀ := by
    intro c h junk junkM c₀ e₀
    induction h with
    | new e => exact (CoMDummy.mk'_alike _ _ _ _ mb w).of_ok e e₀
    | jacobian _ e ih => exact (CoMDummy.jacobian_keeps _ _ _ e).same ih
    | jacobianDot _ e ih => exact (CoMDummy.jacobianDot_keeps _ _ _ e).same ih
  induction h with
  | new e => exact (one h' e).symm
  | jacobian _ e ih => exact (CoMDummy.jacobian_keeps _ _ _ e).same ih
  | jacobianDot _ e ih => exact (CoMDummy.jacobianDot_keeps _ _ _ e).same ih

/-- C76 for `CoMJacobianDummy`. -/
theorem C76_com_jacobian_dummy (wf : mb.WF) {w : List K} {c c' : CoMDummy K} (h : c.Used mb w) (h' : c'.Used mb w) (mbc : MBC K) :
    ((fun r => r.jac.values) <$> c.jacobian mb mbc) = ((fun r => r.jac.values) <$> c'.jacobian mb mbc) ∧
    ((fun r => r.jacDot.values) <$> c.jacobianDot mb mbc) = ((fun r => r.jacDot.values) <$> c'.jacobianDot mb mbc) :=
  ⟨(CoMDummy.jacobian_alike wf (h.same h') mbc).map_eq fun _ _ h => h.1.values,
    (CoMDummy.jacobianDot_alike wf (h.same h') mbc).map_eq fun _ _ h => h.1.values⟩

/-- A new and a used `CoMJacobianDummy` object of the sample robot. -/
example : ∃ c c' : CoMDummy ℚ, c.Used Sample.mb [1, 2, 0, 1] ∧ c'.Used Sample.mb [1, 2, 0, 1] ∧ c.jacFull.get 0 3 = 7 ∧ c'.jacFull.get 0 3 ≠ 7 := by
  obtain ⟨c, e, h⟩ := ok_and (m := CoMDummy.mk' (fun _ => 0) (fun _ _ => 7) Sample.mb [1, 2, 0, 1])
    (fun c : CoMDummy ℚ => decide (c.jacFull.get 0 3 = 7) && ((c.jacobian Sample.mb Sample.mbcV).toOption.map fun c' : CoMDummy ℚ =>
      decide (c'.jacFull.get 0 3 ≠ 7)).getD false) (by decide +kernel)
  rw [Bool.and_eq_true, decide_eq_true_eq] at h
  obtain ⟨c', e', h'⟩ := ok_and _ h.2
  exact ⟨c, c', .new e, .jacobian (.new e) e', h.1, of_decide_eq_true h'⟩

/-- The `CoMJacobian` objects of a program with the weights `w`, which can be changed. -/
inductive CoMJac.Used (mb : MultiBody K) : List K → CoMJac K → Prop
  | new {junkV : Nat → MotionVec K} {junkK : Nat → K} {junkX : Nat → PTransform K} {junkC : Nat → Vec3 K} {w : List K} {c : CoMJac K} :
      CoMJac.mk' junkV junkK junkX junkC mb w = .ok c → CoMJac.Used mb w c
  | setWeight {w w' : List K} {c c' : CoMJac K} : CoMJac.Used mb w c → c.setWeight mb w' = .ok c' → CoMJac.Used mb w' c'
  | jacobian {w : List K} {c c' : CoMJac K} {mbc : MBC K} : CoMJac.Used mb w c → c.jacobian mb mbc = .ok c' → CoMJac.Used mb w c'
  | jacobianDot {w : List K} {c c' : CoMJac K} {mbc : MBC K} : CoMJac.Used mb w c → c.jacobianDot mb mbc = .ok c' → CoMJac.Used mb w c'
  | normalAcceleration {w : List K} {c c' : CoMJac K} {mbc : MBC K} {a : Vec3 K} : CoMJac.Used mb w c →
      c.normalAcceleration mb mbc = .ok (a, c') → CoMJac.Used mb w c'

/-- What all `CoMJacobian` objects with the weights `w` have in common. -/
structure CoMJac.Made (mb : MultiBody K) (w : List K) (c : CoMJac K) : Prop where
  jac : c.jac.length = mb.nrDof
  jacDot : c.jacDot.length = mb.nrDof
  coeffLen : c.coeff.length = mb.bodies.length
  comLen : c.com.length = mb.bodies.length
  comWorld : c.comWorld.length = mb.bodies.length
  comVelB : c.comVelB.length = mb.bodies.length
  normalAcc : c.normalAcc.length = mb.bodies.length
  weight : c.weight = w
  sub : ((List.range mb.nrJoints).foldlM (fun sub i => do
    wr sub i (← jointBodiesSuccessors mb (mb.nrJoints + 1) i (← rd sub i))) ((List.range mb.nrJoints).map fun _ => [])) = .ok c.sub
  update : ∃ c₁ c₂ : CoMJac K, c₁.coeff.length = mb.bodies.length ∧ c₁.com.length = mb.bodies.length ∧ c₁.weight = w ∧
    c₁.update mb = .ok c₂ ∧ c₂.coeff = c.coeff ∧ c₂.com = c.com

theorem CoMJac.Made.like {w : List K} {c r : CoMJac K} (h : c.Made mb w) (hl : c.Like r) : r.Made mb w :=
  ⟨hl.jac.trans h.jac, hl.jacDot.trans h.jacDot, by rw [hl.coeff, h.coeffLen], by rw [hl.com, h.comLen], hl.comWorld.trans h.comWorld,
    hl.comVelB.trans h.comVelB, hl.normalAcc.trans h.normalAcc, hl.weight.trans h.weight, by rw [hl.sub, h.sub], by
      rw [hl.coeff, hl.com]; exact h.update⟩

theorem CoMJac.Used.made (wf : mb.WF) {w : List K} {c : CoMJac K} (h : c.Used mb w) : c.Made mb w := by
  induction h with
  | @new junkV junkK junkX junkC w c e =>
    unfold CoMJac.mk' at e
    dsimp only at e
    split at e
    · cases e
    · unfold CoMJac.init at e
      obtain ⟨c₁, e1, e⟩ := Res.bind_eq_ok.1 e
      obtain ⟨sub, e2, e⟩ := Res.bind_eq_ok.1 e
      obtain ⟨k1, k2, k3⟩ := CoMJac.update_keeps _ _ e1
      have hn : mb.nrJoints = mb.bodies.length := wf.njoints
      rw [k3] at e2
      cases e
      refine ⟨by rw [k3]; simp, by rw [k3]; simp, by rw [k1]; simp [MultiBody.nrBodies], by rw [k2]; simp [MultiBody.nrBodies],
        by rw [k3]; simp [MultiBody.nrBodies], by rw [k3]; simp [MultiBody.nrBodies], by rw [k3]; simp [hn], by rw [k3], e2, ?_⟩
      exact ⟨_, c₁, by simp [MultiBody.nrBodies], by simp [MultiBody.nrBodies], rfl, e1, rfl, rfl⟩
  | @setWeight w w' c c' _ e ih =>
    unfold CoMJac.setWeight at e
    obtain ⟨k1, k2, k3⟩ := CoMJac.update_keeps _ _ e
    refine ⟨by rw [k3]; exact ih.jac, by rw [k3]; exact ih.jacDot, k1.trans ih.coeffLen, k2.trans ih.comLen, by rw [k3]; exact ih.comWorld,
      by rw [k3]; exact ih.comVelB, by rw [k3]; exact ih.normalAcc, by rw [k3], by rw [k3]; exact ih.sub, ?_⟩
    exact ⟨{ c with weight := w' }, c', ih.coeffLen, ih.comLen, rfl, e, rfl, rfl⟩
  | jacobian _ e ih => exact ih.like (CoMJac.jacobian_keeps _ _ _ e)
  | jacobianDot _ e ih => exact ih.like (CoMJac.jacobianDot_keeps _ _ _ e)
  | normalAcceleration _ e ih => exact ih.like (CoMJac.normalAcceleration_keeps _ _ _ e)

theorem CoMJac.Used.same (wf : mb.WF) {w : List K} {c c' : CoMJac K} (h : c.Used mb w) (h' : c'.Used mb w) : c.Same mb c' := by
  have m := h.made wf
  have m' := h'.made wf
  obtain ⟨a, b, a1, a2, a3, e, b1, b2⟩ := m.update
  obtain ⟨a', b', a1', a2', a3', e', b1', b2'⟩ := m'.update
  obtain ⟨⟨u1, u2⟩, -⟩ := (CoMJac.update_alike (mb := mb) ⟨a1, a1'⟩ ⟨a2, a2'⟩ (a3.trans a3'.symm)).of_ok e e'
  have hs := m.sub.symm.trans m'.sub
  exact ⟨m.jac.trans m'.jac.symm, m.jacDot.trans m'.jacDot.symm, b1 ▸ b1' ▸ u1, b2 ▸ b2' ▸ u2, Except.ok.inj hs, ⟨m.comWorld, m'.comWorld⟩,
    ⟨m.comVelB, m'.comVelB⟩, ⟨m.normalAcc, m'.normalAcc⟩, m.weight.trans m'.weight.symm⟩

/-- C76 for `CoMJacobian`, also when the weights were changed in between. -/
theorem C76_com_jacobian (wf : mb.WF) {w : List K} {c c' : CoMJac K} (h : c.Used mb w) (h' : c'.Used mb w) (mbc : MBC K) :
    (CoMJac.jac <$> c.jacobian mb mbc) = (CoMJac.jac <$> c'.jacobian mb mbc) ∧
    (CoMJac.jacDot <$> c.jacobianDot mb mbc) = (CoMJac.jacDot <$> c'.jacobianDot mb mbc) ∧
    c.velocity mb mbc = c'.velocity mb mbc ∧
    (Prod.fst <$> c.normalAcceleration mb mbc) = (Prod.fst <$> c'.normalAcceleration mb mbc) := by
  have s := h.same wf h'
  refine ⟨(CoMJac.jacobian_alike s mbc).map_eq fun _ _ h => h.1, (CoMJac.jacobianDot_alike s mbc).map_eq fun _ _ h => h.1, ?_,
    (CoMJac.normalAcceleration_alike wf s mbc).map_eq fun _ _ h => h.1⟩
  unfold CoMJac.velocity
  rw [s.com, s.coeff]

/-- A new `CoMJacobian` object of the sample robot, and one that was used with other weights first. -/
example : ∃ c c' : CoMJac ℚ, c.Used Sample.mb [1, 2, 0, 1] ∧ c'.Used Sample.mb [1, 2, 0, 1] ∧ c.jac ≠ c'.jac := by
  obtain ⟨c, e, h⟩ := ok_and (m := CoMJac.mk' (fun _ => 0) (fun _ => 0) (fun _ => 1) (fun _ => 0) Sample.mb [1, 2, 0, 1])
    (fun c : CoMJac ℚ => ((c.setWeight Sample.mb [1, 1, 1, 1]).toOption.map fun c₁ : CoMJac ℚ => ((c₁.jacobian Sample.mb Sample.mbcV).toOption.map
      fun c₂ : CoMJac ℚ => ((c₂.setWeight Sample.mb [1, 2, 0, 1]).toOption.map fun c' : CoMJac ℚ => decide (c.jac ≠ c'.jac)).getD false).getD false).getD false)
    (by decide +kernel)
  obtain ⟨c₁, e₁, h⟩ := ok_and _ h
  obtain ⟨c₂, e₂, h⟩ := ok_and _ h
  obtain ⟨c', e', h⟩ := ok_and _ h
  exact ⟨c, c', .new e, .setWeight (.jacobian (.setWeight (.new e) e₁) e₂) e', of_decide_eq_true h⟩

/-! ### Centroidal momentum -/

/-- The `CentroidalMomentumMatrix` objects of a program with the weights `w`. -/
inductive CMM.Used (mb : MultiBody K) (w : List K) : CMM K → Prop
  | new {junk : Nat → MotionVec K} {junkF : Nat → ForceVec K} {junkM : Nat → Nat → K} {c : CMM K} :
      CMM.mk' junk junkF junkM mb w = .ok c → CMM.Used mb w c
  | computeMatrix {c c' : CMM K} {mbc : MBC K} {com : Vec3 K} : CMM.Used mb w c → c.computeMatrix mb mbc com = .ok c' → CMM.Used mb w c'
  | computeMatrixDot {c c' : CMM K} {mbc : MBC K} {com comDot : Vec3 K} : CMM.Used mb w c → c.computeMatrixDot mb mbc com comDot = .ok c' →
      CMM.Used mb w c'
  | computeMatrixAndMatrixDot {c c' : CMM K} {mbc : MBC K} {com comDot : Vec3 K} : CMM.Used mb w c →
      c.computeMatrixAndMatrixDot mb mbc com comDot = .ok c' → CMM.Used mb w c'
  | normalMomentumDot {c c' : CMM K} {mbc : MBC K} {com comDot : Vec3 K} {f : ForceVec K} : CMM.Used mb w c →
      c.normalMomentumDot mb mbc com comDot = .ok (f, c') → CMM.Used mb w c'

theorem CMM.Used.same {w : List K} {c c' : CMM K} (h : c.Used mb w) (h' : c'.Used mb w) : c.Same mb c' := by
  have one : ∀ {c : CMM K}, c.Used mb w → ∀ {junk : Nat → MotionVec K} {junkF : Nat → ForceVec K} {junkM : Nat → Nat → K} {c₀ : CMM K},
      CMM.mk' junk junkF junkM mb w = .ok c₀ → c.Same mb c₀ := by
    intro c h junk junkF junkM c₀ e₀
    induction h with
    | new e => exact (CMM.mk'_alike _ _ _ _ _ _ mb w).of_ok e e₀
    | computeMatrix _ e ih => exact (CMM.computeMatrix_keeps _ _ _ _ e).same ih
    | computeMatrixDot _ e ih => exact (CMM.computeMatrixDot_keeps _ _ _ _ _ e).same ih
    | computeMatrixAndMatrixDot _ e ih => exact (CMM.computeMatrixAndMatrixDot_keeps _ _ _ _ _ e).same ih
    | normalMomentumDot _ e ih => exact (CMM.normalMomentumDot_keeps _ _ _ _ _ e).same ih
  induction h with
  | new e => exact (one h' e).symm
  | computeMatrix _ e ih => exact (CMM.computeMatrix_keeps _ _ _ _ e).same ih
  | computeMatrixDot _ e ih => exact (CMM.computeMatrixDot_keeps _ _ _ _ _ e).same ih
  | computeMatrixAndMatrixDot _ e ih => exact (CMM.computeMatrixAndMatrixDot_keeps _ _ _ _ _ e).same ih
  | normalMomentumDot _ e ih => exact (CMM.normalMomentumDot_keeps _ _ _ _ _ e).same ih

/-- C76 for `CentroidalMomentumMatrix`. -/
theorem C76_momentum_matrix (wf : mb.WF) {w : List K} {c c' : CMM K} (h : c.Used mb w) (h' : c'.Used mb w) (mbc : MBC K) (com comDot : Vec3 K) :
    (CMM.cmMat <$> c.computeMatrix mb mbc com) = (CMM.cmMat <$> c'.computeMatrix mb mbc com) ∧
    (CMM.cmMatDot <$> c.computeMatrixDot mb mbc com comDot) = (CMM.cmMatDot <$> c'.computeMatrixDot mb mbc com comDot) ∧
    ((fun r => (r.cmMat, r.cmMatDot)) <$> c.computeMatrixAndMatrixDot mb mbc com comDot) =
      ((fun r => (r.cmMat, r.cmMatDot)) <$> c'.computeMatrixAndMatrixDot mb mbc com comDot) ∧
    c.momentum mb mbc com = c'.momentum mb mbc com ∧
    (Prod.fst <$> c.normalMomentumDot mb mbc com comDot) = (Prod.fst <$> c'.normalMomentumDot mb mbc com comDot) := by
  have s := h.same h'
  refine ⟨(CMM.computeMatrix_alike s mbc com).map_eq fun _ _ h => h.1, (CMM.computeMatrixDot_alike s mbc com comDot).map_eq fun _ _ h => h.1,
    (CMM.computeMatrixAndMatrixDot_alike s mbc com comDot).map_eq fun _ _ h => by rw [h.1.1, h.1.2], ?_,
    (CMM.normalMomentumDot_alike wf s mbc com comDot).map_eq fun _ _ h => h.1⟩
  unfold CMM.momentum
  rw [s.weight]

/-- A new and a used `CentroidalMomentumMatrix` object of the sample robot. -/
example : ∃ c c' : CMM ℚ, c.Used Sample.mb [1, 2, 0, 1] ∧ c'.Used Sample.mb [1, 2, 0, 1] ∧ c.cmMat.values ≠ c'.cmMat.values := by
  obtain ⟨c, e, h⟩ := ok_and (m := CMM.mk' (fun _ => 0) (fun _ => ⟨⟨7, 7, 7⟩, 0⟩) (fun _ _ => 7) Sample.mb [1, 2, 0, 1])
    (fun c : CMM ℚ => ((c.computeMatrix Sample.mb Sample.mbcV ⟨1, 2, 3⟩).toOption.map fun c' : CMM ℚ => decide (c.cmMat.values ≠ c'.cmMat.values)).getD false)
    (by decide +kernel)
  obtain ⟨c', e', h'⟩ := ok_and _ h
  exact ⟨c, c', .new e, .computeMatrix (.new e) e', of_decide_eq_true h'⟩

/-! ### The regressor -/

/-- The `IDIM` objects of a program. -/
inductive IDIM.Used (mb : MultiBody K) : IDIM K → Prop
  | new : IDIM.Used mb (IDIM.mk' mb)
  | computeY {d d' : IDIM K} {mbc : MBC K} : IDIM.Used mb d → d.computeY mb mbc = .ok d' → IDIM.Used mb d'

theorem IDIM.Used.fits (wf : mb.WF) {d : IDIM K} (h : d.Used mb) : d.Fits mb := by
  induction h with
  | new => exact IDIM.mk'_fits
  | computeY _ e ih => exact ((computeY_alike wf _ ih ih).of_ok e e).2.1

/-- C76 for `IDIM`: `computeY` does not set the matrix to zero, but the entries it does not write are zero since the constructor. -/
theorem C76_regressor (wf : mb.WF) {d d' : IDIM K} (h : d.Used mb) (h' : d'.Used mb) (mbc : MBC K) :
    ((fun r => r.Y.values) <$> d.computeY mb mbc) = ((fun r => r.Y.values) <$> d'.computeY mb mbc) :=
  (computeY_alike wf mbc (h.fits wf) (h'.fits wf)).map_eq fun _ _ h => h.1.values

/-- A new and a used `IDIM` object of the sample robot. -/
example : ∃ d d' : IDIM ℚ, d.Used Sample.mb ∧ d'.Used Sample.mb ∧ d.Y.get 0 1 = 0 ∧ d'.Y.values ≠ d.Y.values := by
  obtain ⟨d', e, h⟩ := ok_and (m := (IDIM.mk' Sample.mb).computeY Sample.mb Sample.mbcV)
    (fun d' : IDIM ℚ => decide (d'.Y.values ≠ (IDIM.mk' Sample.mb).Y.values)) (by decide +kernel)
  exact ⟨_, d', .new, .computeY .new e, rfl, of_decide_eq_true h⟩

/-! ### Inverse kinematics -/

/-- The `InverseKinematics` objects of a program for one end effector; the public members `max_iterations_`, `lambda_`, `threshold_` and
`almost_zero` can be assigned. `solve` and `rotErr` are the external functions. -/
inductive IK.Used (solve : List (MotionVec K) → MotionVec K → List K) (rotErr : Mat3 K → Mat3 K → Vec3 K) (mb : MultiBody K) (ef : Int) :
    IK K → Prop
  | new {junk : Nat → MotionVec K} {ik : IK K} : IK.mk' junk mb ef = .ok ik → IK.Used solve rotErr mb ef ik
  | assign {ik : IK K} {n : Int} {l t z : K} : IK.Used solve rotErr mb ef ik →
      IK.Used solve rotErr mb ef { ik with maxIterations := n, lambda := l, threshold := t, almostZero := z }
  | inverseKinematics {ik : IK K} {mbc : MBC K} {X : PTransform K} {r : MBC K × Jac K × Bool} : IK.Used solve rotErr mb ef ik →
      inverseKinematics solve rotErr ik mb mbc X = .ok r → IK.Used solve rotErr mb ef { ik with jac := r.2.1 }

theorem IK.Used.like {solve : List (MotionVec K) → MotionVec K → List K} {rotErr : Mat3 K → Mat3 K → Vec3 K} {ef : Int} {ik : IK K}
    (h : ik.Used solve rotErr mb ef) : ik.efIndex = ef ∧ ∃ b junk J, mb.body ef = .ok b ∧ Jac.mk' junk mb b.name 0 = .ok J ∧ J.Like ik.jac := by
  induction h with
  | @new junk ik e =>
    unfold IK.mk' at e
    obtain ⟨b, e1, e⟩ := Res.bind_eq_ok.1 e
    obtain ⟨J, e2, e⟩ := Res.bind_eq_ok.1 e
    cases e
    exact ⟨rfl, b, junk, J, e1, e2, .rfl'⟩
  | assign _ ih => exact ih
  | @inverseKinematics ik mbc X r _ e ih =>
    obtain ⟨h1, b, junk, J, e1, e2, h2⟩ := ih
    unfold RBDyn.inverseKinematics at e
    obtain ⟨m, -, e⟩ := Res.bind_eq_ok.1 e
    exact ⟨h1, b, junk, J, e1, e2, h2.trans (ikLoop_keeps _ _ _ _ _ _ _ _ e)⟩

/-- C76 for `InverseKinematics`: two objects for the same end effector with the same parameters find the same configuration and agree in
whether they converged. -/
theorem C76_inverse_kinematics {solve : List (MotionVec K) → MotionVec K → List K} {rotErr : Mat3 K → Mat3 K → Vec3 K} {ef : Int}
    {ik ik' : IK K} (h : ik.Used solve rotErr mb ef) (h' : ik'.Used solve rotErr mb ef) (e1 : ik.maxIterations = ik'.maxIterations)
    (e2 : ik.lambda = ik'.lambda) (e3 : ik.threshold = ik'.threshold) (e4 : ik.almostZero = ik'.almostZero) (mbc : MBC K)
    (X : PTransform K) :
    ((fun r => (r.1, r.2.2)) <$> inverseKinematics solve rotErr ik mb mbc X) =
      ((fun r => (r.1, r.2.2)) <$> inverseKinematics solve rotErr ik' mb mbc X) := by
  obtain ⟨f, b, junk, J, a1, a2, a3⟩ := h.like
  obtain ⟨f', b', junk', J', a1', a2', a3'⟩ := h'.like
  rw [a1] at a1'
  cases a1'
  have s : ik.jac.Same mb ik'.jac := a3.same (a3'.same ((Jac.mk'_alike junk junk' mb b.name 0).of_ok a2 a2').symm).symm
  unfold inverseKinematics
  rw [e1]
  refine Alike.map_eq (.same _ fun m _ => ikLoop_alike solve rotErr e2 e3 e4 (f.trans f'.symm) X _ m _ _ s) fun r r' h => ?_
  rw [h.1.1, h.1.2]

/-- A new object for inverse kinematics and one that was used for a step. -/
example : ∃ ik ik' : IK ℚ, ik.Used (fun A _ => A.map fun _ => 1) (fun _ _ => 0) Sample.ikMb 1 ∧
    ik'.Used (fun A _ => A.map fun _ => 1) (fun _ _ => 0) Sample.ikMb 1 ∧ ik.jac ≠ ik'.jac ∧ ik.maxIterations = ik'.maxIterations ∧
    ik.lambda = ik'.lambda ∧ ik.threshold = ik'.threshold ∧ ik.almostZero = ik'.almostZero := by
  obtain ⟨ik, e, h⟩ := ok_and (m := IK.mk' (fun _ => ⟨⟨7, 7, 7⟩, 0⟩) Sample.ikMb 1)
    (fun ik : IK ℚ => ((inverseKinematics (fun A _ => A.map fun _ => 1) (fun _ _ => 0) { ik with maxIterations := 2, lambda := 1 } Sample.ikMb
      Sample.ikMbc ⟨1, ⟨5, 5, 5⟩⟩).toOption.map fun r : MBC ℚ × Jac ℚ × Bool => decide (ik.jac ≠ r.2.1)).getD false) (by decide +kernel)
  obtain ⟨r, e', h⟩ := ok_and _ h
  have u : ik.Used (fun A _ => A.map fun _ => 1) (fun _ _ => 0) Sample.ikMb 1 := .new e
  exact ⟨_, _, .assign (n := 2) (l := 1) (t := ik.threshold) (z := ik.almostZero) u,
    .inverseKinematics (.assign (n := 2) (l := 1) (t := ik.threshold) (z := ik.almostZero) u) e', of_decide_eq_true h, rfl, rfl, rfl, rfl⟩

end RBDyn
