import Verif.Lemmas.Mirror
import Verif.Props.Units

/-! Property C89: the mirror image of a robot moves as the mirror image. -/

namespace RBDyn
variable {K : Type} [Scalar K] {mb : MultiBody K} {m m' : MBC K}
open scoped Mat3

/-- The signs of the position parameters of a joint in a mirror in the plane `y = 0`: angles and translations along `y` change sign, and so do
the first and third imaginary parts of a quaternion. -/
def paramSign : JointType → List K
  | .Rev => [-1] | .Prism => [1] | .Spherical => [1, -1, 1, -1] | .Planar => [-1, 1, -1] | .Cylindrical => [-1, 1]
  | .Free => [1, -1, 1, -1, 1, -1, 1] | .Fixed => []

/-- The signs of the degrees of freedom of a joint. -/
def dofSign : JointType → List K
  | .Rev => [-1] | .Prism => [1] | .Spherical => [-1, 1, -1] | .Planar => [-1, 1, -1] | .Cylindrical => [-1, 1]
  | .Free => [-1, 1, -1, 1, -1, 1] | .Fixed => []

/-- A column of the motion subspace of the mirror image of a joint of type `t`. -/
def mirCol (t : JointType) (c : MotionVec K) : MotionVec K :=
  match t with
  | .Rev | .Prism | .Cylindrical => ⟨c.ang.mir, c.lin.mir⟩
  | _ => c

/-- The mirror image of a joint: a joint with an axis (revolute, prismatic, cylindrical) gets the mirror image of its axis, the others stay. -/
def Joint.mirrored (j : Joint K) : Joint K := { j with S := j.S.map (mirCol j.type) }

/-- The mirror image of a robot. -/
def MultiBody.mirrored (mb : MultiBody K) : MultiBody K :=
  { mb with
    bodies := mb.bodies.map fun b => { b with inertia := b.inertia.mir }
    joints := mb.joints.map Joint.mirrored
    Xt := mb.Xt.map PTransform.mir }

/-- The second state is the mirror image of the first. -/
structure InMirror (mb : MultiBody K) (m m' : MBC K) : Prop where
  q : m'.q = mb.scaled paramSign 1 m.q
  alpha : m'.alpha = mb.scaled dofSign 1 m.alpha
  alphaD : m'.alphaD = mb.scaled dofSign 1 m.alphaD
  gravity : m'.gravity = m.gravity.mir
  force : m'.force = m.force.map ForceVec.mir
  jointTorque : m'.jointTorque = mb.scaled dofSign 1 m.jointTorque

/-- The sign of degree of freedom `a` of joint `i`. -/
def MultiBody.signAt (mb : MultiBody K) (i a : Nat) : K := (((mb.joints[i]?).map fun j => (dofSign j.type : List K)).getD []).getD a 1

/-! ### One joint -/

/-- The axis of the mirror image. -/
def mirAxis (t : JointType) (a : Vec3 K) : Vec3 K :=
  match t with
  | .Rev | .Prism | .Cylindrical => a.mir
  | _ => a

theorem Joint.mirrored_mk (t : JointType) (a : Vec3 K) (fwd : Bool) (n : String) :
    (Joint.mk' t a fwd n).mirrored = Joint.mk' t (mirAxis t a) fwd n := by
  cases t <;> cases fwd <;>
    simp [Joint.mirrored, Joint.mk', Joint.mkS, mirCol, mirAxis, Vec3.mir, MotionVec.ext_iff, Vec3.ext_iff]

theorem mirCol_smul (t : JointType) (s : K) (c : MotionVec K) : mirCol t (s • c) = s • mirCol t c := by
  cases t <;> first | rfl | (ext1 <;> simp [mirCol, Vec3.mir_smul])

theorem Joint.mirrored_setForward (j : Joint K) (fwd : Bool) : (j.setForward fwd).mirrored = j.mirrored.setForward fwd := by
  have h : (if fwd != j.isForward then j.S.map (fun c => (-1 : K) • c) else j.S).map (mirCol j.type) =
      if fwd != j.isForward then (j.S.map (mirCol j.type)).map (fun c => (-1 : K) • c) else j.S.map (mirCol j.type) := by
    split
    · rw [List.map_map, List.map_map]
      exact List.map_congr_left fun c _ => mirCol_smul _ _ _
    · rfl
  unfold Joint.mirrored Joint.setForward
  simp only [Joint.mk.injEq, true_and, and_true]
  exact h

theorem Joint.Built.mirrored {j : Joint K} (h : j.Built) : j.mirrored.Built := by
  induction h with
  | mk t axis fwd name => rw [Joint.mirrored_mk]; exact .mk ..
  | setForward j fwd hj ih => rw [Joint.mirrored_setForward]; exact .setForward _ _ ih
  | makeMimic j n mu o hj ih => exact .makeMimic _ n mu o ih

theorem Joint.BuiltUnit.mirrored {j : Joint K} (h : j.BuiltUnit) : j.mirrored.BuiltUnit := by
  induction h with
  | mk t axis fwd name hv =>
    rw [Joint.mirrored_mk]
    refine .mk _ _ _ _ ?_
    cases t <;> simpa [ValidAxis, mirAxis, IsUnit3, Vec3.mir] using hv
  | setForward j fwd hj ih => rw [Joint.mirrored_setForward]; exact .setForward _ _ ih
  | makeMimic j n mu o hj ih => exact .makeMimic _ n mu o ih

theorem Joint.Built.mir {j : Joint K} (h : j.Built) : List.Forall₂ (fun (s : MotionVec K) (u : K) => s.mir = u • mirCol j.type s) j.S (dofSign j.type) := by
  induction h with
  | mk t axis fwd name =>
    cases t
    all_goals
      simp only [Joint.mk', Joint.mkS, dofSign]
      repeat' first | exact .nil | refine List.Forall₂.cons ?_ ?_
    all_goals cases fwd <;> ext <;> simp [MotionVec.mir, Vec3.mir, Vec3.mirAx, mirCol]
  | setForward j fwd hj ih =>
    show List.Forall₂ _ (if _ then _ else _) (dofSign j.type)
    split
    · rw [List.forall₂_map_left_iff]
      exact ih.imp fun s u h => by
        show MotionVec.mir ((-1 : K) • s) = u • mirCol j.type ((-1 : K) • s)
        rw [MotionVec.mir_smul, h, mirCol_smul, smul_comm]
    · exact ih
  | makeMimic j n mu o hj ih => exact ih

theorem applyCols_mir {t : JointType} {S : List (MotionVec K)} {U : List K} (h : List.Forall₂ (fun s u => s.mir = u • mirCol t s) S U) (x : List K) :
    applyCols (S.map (mirCol t)) (List.zipWith (fun u y => 1 * (u * y)) U x) = (applyCols S x).mir := by
  unfold applyCols
  induction h generalizing x with
  | nil => simp [MotionVec.mir_zero]
  | cons h _ ih =>
    cases x with
    | nil => simp [MotionVec.mir_zero]
    | cons y x =>
      simp only [List.map_cons, List.zipWith_cons_cons, List.sum_cons, MotionVec.mir_add, ih]
      congr 1
      rw [MotionVec.mir_smul, h, smul_smul]
      congr 1
      ring

theorem Joint.pose_mir (j : Joint K) {x : List K} (hx : ValidParam j.type x) :
    j.mirrored.pose (List.zipWith (fun u y => 1 * (u * y)) (paramSign j.type) x) = (j.pose x).map PTransform.mir := by
  have hl := hx.1
  have ht' : j.mirrored.type = j.type := rfl
  have hd : j.mirrored.dir = j.dir := rfl
  have hS : ∀ k, rd j.mirrored.S k = (rd j.S k).map (mirCol j.type) := by
    intro k
    show rd (j.S.map _) k = _
    unfold rd
    rw [List.getElem?_map]
    cases j.S[k]? <;> rfl
  unfold Joint.pose
  rw [ht']
  cases ht : j.type <;> rw [ht] at hl hS <;> simp only [Joint.nParams] at hl
  · obtain ⟨a, rfl⟩ := List.length_eq_one_iff.1 hl
    rw [hS]
    cases hs : rd j.S 0 with
    | error e => rfl
    | ok s =>
      simp [paramSign, rd, Except.map, Res.pure_eq, PTransform.mir, PTransform.ofRot, mirCol, Vec3.mir_zero]
      rw [← angleAxis_mir, neg_neg]
  · obtain ⟨a, rfl⟩ := List.length_eq_one_iff.1 hl
    rw [hS]
    cases hs : rd j.S 0 with
    | error e => rfl
    | ok s => simp [paramSign, rd, Except.map, Res.pure_eq, PTransform.mir, PTransform.ofTrans, mirCol, Vec3.mir_smul, Mat3.mir_one]
  · match x, hl with
    | [a, b, c, d], _ =>
      simp [paramSign, rd, Except.map, Res.pure_eq, PTransform.mir, PTransform.ofRot, hd, Vec3.mir_zero, toRot_mir]
  · match x, hl with
    | [a, b, c], _ =>
      have e : (⟨rotZ (-a), (rotZ (-a)).tr *ᵥ ⟨b, -c, 0⟩⟩ : PTransform K) = PTransform.mir ⟨rotZ a, (rotZ a).tr *ᵥ ⟨b, c, 0⟩⟩ := by
        simp only [PTransform.mir, Mat3.mir_mulVec, Mat3.mir_tr, rotZ_mir]
        congr 2
      simp only [paramSign, rd, Except.map, Res.pure_eq, List.zipWith_cons_cons, List.getElem?_cons_zero, List.getElem?_cons_succ, one_mul,
        Res.bind_ok, neg_one_mul]
      rw [e, hd]
      split
      · rfl
      · rw [PTransform.mir_inv]
  · match x, hl with
    | [a, b], _ =>
      rw [hS, hS]
      cases hs : rd j.S 0 with
      | error e => rfl
      | ok s =>
        cases hs1 : rd j.S 1 with
        | error e => rfl
        | ok s1 =>
          simp [paramSign, rd, Except.map, Res.pure_eq, PTransform.mir, mirCol, Vec3.mir_smul]
          rw [← angleAxis_mir, neg_neg]
  · match x, hl with
    | [a, b, c, d, p, q, r], _ =>
      have e : (⟨Joint.quatToE a (-b) c (-d), ⟨p, -q, r⟩⟩ : PTransform K) = PTransform.mir ⟨Joint.quatToE a b c d, ⟨p, q, r⟩⟩ := by
        simp only [PTransform.mir, quatToE_mir]
        congr 1
      simp only [paramSign, rd, Except.map, Res.pure_eq, List.zipWith_cons_cons, List.getElem?_cons_zero, List.getElem?_cons_succ, one_mul,
        Res.bind_ok, neg_one_mul]
      rw [e, hd]
      split
      · rfl
      · rw [PTransform.mir_inv]
  · simp [Except.map, Res.pure_eq, PTransform.mir_one]

theorem validParam_mir {t : JointType} {x : List K} (h : ValidParam t x) :
    ValidParam t (List.zipWith (fun u y => 1 * (u * y)) (paramSign t) x) := by
  obtain ⟨hl, h⟩ := h
  refine ⟨by cases t <;> simp [paramSign, hl, Joint.nParams], ?_⟩
  cases t <;> try trivial
  · match x, hl with
    | [a, b, c, d], _ => simpa [paramSign] using h
  · match x, hl with
    | [a, b, c, d, p, q, r], _ => simpa [paramSign] using h

theorem dofSign_sq {t : JointType} {u : K} (h : u ∈ (dofSign t : List K)) : u * u = 1 := by
  have : u = 1 ∨ u = -1 := by cases t <;> simp [dofSign] at h <;> tauto
  rcases this with rfl | rfl <;> ring

/-! ### The robot -/

namespace MultiBody

theorem mirrored_map {α : Type} (f : Joint K → α) (hf : ∀ j, f j.mirrored = f j) (l : List (Joint K)) : (l.map Joint.mirrored).map f = l.map f := by
  rw [List.map_map]
  exact List.map_congr_left fun j _ => hf j

theorem mirrored_wf (wf : mb.WF) : mb.mirrored.WF := by
  refine ⟨?_, ?_, ?_, ?_, wf.pred, wf.parent, ?_, ?_, ?_, ?_, ?_⟩
  all_goals simp only [mirrored, List.length_map]
  · exact wf.njoints
  · exact wf.npred
  · exact wf.nXt
  · exact wf.succ
  · intro j hj
    obtain ⟨j, hj', rfl⟩ := List.mem_map.1 hj
    exact (wf.built j hj').mirrored
  · intro i hi
    rw [← List.map_take, mirrored_map _ fun _ => rfl]
    exact wf.posParam i hi
  · intro i hi
    rw [← List.map_take, mirrored_map _ fun _ => rfl]
    exact wf.posDof i hi
  · rw [mirrored_map _ fun _ => rfl]
    exact wf.nParams
  · rw [mirrored_map _ fun _ => rfl]
    exact wf.nDof

theorem mirrored_rigid (hr : mb.Rigid) : mb.mirrored.Rigid := by
  refine ⟨fun j hj => ?_, fun X hX => ?_⟩
  · obtain ⟨j, hj', rfl⟩ := List.mem_map.1 hj
    exact (hr.joints j hj').mirrored
  · obtain ⟨Y, hY, rfl⟩ := List.mem_map.1 hX
    exact PTransform.mir_rigid (hr.Xt Y hY)

theorem mirrored_length : mb.mirrored.bodies.length = mb.bodies.length := by simp [mirrored]
theorem mirrored_par : mb.mirrored.par = mb.par := rfl
theorem mirrored_joint (i : Nat) : mb.mirrored.joints[i]? = (mb.joints[i]?).map Joint.mirrored := by
  show (mb.joints.map _)[i]? = _
  rw [List.getElem?_map]
theorem mirrored_SAt (i : Nat) : mb.mirrored.SAt i = ((mb.joints[i]?).map fun j => j.S.map (mirCol j.type)).getD [] := by
  unfold SAt
  rw [mirrored_joint]
  cases mb.joints[i]? <;> rfl
theorem mirrored_dofAt (i : Nat) : mb.mirrored.dofAt i = mb.dofAt i := by
  unfold dofAt
  rw [mirrored_joint]
  cases mb.joints[i]? <;> rfl
theorem mirrored_dofPosAt (i : Nat) : mb.mirrored.dofPosAt i = mb.dofPosAt i := by
  unfold dofPosAt
  show (((mb.joints.map Joint.mirrored).take i).map _).sum = _
  rw [← List.map_take, mirrored_map _ fun _ => rfl]
theorem mirrored_path (i : Nat) : mb.mirrored.path i = mb.path i := by unfold path; rw [mirrored_length]; rfl
theorem mirrored_subtree (i : Nat) : mb.mirrored.subtree i = mb.subtree i := by unfold subtree; rw [mirrored_length]; rfl

theorem mirrored_inertiaAt (i : Nat) : mb.mirrored.inertiaAt i = (mb.inertiaAt i).mir := by
  unfold inertiaAt mirrored
  rw [List.getElem?_map]
  cases mb.bodies[i]? with
  | none => simp [RBInertia.mir, Vec3.mir]; rfl
  | some b => rfl

theorem mirrored_XtAt (i : Nat) : mb.mirrored.XtAt i = (mb.XtAt i).mir := by
  unfold XtAt mirrored
  rw [List.getElem?_map]
  cases mb.Xt[i]? with
  | none => simp [PTransform.mir_one]
  | some b => rfl

theorem SAt_mir (wf : mb.WF) (i a : Nat) : ((mb.SAt i).getD a 0).mir = mb.signAt i a • (mb.mirrored.SAt i).getD a 0 := by
  rw [mirrored_SAt]
  unfold SAt signAt
  cases hj : mb.joints[i]? with
  | none => simp [MotionVec.mir_zero]
  | some j =>
    have h := (wf.built j (List.mem_of_getElem? hj)).mir
    simp only [Option.map_some, Option.getD_some, List.getD_eq_getElem?_getD, List.getElem?_map]
    have hl := h.length_eq
    by_cases ha : a < j.S.length
    · rw [List.getElem?_eq_getElem ha, List.getElem?_eq_getElem (hl ▸ ha)]
      exact h.get ha (hl ▸ ha)
    · rw [List.getElem?_eq_none (by omega)]
      simp [MotionVec.mir_zero]

theorem signAt_sq (i a : Nat) : mb.signAt i a * mb.signAt i a = 1 := by
  unfold signAt
  cases mb.joints[i]? with
  | none => simp
  | some j =>
    simp only [Option.map_some, Option.getD_some, List.getD_eq_getElem?_getD]
    cases h : (dofSign j.type : List K)[a]? with
    | none => simp
    | some u => exact dofSign_sq (List.mem_of_getElem? h)

theorem SAt_mirrored (wf : mb.WF) (i a : Nat) : (mb.mirrored.SAt i).getD a 0 = mb.signAt i a • ((mb.SAt i).getD a 0).mir := by
  rw [SAt_mir wf, smul_smul, signAt_sq, one_smul]

theorem jointMotion_mir (wf : mb.WF) (a : List (List K)) (i : Nat) :
    mb.mirrored.jointMotion (mb.scaled dofSign 1 a) i = (mb.jointMotion a i).mir := by
  unfold jointMotion
  rw [mirrored_SAt, scaled_get]
  unfold SAt
  cases hj : mb.joints[i]? with
  | none => simp [applyCols, MotionVec.mir_zero]
  | some j =>
    cases a[i]? with
    | none => simp [applyCols, MotionVec.mir_zero]
    | some x => exact applyCols_mir (wf.built j (List.mem_of_getElem? hj)).mir x

theorem poseAt_mir {q : List (List K)} (hq : ValidQ mb q) (i : Nat) :
    mb.mirrored.poseAt (mb.scaled paramSign 1 q) i = (mb.poseAt q i).mir := by
  unfold poseAt
  rw [scaled_get, mirrored_joint]
  cases hj : mb.joints[i]? with
  | none => exact PTransform.mir_one.symm
  | some j =>
    cases hx : q[i]? with
    | none => exact PTransform.mir_one.symm
    | some x =>
      have hv : ValidParam j.type x := by
        obtain ⟨h1, rfl⟩ := List.getElem?_eq_some_iff.1 hj
        obtain ⟨h2, rfl⟩ := List.getElem?_eq_some_iff.1 hx
        exact List.Forall₂.get hq h1 h2
      show ((j.mirrored.pose _).toOption).getD 1 = PTransform.mir (((j.pose x).toOption).getD 1)
      rw [j.pose_mir hv]
      cases j.pose x with
      | error e => exact PTransform.mir_one.symm
      | ok X => rfl

theorem validQ_mir {q : List (List K)} (hq : ValidQ mb q) : ValidQ mb.mirrored (mb.scaled paramSign 1 q) := by
  unfold ValidQ scaled at *
  show List.Forall₂ _ (mb.joints.map Joint.mirrored) _
  rw [List.forall₂_map_left_iff]
  generalize mb.joints = js at hq ⊢
  induction hq with
  | nil => exact .nil
  | cons h _ ih => exact .cons (validParam_mir h) ih

theorem ptsAt_mir {q : List (List K)} (hq : ValidQ mb q) (i : Nat) :
    mb.mirrored.ptsAt (mb.scaled paramSign 1 q) i = (mb.ptsAt q i).mir := by
  unfold ptsAt
  rw [poseAt_mir hq, mirrored_XtAt, PTransform.mir_mul]

theorem posAt_mir {q : List (List K)} (hq : ValidQ mb q) (i : Nat) :
    mb.mirrored.posAt (mb.scaled paramSign 1 q) i = (mb.posAt q i).mir := by
  unfold posAt
  rw [mirrored_par]
  induction pathUp mb.par i with
  | nil => exact PTransform.mir_one.symm
  | cons k l ih => rw [List.map_cons, List.map_cons, List.prod_cons, List.prod_cons, ih, ptsAt_mir hq, PTransform.mir_mul]

theorem relAt_mir {q : List (List K)} (hq : ValidQ mb q) (k i : Nat) :
    mb.mirrored.relAt (mb.scaled paramSign 1 q) k i = (mb.relAt q k i).mir := by
  unfold relAt
  rw [posAt_mir hq, posAt_mir hq, PTransform.mir_mul, PTransform.mir_inv]

theorem velAt_mir (wf : mb.WF) {q : List (List K)} (hq : ValidQ mb q) (alpha : List (List K)) (i : Nat) :
    mb.mirrored.velAt (mb.scaled paramSign 1 q) (mb.scaled dofSign 1 alpha) i = (mb.velAt q alpha i).mir := by
  unfold velAt
  rw [mirrored_path, MotionVec.mir_sum]
  exact Finset.sum_congr rfl fun k _ => by rw [relAt_mir hq, jointMotion_mir wf, PTransform.mir_mulMotion]

theorem accAt_mir (wf : mb.WF) {q : List (List K)} (hq : ValidQ mb q) (alpha alphaD : List (List K)) (a0 : MotionVec K) (i : Nat) :
    mb.mirrored.accAt (mb.scaled paramSign 1 q) (mb.scaled dofSign 1 alpha) (mb.scaled dofSign 1 alphaD) a0.mir i =
      (mb.accAt q alpha alphaD a0 i).mir := by
  unfold accAt
  rw [mirrored_path, MotionVec.mir_add, MotionVec.mir_sum, posAt_mir hq, PTransform.mir_mulMotion]
  congr 1
  exact Finset.sum_congr rfl fun k _ => by
    rw [relAt_mir hq, jointMotion_mir wf, jointMotion_mir wf, velAt_mir wf hq, MotionVec.mir_cross, ← MotionVec.mir_add,
      PTransform.mir_mulMotion]

theorem netForceAt_mir (wf : mb.WF) {q : List (List K)} (hq : ValidQ mb q) (alpha alphaD : List (List K)) (a0 : MotionVec K)
    {f f' : Nat → ForceVec K} (hf : ∀ k, f' k = (f k).mir) (i : Nat) :
    mb.mirrored.netForceAt (mb.scaled paramSign 1 q) (mb.scaled dofSign 1 alpha) (mb.scaled dofSign 1 alphaD) a0.mir f' i =
      (mb.netForceAt q alpha alphaD a0 f i).mir := by
  unfold netForceAt
  rw [ForceVec.mir_sub, ForceVec.mir_add, mirrored_inertiaAt, accAt_mir wf hq, velAt_mir wf hq, posAt_mir hq, hf,
    RBInertia.mir_mulMotion, RBInertia.mir_mulMotion, MotionVec.mir_crossDual, PTransform.mir_dualMul]

theorem wrenchAt_mir {q : List (List K)} (hq : ValidQ mb q) {f f' : Nat → ForceVec K} (hf : ∀ k, f' k = (f k).mir) (i : Nat) :
    mb.mirrored.wrenchAt (mb.scaled paramSign 1 q) f' i = (mb.wrenchAt q f i).mir := by
  unfold wrenchAt
  rw [mirrored_subtree, ForceVec.mir_sum]
  exact Finset.sum_congr rfl fun k _ => by rw [relAt_mir hq, hf, PTransform.mir_transMul]

theorem colAt_mir (wf : mb.WF) {q : List (List K)} (hq : ValidQ mb q) (k i a : Nat) :
    mb.mirrored.colAt (mb.scaled paramSign 1 q) k i a = mb.signAt i a • (mb.colAt q k i a).mir := by
  unfold colAt
  rw [mirrored_par]
  split
  · rw [relAt_mir hq, SAt_mirrored wf, PTransform.mulMotion_smul, PTransform.mir_mulMotion]
  · simp [MotionVec.mir_zero]

theorem S_dot_mir (wf : mb.WF) (f : ForceVec K) (i a : Nat) :
    ((mb.mirrored.SAt i).getD a 0).dot f.mir = mb.signAt i a * ((mb.SAt i).getD a 0).dot f := by
  rw [SAt_mirrored wf, MotionVec.smul_dot, MotionVec.mir_dot]

theorem massAt_mir (wf : mb.WF) {q : List (List K)} (hq : ValidQ mb q) (i a j b : Nat) :
    mb.mirrored.massAt (mb.scaled paramSign 1 q) i a j b = mb.signAt i a * mb.signAt j b * mb.massAt q i a j b := by
  unfold massAt
  rw [mirrored_length, Finset.mul_sum]
  refine Finset.sum_congr rfl fun k _ => ?_
  rw [colAt_mir wf hq, colAt_mir wf hq, mirrored_inertiaAt, RBInertia.mulMotion_smul, MotionVec.smul_dot, MotionVec.dot_smul,
    RBInertia.mir_mulMotion, MotionVec.mir_dot]
  ring

theorem project_mir (wf : mb.WF) {i : Nat} {j : Joint K} (hj : mb.joints[i]? = some j) (f : ForceVec K) :
    mb.mirrored.project i f.mir = List.zipWith (fun u y => 1 * (u * y)) (dofSign j.type) (mb.project i f) := by
  have h := (wf.built j (List.mem_of_getElem? hj)).mir
  have hu : ∀ u ∈ (dofSign j.type : List K), u * u = 1 := fun u hu => dofSign_sq hu
  unfold project
  rw [mirrored_SAt]
  unfold SAt
  rw [hj, Option.map_some, Option.getD_some, Option.map_some, Option.getD_some]
  generalize (dofSign j.type : List K) = U at h hu ⊢
  generalize j.S = S at h ⊢
  induction h with
  | nil => rfl
  | @cons s u S U h _ ih =>
    simp only [List.map_cons, List.zipWith_cons_cons]
    rw [ih fun v hv => hu v (List.mem_cons_of_mem _ hv)]
    congr 1
    have h2 : mirCol j.type s = u • s.mir := by rw [h, smul_smul, hu u (List.mem_cons_self ..), one_smul]
    rw [h2, MotionVec.smul_dot, MotionVec.mir_dot, one_mul]

end MultiBody

theorem InMirror.a0 (h : InMirror mb m m') : (⟨0, m'.gravity⟩ : MotionVec K) = (⟨0, m.gravity⟩ : MotionVec K).mir := by
  rw [h.gravity]
  ext1
  · ext <;> simp [MotionVec.mir, Vec3.mirAx]
  · rfl

theorem InMirror.forceAt (h : InMirror mb m m') (k : Nat) : m'.forceAt k = (m.forceAt k).mir := by
  unfold MBC.forceAt
  rw [h.force, List.getElem?_map]
  cases m.force[k]? with
  | none => exact ForceVec.mir_zero.symm
  | some f => rfl

/-! ### The results -/

/-- C89: the mirror image of a robot is a robot again, with the same sizes and the same mass, and the mirror image of a configuration is a
configuration of it. -/
theorem C89_robot (wf : mb.WF) (hr : mb.Rigid) (hm : mb.MassOK) :
    mb.mirrored.WF ∧ mb.mirrored.Rigid ∧ mb.mirrored.MassOK ∧ mb.mirrored.nrBodies = mb.nrBodies ∧
      mb.mirrored.nrDof = mb.nrDof ∧ mb.mirrored.totalMass = mb.totalMass ∧
      ∀ q, ValidQ mb q → ValidQ mb.mirrored (mb.scaled paramSign 1 q) := by
  refine ⟨mb.mirrored_wf wf, mb.mirrored_rigid hr, ?_, mb.mirrored_length, rfl, ?_, fun q hq => mb.validQ_mir hq⟩
  · intro b hb
    obtain ⟨b, hb', rfl⟩ := List.mem_map.1 hb
    rcases hm b hb' with h | h
    · exact .inl h
    · refine .inr ?_
      show b.inertia.h.mir = 0
      rw [h, Vec3.mir_zero]
  · unfold MultiBody.totalMass
    rw [mb.mirrored_length]
    exact Finset.sum_congr rfl fun k _ => by rw [mb.mirrored_inertiaAt]; rfl

/-- C89: the mirror image of the mirror image is the robot itself. -/
theorem C89_twice (mb : MultiBody K) : mb.mirrored.mirrored = mb := by
  have e : ∀ j : Joint K, j.mirrored.mirrored = j := by
    intro j
    have h : (j.S.map (mirCol j.type)).map (mirCol j.type) = j.S := by
      rw [List.map_map]
      conv_rhs => rw [← List.map_id j.S]
      refine List.map_congr_left fun c _ => ?_
      show mirCol j.type (mirCol j.type c) = c
      cases j.type <;> first | rfl | (simp only [mirCol, Vec3.mir_mir])
    show { j with S := (j.S.map (mirCol j.type)).map (mirCol j.type) } = j
    rw [h]
  have h1 : (mb.bodies.map fun b => { b with inertia := b.inertia.mir }).map (fun b : Body K => { b with inertia := b.inertia.mir }) = mb.bodies := by
    rw [List.map_map]
    conv_rhs => rw [← List.map_id mb.bodies]
    exact List.map_congr_left fun b _ => by simp only [Function.comp, RBInertia.mir_mir, id]
  have h2 : (mb.joints.map Joint.mirrored).map Joint.mirrored = mb.joints := by
    rw [List.map_map]
    conv_rhs => rw [← List.map_id mb.joints]
    exact List.map_congr_left fun j _ => e j
  have h3 : (mb.Xt.map PTransform.mir).map PTransform.mir = mb.Xt := by
    rw [List.map_map]
    conv_rhs => rw [← List.map_id mb.Xt]
    exact List.map_congr_left fun X _ => X.mir_mir
  show ({ mb with
    bodies := (mb.bodies.map fun b => { b with inertia := b.inertia.mir }).map (fun b : Body K => { b with inertia := b.inertia.mir })
    joints := (mb.joints.map Joint.mirrored).map Joint.mirrored, Xt := (mb.Xt.map PTransform.mir).map PTransform.mir } : MultiBody K) = mb
  rw [h1, h2, h3]

/-- C89: poses and velocities are the mirror images. -/
theorem C89_motion (wf : mb.WF) (hq : ValidQ mb m.q) (h : InMirror mb m m') (hv : m.VelReady mb) (hv' : m'.VelReady mb.mirrored) :
    m'.bodyPosW = m.bodyPosW.map PTransform.mir ∧ m'.bodyVelB = m.bodyVelB.map MotionVec.mir ∧
      m'.bodyVelW = m.bodyVelW.map MotionVec.mir := by
  refine ⟨?_, ?_, ?_⟩
  · rw [hv.bodyPosW, hv'.bodyPosW, mb.mirrored_length, List.map_map, h.q]
    exact List.map_congr_left fun i _ => mb.posAt_mir hq i
  · rw [hv.bodyVelB, hv'.bodyVelB, mb.mirrored_length, List.map_map, h.q, h.alpha]
    exact List.map_congr_left fun i _ => mb.velAt_mir wf hq _ i
  · rw [hv.bodyVelW, hv'.bodyVelW, mb.mirrored_length, List.map_map, h.q, h.alpha]
    refine List.map_congr_left fun i _ => ?_
    unfold MultiBody.velWAt
    rw [mb.velAt_mir wf hq, mb.posAt_mir hq]
    ext1
    · simp only [Function.comp, MultiBody.velWAt, MotionVec.mir, PTransform.mir, Mat3.mir_mulVecAx, Mat3.mir_tr]
    · simp only [Function.comp, MultiBody.velWAt, MotionVec.mir, PTransform.mir, Mat3.mir_mulVec, Mat3.mir_tr]

/-- C89: inverse dynamics finds the mirror images of the torques, accelerations and forces. -/
theorem C89_torques (wf : mb.WF) (hr : mb.Rigid) (h : InMirror mb m m') (sz : m.Sized mb)
    (sz' : m'.Sized mb.mirrored) (hq : ValidQ mb m.q) (hv : m.VelReady mb) (hv' : m'.VelReady mb.mirrored) {d d' : ID K}
    (hd : d.f.length = mb.nrBodies) (hd' : d'.f.length = mb.nrBodies) :
    ∃ d₁ m₁ d₁' m₁', d.inverseDynamics mb m = .ok (d₁, m₁) ∧ d'.inverseDynamics mb.mirrored m' = .ok (d₁', m₁') ∧
      m₁'.bodyAccB = m₁.bodyAccB.map MotionVec.mir ∧ m₁'.jointTorque = mb.scaled dofSign 1 m₁.jointTorque ∧
      d₁'.f = d₁.f.map ForceVec.mir := by
  have hq' : ValidQ mb.mirrored m'.q := h.q ▸ mb.validQ_mir hq
  have hw : ∀ i, mb.mirrored.wrenchAt m'.q (mb.mirrored.netForceAt m'.q m'.alpha m'.alphaD ⟨0, m'.gravity⟩ m'.forceAt) i =
      (mb.wrenchAt m.q (mb.netForceAt m.q m.alpha m.alphaD ⟨0, m.gravity⟩ m.forceAt) i).mir := by
    intro i
    rw [h.q, h.alpha, h.alphaD, h.a0]
    exact mb.wrenchAt_mir hq (fun k => mb.netForceAt_mir wf hq _ _ _ h.forceAt k) i
  refine ⟨_, _, _, _, id_eq wf hr sz hq hv hd rfl,
    id_eq (mb.mirrored_wf wf) (mb.mirrored_rigid hr) sz' hq' hv' (by rw [mb.mirrored_length]; exact hd') rfl, ?_, ?_, ?_⟩
  · simp only [mb.mirrored_length, List.map_map]
    refine List.map_congr_left fun i _ => ?_
    rw [h.q, h.alpha, h.alphaD, h.a0]
    exact mb.accAt_mir wf hq _ _ _ i
  · simp only [mb.mirrored_length]
    refine mb.scaled_range _ _ _ _ _ wf.njoints fun i j hj => ?_
    rw [hw]
    exact mb.project_mir wf hj _
  · simp only [mb.mirrored_length, List.map_map]
    exact List.map_congr_left fun i _ => hw i

/-- C89: the mass matrix of the mirror image differs in the signs of its rows and columns only. -/
theorem C89_mass_matrix (wf : mb.WF) (hr : mb.Rigid) (h : InMirror mb m m') (hq : ValidQ mb m.q) (hv : m.PosReady mb)
    (hv' : m'.PosReady mb.mirrored) {fd fd' : FD K} (hf : fd.Fits mb) (hf' : fd'.Fits mb.mirrored) :
    ∃ fd₁ fd₁', fd.computeH mb m = .ok fd₁ ∧ fd'.computeH mb.mirrored m' = .ok fd₁' ∧
      ∀ i a j b, i < mb.nrBodies → j < mb.nrBodies → a < mb.dofAt i → b < mb.dofAt j →
        fd₁'.H.get (mb.dofPosAt i + a) (mb.dofPosAt j + b) =
          mb.signAt i a * mb.signAt j b * fd₁.H.get (mb.dofPosAt i + a) (mb.dofPosAt j + b) := by
  obtain ⟨fd₁, e1, h1, -, -⟩ := computeH_eq wf hr hq hv hf
  obtain ⟨fd₁', e2, h2, -, -⟩ := computeH_eq (mb.mirrored_wf wf) (mb.mirrored_rigid hr) (h.q ▸ mb.validQ_mir hq) hv' hf'
  refine ⟨fd₁, fd₁', e1, e2, fun i a j b hi hj ha hb => ?_⟩
  have k2 := (h2.2.2 i a j b (by rw [mb.mirrored_length]; exact hi) (by rw [mb.mirrored_length]; exact hj) (by rw [mb.mirrored_dofAt]; exact ha)
    (by rw [mb.mirrored_dofAt]; exact hb)).1 trivial
  rw [mb.mirrored_dofPosAt, mb.mirrored_dofPosAt, h.q] at k2
  rw [k2, (h1.2.2 i a j b hi hj ha hb).1 trivial, mb.massAt_mir wf hq]

/-- C89: the vector of velocity, gravity and external forces of the mirror image differs in signs only. -/
theorem C89_bias (wf : mb.WF) (hr : mb.Rigid) (h : InMirror mb m m') (sz : m.Sized mb) (sz' : m'.Sized mb.mirrored)
    (hq : ValidQ mb m.q) (hv : m.VelReady mb) (hv' : m'.VelReady mb.mirrored) {fd fd' : FD K} (hf : fd.Fits mb)
    (hf' : fd'.Fits mb.mirrored) :
    ∃ fd₁ fd₁', fd.computeC mb m = .ok fd₁ ∧ fd'.computeC mb.mirrored m' = .ok fd₁' ∧ fd₁.C.length = mb.nrDof ∧ fd₁'.C.length = mb.nrDof ∧
      ∀ i a, i < mb.nrBodies → a < mb.dofAt i →
        fd₁'.C.getD (mb.dofPosAt i + a) 0 = mb.signAt i a * fd₁.C.getD (mb.dofPosAt i + a) 0 := by
  obtain ⟨fd₁, e1, c1, f1, -⟩ := computeC_eq wf hr sz.force hq hv hf
  obtain ⟨fd₁', e2, c2, f2, -⟩ := computeC_eq (mb.mirrored_wf wf) (mb.mirrored_rigid hr) sz'.force (h.q ▸ mb.validQ_mir hq) hv' hf'
  refine ⟨fd₁, fd₁', e1, e2, f1.C, f2.C, fun i a hi ha => ?_⟩
  have k2 := c2 i a (by rw [mb.mirrored_length]; exact hi) (by rw [mb.mirrored_dofAt]; exact ha)
  have hn := fun k => mb.netForceAt_mir wf hq m.alpha [] ⟨0, m.gravity⟩ h.forceAt k
  rw [MultiBody.scaled_nil] at hn
  rw [mb.mirrored_dofPosAt, h.q, h.alpha, h.a0, mb.wrenchAt_mir hq hn] at k2
  rw [List.getD_eq_getElem?_getD, List.getD_eq_getElem?_getD, k2, c1 i a hi ha, Option.getD_some, Option.getD_some, mb.S_dot_mir wf]

theorem dofSign_length {j : Joint K} (h : j.Built) : (dofSign j.type : List K).length = j.dof := by
  induction h with
  | mk t axis fwd name => cases t <;> rfl
  | setForward j fwd hj ih => exact ih
  | makeMimic j n mu o hj ih => exact ih

theorem paramSign_length {j : Joint K} (h : j.Built) : (paramSign j.type : List K).length = j.params := by
  induction h with
  | mk t axis fwd name => cases t <;> rfl
  | setForward j fwd hj ih => exact ih
  | makeMimic j n mu o hj ih => exact ih

theorem mirrored_sizedDof (wf : mb.WF) {v : List (List K)} (h : SizedDof mb v) : SizedDof mb.mirrored (mb.scaled dofSign 1 v) :=
  (scaled_sizes (fun j hj => dofSign_length (wf.built j hj)) h).trans (MultiBody.mirrored_map _ (fun _ => rfl) _).symm

/-- The mirror image of a state, before kinematics is computed. -/
def MBC.mirrored (m : MBC K) (mb : MultiBody K) : MBC K :=
  { m with
    q := mb.scaled paramSign 1 m.q
    alpha := mb.scaled dofSign 1 m.alpha
    alphaD := mb.scaled dofSign 1 m.alphaD
    gravity := m.gravity.mir
    force := m.force.map ForceVec.mir
    jointTorque := mb.scaled dofSign 1 m.jointTorque }

/-- C89: every state has its mirror image, and forward kinematics and velocity of the mirrored robot make it ready. -/
theorem C89_state (wf : mb.WF) (hr : mb.Rigid) (sz : m.Sized mb) (hq : ValidQ mb m.q) :
    ∃ m₁ m', forwardKinematics mb.mirrored (m.mirrored mb) = .ok m₁ ∧ forwardVelocity mb.mirrored m₁ = .ok m' ∧
      InMirror mb m m' ∧ m'.Sized mb.mirrored ∧ m'.VelReady mb.mirrored := by
  have sz' : (m.mirrored mb).Sized mb.mirrored :=
    { q := (scaled_sizes (fun j hj => paramSign_length (wf.built j hj)) sz.q).trans (MultiBody.mirrored_map _ (fun _ => rfl) _).symm
      alpha := mirrored_sizedDof wf sz.alpha
      alphaD := mirrored_sizedDof wf sz.alphaD
      jointTorque := mirrored_sizedDof wf sz.jointTorque
      force := by rw [mb.mirrored_length]; simpa [MBC.mirrored] using sz.force
      jointConfig := by rw [mb.mirrored_length]; exact sz.jointConfig
      jointVelocity := by rw [mb.mirrored_length]; exact sz.jointVelocity
      motionSubspace := by
        show m.motionSubspace.map _ = (mb.joints.map _).map _
        rw [MultiBody.mirrored_map _ fun _ => rfl]
        exact sz.motionSubspace
      bodyPosW := by rw [mb.mirrored_length]; exact sz.bodyPosW
      parentToSon := by rw [mb.mirrored_length]; exact sz.parentToSon
      bodyVelW := by rw [mb.mirrored_length]; exact sz.bodyVelW
      bodyVelB := by rw [mb.mirrored_length]; exact sz.bodyVelB
      bodyAccB := by rw [mb.mirrored_length]; exact sz.bodyAccB }
  obtain ⟨m₁, m', e1, e2, hv, s', q', a', aD', f', g', t'⟩ := C24_velReady (mb.mirrored_wf wf) (mb.mirrored_rigid hr) sz' (mb.validQ_mir hq)
  exact ⟨m₁, m', e1, e2, ⟨q', a', aD', g', f', t'⟩, s', hv⟩

/-- The mirror image of a positive inertia is positive. -/
theorem RBInertia.mir_pos {I : RBInertia K} (h : ∀ v : MotionVec K, v ≠ 0 → 0 < v.dot (I.mulMotion v)) (v : MotionVec K)
    (hv : v ≠ 0) : 0 < v.dot (I.mir.mulMotion v) := by
  have h0 : v.mir ≠ 0 := by
    intro h0
    rw [← MotionVec.mir_mir v, h0, MotionVec.mir_zero] at hv
    exact hv rfl
  rw [← MotionVec.mir_mir v, RBInertia.mir_mulMotion, MotionVec.mir_dot]
  exact h _ h0

theorem mirrored_inertia (hI : ∀ b ∈ mb.bodies, ∀ v : MotionVec K, v ≠ 0 → 0 < v.dot (b.inertia.mulMotion v)) :
    ∀ b ∈ mb.mirrored.bodies, ∀ v : MotionVec K, v ≠ 0 → 0 < v.dot (b.inertia.mulMotion v) := by
  intro b hb
  obtain ⟨b, hb', rfl⟩ := List.mem_map.1 hb
  exact RBInertia.mir_pos (hI b hb')

theorem mirrored_subspace (wf : mb.WF) (hS : ∀ j ∈ mb.joints, ∀ c ∈ j.S, c ≠ 0) : ∀ j ∈ mb.mirrored.joints, ∀ c ∈ j.S, c ≠ 0 := by
  intro j hj c hc h0
  obtain ⟨j, hj', rfl⟩ := List.mem_map.1 hj
  obtain ⟨c, hc', rfl⟩ := List.mem_map.1 hc
  obtain ⟨k, hk, rfl⟩ := List.mem_iff_getElem.1 hc'
  have h := (wf.built j hj').mir
  have := h.get hk (h.length_eq ▸ hk)
  rw [List.get_eq_getElem, h0, smul_zero] at this
  refine hS j hj' _ hc' ?_
  rw [← MotionVec.mir_mir j.S[k], this, MotionVec.mir_zero]

/-- C89: forward dynamics finds the mirror images of the accelerations. -/
theorem C89_accelerations (wf : mb.WF) (hr : mb.Rigid) (h : InMirror mb m m') (sz : m.Sized mb)
    (sz' : m'.Sized mb.mirrored) (hq : ValidQ mb m.q) (hv : m.VelReady mb) (hv' : m'.VelReady mb.mirrored) {fd fd' : FD K}
    (hf : fd.Fits mb) (hf' : fd'.Fits mb.mirrored)
    (hI : ∀ b ∈ mb.bodies, ∀ v : MotionVec K, v ≠ 0 → 0 < v.dot (b.inertia.mulMotion v)) (hS : ∀ j ∈ mb.joints, ∀ c ∈ j.S, c ≠ 0)
    {solve solve' : DMat K → List K → List K} (hs : ∀ fd₁, fd.computeH mb m = .ok fd₁ → ExactSolve solve fd₁.H)
    (hs' : ∀ fd₁, fd'.computeH mb.mirrored m' = .ok fd₁ → ExactSolve solve' fd₁.H) :
    ∃ fd₁ m₁ fd₁' m₁', fd.forwardDynamics solve mb m = .ok (fd₁, m₁) ∧
      fd'.forwardDynamics solve' mb.mirrored m' = .ok (fd₁', m₁') ∧ m₁'.alphaD = mb.scaled dofSign 1 m₁.alphaD := by
  have hd : (⟨List.replicate mb.nrBodies 0⟩ : ID K).f.length = mb.nrBodies := by simp
  obtain ⟨fd₁, m₁, d₂, m₂, e1, hm₁, -, sz₁, e2, ht⟩ := C27_forward_then_inverse wf hr sz hq hv hd hf hs
  have hm1 : m₁ = { m with alphaD := m₁.alphaD } := by rw [← hm₁]
  have hsp : SamePosVel m₁ m := by
    rw [hm1]
    rfl
  obtain ⟨hv₁, hq₁⟩ := hsp.ready hv hq
  have hs2 : SizedDof mb.mirrored (mb.scaled dofSign 1 m₁.alphaD) := mirrored_sizedDof wf sz₁.alphaD
  have hu : InMirror mb m₁ { m' with alphaD := mb.scaled dofSign 1 m₁.alphaD } := by
    rw [hm1]
    exact ⟨h.q, h.alpha, rfl, h.gravity, h.force, h.jointTorque⟩
  have sz2 : MBC.Sized mb.mirrored { m' with alphaD := mb.scaled dofSign 1 m₁.alphaD } := { sz' with alphaD := hs2 }
  have hsp' : SamePosVel { m' with alphaD := mb.scaled dofSign 1 m₁.alphaD } m' := rfl
  have hq' : ValidQ mb.mirrored m'.q := h.q ▸ mb.validQ_mir hq
  obtain ⟨hv2, hq2⟩ := hsp'.ready hv' hq'
  obtain ⟨d₃, m₃, d₃', m₃', i1, i2, -, i4, -⟩ := C89_torques wf hr hu sz₁ sz2 hq₁ hv₁ hv2 hd hd
  rw [e2] at i1
  cases i1
  rw [ht, ← h.jointTorque] at i4
  obtain ⟨fd₁', e3⟩ := fd_unique (mb.mirrored_wf wf) (mb.mirrored_rigid hr) sz' hq' hv'
    (d := ⟨List.replicate mb.nrBodies 0⟩) (by rw [hd]; exact mb.mirrored_length.symm) hf' (mirrored_inertia hI) (mirrored_subspace wf hS) hs' hs2 i2 i4
  exact ⟨fd₁, m₁, fd₁', _, e1, e3, rfl⟩

/-- C89: centre of mass and momentum are the mirror images. -/
theorem C89_momentum (wf : mb.WF) (hr : mb.Rigid) (hm : mb.MassOK) (hT : 0 < mb.totalMass)
    (h : InMirror mb m m') (hq : ValidQ mb m.q) (hv : m.VelReady mb) (hv' : m'.VelReady mb.mirrored) (p : Vec3 K) :
    ∃ c P, computeCoM mb m = .ok c ∧ computeCoM mb.mirrored m' = .ok c.mir ∧ computeCentroidalMomentum mb m p = .ok P ∧
      computeCentroidalMomentum mb.mirrored m' p.mir = .ok P.mir := by
  obtain ⟨-, -, hm', -, -, hT', -⟩ := C89_robot wf hr hm
  refine ⟨_, _, computeCoM_eq hm hT hv.toPosReady, ?_, computeCentroidalMomentum_eq hv p, ?_⟩
  · rw [computeCoM_eq hm' (by rw [hT']; exact hT) hv'.toPosReady]
    congr 1
    unfold MultiBody.comAt
    rw [hT', mb.mirrored_length, h.q, Vec3.mir_smul, Vec3.mir_sum]
    congr 1
    refine Finset.sum_congr rfl fun k hk => ?_
    have hc : mb.mirrored.corComAt k = (mb.corComAt k).mir := by
      unfold MultiBody.corComAt MultiBody.mirrored
      rw [List.getElem?_map]
      cases mb.bodies[k]? with
      | none => simp [Vec3.mir_zero]
      | some b =>
        simp only [Option.map_some, Option.getD_some, Body.corCom, RBInertia.mir]
        split
        · rw [Vec3.mir_smul]
        · rw [Vec3.mir_zero]
    rw [mb.mirrored_inertiaAt, mb.posAt_mir hq, hc, worldPoint_mir, Vec3.mir_smul]
    rfl
  · rw [computeCentroidalMomentum_eq hv']
    congr 1
    unfold MultiBody.momentumAt
    rw [mb.mirrored_length, ForceVec.mir_sum, h.q, h.alpha]
    exact Finset.sum_congr rfl fun k _ => by
      rw [one_smul, one_smul, mb.posAt_mir hq, mb.mirrored_inertiaAt, mb.velAt_mir wf hq, momHom_mir]

/-- The sign of row `x` of a Jacobian. -/
def rowSign (x : Nat) : K := if x = 0 ∨ x = 2 ∨ x = 4 then -1 else 1

theorem MotionVec.mir_row (v : MotionVec K) {x : Nat} (hx : x < 6) : v.mir.toList.getD x 0 = rowSign x * v.toList.getD x 0 := by
  obtain rfl | rfl | rfl | rfl | rfl | rfl : x = 0 ∨ x = 1 ∨ x = 2 ∨ x = 3 ∨ x = 4 ∨ x = 5 := by omega
  all_goals simp [MotionVec.mir, MotionVec.toList, rowSign, Vec3.mir, Vec3.mirAx]

/-- C89: the Jacobian of a point of the mirror image differs in the signs of its rows and columns only. -/
theorem C89_jacobian (wf : mb.WF) (h : InMirror mb m m') (hq : ValidQ mb m.q) (hv : m.PosReady mb) (hv' : m'.PosReady mb.mirrored)
    {J J' : Jac K} {N : Nat} {p : Vec3 K} (hJ : J.Of mb N p) (hJ' : J'.Of mb.mirrored N p.mir) {res : DMat K} (hrr : res.rows = 6)
    (hrc : res.cols = mb.nrDof) :
    ∃ (J₁ J₁' : Jac K) (A A' : DMat K), J.jacobian mb m = .ok J₁ ∧ J₁.fullJacobian mb (DMat.ofCols J₁.jac) res = .ok A ∧
      J'.jacobian mb.mirrored m' = .ok J₁' ∧ J₁'.fullJacobian mb.mirrored (DMat.ofCols J₁'.jac) res = .ok A' ∧
      ∀ x i a, x < 6 → i < mb.nrBodies → a < mb.dofAt i →
        A'.get x (mb.dofPosAt i + a) = rowSign x * mb.signAt i a * A.get x (mb.dofPosAt i + a) := by
  obtain ⟨J₁, A, e1, e2, -, -, hA⟩ := hJ.full_cols wf hv hrr hrc
  obtain ⟨J₁', A', e1', e2', -, -, hA'⟩ := hJ'.full_cols (mb.mirrored_wf wf) hv' hrr hrc
  refine ⟨J₁, J₁', A, A', e1, e2, e1', e2', fun x i a hx hi ha => ?_⟩
  have k := hA' x i a hx (by rw [mb.mirrored_length]; exact hi) (by rw [mb.mirrored_dofAt]; exact ha)
  rw [mb.mirrored_dofPosAt] at k
  rw [k, hA x i a hx hi ha, mul_comm (rowSign x), mul_assoc, ← MotionVec.mir_row _ hx, ← MotionVec.smul_row _ _ hx]
  congr 2
  unfold MultiBody.wcol MultiBody.pathCol
  rw [mb.mirrored_par]
  split
  · rw [h.q, mb.SAt_mirrored wf, map_smul]
    congr 1
    simp only [PTransform.motionHom_apply]
    rw [mb.posAt_mir hq, mb.posAt_mir hq, ← PTransform.mir_inv]
    have e0 : ∀ r : Vec3 K, PTransform.ofTrans r.mir = (PTransform.ofTrans r).mir := by
      intro r
      ext1
      · exact Mat3.mir_one.symm
      · rfl
    have e : PTransform.ofTrans (PTransform.ofTrans p.mir * (mb.posAt m.q N).mir).r =
        (PTransform.ofTrans (PTransform.ofTrans p * mb.posAt m.q N).r).mir := by
      rw [e0, ← PTransform.mir_mul, ← e0]
      rfl
    rw [e, ← PTransform.mir_mul, PTransform.mir_mulMotion]
  · rw [MotionVec.mir_zero, smul_zero]

/-! ### The sample robot in the mirror -/

/-- C89 on the sample robot: all hypotheses are met, a rotation of the free joint and its force change sign, another keeps it. -/
example : ∃ (m' : MBC ℚ) (d₁ d₁' : ID ℚ) (m₁ m₁' : MBC ℚ), InMirror Sample.mb Sample.mbcV m' ∧ m'.Sized Sample.mb.mirrored ∧
    m'.VelReady Sample.mb.mirrored ∧ Sample.id.inverseDynamics Sample.mb Sample.mbcV = .ok (d₁, m₁) ∧
    Sample.id.inverseDynamics Sample.mb.mirrored m' = .ok (d₁', m₁') ∧ m'.q ≠ Sample.mbcV.q ∧
    (m₁'.jointTorque.flatten).getD 0 0 = -(m₁.jointTorque.flatten).getD 0 0 ∧ (m₁.jointTorque.flatten).getD 0 0 ≠ 0 ∧
    (m₁'.jointTorque.flatten).getD 5 0 = (m₁.jointTorque.flatten).getD 5 0 ∧ (m₁.jointTorque.flatten).getD 5 0 ≠ 0 := by
  obtain ⟨h1, h2, h3⟩ := Sample.ready
  obtain ⟨-, m', -, -, hu, s', v'⟩ := C89_state Sample.wf Sample.rigid h2 h3
  obtain ⟨d₁, m₁, d₁', m₁', e1, e2, -, e3, -⟩ := C89_torques Sample.wf Sample.rigid hu h2 s' h3 h1 v' (d := Sample.id)
    (d' := Sample.id) (by decide +kernel) (by decide +kernel)
  have t1 : m₁.jointTorque = ((Sample.id.inverseDynamics Sample.mb Sample.mbcV).toOption.map (·.2.jointTorque)).getD [] := by rw [e1]; rfl
  refine ⟨m', d₁, d₁', m₁, m₁', hu, s', v', e1, e2, ?_, ?_, ?_, ?_, ?_⟩
  · rw [hu.q]; decide +kernel
  all_goals
    try rw [e3]
    rw [t1]
    decide +kernel

/-- C89 on the sample robot: forward dynamics, momentum and a Jacobian of the mirror image. -/
example : ∃ (m' : MBC ℚ) (fd' : FD ℚ) (J J' : Jac ℚ) (solve solve' : DMat ℚ → List ℚ → List ℚ), InMirror Sample.mb Sample.mbcV m' ∧
    m'.VelReady Sample.mb.mirrored ∧ fd'.Fits Sample.mb.mirrored ∧ J.Of Sample.mb 2 ⟨1, 2, 3⟩ ∧
    J'.Of Sample.mb.mirrored 2 (Vec3.mir ⟨1, 2, 3⟩) ∧ Sample.mb.MassOK ∧ 0 < Sample.mb.totalMass ∧
    ∃ fd₁ m₁ fd₁' m₁', Sample.fd.forwardDynamics solve Sample.mb Sample.mbcV = .ok (fd₁, m₁) ∧
      fd'.forwardDynamics solve' Sample.mb.mirrored m' = .ok (fd₁', m₁') ∧
      m₁'.alphaD = Sample.mb.scaled dofSign 1 m₁.alphaD := by
  obtain ⟨h1, h2, h3⟩ := Sample.ready
  have hm : Sample.mb.MassOK := by unfold MultiBody.MassOK; decide +kernel
  have hM : 0 < Sample.mb.totalMass := by decide +kernel
  obtain ⟨-, m', -, -, hu, s', v'⟩ := C89_state Sample.wf Sample.rigid h2 h3
  obtain ⟨wf', hr', -, -, -, -, hq'⟩ := C89_robot Sample.wf Sample.rigid hm
  have hq' : ValidQ Sample.mb.mirrored m'.q := hu.q ▸ hq' _ h3
  obtain ⟨fd', -, hf'⟩ := FD.mk'_fits wf' Sample.fd
  obtain ⟨J, hJ⟩ := Jac.exists_of Sample.wf (N := 2) (by decide +kernel) (⟨1, 2, 3⟩ : Vec3 ℚ)
  obtain ⟨J', hJ'⟩ := Jac.exists_of wf' (N := 2) (by decide +kernel) (Vec3.mir (⟨1, 2, 3⟩ : Vec3 ℚ))
  obtain ⟨solve, hs⟩ := ExactSolve.exists_physical Sample.wf Sample.rigid h3 h1.toPosReady Sample.fd_fits Sample.inertia_pos Sample.subspace_ne
  obtain ⟨solve', hs'⟩ := ExactSolve.exists_physical wf' hr' hq' v'.toPosReady hf' (mirrored_inertia Sample.inertia_pos)
    (mirrored_subspace Sample.wf Sample.subspace_ne)
  exact ⟨m', fd', J, J', solve, solve', hu, v', hf', hJ, hJ', hm, hM, C89_accelerations Sample.wf Sample.rigid hu h2 s' h3 h1 v'
    Sample.fd_fits hf' Sample.inertia_pos Sample.subspace_ne hs hs'⟩

end RBDyn
