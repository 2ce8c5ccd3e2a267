import Verif.Lemmas.Units
import Verif.Props.Transpose
import Verif.Props.IK
import Verif.Props.Checked

/-! Property C81: the results do not depend on the units of length, mass and time. -/

namespace RBDyn
variable {K : Type} [Scalar K] {mb : MultiBody K} {L M w : K} {m m' : MBC K}
open scoped Mat3

/-- The factors of the position parameters of a joint when lengths are multiplied by `L`: those of translations are `L`, those of angles and
quaternions are `1`. -/
def paramUnit (L : K) : JointType → List K
  | .Rev => [1] | .Prism => [L] | .Spherical => [1, 1, 1, 1] | .Planar => [1, L, L] | .Cylindrical => [1, L] | .Free => [1, 1, 1, 1, L, L, L]
  | .Fixed => []

/-- The factors of the degrees of freedom of a joint. -/
def dofUnit (L : K) : JointType → List K
  | .Rev => [1] | .Prism => [L] | .Spherical => [1, 1, 1] | .Planar => [1, L, L] | .Cylindrical => [1, L] | .Free => [1, 1, 1, L, L, L]
  | .Fixed => []

/-- A vector of the joints whose entries are multiplied by `c` and by the factors `f`. -/
def MultiBody.scaled (mb : MultiBody K) (f : JointType → List K) (c : K) (v : List (List K)) : List (List K) :=
  List.zipWith (fun j x => List.zipWith (fun u y => c * (u * y)) (f j.type) x) mb.joints v

/-- A robot described in other units of length and mass. -/
def MultiBody.inUnits (mb : MultiBody K) (L M : K) : MultiBody K :=
  { mb with
    bodies := mb.bodies.map fun b => { b with inertia := b.inertia.units L M }
    Xt := mb.Xt.map (PTransform.units L) }

/-- The same state in other units: lengths multiplied by `L`, masses by `M` and angular velocities by `w` (that is, times by `1 / w`). -/
structure InUnits (L M w : K) (mb : MultiBody K) (m m' : MBC K) : Prop where
  q : m'.q = mb.scaled (paramUnit L) 1 m.q
  alpha : m'.alpha = mb.scaled (dofUnit L) w m.alpha
  alphaD : m'.alphaD = mb.scaled (dofUnit L) (w * w) m.alphaD
  gravity : m'.gravity = (L * w * w) • m.gravity
  force : m'.force = m.force.map (ForceVec.units L (M * L * w * w))
  jointTorque : m'.jointTorque = mb.scaled (fun t => (dofUnit L t).map (·⁻¹)) (M * L * L * w * w) m.jointTorque

/-- The factor of degree of freedom `a` of joint `i`. -/
def MultiBody.unitAt (mb : MultiBody K) (L : K) (i a : Nat) : K := (((mb.joints[i]?).map fun j => dofUnit L j.type).getD []).getD a 1

/-! ### One joint -/

theorem Joint.Built.units {j : Joint K} (h : j.Built) (L : K) :
    List.Forall₂ (fun s u => s.units L 1 = u • s) j.S (dofUnit L j.type) := by
  induction h with
  | mk t axis fwd name =>
    cases t
    all_goals
      simp only [Joint.mk', Joint.mkS, dofUnit]
      repeat' first | exact .nil | refine List.Forall₂.cons ?_ ?_
    all_goals cases fwd <;> ext <;> simp [MotionVec.units]
  | setForward j fwd hj ih =>
    show List.Forall₂ _ (if _ then _ else _) (dofUnit L j.type)
    split
    · rw [List.forall₂_map_left_iff]
      exact ih.imp fun s u h => by rw [MotionVec.units_smul, h, smul_comm]
    · exact ih
  | makeMimic j n mu o hj ih => exact ih

theorem MotionVec.units_eq (L c : K) (v : MotionVec K) : v.units L c = c • v.units L 1 := by
  ext1 <;> simp [MotionVec.units, smul_smul]

theorem applyCols_units {S : List (MotionVec K)} {U : List K} (h : List.Forall₂ (fun s u => s.units L 1 = u • s) S U) (c : K) (x : List K) :
    applyCols S (List.zipWith (fun u y => c * (u * y)) U x) = (applyCols S x).units L c := by
  unfold applyCols
  induction h generalizing x with
  | nil => simp [MotionVec.units_zero]
  | cons h _ ih =>
    cases x with
    | nil => simp [MotionVec.units_zero]
    | cons y x =>
      simp only [List.zipWith_cons_cons, List.sum_cons, MotionVec.units_add, ih]
      congr 1
      rw [MotionVec.units_eq L c (y • _), MotionVec.units_smul, h, smul_smul, smul_smul]
      congr 1
      ring

theorem Joint.pose_units (j : Joint K) {x : List K} (hx : ValidParam j.type x) (L : K) :
    j.pose (List.zipWith (fun u y => 1 * (u * y)) (paramUnit L j.type) x) = (j.pose x).map (PTransform.units L) := by
  have hl := hx.1
  unfold Joint.pose
  cases ht : j.type <;> rw [ht] at hl <;> simp only [Joint.nParams] at hl
  · obtain ⟨a, rfl⟩ := List.length_eq_one_iff.1 hl
    cases hs : rd j.S 0 with
    | error e => rfl
    | ok s => simp [paramUnit, rd, Except.map, Res.pure_eq, PTransform.units, PTransform.ofRot]
  · obtain ⟨a, rfl⟩ := List.length_eq_one_iff.1 hl
    cases hs : rd j.S 0 with
    | error e => rfl
    | ok s => simp [paramUnit, rd, Except.map, Res.pure_eq, PTransform.units, PTransform.ofTrans, smul_smul]
  · match x, hl with
    | [a, b, c, d], _ => simp [paramUnit, rd, Except.map, Res.pure_eq, PTransform.units, PTransform.ofRot]
  · match x, hl with
    | [a, b, c], _ =>
      have e : (⟨rotZ a, (rotZ a).tr *ᵥ ⟨L * b, L * c, 0⟩⟩ : PTransform K) = PTransform.units L ⟨rotZ a, (rotZ a).tr *ᵥ ⟨b, c, 0⟩⟩ := by
        simp only [PTransform.units, ← Mat3.mulVec_smul]
        congr 2
        ext <;> simp
      simp only [paramUnit, rd, Except.map, Res.pure_eq, List.zipWith_cons_cons, List.getElem?_cons_zero, List.getElem?_cons_succ, one_mul,
        Res.bind_ok]
      rw [e]
      split
      · rfl
      · rw [PTransform.units_inv]
  · match x, hl with
    | [a, b], _ =>
      cases hs : rd j.S 0 with
      | error e => rfl
      | ok s =>
        cases hs1 : rd j.S 1 with
        | error e => rfl
        | ok s1 =>
          simp [paramUnit, rd, Except.map, Res.pure_eq, PTransform.units, smul_smul]
  · match x, hl with
    | [a, b, c, d, p, q, r], _ =>
      have e : (⟨Joint.quatToE a b c d, ⟨L * p, L * q, L * r⟩⟩ : PTransform K) = PTransform.units L ⟨Joint.quatToE a b c d, ⟨p, q, r⟩⟩ := by
        simp only [PTransform.units]
        congr 1
      simp only [paramUnit, rd, Except.map, Res.pure_eq, List.zipWith_cons_cons, List.getElem?_cons_zero, List.getElem?_cons_succ, one_mul,
        Res.bind_ok]
      rw [e]
      split
      · rfl
      · rw [PTransform.units_inv]
  · simp [Except.map, Res.pure_eq, PTransform.units_one]

theorem validParam_units {t : JointType} {x : List K} (h : ValidParam t x) (L : K) :
    ValidParam t (List.zipWith (fun u y => 1 * (u * y)) (paramUnit L t) x) := by
  obtain ⟨hl, h⟩ := h
  refine ⟨by cases t <;> simp [paramUnit, hl, Joint.nParams], ?_⟩
  cases t <;> try trivial
  · match x, hl with
    | [a, b, c, d], _ => simpa [paramUnit] using h
  · match x, hl with
    | [a, b, c, d, p, q, r], _ => simpa [paramUnit] using h

/-! ### The robot -/

namespace MultiBody

theorem inUnits_wf (wf : mb.WF) (L M : K) : (mb.inUnits L M).WF := by
  refine ⟨?_, ?_, ?_, ?_, wf.pred, wf.parent, wf.built, wf.posParam, wf.posDof, wf.nParams, wf.nDof⟩
  all_goals simp only [inUnits, List.length_map]
  · exact wf.njoints
  · exact wf.npred
  · exact wf.nXt
  · exact wf.succ

theorem inUnits_rigid (hr : mb.Rigid) (L M : K) : (mb.inUnits L M).Rigid := by
  refine ⟨hr.joints, fun X hX => ?_⟩
  obtain ⟨Y, hY, rfl⟩ := List.mem_map.1 hX
  exact hr.Xt Y hY

theorem inUnits_length (L M : K) : (mb.inUnits L M).bodies.length = mb.bodies.length := by simp [inUnits]
theorem inUnits_par (L M : K) : (mb.inUnits L M).par = mb.par := rfl
theorem inUnits_SAt (L M : K) (i : Nat) : (mb.inUnits L M).SAt i = mb.SAt i := rfl
theorem inUnits_dofAt (L M : K) (i : Nat) : (mb.inUnits L M).dofAt i = mb.dofAt i := rfl
theorem inUnits_dofPosAt (L M : K) (i : Nat) : (mb.inUnits L M).dofPosAt i = mb.dofPosAt i := rfl
theorem inUnits_path (L M : K) (i : Nat) : (mb.inUnits L M).path i = mb.path i := by unfold path; rw [inUnits_length]; rfl
theorem inUnits_subtree (L M : K) (i : Nat) : (mb.inUnits L M).subtree i = mb.subtree i := by unfold subtree; rw [inUnits_length]; rfl

theorem inUnits_inertiaAt (L M : K) (i : Nat) : (mb.inUnits L M).inertiaAt i = (mb.inertiaAt i).units L M := by
  unfold inertiaAt inUnits
  rw [List.getElem?_map]
  cases mb.bodies[i]? with
  | none => simp [RBInertia.units]; rfl
  | some b => rfl

theorem inUnits_XtAt (L M : K) (i : Nat) : (mb.inUnits L M).XtAt i = (mb.XtAt i).units L := by
  unfold XtAt inUnits
  rw [List.getElem?_map]
  cases mb.Xt[i]? with
  | none => simp [PTransform.units_one]
  | some b => rfl

theorem scaled_get (f : JointType → List K) (c : K) (v : List (List K)) (i : Nat) :
    (mb.scaled f c v)[i]? = (mb.joints[i]?).bind fun j => (v[i]?).map fun x => List.zipWith (fun u y => c * (u * y)) (f j.type) x := by
  unfold scaled
  rw [List.getElem?_zipWith]
  cases mb.joints[i]? <;> cases v[i]? <;> rfl

theorem SAt_units (wf : mb.WF) (L : K) (i a : Nat) : ((mb.SAt i).getD a 0).units L 1 = mb.unitAt L i a • (mb.SAt i).getD a 0 := by
  unfold SAt unitAt
  cases hj : mb.joints[i]? with
  | none => simp [MotionVec.units_zero]
  | some j =>
    have h := (wf.built j (List.mem_of_getElem? hj)).units L
    simp only [Option.map_some, Option.getD_some, List.getD_eq_getElem?_getD]
    have hl := h.length_eq
    by_cases ha : a < j.S.length
    · rw [List.getElem?_eq_getElem ha, List.getElem?_eq_getElem (hl ▸ ha)]
      exact h.get ha (hl ▸ ha)
    · rw [List.getElem?_eq_none (by omega)]
      simp [MotionVec.units_zero]

theorem unitAt_pos (hL : 0 < L) (i a : Nat) : 0 < mb.unitAt L i a := by
  unfold unitAt
  cases mb.joints[i]? with
  | none => simp
  | some j =>
    simp only [Option.map_some, Option.getD_some, List.getD_eq_getElem?_getD]
    cases h : (dofUnit L j.type)[a]? with
    | none => simp
    | some u =>
      replace h := List.mem_of_getElem? h
      simp only [Option.getD_some]
      have : u = 1 ∨ u = L := by
        generalize j.type = t at h
        cases t <;> simp [dofUnit] at h <;> tauto
      rcases this with rfl | rfl
      · exact zero_lt_one
      · exact hL

theorem jointMotion_units (wf : mb.WF) (L M c : K) (a : List (List K)) (i : Nat) :
    (mb.inUnits L M).jointMotion (mb.scaled (dofUnit L) c a) i = (mb.jointMotion a i).units L c := by
  unfold jointMotion
  rw [inUnits_SAt, scaled_get]
  unfold SAt
  cases hj : mb.joints[i]? with
  | none => simp [applyCols, MotionVec.units_zero]
  | some j =>
    cases a[i]? with
    | none => simp [applyCols, MotionVec.units_zero]
    | some x => exact applyCols_units ((wf.built j (List.mem_of_getElem? hj)).units L) c x

theorem poseAt_units {q : List (List K)} (hq : ValidQ mb q) (L M : K) (i : Nat) :
    (mb.inUnits L M).poseAt (mb.scaled (paramUnit L) 1 q) i = (mb.poseAt q i).units L := by
  have hjj : (mb.inUnits L M).joints = mb.joints := rfl
  unfold poseAt
  rw [scaled_get, hjj]
  cases hj : mb.joints[i]? with
  | none => exact (PTransform.units_one L).symm
  | some j =>
    cases hx : q[i]? with
    | none => exact (PTransform.units_one L).symm
    | some x =>
      have hv : ValidParam j.type x := by
        obtain ⟨h1, rfl⟩ := List.getElem?_eq_some_iff.1 hj
        obtain ⟨h2, rfl⟩ := List.getElem?_eq_some_iff.1 hx
        exact List.Forall₂.get hq h1 h2
      show ((j.pose _).toOption).getD 1 = PTransform.units L (((j.pose x).toOption).getD 1)
      rw [j.pose_units hv]
      cases j.pose x with
      | error e => exact (PTransform.units_one L).symm
      | ok X => rfl

theorem validQ_units {q : List (List K)} (hq : ValidQ mb q) (L M : K) : ValidQ (mb.inUnits L M) (mb.scaled (paramUnit L) 1 q) := by
  unfold ValidQ scaled at *
  have hjj : (mb.inUnits L M).joints = mb.joints := rfl
  rw [hjj]
  generalize mb.joints = js at hq ⊢
  induction hq with
  | nil => exact .nil
  | cons h _ ih => exact .cons (validParam_units h L) ih

theorem ptsAt_units {q : List (List K)} (hq : ValidQ mb q) (L M : K) (i : Nat) :
    (mb.inUnits L M).ptsAt (mb.scaled (paramUnit L) 1 q) i = (mb.ptsAt q i).units L := by
  unfold ptsAt
  rw [poseAt_units hq, inUnits_XtAt, PTransform.units_mul]

theorem posAt_units {q : List (List K)} (hq : ValidQ mb q) (L M : K) (i : Nat) :
    (mb.inUnits L M).posAt (mb.scaled (paramUnit L) 1 q) i = (mb.posAt q i).units L := by
  unfold posAt
  rw [inUnits_par]
  induction pathUp mb.par i with
  | nil => exact (PTransform.units_one L).symm
  | cons k l ih => rw [List.map_cons, List.map_cons, List.prod_cons, List.prod_cons, ih, ptsAt_units hq, PTransform.units_mul]

theorem relAt_units {q : List (List K)} (hq : ValidQ mb q) (L M : K) (k i : Nat) :
    (mb.inUnits L M).relAt (mb.scaled (paramUnit L) 1 q) k i = (mb.relAt q k i).units L := by
  unfold relAt
  rw [posAt_units hq, posAt_units hq, PTransform.units_mul, PTransform.units_inv]

theorem velAt_units (wf : mb.WF) {q : List (List K)} (hq : ValidQ mb q) (L M w : K) (alpha : List (List K)) (i : Nat) :
    (mb.inUnits L M).velAt (mb.scaled (paramUnit L) 1 q) (mb.scaled (dofUnit L) w alpha) i = (mb.velAt q alpha i).units L w := by
  unfold velAt
  rw [inUnits_path, MotionVec.units_sum]
  exact Finset.sum_congr rfl fun k _ => by rw [relAt_units hq, jointMotion_units wf, PTransform.units_mulMotion]

theorem accAt_units (wf : mb.WF) {q : List (List K)} (hq : ValidQ mb q) (L M w : K) (alpha alphaD : List (List K)) (a0 : MotionVec K) (i : Nat) :
    (mb.inUnits L M).accAt (mb.scaled (paramUnit L) 1 q) (mb.scaled (dofUnit L) w alpha) (mb.scaled (dofUnit L) (w * w) alphaD)
      (a0.units L (w * w)) i = (mb.accAt q alpha alphaD a0 i).units L (w * w) := by
  unfold accAt
  rw [inUnits_path, MotionVec.units_add, MotionVec.units_sum, posAt_units hq, PTransform.units_mulMotion]
  congr 1
  exact Finset.sum_congr rfl fun k _ => by
    rw [relAt_units hq, jointMotion_units wf, jointMotion_units wf, velAt_units wf hq, MotionVec.units_cross, ← MotionVec.units_add,
      PTransform.units_mulMotion]

theorem netForceAt_units (wf : mb.WF) {q : List (List K)} (hq : ValidQ mb q) (L M w : K) (alpha alphaD : List (List K)) (a0 : MotionVec K)
    {f f' : Nat → ForceVec K} (hf : ∀ k, f' k = (f k).units L (M * L * w * w)) (i : Nat) :
    (mb.inUnits L M).netForceAt (mb.scaled (paramUnit L) 1 q) (mb.scaled (dofUnit L) w alpha) (mb.scaled (dofUnit L) (w * w) alphaD)
      (a0.units L (w * w)) f' i = (mb.netForceAt q alpha alphaD a0 f i).units L (M * L * w * w) := by
  unfold netForceAt
  have e1 : M * L * (w * w) = M * L * w * w := by ring
  have e2 : w * (M * L * w) = M * L * w * w := by ring
  rw [ForceVec.units_sub, ForceVec.units_add, inUnits_inertiaAt, accAt_units wf hq, velAt_units wf hq, posAt_units hq, hf,
    RBInertia.units_mulMotion, RBInertia.units_mulMotion, MotionVec.units_crossDual, PTransform.units_dualMul, e1, e2]

theorem wrenchAt_units {q : List (List K)} (hq : ValidQ mb q) (L M c : K) {f f' : Nat → ForceVec K} (hf : ∀ k, f' k = (f k).units L c) (i : Nat) :
    (mb.inUnits L M).wrenchAt (mb.scaled (paramUnit L) 1 q) f' i = (mb.wrenchAt q f i).units L c := by
  unfold wrenchAt
  rw [inUnits_subtree, ForceVec.units_sum]
  exact Finset.sum_congr rfl fun k _ => by rw [relAt_units hq, hf, PTransform.units_transMul]

theorem colAt_units (wf : mb.WF) {q : List (List K)} (hq : ValidQ mb q) (L M : K) (k i a : Nat) :
    mb.unitAt L i a • (mb.inUnits L M).colAt (mb.scaled (paramUnit L) 1 q) k i a = (mb.colAt q k i a).units L 1 := by
  unfold colAt
  rw [inUnits_par]
  split
  · rw [relAt_units hq, inUnits_SAt, ← PTransform.mulMotion_smul, ← SAt_units wf, PTransform.units_mulMotion]
  · simp [MotionVec.units_zero]

theorem S_dot_units (wf : mb.WF) (L c : K) (f : ForceVec K) (i a : Nat) :
    mb.unitAt L i a * ((mb.SAt i).getD a 0).dot (f.units L c) = c * L * ((mb.SAt i).getD a 0).dot f := by
  rw [← MotionVec.smul_dot, ← SAt_units wf, MotionVec.units_dot, one_mul]

theorem massAt_units (wf : mb.WF) {q : List (List K)} (hq : ValidQ mb q) (L M : K) (i a j b : Nat) :
    mb.unitAt L i a * mb.unitAt L j b * (mb.inUnits L M).massAt (mb.scaled (paramUnit L) 1 q) i a j b = M * L * L * mb.massAt q i a j b := by
  unfold massAt
  rw [inUnits_length, Finset.mul_sum, Finset.mul_sum]
  refine Finset.sum_congr rfl fun k _ => ?_
  have e : ∀ (s t : K) (u v : MotionVec K) (I : RBInertia K), s * t * u.dot (I.mulMotion v) = (s • u).dot (I.mulMotion (t • v)) := by
    intro s t u v I
    rw [RBInertia.mulMotion_smul, MotionVec.smul_dot, MotionVec.dot_smul]
    ring
  rw [e, colAt_units wf hq, colAt_units wf hq, inUnits_inertiaAt, RBInertia.units_mulMotion, MotionVec.units_dot]
  ring

theorem project_units (wf : mb.WF) (hL : 0 < L) {i : Nat} {j : Joint K} (hj : mb.joints[i]? = some j) (c : K) (f : ForceVec K) :
    mb.project i (f.units L c) = List.zipWith (fun u y => c * L * (u * y)) ((dofUnit L j.type).map (·⁻¹)) (mb.project i f) := by
  have h := (wf.built j (List.mem_of_getElem? hj)).units L
  have hu : ∀ u ∈ dofUnit L j.type, u ≠ 0 := by
    intro u hu
    have : u = 1 ∨ u = L := by
      generalize j.type = t at hu
      cases t <;> simp [dofUnit] at hu <;> tauto
    rcases this with rfl | rfl
    · exact one_ne_zero
    · exact ne_of_gt hL
  unfold project SAt
  rw [hj, Option.map_some, Option.getD_some]
  generalize dofUnit L j.type = U at h hu ⊢
  generalize j.S = S at h ⊢
  induction h with
  | nil => rfl
  | @cons s u S U h _ ih =>
    simp only [List.map_cons, List.zipWith_cons_cons]
    rw [ih fun v hv => hu v (List.mem_cons_of_mem _ hv)]
    congr 1
    have h1 : u * s.dot (f.units L c) = c * L * s.dot f := by rw [← MotionVec.smul_dot, ← h, MotionVec.units_dot, one_mul]
    have h2 : u ≠ 0 := hu u (List.mem_cons_self ..)
    field_simp
    linarith

theorem scaled_range (f : JointType → List K) (c : K) (g g' : Nat → List K) (n : Nat) (hn : mb.joints.length = n)
    (h : ∀ i j, mb.joints[i]? = some j → g' i = List.zipWith (fun u y => c * (u * y)) (f j.type) (g i)) :
    (List.range n).map g' = mb.scaled f c ((List.range n).map g) := by
  refine List.ext_getElem? fun i => ?_
  rw [scaled_get]
  by_cases hi : i < n
  · rw [List.getElem?_map, List.getElem?_map, List.getElem?_range hi, List.getElem?_eq_getElem (by omega : i < mb.joints.length)]
    simp only [Option.map_some, Option.bind_some]
    rw [h i _ (List.getElem?_eq_getElem (by omega))]
  · rw [List.getElem?_eq_none (by simp; omega), List.getElem?_eq_none (by omega : mb.joints.length ≤ i)]
    rfl

theorem scaled_nil (f : JointType → List K) (c : K) : mb.scaled f c [] = [] := by simp [scaled]

end MultiBody

theorem InUnits.a0 (h : InUnits L M w mb m m') : (⟨0, m'.gravity⟩ : MotionVec K) = (⟨0, m.gravity⟩ : MotionVec K).units L (w * w) := by
  rw [h.gravity]
  ext1
  · simp [MotionVec.units]
  · simp only [MotionVec.units]
    congr 1
    ring

theorem InUnits.forceAt (h : InUnits L M w mb m m') (k : Nat) : m'.forceAt k = (m.forceAt k).units L (M * L * w * w) := by
  unfold MBC.forceAt
  rw [h.force, List.getElem?_map]
  cases m.force[k]? with
  | none => exact (ForceVec.units_zero L _).symm
  | some f => rfl

/-! ### The results -/

/-- C81: the robot in other units is a robot again, with the same sizes, and the configuration in other units is a configuration of it. -/
theorem C81_robot (wf : mb.WF) (hr : mb.Rigid) (hm : mb.MassOK) (hL : 0 < L) (hM : 0 < M) :
    (mb.inUnits L M).WF ∧ (mb.inUnits L M).Rigid ∧ (mb.inUnits L M).MassOK ∧ (mb.inUnits L M).nrBodies = mb.nrBodies ∧
      (mb.inUnits L M).nrDof = mb.nrDof ∧ (mb.inUnits L M).totalMass = M * mb.totalMass ∧
      ∀ q, ValidQ mb q → ValidQ (mb.inUnits L M) (mb.scaled (paramUnit L) 1 q) := by
  refine ⟨mb.inUnits_wf wf L M, mb.inUnits_rigid hr L M, ?_, mb.inUnits_length L M, rfl, ?_, fun q hq => mb.validQ_units hq L M⟩
  · intro b hb
    obtain ⟨b, hb', rfl⟩ := List.mem_map.1 hb
    rcases hm b hb' with h | h
    · exact .inl (mul_pos hM h)
    · refine .inr ?_
      show (M * L) • b.inertia.h = 0
      rw [h, smul_zero]
  · unfold MultiBody.totalMass
    rw [mb.inUnits_length, Finset.mul_sum]
    exact Finset.sum_congr rfl fun k _ => by rw [mb.inUnits_inertiaAt]; rfl

/-- C81: poses and velocities are those of the first robot in other units. -/
theorem C81_motion (wf : mb.WF) (hq : ValidQ mb m.q) (h : InUnits L M w mb m m') (hv : m.VelReady mb) (hv' : m'.VelReady (mb.inUnits L M)) :
    m'.bodyPosW = m.bodyPosW.map (PTransform.units L) ∧ m'.bodyVelB = m.bodyVelB.map (MotionVec.units L w) ∧
      m'.bodyVelW = m.bodyVelW.map (MotionVec.units L w) := by
  refine ⟨?_, ?_, ?_⟩
  · rw [hv.bodyPosW, hv'.bodyPosW, mb.inUnits_length, List.map_map, h.q]
    exact List.map_congr_left fun i _ => mb.posAt_units hq L M i
  · rw [hv.bodyVelB, hv'.bodyVelB, mb.inUnits_length, List.map_map, h.q, h.alpha]
    exact List.map_congr_left fun i _ => mb.velAt_units wf hq L M w _ i
  · rw [hv.bodyVelW, hv'.bodyVelW, mb.inUnits_length, List.map_map, h.q, h.alpha]
    refine List.map_congr_left fun i _ => ?_
    unfold MultiBody.velWAt
    rw [mb.velAt_units wf hq L M w, mb.posAt_units hq L M]
    ext1
    · simp only [Function.comp, MultiBody.velWAt, MotionVec.units, PTransform.units, Mat3.mulVec_smul]
    · simp only [Function.comp, MultiBody.velWAt, MotionVec.units, PTransform.units, Mat3.mulVec_smul]

/-- C81: inverse dynamics finds the same torques and accelerations, in the other units. -/
theorem C81_torques (wf : mb.WF) (hr : mb.Rigid) (hL : 0 < L) (h : InUnits L M w mb m m') (sz : m.Sized mb)
    (sz' : m'.Sized (mb.inUnits L M)) (hq : ValidQ mb m.q) (hv : m.VelReady mb) (hv' : m'.VelReady (mb.inUnits L M)) {d d' : ID K}
    (hd : d.f.length = mb.nrBodies) (hd' : d'.f.length = mb.nrBodies) :
    ∃ d₁ m₁ d₁' m₁', d.inverseDynamics mb m = .ok (d₁, m₁) ∧ d'.inverseDynamics (mb.inUnits L M) m' = .ok (d₁', m₁') ∧
      m₁'.bodyAccB = m₁.bodyAccB.map (MotionVec.units L (w * w)) ∧
      m₁'.jointTorque = mb.scaled (fun t => (dofUnit L t).map (·⁻¹)) (M * L * L * w * w) m₁.jointTorque ∧
      d₁'.f = d₁.f.map (ForceVec.units L (M * L * w * w)) := by
  have hq' : ValidQ (mb.inUnits L M) m'.q := h.q ▸ mb.validQ_units hq L M
  have hw : ∀ i, (mb.inUnits L M).wrenchAt m'.q ((mb.inUnits L M).netForceAt m'.q m'.alpha m'.alphaD ⟨0, m'.gravity⟩ m'.forceAt) i =
      (mb.wrenchAt m.q (mb.netForceAt m.q m.alpha m.alphaD ⟨0, m.gravity⟩ m.forceAt) i).units L (M * L * w * w) := by
    intro i
    rw [h.q, h.alpha, h.alphaD, h.a0]
    exact mb.wrenchAt_units hq L M _ (fun k => mb.netForceAt_units wf hq L M w _ _ _ h.forceAt k) i
  refine ⟨_, _, _, _, id_eq wf hr sz hq hv hd rfl,
    id_eq (mb.inUnits_wf wf L M) (mb.inUnits_rigid hr L M) sz' hq' hv' (by rw [mb.inUnits_length]; exact hd') rfl, ?_, ?_, ?_⟩
  · simp only [mb.inUnits_length, List.map_map]
    refine List.map_congr_left fun i _ => ?_
    rw [h.q, h.alpha, h.alphaD, h.a0]
    exact mb.accAt_units wf hq L M w _ _ _ i
  · simp only [mb.inUnits_length]
    refine mb.scaled_range _ _ _ _ _ wf.njoints fun i j hj => ?_
    rw [hw]
    have e := mb.project_units wf hL hj (M * L * w * w) (mb.wrenchAt m.q (mb.netForceAt m.q m.alpha m.alphaD ⟨0, m.gravity⟩ m.forceAt) i)
    have e1 : M * L * w * w * L = M * L * L * w * w := by ring
    rw [e1] at e
    exact e
  · simp only [mb.inUnits_length, List.map_map]
    exact List.map_congr_left fun i _ => hw i

/-- C81: the mass matrix, in the other units. -/
theorem C81_mass_matrix (wf : mb.WF) (hr : mb.Rigid) (h : InUnits L M w mb m m') (hq : ValidQ mb m.q) (hv : m.PosReady mb)
    (hv' : m'.PosReady (mb.inUnits L M)) {fd fd' : FD K} (hf : fd.Fits mb) (hf' : fd'.Fits (mb.inUnits L M)) :
    ∃ fd₁ fd₁', fd.computeH mb m = .ok fd₁ ∧ fd'.computeH (mb.inUnits L M) m' = .ok fd₁' ∧
      ∀ i a j b, i < mb.nrBodies → j < mb.nrBodies → a < mb.dofAt i → b < mb.dofAt j →
        mb.unitAt L i a * mb.unitAt L j b * fd₁'.H.get (mb.dofPosAt i + a) (mb.dofPosAt j + b) =
          M * L * L * fd₁.H.get (mb.dofPosAt i + a) (mb.dofPosAt j + b) := by
  obtain ⟨fd₁, e1, h1, -, -⟩ := computeH_eq wf hr hq hv hf
  obtain ⟨fd₁', e2, h2, -, -⟩ := computeH_eq (mb.inUnits_wf wf L M) (mb.inUnits_rigid hr L M) (h.q ▸ mb.validQ_units hq L M) hv' hf'
  refine ⟨fd₁, fd₁', e1, e2, fun i a j b hi hj ha hb => ?_⟩
  have k2 := (h2.2.2 i a j b (by rw [mb.inUnits_length]; exact hi) (by rw [mb.inUnits_length]; exact hj) ha hb).1 trivial
  rw [mb.inUnits_dofPosAt, mb.inUnits_dofPosAt, h.q] at k2
  rw [k2, (h1.2.2 i a j b hi hj ha hb).1 trivial, mb.massAt_units wf hq]

/-- C81: the vector of velocity, gravity and external forces, in the other units. -/
theorem C81_bias (wf : mb.WF) (hr : mb.Rigid) (h : InUnits L M w mb m m') (sz : m.Sized mb) (sz' : m'.Sized (mb.inUnits L M))
    (hq : ValidQ mb m.q) (hv : m.VelReady mb) (hv' : m'.VelReady (mb.inUnits L M)) {fd fd' : FD K} (hf : fd.Fits mb)
    (hf' : fd'.Fits (mb.inUnits L M)) :
    ∃ fd₁ fd₁', fd.computeC mb m = .ok fd₁ ∧ fd'.computeC (mb.inUnits L M) m' = .ok fd₁' ∧ fd₁.C.length = mb.nrDof ∧ fd₁'.C.length = mb.nrDof ∧
      ∀ i a, i < mb.nrBodies → a < mb.dofAt i →
        mb.unitAt L i a * fd₁'.C.getD (mb.dofPosAt i + a) 0 = M * L * L * w * w * fd₁.C.getD (mb.dofPosAt i + a) 0 := by
  obtain ⟨fd₁, e1, c1, f1, -⟩ := computeC_eq wf hr sz.force hq hv hf
  obtain ⟨fd₁', e2, c2, f2, -⟩ := computeC_eq (mb.inUnits_wf wf L M) (mb.inUnits_rigid hr L M) sz'.force (h.q ▸ mb.validQ_units hq L M) hv' hf'
  refine ⟨fd₁, fd₁', e1, e2, f1.C, f2.C, fun i a hi ha => ?_⟩
  have k2 := c2 i a (by rw [mb.inUnits_length]; exact hi) ha
  have hn := fun k => mb.netForceAt_units wf hq L M w m.alpha [] ⟨0, m.gravity⟩ h.forceAt k
  rw [MultiBody.scaled_nil] at hn
  rw [mb.inUnits_dofPosAt, h.q, h.alpha, h.a0, mb.inUnits_SAt, mb.wrenchAt_units hq L M _ hn] at k2
  rw [List.getD_eq_getElem?_getD, List.getD_eq_getElem?_getD, k2, c1 i a hi ha, Option.getD_some, Option.getD_some, mb.S_dot_units wf]
  ring

/-- Accelerations that reproduce the torques through inverse dynamics are the ones forward dynamics finds. -/
theorem fd_unique (wf : mb.WF) (hr : mb.Rigid) (sz : m.Sized mb) (hq : ValidQ mb m.q) (hv : m.VelReady mb) {d : ID K}
    (hd : d.f.length = mb.nrBodies) {fd : FD K} (hf : fd.Fits mb)
    (hI : ∀ b ∈ mb.bodies, ∀ v : MotionVec K, v ≠ 0 → 0 < v.dot (b.inertia.mulMotion v)) (hS : ∀ j ∈ mb.joints, ∀ c ∈ j.S, c ≠ 0)
    {solve : DMat K → List K → List K} (hs : ∀ fd₁, fd.computeH mb m = .ok fd₁ → ExactSolve solve fd₁.H) {r : List (List K)}
    (hsr : SizedDof mb r) {d₁ : ID K} {m₁ : MBC K} (e : d.inverseDynamics mb { m with alphaD := r } = .ok (d₁, m₁))
    (ht : m₁.jointTorque = m.jointTorque) : ∃ fd₁, fd.forwardDynamics solve mb m = .ok (fd₁, { m with alphaD := r }) := by
  obtain ⟨fd₁, fd₂, r0, e1, e2, f2, hsr0, ⟨fd', e3, -⟩, hx⟩ := forwardDynamics_eq wf hr sz hq hv hf hs
  have sz' : MBC.Sized mb { m with alphaD := r } := { sz with alphaD := hsr }
  have hsp : SamePosVel { m with alphaD := r } m := rfl
  obtain ⟨hv', hq'⟩ := hsp.ready hv hq
  obtain ⟨d', m', fd₃, fd₄, i1, i2, i3, hH, -, -, i7⟩ := C27_equation_of_motion wf hr sz' hq' hv' hd hf
  rw [computeH_congr hsp, e1] at i2
  cases i2
  rw [computeC_congr hsp, e2] at i3
  cases i3
  rw [e] at i1
  cases i1
  obtain ⟨d', e', h⟩ := C29_positive_definite wf hr hq hv.toPosReady hf hI hS
  rw [e1] at e'
  cases e'
  suffices hrr : r = r0 by rw [hrr]; exact ⟨fd', e3⟩
  refine blocks_ext (hsr.trans hsr0.symm) ?_
  have hl := hsr.flatten_length wf
  have hl0 := hsr0.flatten_length wf
  have hxy : ∀ k, k < mb.nrDof → fd₁.H.mulVecAt r.flatten k = fd₁.H.mulVecAt r0.flatten k := by
    intro k hk
    have h1 := i7 k hk
    rw [ht, hx k hk] at h1
    have := add_right_cancel (Option.some.inj h1)
    rw [hH] at this
    exact this.symm
  by_contra hne
  have hz : ∃ z ∈ List.zipWith (· - ·) r.flatten r0.flatten, z ≠ 0 := by
    by_contra hcon
    push Not at hcon
    refine hne (List.ext_getElem (by omega) fun i h1 h2 => ?_)
    have := hcon (r.flatten[i] - r0.flatten[i]) (List.mem_iff_getElem.2 ⟨i, by simp only [List.length_zipWith]; omega, by simp⟩)
    exact sub_eq_zero.1 this
  have := h _ (by simp only [List.length_zipWith]; omega) hz
  rw [Finset.sum_eq_zero] at this
  · exact lt_irrefl _ this
  · intro k hk
    rw [DMat.mulVecAt_sub _ (by omega), hxy k (Finset.mem_range.1 hk), sub_self, mul_zero]

theorem dofUnit_length (L : K) {j : Joint K} (h : j.Built) : (dofUnit L j.type).length = j.dof := by
  induction h with
  | mk t axis fwd name => cases t <;> rfl
  | setForward j fwd hj ih => exact ih
  | makeMimic j n mu o hj ih => exact ih

theorem paramUnit_length (L : K) {j : Joint K} (h : j.Built) : (paramUnit L j.type).length = j.params := by
  induction h with
  | mk t axis fwd name => cases t <;> rfl
  | setForward j fwd hj ih => exact ih
  | makeMimic j n mu o hj ih => exact ih

theorem scaled_sizes {f : JointType → List K} {g : Joint K → Nat} {c : K} {v : List (List K)} (hf : ∀ j ∈ mb.joints, (f j.type).length = g j)
    (h : v.map List.length = mb.joints.map g) : (mb.scaled f c v).map List.length = mb.joints.map g := by
  unfold MultiBody.scaled
  generalize mb.joints = js at hf h
  induction js generalizing v with
  | nil => rfl
  | cons j js ih =>
    cases v with
    | nil => simp at h
    | cons x v =>
      simp only [List.map_cons, List.cons.injEq] at h
      simp only [List.zipWith_cons_cons, List.map_cons, List.length_zipWith]
      rw [ih (fun k hk => hf k (List.mem_cons_of_mem _ hk)) h.2, hf j (List.mem_cons_self ..), h.1, min_self]

theorem scaled_sizedDof (wf : mb.WF) {v : List (List K)} (h : SizedDof mb v) (M c : K) :
    SizedDof (mb.inUnits L M) (mb.scaled (dofUnit L) c v) :=
  scaled_sizes (fun j hj => dofUnit_length L (wf.built j hj)) h

/-- The state in other units, before kinematics is computed. -/
def MBC.inUnits (m : MBC K) (mb : MultiBody K) (L M w : K) : MBC K :=
  { m with
    q := mb.scaled (paramUnit L) 1 m.q
    alpha := mb.scaled (dofUnit L) w m.alpha
    alphaD := mb.scaled (dofUnit L) (w * w) m.alphaD
    gravity := (L * w * w) • m.gravity
    force := m.force.map (ForceVec.units L (M * L * w * w))
    jointTorque := mb.scaled (fun t => (dofUnit L t).map (·⁻¹)) (M * L * L * w * w) m.jointTorque }

/-- C81: every state has its counterpart in other units, and forward kinematics and velocity of the robot in these units make it ready. -/
theorem C81_state (wf : mb.WF) (hr : mb.Rigid) (sz : m.Sized mb) (hq : ValidQ mb m.q) (L M w : K) :
    ∃ m₁ m', forwardKinematics (mb.inUnits L M) (m.inUnits mb L M w) = .ok m₁ ∧ forwardVelocity (mb.inUnits L M) m₁ = .ok m' ∧
      InUnits L M w mb m m' ∧ m'.Sized (mb.inUnits L M) ∧ m'.VelReady (mb.inUnits L M) := by
  have sz' : (m.inUnits mb L M w).Sized (mb.inUnits L M) :=
    { q := scaled_sizes (fun j hj => paramUnit_length L (wf.built j hj)) sz.q
      alpha := scaled_sizedDof wf sz.alpha M w
      alphaD := scaled_sizedDof wf sz.alphaD M _
      jointTorque := scaled_sizes (f := fun t => (dofUnit L t).map (·⁻¹)) (fun j hj => by rw [List.length_map]; exact dofUnit_length L (wf.built j hj)) sz.jointTorque
      force := by rw [mb.inUnits_length]; simpa [MBC.inUnits] using sz.force
      jointConfig := by rw [mb.inUnits_length]; exact sz.jointConfig
      jointVelocity := by rw [mb.inUnits_length]; exact sz.jointVelocity
      motionSubspace := sz.motionSubspace
      bodyPosW := by rw [mb.inUnits_length]; exact sz.bodyPosW
      parentToSon := by rw [mb.inUnits_length]; exact sz.parentToSon
      bodyVelW := by rw [mb.inUnits_length]; exact sz.bodyVelW
      bodyVelB := by rw [mb.inUnits_length]; exact sz.bodyVelB
      bodyAccB := by rw [mb.inUnits_length]; exact sz.bodyAccB }
  obtain ⟨m₁, m', e1, e2, hv, s', q', a', aD', f', g', t'⟩ := C24_velReady (mb.inUnits_wf wf L M) (mb.inUnits_rigid hr L M) sz'
    (mb.validQ_units hq L M)
  exact ⟨m₁, m', e1, e2, ⟨q', a', aD', g', f', t'⟩, s', hv⟩

/-- A positive inertia stays positive in other units. -/
theorem RBInertia.units_pos {I : RBInertia K} (hL : 0 < L) (hM : 0 < M) (h : ∀ v : MotionVec K, v ≠ 0 → 0 < v.dot (I.mulMotion v)) (v : MotionVec K)
    (hv : v ≠ 0) : 0 < v.dot ((I.units L M).mulMotion v) := by
  have e : v = (⟨v.ang, L⁻¹ • v.lin⟩ : MotionVec K).units L 1 := by
    ext1
    · simp [MotionVec.units]
    · simp [MotionVec.units, smul_smul, mul_inv_cancel₀ (ne_of_gt hL)]
  have h0 : (⟨v.ang, L⁻¹ • v.lin⟩ : MotionVec K) ≠ 0 := by
    intro h0
    rw [h0, MotionVec.units_zero] at e
    exact hv e
  rw [e, RBInertia.units_mulMotion, MotionVec.units_dot]
  have := h _ h0
  positivity

/-- C81: forward dynamics finds the same accelerations, in the other units. -/
theorem C81_accelerations (wf : mb.WF) (hr : mb.Rigid) (hL : 0 < L) (hM : 0 < M) (h : InUnits L M w mb m m') (sz : m.Sized mb)
    (sz' : m'.Sized (mb.inUnits L M)) (hq : ValidQ mb m.q) (hv : m.VelReady mb) (hv' : m'.VelReady (mb.inUnits L M)) {fd fd' : FD K}
    (hf : fd.Fits mb) (hf' : fd'.Fits (mb.inUnits L M))
    (hI : ∀ b ∈ mb.bodies, ∀ v : MotionVec K, v ≠ 0 → 0 < v.dot (b.inertia.mulMotion v)) (hS : ∀ j ∈ mb.joints, ∀ c ∈ j.S, c ≠ 0)
    {solve solve' : DMat K → List K → List K} (hs : ∀ fd₁, fd.computeH mb m = .ok fd₁ → ExactSolve solve fd₁.H)
    (hs' : ∀ fd₁, fd'.computeH (mb.inUnits L M) m' = .ok fd₁ → ExactSolve solve' fd₁.H) :
    ∃ fd₁ m₁ fd₁' m₁', fd.forwardDynamics solve mb m = .ok (fd₁, m₁) ∧
      fd'.forwardDynamics solve' (mb.inUnits L M) m' = .ok (fd₁', m₁') ∧ m₁'.alphaD = mb.scaled (dofUnit L) (w * w) m₁.alphaD := by
  have hd : (⟨List.replicate mb.nrBodies 0⟩ : ID K).f.length = mb.nrBodies := by simp
  obtain ⟨fd₁, m₁, d₂, m₂, e1, hm₁, -, sz₁, e2, ht⟩ := C27_forward_then_inverse wf hr sz hq hv hd hf hs
  have hm1 : m₁ = { m with alphaD := m₁.alphaD } := by rw [← hm₁]
  have hsp : SamePosVel m₁ m := by
    rw [hm1]
    rfl
  obtain ⟨hv₁, hq₁⟩ := hsp.ready hv hq
  have hs2 : SizedDof (mb.inUnits L M) (mb.scaled (dofUnit L) (w * w) m₁.alphaD) := scaled_sizedDof wf sz₁.alphaD M _
  have hu : InUnits L M w mb m₁ { m' with alphaD := mb.scaled (dofUnit L) (w * w) m₁.alphaD } := by
    rw [hm1]
    exact ⟨h.q, h.alpha, rfl, h.gravity, h.force, h.jointTorque⟩
  have sz2 : MBC.Sized (mb.inUnits L M) { m' with alphaD := mb.scaled (dofUnit L) (w * w) m₁.alphaD } := { sz' with alphaD := hs2 }
  have hsp' : SamePosVel { m' with alphaD := mb.scaled (dofUnit L) (w * w) m₁.alphaD } m' := rfl
  have hq' : ValidQ (mb.inUnits L M) m'.q := h.q ▸ mb.validQ_units hq L M
  obtain ⟨hv2, hq2⟩ := hsp'.ready hv' hq'
  obtain ⟨d₃, m₃, d₃', m₃', i1, i2, -, i4, -⟩ := C81_torques wf hr hL hu sz₁ sz2 hq₁ hv₁ hv2 hd hd
  rw [e2] at i1
  cases i1
  rw [ht, ← h.jointTorque] at i4
  have hI' : ∀ b ∈ (mb.inUnits L M).bodies, ∀ v : MotionVec K, v ≠ 0 → 0 < v.dot (b.inertia.mulMotion v) := by
    intro b hb
    obtain ⟨b, hb', rfl⟩ := List.mem_map.1 hb
    exact RBInertia.units_pos hL hM (hI b hb')
  obtain ⟨fd₁', e3⟩ := fd_unique (mb.inUnits_wf wf L M) (mb.inUnits_rigid hr L M) sz' hq' hv'
    (d := ⟨List.replicate mb.nrBodies 0⟩) (by rw [hd]; exact (mb.inUnits_length L M).symm) hf' hI' hS hs' hs2 i2 i4
  exact ⟨fd₁, m₁, fd₁', _, e1, e3, rfl⟩

/-- C81: centre of mass and momentum, in the other units. -/
theorem C81_momentum (wf : mb.WF) (hr : mb.Rigid) (hm : mb.MassOK) (hT : 0 < mb.totalMass) (hL : 0 < L) (hM : 0 < M)
    (h : InUnits L M w mb m m') (hq : ValidQ mb m.q) (hv : m.VelReady mb) (hv' : m'.VelReady (mb.inUnits L M)) (p : Vec3 K) :
    ∃ c P, computeCoM mb m = .ok c ∧ computeCoM (mb.inUnits L M) m' = .ok (L • c) ∧ computeCentroidalMomentum mb m p = .ok P ∧
      computeCentroidalMomentum (mb.inUnits L M) m' (L • p) = .ok (P.units L (M * L * w)) := by
  obtain ⟨-, -, hm', -, -, hT', -⟩ := C81_robot wf hr hm hL hM
  refine ⟨_, _, computeCoM_eq hm hT hv.toPosReady, ?_, computeCentroidalMomentum_eq hv p, ?_⟩
  · rw [computeCoM_eq hm' (by rw [hT']; exact mul_pos hM hT) hv'.toPosReady]
    congr 1
    unfold MultiBody.comAt
    rw [hT', mb.inUnits_length, smul_smul, h.q]
    have e : ∀ k ∈ Finset.range mb.bodies.length, ((mb.inUnits L M).inertiaAt k).m • worldPoint ((mb.inUnits L M).posAt
        (mb.scaled (paramUnit L) 1 m.q) k) ((mb.inUnits L M).corComAt k) =
        (M * L) • ((mb.inertiaAt k).m • worldPoint (mb.posAt m.q k) (mb.corComAt k)) := by
      intro k hk
      have hc : (mb.inUnits L M).corComAt k = L • mb.corComAt k := by
        unfold MultiBody.corComAt MultiBody.inUnits
        rw [List.getElem?_map]
        cases mb.bodies[k]? with
        | none => simp
        | some b =>
          simp only [Option.map_some, Option.getD_some, Body.corCom, RBInertia.units]
          by_cases hb : 0 < b.inertia.m
          · rw [if_pos hb, if_pos (mul_pos hM hb), smul_smul, smul_smul]
            congr 1
            have := ne_of_gt hb
            have := ne_of_gt hM
            field_simp
          · have : ¬ 0 < M * b.inertia.m := fun h => hb (pos_of_mul_pos_right h hM.le)
            rw [if_neg hb, if_neg this, smul_zero]
      rw [mb.inUnits_inertiaAt, mb.posAt_units hq, hc, worldPoint_units, smul_smul, smul_smul]
      congr 1
      simp only [RBInertia.units]
      ring
    rw [Finset.sum_congr rfl e, ← Finset.smul_sum, smul_smul]
    congr 1
    have := ne_of_gt hT
    have := ne_of_gt hM
    field_simp
  · rw [computeCentroidalMomentum_eq hv']
    congr 1
    unfold MultiBody.momentumAt
    rw [mb.inUnits_length, ForceVec.units_sum, h.q, h.alpha]
    exact Finset.sum_congr rfl fun k _ => by
      rw [one_smul, one_smul, mb.posAt_units hq, mb.inUnits_inertiaAt, mb.velAt_units wf hq, momHom_units]

/-- The factor of row `x` of a Jacobian: rows 0 to 2 are angular, rows 3 to 5 linear. -/
def rowUnit (L : K) (x : Nat) : K := if x < 3 then 1 else L

theorem MotionVec.units_row (L : K) (v : MotionVec K) {x : Nat} (hx : x < 6) : (v.units L 1).toList.getD x 0 = rowUnit L x * v.toList.getD x 0 := by
  obtain rfl | rfl | rfl | rfl | rfl | rfl : x = 0 ∨ x = 1 ∨ x = 2 ∨ x = 3 ∨ x = 4 ∨ x = 5 := by omega
  all_goals simp [MotionVec.units, MotionVec.toList, rowUnit]

theorem MotionVec.smul_row (s : K) (v : MotionVec K) {x : Nat} (hx : x < 6) : (s • v).toList.getD x 0 = s * v.toList.getD x 0 := by
  obtain rfl | rfl | rfl | rfl | rfl | rfl : x = 0 ∨ x = 1 ∨ x = 2 ∨ x = 3 ∨ x = 4 ∨ x = 5 := by omega
  all_goals simp [MotionVec.toList]

/-- C81: the Jacobian of a point, in the other units. -/
theorem C81_jacobian (wf : mb.WF) (h : InUnits L M w mb m m') (hq : ValidQ mb m.q) (hv : m.PosReady mb) (hv' : m'.PosReady (mb.inUnits L M))
    {J J' : Jac K} {N : Nat} {p : Vec3 K} (hJ : J.Of mb N p) (hJ' : J'.Of (mb.inUnits L M) N (L • p)) {res : DMat K} (hrr : res.rows = 6)
    (hrc : res.cols = mb.nrDof) :
    ∃ (J₁ J₁' : Jac K) (A A' : DMat K), J.jacobian mb m = .ok J₁ ∧ J₁.fullJacobian mb (DMat.ofCols J₁.jac) res = .ok A ∧
      J'.jacobian (mb.inUnits L M) m' = .ok J₁' ∧ J₁'.fullJacobian (mb.inUnits L M) (DMat.ofCols J₁'.jac) res = .ok A' ∧
      ∀ x i a, x < 6 → i < mb.nrBodies → a < mb.dofAt i →
        mb.unitAt L i a * A'.get x (mb.dofPosAt i + a) = rowUnit L x * A.get x (mb.dofPosAt i + a) := by
  obtain ⟨J₁, A, e1, e2, -, -, hA⟩ := hJ.full_cols wf hv hrr hrc
  obtain ⟨J₁', A', e1', e2', -, -, hA'⟩ := hJ'.full_cols (mb.inUnits_wf wf L M) hv' hrr hrc
  refine ⟨J₁, J₁', A, A', e1, e2, e1', e2', fun x i a hx hi ha => ?_⟩
  have k := hA' x i a hx (by rw [mb.inUnits_length]; exact hi) ha
  rw [mb.inUnits_dofPosAt] at k
  rw [k, hA x i a hx hi ha, ← MotionVec.units_row L _ hx, ← MotionVec.smul_row _ _ hx]
  congr 2
  unfold MultiBody.wcol MultiBody.pathCol
  rw [mb.inUnits_par]
  split
  · rw [h.q, mb.inUnits_SAt, ← map_smul, ← mb.SAt_units wf]
    simp only [PTransform.motionHom_apply]
    rw [mb.posAt_units hq, mb.posAt_units hq, ← PTransform.units_inv]
    have e : PTransform.ofTrans (PTransform.ofTrans (L • p) * (mb.posAt m.q N).units L).r =
        (PTransform.ofTrans (PTransform.ofTrans p * mb.posAt m.q N).r).units L := by
      have : PTransform.ofTrans (L • p) = (PTransform.ofTrans p).units L := rfl
      rw [this, ← PTransform.units_mul]
      rfl
    rw [e, ← PTransform.units_mul, PTransform.units_mulMotion]
  · rw [smul_zero, MotionVec.units_zero]

/-- The mass matrix of a robot made of positive inertias can be solved exactly. -/
theorem ExactSolve.exists_physical (wf : mb.WF) (hr : mb.Rigid) (hq : ValidQ mb m.q) (hv : m.PosReady mb) {fd : FD K} (hf : fd.Fits mb)
    (hI : ∀ b ∈ mb.bodies, ∀ v : MotionVec K, v ≠ 0 → 0 < v.dot (b.inertia.mulMotion v)) (hS : ∀ j ∈ mb.joints, ∀ c ∈ j.S, c ≠ 0) :
    ∃ solve : DMat K → List K → List K, ∀ fd₁, fd.computeH mb m = .ok fd₁ → ExactSolve solve fd₁.H := by
  obtain ⟨solve, hs⟩ := ExactSolve.exists_of_regular (K := K) mb.nrDof
  refine ⟨solve, fun fd₁ e => ?_⟩
  obtain ⟨d', e', h⟩ := C29_positive_definite wf hr hq hv hf hI hS
  obtain ⟨d'', e'', hr, hc, -⟩ := C28_symmetric wf hr hq hv hf
  rw [e] at e' e''
  cases e'
  cases e''
  refine hs _ hr hc fun x hx hne => ?_
  by_contra hcon
  push Not at hcon
  have := h x hx hne
  rw [Finset.sum_eq_zero fun r hr => by rw [hcon r (Finset.mem_range.1 hr), mul_zero]] at this
  exact lt_irrefl _ this

/-! ### The sample robot in other units -/

/-- C81 on the sample robot, with lengths, masses and rates multiplied by 2, 3 and 5: all hypotheses are met, the last translation of the
free joint counts twice, and the torques of its translations count `3 · 2 · 25` times. -/
example : ∃ (m' : MBC ℚ) (d₁ d₁' : ID ℚ) (m₁ m₁' : MBC ℚ), InUnits 2 3 5 Sample.mb Sample.mbcV m' ∧ m'.Sized (Sample.mb.inUnits 2 3) ∧
    m'.VelReady (Sample.mb.inUnits 2 3) ∧ Sample.id.inverseDynamics Sample.mb Sample.mbcV = .ok (d₁, m₁) ∧
    Sample.id.inverseDynamics (Sample.mb.inUnits 2 3) m' = .ok (d₁', m₁') ∧ m'.q ≠ Sample.mbcV.q ∧
    (m₁'.jointTorque.flatten).getD 5 0 = 150 * (m₁.jointTorque.flatten).getD 5 0 ∧ (m₁.jointTorque.flatten).getD 5 0 ≠ 0 ∧
    (m₁'.jointTorque.flatten).getD 0 0 = 300 * (m₁.jointTorque.flatten).getD 0 0 ∧ (m₁.jointTorque.flatten).getD 0 0 ≠ 0 := by
  obtain ⟨h1, h2, h3⟩ := Sample.ready
  obtain ⟨-, m', -, -, hu, s', v'⟩ := C81_state Sample.wf Sample.rigid h2 h3 2 3 5
  obtain ⟨d₁, m₁, d₁', m₁', e1, e2, -, e3, -⟩ := C81_torques Sample.wf Sample.rigid (by norm_num) hu h2 s' h3 h1 v' (d := Sample.id)
    (d' := Sample.id) (by decide +kernel) (by decide +kernel)
  have t1 : m₁.jointTorque = ((Sample.id.inverseDynamics Sample.mb Sample.mbcV).toOption.map (·.2.jointTorque)).getD [] := by rw [e1]; rfl
  refine ⟨m', d₁, d₁', m₁, m₁', hu, s', v', e1, e2, ?_, ?_, ?_, ?_, ?_⟩
  · rw [hu.q]; decide +kernel
  all_goals
    try rw [e3]
    rw [t1]
    decide +kernel

/-- C81 on the sample robot: forward dynamics, momentum and a Jacobian in the other units. -/
example : ∃ (m' : MBC ℚ) (fd' : FD ℚ) (J J' : Jac ℚ) (solve solve' : DMat ℚ → List ℚ → List ℚ), InUnits 2 3 5 Sample.mb Sample.mbcV m' ∧
    m'.VelReady (Sample.mb.inUnits 2 3) ∧ fd'.Fits (Sample.mb.inUnits 2 3) ∧ J.Of Sample.mb 2 ⟨1, 2, 3⟩ ∧
    J'.Of (Sample.mb.inUnits 2 3) 2 ((2 : ℚ) • ⟨1, 2, 3⟩) ∧ Sample.mb.MassOK ∧ 0 < Sample.mb.totalMass ∧
    ∃ fd₁ m₁ fd₁' m₁', Sample.fd.forwardDynamics solve Sample.mb Sample.mbcV = .ok (fd₁, m₁) ∧
      fd'.forwardDynamics solve' (Sample.mb.inUnits 2 3) m' = .ok (fd₁', m₁') ∧
      m₁'.alphaD = Sample.mb.scaled (dofUnit 2) (5 * 5) m₁.alphaD := by
  obtain ⟨h1, h2, h3⟩ := Sample.ready
  have hm : Sample.mb.MassOK := by unfold MultiBody.MassOK; decide +kernel
  have hM : 0 < Sample.mb.totalMass := by decide +kernel
  obtain ⟨-, m', -, -, hu, s', v'⟩ := C81_state Sample.wf Sample.rigid h2 h3 2 3 5
  obtain ⟨wf', hr', -, -, -, -, hq'⟩ := C81_robot (L := 2) (M := 3) Sample.wf Sample.rigid hm (by norm_num) (by norm_num)
  have hq' : ValidQ (Sample.mb.inUnits 2 3) m'.q := hu.q ▸ hq' _ h3
  obtain ⟨fd', -, hf'⟩ := FD.mk'_fits wf' Sample.fd
  obtain ⟨J, hJ⟩ := Jac.exists_of Sample.wf (N := 2) (by decide +kernel) (⟨1, 2, 3⟩ : Vec3 ℚ)
  obtain ⟨J', hJ'⟩ := Jac.exists_of wf' (N := 2) (by decide +kernel) ((2 : ℚ) • (⟨1, 2, 3⟩ : Vec3 ℚ))
  obtain ⟨solve, hs⟩ := ExactSolve.exists_physical Sample.wf Sample.rigid h3 h1.toPosReady Sample.fd_fits Sample.inertia_pos Sample.subspace_ne
  have hI' : ∀ b ∈ (Sample.mb.inUnits 2 3).bodies, ∀ v : MotionVec ℚ, v ≠ 0 → 0 < v.dot (b.inertia.mulMotion v) := by
    intro b hb
    obtain ⟨b, hb', rfl⟩ := List.mem_map.1 hb
    exact RBInertia.units_pos (by norm_num) (by norm_num) (Sample.inertia_pos b hb')
  obtain ⟨solve', hs'⟩ := ExactSolve.exists_physical wf' hr' hq' v'.toPosReady hf' hI' Sample.subspace_ne
  exact ⟨m', fd', J, J', solve, solve', hu, v', hf', hJ, hJ', hm, hM, C81_accelerations Sample.wf Sample.rigid (by norm_num) (by norm_num) hu h2 s' h3 h1 v'
    Sample.fd_fits hf' Sample.inertia_pos Sample.subspace_ne hs hs'⟩

/-! ### Inverse kinematics -/

/-- A robot with one sliding joint. -/
def Sample.slide : MultiBody ℚ :=
  ((MultiBody.mk' [⟨⟨2, 0, ⟨1, 0, 1, 0, 0, 1⟩⟩, "x"⟩] [Joint.mk' .Prism ⟨1, 0, 0⟩ true "a"] [-1] [0] [-1] [1]).toOption).getD
    ⟨[], [], [], [], [], [], [], [], [], [], 0, 0⟩

def Sample.slideMbc : MBC ℚ :=
  { q := [[0]], alpha := [[0]], alphaD := [[0]], force := [0], jointConfig := [1], jointVelocity := [0], jointTorque := [[0]],
    motionSubspace := [[0]], bodyPosW := [1], parentToSon := [1], bodyVelW := [0], bodyVelB := [0], bodyAccB := [0], gravity := 0 }

/-- The least squares solution for a matrix with one column. -/
def oneColumn (A : List (MotionVec ℚ)) (v : MotionVec ℚ) : List ℚ :=
  A.map fun c => (c.ang.dot v.ang + c.lin.dot v.lin) / (c.ang.dot c.ang + c.lin.dot c.lin)

/-- C81 does not hold for inverse kinematics: its stopping threshold is a number that is compared with radians and lengths together. On a robot
with one sliding joint and a target that is reachable, describing everything in millimetres instead of metres changes the solution it returns
(although least squares is solved exactly): the error that remains is `5e-10` metres in the one case and `5e-13` metres in the other. -/
theorem C81_inverse_kinematics_counterexample : ∃ (ik ik' : IK ℚ) (r r' : MBC ℚ × Jac ℚ × Bool), IK.mk' (fun _ => 0) Sample.slide 0 = .ok ik ∧
    IK.mk' (fun _ => 0) (Sample.slide.inUnits 1000 1) 0 = .ok ik' ∧
    InUnits 1000 1 1 Sample.slide Sample.slideMbc (Sample.slideMbc.inUnits Sample.slide 1000 1 1) ∧
    inverseKinematics oneColumn (fun _ _ => 0) ik Sample.slide Sample.slideMbc ⟨1, ⟨5 / 10 ^ 9, 0, 0⟩⟩ = .ok r ∧
    inverseKinematics oneColumn (fun _ _ => 0) ik' (Sample.slide.inUnits 1000 1) (Sample.slideMbc.inUnits Sample.slide 1000 1 1)
      (PTransform.units 1000 ⟨1, ⟨5 / 10 ^ 9, 0, 0⟩⟩) = .ok r' ∧ r.2.2 = true ∧ r'.2.2 = true ∧
    r.1.q = [[(9 / 10 * (5 / 10 ^ 9) : ℚ)]] ∧ r'.1.q = [[(1000 * (9999 / 10000 * (5 / 10 ^ 9)) : ℚ)]] ∧
    r'.1.q ≠ Sample.slide.scaled (paramUnit 1000) 1 r.1.q := by
  obtain ⟨ik, e1, h⟩ := ok_and (m := IK.mk' (fun _ => 0) Sample.slide 0) (fun ik : IK ℚ =>
    ((inverseKinematics oneColumn (fun _ _ => 0) ik Sample.slide Sample.slideMbc ⟨1, ⟨5 / 10 ^ 9, 0, 0⟩⟩).toOption.map
      fun r : MBC ℚ × Jac ℚ × Bool => decide (r.2.2 = true ∧ r.1.q = [[(9 / 10 * (5 / 10 ^ 9) : ℚ)]])).getD false) (by decide +kernel)
  obtain ⟨r, e2, h⟩ := ok_and _ h
  obtain ⟨h1, h2⟩ := of_decide_eq_true h
  obtain ⟨ik', e3, h⟩ := ok_and (m := IK.mk' (fun _ => 0) (Sample.slide.inUnits 1000 1) 0) (fun ik : IK ℚ =>
    ((inverseKinematics oneColumn (fun _ _ => 0) ik (Sample.slide.inUnits 1000 1) (Sample.slideMbc.inUnits Sample.slide 1000 1 1)
      (PTransform.units 1000 ⟨1, ⟨5 / 10 ^ 9, 0, 0⟩⟩)).toOption.map
      fun r : MBC ℚ × Jac ℚ × Bool => decide (r.2.2 = true ∧ r.1.q = [[(1000 * (9999 / 10000 * (5 / 10 ^ 9)) : ℚ)]])).getD false) (by decide +kernel)
  obtain ⟨r', e4, h⟩ := ok_and _ h
  obtain ⟨h3, h4⟩ := of_decide_eq_true h
  refine ⟨ik, ik', r, r', e1, e3, ⟨rfl, rfl, rfl, rfl, rfl, rfl⟩, e2, e4, h1, h3, h2, h4, ?_⟩
  rw [h2, h4]
  decide +kernel

end RBDyn
