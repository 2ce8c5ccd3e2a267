import Verif.Lemmas.EnergyGrowth
import Mathlib.Analysis.SpecialFunctions.Sqrt
import Mathlib.Analysis.SpecialFunctions.SmoothTransition

/-! Joint positions of robots with joints of all types as vectors of numbers: poses are continuously differentiable functions of them as long as the
quaternions are unit quaternions, and every nonzero quaternion can be normalised. -/

namespace RBDyn
open scoped Mat3

/-- The number of position parameters of a joint. -/
def MultiBody.paramsAt (mb : MultiBody ℝ) (i : Nat) : Nat := ((mb.joints[i]?).map (·.params)).getD 0

/-- The type of a joint. -/
def MultiBody.typeAt (mb : MultiBody ℝ) (i : Nat) : JointType := ((mb.joints[i]?).map (·.type)).getD .Fixed

/-- The position parameters of a robot. -/
abbrev MultiBody.Px (mb : MultiBody ℝ) : Type := Σ i : Fin mb.bodies.length, Fin (mb.paramsAt i)

/-- The joint positions with given entries. -/
def MultiBody.ofParams (mb : MultiBody ℝ) (f : Nat → Nat → ℝ) : List (List ℝ) :=
  (List.range mb.bodies.length).map fun i => (List.range (mb.paramsAt i)).map (f i)

/-- A joint with a quaternion. -/
def JointType.IsQuat (t : JointType) : Prop := t = .Spherical ∨ t = .Free

instance (t : JointType) : Decidable t.IsQuat := inferInstanceAs (Decidable (_ ∨ _))

variable {mb : MultiBody ℝ}

theorem paramsAt_eq {i : Nat} {j : Joint ℝ} (hj : mb.joints[i]? = some j) : mb.paramsAt i = j.params := by simp [MultiBody.paramsAt, hj]

theorem typeAt_eq {i : Nat} {j : Joint ℝ} (hj : mb.joints[i]? = some j) : mb.typeAt i = j.type := by simp [MultiBody.typeAt, hj]

theorem MultiBody.WF.params_type (wf : mb.WF) {i : Nat} (hi : i < mb.bodies.length) : mb.paramsAt i = Joint.nParams (mb.typeAt i) := by
  obtain ⟨j, e, -⟩ := wf.joint_get hi
  rw [paramsAt_eq e, typeAt_eq e]
  exact (wf.built j (List.mem_of_getElem? e)).sizes.1

theorem MultiBody.WF.dof_type (wf : mb.WF) {i : Nat} (hi : i < mb.bodies.length) : mb.dofAt i = Joint.nDof (mb.typeAt i) := by
  obtain ⟨j, e, -⟩ := wf.joint_get hi
  have : mb.dofAt i = j.dof := by simp [MultiBody.dofAt, e]
  rw [this, typeAt_eq e]
  exact (wf.built j (List.mem_of_getElem? e)).sizes.2

theorem ofParams_get (f : Nat → Nat → ℝ) {i : Nat} (hi : i < mb.bodies.length) :
    (mb.ofParams f)[i]? = some ((List.range (mb.paramsAt i)).map (f i)) := by
  rw [MultiBody.ofParams, range_map_getElem? hi]

theorem entry_ofParams (f : Nat → Nat → ℝ) {i a : Nat} (hi : i < mb.bodies.length) (ha : a < mb.paramsAt i) : entry (mb.ofParams f) i a = f i a := by
  unfold entry
  rw [ofParams_get f hi, Option.getD_some, List.getD_eq_getElem?_getD, range_map_getElem? ha, Option.getD_some]

theorem ofParams_sized (wf : mb.WF) (f : Nat → Nat → ℝ) : SizedQ mb (mb.ofParams f) := by
  unfold SizedQ
  refine List.ext_getElem? fun i => ?_
  by_cases hi : i < mb.bodies.length
  · obtain ⟨j, e, -⟩ := wf.joint_get hi
    rw [List.getElem?_map, List.getElem?_map, ofParams_get f hi, e]
    simp [paramsAt_eq e]
  · rw [List.getElem?_eq_none (by simp [MultiBody.ofParams]; omega), List.getElem?_eq_none (by rw [List.length_map, wf.njoints]; omega)]

theorem SizedQ.getD_length (wf : mb.WF) {q : List (List ℝ)} (h : SizedQ mb q) {i : Nat} (hi : i < mb.bodies.length) :
    ((q[i]?).getD []).length = mb.paramsAt i := by
  obtain ⟨j, e, -⟩ := wf.joint_get hi
  have hl : i < q.length := by rw [h.length, wf.njoints]; exact hi
  rw [List.getElem?_eq_getElem hl, Option.getD_some, paramsAt_eq e]
  exact h.get (List.getElem?_eq_getElem hl) e

theorem entry_beyondQ (wf : mb.WF) {q : List (List ℝ)} (h : SizedQ mb q) {i a : Nat} (hc : ¬ (i < mb.bodies.length ∧ a < mb.paramsAt i)) :
    entry q i a = 0 := by
  unfold entry
  by_cases hi : i < mb.bodies.length
  · have := h.getD_length wf hi
    rw [List.getD_eq_getElem?_getD, List.getElem?_eq_none (by rw [this]; by_contra hn; exact hc ⟨hi, by omega⟩), Option.getD_none]
  · rw [List.getElem?_eq_none (by rw [h.length, wf.njoints]; omega)]
    simp

theorem SizedQ.ext_entry (wf : mb.WF) {v w : List (List ℝ)} (hv : SizedQ mb v) (hw : SizedQ mb w)
    (h : ∀ i a, i < mb.bodies.length → a < mb.paramsAt i → entry v i a = entry w i a) : v = w := by
  refine List.ext_getElem (by rw [hv.length, hw.length]) fun i h1 h2 => ?_
  have hi : i < mb.bodies.length := by rw [← wf.njoints, ← hv.length]; exact h1
  have l1 := hv.getD_length wf hi
  have l2 := hw.getD_length wf hi
  rw [List.getElem?_eq_getElem h1, Option.getD_some] at l1
  rw [List.getElem?_eq_getElem h2, Option.getD_some] at l2
  refine List.ext_getElem (by rw [l1, l2]) fun a h3 h4 => ?_
  have := h i a hi (by rw [← l1]; exact h3)
  unfold entry at this
  rw [List.getElem?_eq_getElem h1, List.getElem?_eq_getElem h2, Option.getD_some, Option.getD_some, List.getD_eq_getElem?_getD,
    List.getD_eq_getElem?_getD, List.getElem?_eq_getElem h3, List.getElem?_eq_getElem h4] at this
  exact this

/-! ### Vectors of numbers -/

/-- The joint positions with the entries of a vector. -/
def MultiBody.unflatQ (mb : MultiBody ℝ) (v : mb.Px → ℝ) : List (List ℝ) :=
  mb.ofParams fun i a => if h : i < mb.bodies.length then if h' : a < mb.paramsAt i then v ⟨⟨i, h⟩, ⟨a, h'⟩⟩ else 0 else 0

/-- The entries of joint positions. -/
noncomputable def MultiBody.flatQ (mb : MultiBody ℝ) (q : List (List ℝ)) : mb.Px → ℝ := fun x => entry q x.1 x.2

theorem entry_unflatQ (v : mb.Px → ℝ) {i a : Nat} (hi : i < mb.bodies.length) (ha : a < mb.paramsAt i) :
    entry (mb.unflatQ v) i a = v ⟨⟨i, hi⟩, ⟨a, ha⟩⟩ := by
  unfold MultiBody.unflatQ
  rw [entry_ofParams _ hi ha, dif_pos hi, dif_pos ha]

theorem flatQ_unflatQ (v : mb.Px → ℝ) : mb.flatQ (mb.unflatQ v) = v := by
  funext x
  unfold MultiBody.flatQ
  rw [entry_unflatQ v x.1.2 x.2.2]

theorem unflatQ_sized (wf : mb.WF) (v : mb.Px → ℝ) : SizedQ mb (mb.unflatQ v) := ofParams_sized wf _

theorem unflatQ_flatQ (wf : mb.WF) {q : List (List ℝ)} (hq : SizedQ mb q) : mb.unflatQ (mb.flatQ q) = q :=
  (unflatQ_sized wf _).ext_entry wf hq fun _ _ hi ha => entry_unflatQ _ hi ha

/-! ### Unit quaternions -/

/-- The squared norm of the first four entries of a joint. -/
noncomputable def quatSq (q : List (List ℝ)) (i : Nat) : ℝ := entry q i 0 ^ 2 + entry q i 1 ^ 2 + entry q i 2 ^ 2 + entry q i 3 ^ 2

theorem quatSq_nonneg (q : List (List ℝ)) (i : Nat) : 0 ≤ quatSq q i := by unfold quatSq; positivity

/-- The entries after the quaternions have been normalised. -/
noncomputable def MultiBody.unitEntry (mb : MultiBody ℝ) (q : List (List ℝ)) (i a : Nat) : ℝ :=
  if (mb.typeAt i).IsQuat ∧ a < 4 then (if quatSq q i = 0 then (if a = 0 then 1 else 0) else entry q i a / √(quatSq q i)) else entry q i a

/-- The joint positions after the quaternions have been normalised; zero becomes the identity. -/
noncomputable def MultiBody.unitQ (mb : MultiBody ℝ) (q : List (List ℝ)) : List (List ℝ) := mb.ofParams (mb.unitEntry q)

theorem isQuat_params {t : JointType} (h : t.IsQuat) : 4 ≤ Joint.nParams t := by
  rcases h with rfl | rfl <;> decide

theorem entry_list (q : List (List ℝ)) {i : Nat} {x : List ℝ} (h : q[i]? = some x) (a : Nat) : entry q i a = x.getD a 0 := by
  unfold entry
  rw [h, Option.getD_some]

/-- Joint positions are valid when they have the right sizes and the quaternions are unit quaternions. -/
theorem validQ_iff (wf : mb.WF) {q : List (List ℝ)} :
    ValidQ mb q ↔ SizedQ mb q ∧ ∀ i, i < mb.bodies.length → (mb.typeAt i).IsQuat → quatSq q i = 1 := by
  constructor
  · intro h
    refine ⟨h.sizes wf, fun i hi ht => ?_⟩
    obtain ⟨j, e, -⟩ := wf.joint_get hi
    obtain ⟨l, hl, hv⟩ := h.param e
    rw [typeAt_eq e] at ht
    unfold quatSq
    simp only [entry_list q hl]
    rcases ht with ht | ht <;> rw [ht] at hv <;> obtain ⟨h1, h2⟩ := hv
    · match l, h1, h2 with
      | [w, x, y, z], _, h2 => simp at h2 ⊢; linarith
    · match l, h1, h2 with
      | [w, x, y, z, _, _, _], _, h2 => simp at h2 ⊢; linarith
  · rintro ⟨hs, hu⟩
    refine List.forall₂_iff_get.2 ⟨hs.length.symm, fun i h1 h2 => ?_⟩
    simp only [List.get_eq_getElem]
    have hi : i < mb.bodies.length := by rw [← wf.njoints]; exact h1
    have e := List.getElem?_eq_getElem h1
    have hl := List.getElem?_eq_getElem h2
    have hlen := hs.get hl e
    have hp := (wf.built _ (List.getElem_mem h1)).sizes.1
    rw [hp] at hlen
    have hq := hu i hi
    rw [typeAt_eq e] at hq
    unfold quatSq at hq
    simp only [entry_list q hl] at hq
    refine ⟨hlen, ?_⟩
    generalize q[i] = l at hlen hq
    generalize (mb.joints[i]).type = t at hlen hq
    cases t <;> simp [Joint.nParams, JointType.IsQuat] at hlen hq ⊢
    · match l, hlen with
      | [w, x, y, z], _ => simp at hq ⊢; linarith
    · match l, hlen with
      | [w, x, y, z, _, _, _], _ => simp at hq ⊢; linarith

theorem unitQ_entry (wf : mb.WF) {q : List (List ℝ)} (hq : SizedQ mb q) (i a : Nat) (hi : i < mb.bodies.length) :
    entry (mb.unitQ q) i a = mb.unitEntry q i a := by
  by_cases ha : a < mb.paramsAt i
  · exact entry_ofParams _ hi ha
  · have e : entry (mb.unitQ q) i a = 0 := entry_beyondQ wf (ofParams_sized wf _) fun h => ha h.2
    rw [e, MultiBody.unitEntry, if_neg, entry_beyondQ wf hq fun h => ha h.2]
    rintro ⟨h1, h2⟩
    have := isQuat_params h1
    rw [← wf.params_type hi] at this
    omega

theorem unitQ_valid (wf : mb.WF) {q : List (List ℝ)} (hq : SizedQ mb q) : ValidQ mb (mb.unitQ q) := by
  refine (validQ_iff wf).2 ⟨ofParams_sized wf _, fun i hi ht => ?_⟩
  have e : ∀ a, a < 4 → entry (mb.unitQ q) i a = if quatSq q i = 0 then (if a = 0 then 1 else 0) else entry q i a / √(quatSq q i) := fun a ha => by
    rw [unitQ_entry wf hq i a hi, MultiBody.unitEntry, if_pos ⟨ht, ha⟩]
  rw [quatSq, e 0 (by decide), e 1 (by decide), e 2 (by decide), e 3 (by decide)]
  by_cases h0 : quatSq q i = 0
  · simp [h0]
  · simp only [if_neg h0, div_pow, Real.sq_sqrt (quatSq_nonneg q i)]
    rw [← add_div, ← add_div, ← add_div]
    exact div_self h0

theorem unitQ_of_valid (wf : mb.WF) {q : List (List ℝ)} (hq : ValidQ mb q) : mb.unitQ q = q := by
  obtain ⟨hs, hu⟩ := (validQ_iff wf).1 hq
  refine (ofParams_sized wf _).ext_entry wf hs fun i a hi ha => ?_
  rw [show mb.ofParams (mb.unitEntry q) = mb.unitQ q from rfl, unitQ_entry wf hs i a hi]
  unfold MultiBody.unitEntry
  split
  · rename_i h
    rw [hu i hi h.1]
    simp
  · rfl

/-! ### Poses -/

section diff
variable {W : Type} [NormedAddCommGroup W] [NormedSpace ℝ W] {Q : W → List (List ℝ)}

theorem list_three {x : List ℝ} (h : x.length = 3) : x = [x.getD 0 0, x.getD 1 0, x.getD 2 0] := by
  match x, h with
  | [_, _, _], _ => rfl

theorem list_four {x : List ℝ} (h : x.length = 4) : x = [x.getD 0 0, x.getD 1 0, x.getD 2 0, x.getD 3 0] := by
  match x, h with
  | [_, _, _, _], _ => rfl

theorem list_seven {x : List ℝ} (h : x.length = 7) :
    x = [x.getD 0 0, x.getD 1 0, x.getD 2 0, x.getD 3 0, x.getD 4 0, x.getD 5 0, x.getD 6 0] := by
  match x, h with
  | [_, _, _, _, _, _, _], _ => rfl

/-- The pose of a joint of any type is a continuously differentiable function of its parameters when its quaternion is a unit quaternion. -/
theorem Joint.BuiltUnit.pose_diff {j : Joint ℝ} (hj : j.BuiltUnit) {f : W → List ℝ} (hv : ∀ v, ValidParam j.type (f v))
    (hf : ∀ a, ContDiff ℝ 1 fun v => (f v).getD a 0) : DiffPT fun v => ((j.pose (f v)).toOption.getD 1) := by
  by_cases ht : j.type.Plain
  · refine hj.built.pose_diff ht (fun v => ?_) hf
    rw [(hv v).1, hj.built.sizes.2]
    rcases ht with e | e | e | e <;> rw [e] <;> rfl
  · obtain ⟨t, ax, fw, n, -, hjj⟩ := hj.exists_mk
    have hpose : ∀ x, j.pose x = (Joint.mk' t ax fw n).pose x := fun x => by
      rcases hjj with rfl | ⟨mn, m, o, rfl⟩ <;> rfl
    have hjt : j.type = t := by
      rcases hjj with rfl | ⟨mn, m, o, rfl⟩ <;> rfl
    simp only [hpose]
    rw [hjt] at ht hv
    have h0 := hf 0
    have h1 := hf 1
    have h2 := hf 2
    have h3 := hf 3
    cases t <;> simp [JointType.Plain] at ht
    · have e : ∀ v, (((Joint.mk' .Spherical ax fw n).pose (f v)).toOption.getD 1) =
          ⟨Quat.toRot ⟨(f v).getD 0 0, -(Joint.sgn (K := ℝ) fw * (f v).getD 1 0), -(Joint.sgn (K := ℝ) fw * (f v).getD 2 0),
            -(Joint.sgn (K := ℝ) fw * (f v).getD 3 0)⟩, 0⟩ := fun v => by
        have hl := list_four (hv v).1
        have hu := (hv v).2
        rw [hl] at hu
        simp only at hu
        have hn : Quat.normSq (⟨(f v).getD 0 0, Joint.sgn (K := ℝ) fw * (f v).getD 1 0, Joint.sgn (K := ℝ) fw * (f v).getD 2 0,
            Joint.sgn (K := ℝ) fw * (f v).getD 3 0⟩ : Quat ℝ) = 1 := by
          have hsq := Joint.sgn_sq (K := ℝ) fw
          simp only [Quat.normSq]
          linear_combination hu + ((f v).getD 1 0 ^ 2 + (f v).getD 2 0 ^ 2 + (f v).getD 3 0 ^ 2) * hsq
        conv_lhs => rw [hl]
        rw [Joint.pose_spherical, Quat.inverse, hn]
        simp [Except.toOption]
      simp only [e]
      refine ⟨?_, .const _⟩
      unfold Quat.toRot
      constructor <;> dsimp only <;> fun_prop
    · have e : ∀ v, (((Joint.mk' .Planar ax fw n).pose (f v)).toOption.getD 1) =
          if fw then ⟨rotZ ((f v).getD 0 0), (rotZ ((f v).getD 0 0)).tr *ᵥ ⟨(f v).getD 1 0, (f v).getD 2 0, 0⟩⟩
          else PTransform.inv ⟨rotZ ((f v).getD 0 0), (rotZ ((f v).getD 0 0)).tr *ᵥ ⟨(f v).getD 1 0, (f v).getD 2 0, 0⟩⟩ := fun v => by
        conv_lhs => rw [list_three (hv v).1]
        rw [Joint.pose_planar]
        rfl
      simp only [e]
      have hR : DiffMat fun v => rotZ ((f v).getD 0 0) := by
        have hs : ContDiff ℝ 1 fun v => (Scalar.sin ((f v).getD 0 0) : ℝ) := h0.sin
        have hc : ContDiff ℝ 1 fun v => (Scalar.cos ((f v).getD 0 0) : ℝ) := h0.cos
        unfold rotZ
        constructor <;> dsimp only <;> fun_prop
      have hX : DiffPT fun v => (⟨rotZ ((f v).getD 0 0), (rotZ ((f v).getD 0 0)).tr *ᵥ ⟨(f v).getD 1 0, (f v).getD 2 0, 0⟩⟩ : PTransform ℝ) :=
        ⟨hR, hR.tr.mulVec ⟨h1, h2, contDiff_const⟩⟩
      cases fw
      · exact hX.inv
      · exact hX
    · have e : ∀ v, (((Joint.mk' .Free ax fw n).pose (f v)).toOption.getD 1) =
          if fw then ⟨Joint.quatToE ((f v).getD 0 0) ((f v).getD 1 0) ((f v).getD 2 0) ((f v).getD 3 0), ⟨(f v).getD 4 0, (f v).getD 5 0, (f v).getD 6 0⟩⟩
          else PTransform.inv ⟨Joint.quatToE ((f v).getD 0 0) ((f v).getD 1 0) ((f v).getD 2 0) ((f v).getD 3 0), ⟨(f v).getD 4 0, (f v).getD 5 0, (f v).getD 6 0⟩⟩ :=
        fun v => by
        conv_lhs => rw [list_seven (hv v).1]
        rw [Joint.pose_free]
        rfl
      simp only [e]
      have hX : DiffPT fun v => (⟨Joint.quatToE ((f v).getD 0 0) ((f v).getD 1 0) ((f v).getD 2 0) ((f v).getD 3 0),
          ⟨(f v).getD 4 0, (f v).getD 5 0, (f v).getD 6 0⟩⟩ : PTransform ℝ) := by
        refine ⟨?_, hf 4, hf 5, hf 6⟩
        unfold Joint.quatToE
        constructor <;> simp only [Mat3.smul_m00, Mat3.smul_m01, Mat3.smul_m02, Mat3.smul_m10, Mat3.smul_m11, Mat3.smul_m12, Mat3.smul_m20,
          Mat3.smul_m21, Mat3.smul_m22] <;> fun_prop
      cases fw
      · exact hX.inv
      · exact hX

theorem diffPose_of_valid (wf : mb.WF) (hr : mb.Rigid) (hv : ∀ w, ValidQ mb (Q w)) (hs : ∀ i a, i < mb.bodies.length → ContDiff ℝ 1 fun w => entry (Q w) i a) :
    DiffPose mb Q := by
  intro i
  by_cases hi : i < mb.bodies.length
  · obtain ⟨j, e, -⟩ := wf.joint_get hi
    have hm := List.mem_of_getElem? e
    have hl : ∀ v, i < (Q v).length := fun v => by rw [((hv v).sizes wf).length, wf.njoints]; exact hi
    have e1 : (fun v => mb.poseAt (Q v) i) = fun v => ((j.pose (((Q v)[i]?).getD [])).toOption.getD 1) := by
      funext v
      unfold MultiBody.poseAt
      rw [e, List.getElem?_eq_getElem (hl v)]
      rfl
    rw [e1]
    refine (hr.joints j hm).pose_diff (fun v => ?_) fun a => hs i a hi
    obtain ⟨l, h1, h2⟩ := (hv v).param e
    rw [h1]
    exact h2
  · have : mb.joints[i]? = none := by rw [List.getElem?_eq_none_iff, wf.njoints]; omega
    unfold MultiBody.poseAt
    simp only [this]
    exact .const _

end diff

end RBDyn
