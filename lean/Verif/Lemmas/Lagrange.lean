import Verif.Lemmas.MomDeriv
import Verif.Lemmas.DynDeriv

/-! Virtual displacements of one joint: derivatives of the body velocities with respect to one coordinate or one velocity. -/

namespace RBDyn
open scoped Mat3

/-- `v` with `x` added to entry `a` of joint `i`. -/
def bump (v : List (List ℝ)) (i a : Nat) (x : ℝ) : List (List ℝ) := v.modify i fun l => l.modify a (· + x)

/-- The generalized velocity with a one for degree of freedom `a` of joint `i` and zeros elsewhere. -/
def MultiBody.unitDof (mb : MultiBody ℝ) (i a : Nat) : List (List ℝ) := bump (mb.joints.map fun j => List.replicate j.dof 0) i a 1

theorem bump_get (v : List (List ℝ)) (i a : Nat) (x : ℝ) (l : Nat) :
    ((bump v i a x)[l]?).getD [] = if l = i then ((v[l]?).getD []).modify a (· + x) else (v[l]?).getD [] := by
  unfold bump
  rw [List.getElem?_modify]
  by_cases h : i = l
  · subst h
    simp only [if_true]
    cases v[i]? <;> simp
  · simp [h, Ne.symm h]

theorem modify_getD (l : List ℝ) (a : Nat) (x : ℝ) (ha : a < l.length) (b : Nat) :
    (l.modify a (· + x)).getD b 0 = l.getD b 0 + if b = a then x else 0 := by
  rw [List.getD_eq_getElem?_getD, List.getD_eq_getElem?_getD, List.getElem?_modify]
  by_cases h : a = b
  · subst h; simp [ha]
  · simp [h, Ne.symm h]

theorem bump_lengths (v : List (List ℝ)) (i a : Nat) (x : ℝ) : (bump v i a x).map List.length = v.map List.length := by
  refine List.ext_getElem? fun l => ?_
  unfold bump
  rw [List.getElem?_map, List.getElem?_map, List.getElem?_modify]
  cases v[l]? with
  | none => rfl
  | some y => by_cases h : i = l <;> simp [h]

variable {mb : MultiBody ℝ}

theorem entry_bump {α : List (List ℝ)} {i a : Nat} (ha : a < ((α[i]?).getD []).length) (x : ℝ) (l b : Nat) :
    entry (bump α i a x) l b = entry α l b + if l = i ∧ b = a then x else 0 := by
  unfold entry
  rw [bump_get]
  by_cases h : l = i
  · subst h
    rw [if_pos rfl, modify_getD _ _ _ ha]
    simp
  · simp [h]

theorem SizedDof.bump {α : List (List ℝ)} (h : SizedDof mb α) (i a : Nat) (x : ℝ) : SizedDof mb (bump α i a x) := by
  unfold SizedDof at *
  rw [bump_lengths, h]

theorem SizedDof.entry_lt (wf : mb.WF) {α : List (List ℝ)} (h : SizedDof mb α) {i a : Nat} (hi : i < mb.bodies.length) (ha : a < mb.dofAt i) :
    a < ((α[i]?).getD []).length := by
  obtain ⟨j, hj, -⟩ := wf.joint_get hi
  have hl : i < α.length := by
    rw [h.length]; exact (List.getElem?_eq_some_iff.1 hj).1
  have := h.get (List.getElem?_eq_getElem hl) hj
  rw [List.getElem?_eq_getElem hl, Option.getD_some, this]
  simpa [MultiBody.dofAt, hj] using ha

theorem zeroDof_sized (mb : MultiBody ℝ) : SizedDof mb (mb.joints.map fun j => List.replicate j.dof 0) := by
  unfold SizedDof
  simp

theorem unitDof_sized (mb : MultiBody ℝ) (i a : Nat) : SizedDof mb (mb.unitDof i a) := (zeroDof_sized mb).bump i a 1

theorem entry_zeroDof (l b : Nat) : entry (mb.joints.map fun j => List.replicate j.dof (0 : ℝ)) l b = 0 := by
  unfold entry
  rw [List.getElem?_map]
  cases mb.joints[l]? with
  | none => rfl
  | some j =>
    rw [Option.map_some, Option.getD_some, List.getD_eq_getElem?_getD, List.getElem?_replicate]
    split <;> rfl

theorem MultiBody.WF.velAt_bump (wf : mb.WF) {α : List (List ℝ)} (h : SizedDof mb α) {i a : Nat} (hi : i < mb.bodies.length)
    (ha : a < mb.dofAt i) (q : List (List ℝ)) (x : ℝ) (k : Nat) :
    mb.velAt q (bump α i a x) k = mb.velAt q α k + x • mb.colAt q k i a := by
  rw [wf.velAt_eq, wf.velAt_eq]
  simp only [entry_bump (h.entry_lt wf hi ha), add_smul]
  unfold MultiBody.dofSum
  simp only [Finset.sum_add_distrib]
  congr 1
  rw [Finset.sum_eq_single_of_mem i (Finset.mem_range.2 hi)]
  · rw [Finset.sum_eq_single_of_mem a (Finset.mem_range.2 ha)]
    · simp
    · intro b _ hb; simp [hb]
  · intro l _ hl; simp [hl]

theorem MultiBody.WF.velAt_unit (wf : mb.WF) {i a : Nat} (hi : i < mb.bodies.length) (ha : a < mb.dofAt i) (q : List (List ℝ)) (k : Nat) :
    mb.velAt q (mb.unitDof i a) k = mb.colAt q k i a := by
  unfold MultiBody.unitDof
  rw [wf.velAt_bump (zeroDof_sized mb) hi ha, wf.velAt_eq]
  simp [entry_zeroDof, MultiBody.dofSum]

theorem MultiBody.WF.jointMotion_unit (wf : mb.WF) {i a : Nat} (hi : i < mb.bodies.length) (ha : a < mb.dofAt i) {l : Nat}
    (hl : l < mb.bodies.length) : mb.jointMotion (mb.unitDof i a) l = if l = i then (mb.SAt i).getD a 0 else 0 := by
  unfold MultiBody.unitDof
  rw [wf.jointMotion_eq _ hl]
  simp only [entry_bump ((zeroDof_sized mb).entry_lt wf hi ha), entry_zeroDof, zero_add]
  by_cases h : l = i
  · subst h
    rw [if_pos rfl, Finset.sum_eq_single_of_mem a (Finset.mem_range.2 ha)]
    · simp
    · intro b _ hb; simp [hb]
  · simp [h]

/-- Change of the velocity of body `k` when only joint `i` is displaced and the generalized velocities are kept. -/
theorem MultiBody.velAt_displaced (wf : mb.WF) (hr : mb.Rigid) (hd : mb.DirOK) {Q : ℝ → List (List ℝ)} {β : List (List ℝ)} {u : ℝ}
    (h : Trajectory mb Q β u) {i : Nat} (hβ : ∀ l, l < mb.bodies.length → l ≠ i → mb.jointMotion β l = 0) (α : List (List ℝ)) {k : Nat}
    (hk : k < mb.bodies.length) :
    HasDerivMotion (fun x => mb.velAt (Q x) α k) (if i ∈ pathUp mb.par k then
      (mb.relAt (Q u) i k).mulMotion ((mb.velAt (Q u) α i - mb.jointMotion α i).cross (mb.jointMotion β i)) else 0) u := by
  induction k using Nat.strong_induction_on with
  | _ k ih =>
    obtain ⟨j, hj, -⟩ := wf.joint_get hk
    have hp := mb.ptsAt_hasVelocity hr hd h hj
    cases hpar : mb.par k with
    | none =>
      have e : (fun x => mb.velAt (Q x) α k) = fun _ => mb.jointMotion α k := by
        funext x; exact wf.velAt_none hr (h.valid x) _ hk hpar
      rw [e]
      refine (HasDerivMotion.const _ u).congr ?_
      have e2 : pathUp mb.par k = [k] := by unfold pathUp; rw [hpar]
      rw [e2]
      split
      · rename_i hi
        rw [List.mem_singleton] at hi
        subst hi
        rw [wf.velAt_none hr (h.valid u) _ hk hpar, sub_self]
        simp
      · rfl
    | some p =>
      have hpk := wf.par_lt _ _ hpar
      have e : (fun x => mb.velAt (Q x) α k) = fun x => (mb.ptsAt (Q x) k).mulMotion (mb.velAt (Q x) α p) + mb.jointMotion α k := by
        funext x; exact wf.velAt_some hr (h.valid x) _ hk hpar
      rw [e]
      refine ((hp.mulMotion (ih p hpk (by omega)) (mb.ptsAt_rigid hr (h.valid u) k)).add (HasDerivMotion.const _ u)).congr ?_
      simp only [add_zero, mem_pathUp_some hpar hpk]
      by_cases hi : i = k
      · subst hi
        have hnot : i ∉ pathUp mb.par p := fun hm => by have := le_of_mem_pathUp hm; omega
        rw [if_neg hnot, if_pos (.inl rfl), mb.relAt_self hr (h.valid u), PTransform.one_mulMotion, PTransform.mulMotion_zero, zero_sub,
          wf.velAt_some hr (h.valid u) _ hk hpar, add_sub_cancel_right, ← MotionVec.cross_anti]
      · rw [hβ k hk (Ne.symm hi)]
        by_cases hm : i ∈ pathUp mb.par p
        · rw [if_pos hm, if_pos (.inr hm), ← mb.relAt_mul hr (h.valid u) i p k, wf.relAt_parent hr (h.valid u) hpar,
            PTransform.mul_mulMotion _ _ _ (mb.relAt_rigid hr (h.valid u) i p)]
          simp
        · rw [if_neg hm, if_neg (by simp [hi, hm])]
          simp

/-- The two mixed derivatives of the pose of body `k` differ by a bracket. -/
theorem MultiBody.mixed_derivatives (hr : mb.Rigid) {q : List (List ℝ)} (hq : ValidQ mb q) (α : List (List ℝ)) (k i a : Nat) :
    mb.bdotAt q α k i a - (if i ∈ pathUp mb.par k then
      (mb.relAt q i k).mulMotion ((mb.velAt q α i - mb.jointMotion α i).cross ((mb.SAt i).getD a 0)) else 0) =
      -(mb.velAt q α k).cross (mb.colAt q k i a) +
        (if i ∈ pathUp mb.par k then (mb.relAt q i k).mulMotion ((mb.jointMotion α i).cross ((mb.SAt i).getD a 0)) else 0) := by
  unfold MultiBody.bdotAt MultiBody.pathCol MultiBody.colAt
  by_cases h : i ∈ pathUp mb.par k
  · simp only [if_pos h]
    have e : mb.toPoint q k 0 i = mb.relAt q i k := by
      have e : (PTransform.ofTrans (0 : Vec3 ℝ)) = 1 := rfl
      unfold MultiBody.toPoint MultiBody.relAt
      rw [e, PTransform.one_mul']
    have e2 : mb.bdotHom q α k 0 i ((mb.SAt i).getD a 0) = ((mb.toPoint q k 0 i).mulMotion (mb.velAt q α i) -
        (PTransform.ofTrans 0).mulMotion (mb.velAt q α k)).cross ((mb.toPoint q k 0 i).mulMotion ((mb.SAt i).getD a 0)) := rfl
    have e3 : (PTransform.ofTrans (0 : Vec3 ℝ)) = 1 := rfl
    have rR := mb.relAt_rigid hr hq i k
    rw [e2, e, e3, PTransform.one_mulMotion, PTransform.mulMotion_cross rR, PTransform.mulMotion_cross rR,
      ← PTransform.motionHom_apply, ← PTransform.motionHom_apply, ← PTransform.motionHom_apply, ← PTransform.motionHom_apply, map_sub,
      MotionVec.sub_cross, MotionVec.sub_cross]
    abel
  · simp [h]

theorem MotionVec.neg_dot' {K : Type} [Scalar K] (v : MotionVec K) (f : ForceVec K) : (-v).dot f = -v.dot f := by
  simp [MotionVec.dot, Vec3.dot]; ring

end RBDyn
