import Verif.Lemmas.MultiBody

/-! Properties C07-C09 of `MultiBody`. -/

namespace RBDyn
variable {K : Type}

/-! ### C07 -/

/-- C07: for any bodies and joints (equally many) the constructor returns, and the position of joint `i` in the parameter
(dof) vector is the sum of the sizes of the joints before it; the totals are the sums of all sizes. -/
theorem C07_layout (b : List (Body K)) (j : List (Joint K)) (pred succ parent : List Int) (Xt : List (PTransform K))
    (hl : j.length = b.length) :
    ∃ mb, MultiBody.mk' b j pred succ parent Xt = .ok mb ∧
      mb.nrParams = (j.map (·.params)).sum ∧ mb.nrDof = (j.map (·.dof)).sum ∧
      ∀ i : Nat, i < j.length → mb.posInParam i = .ok ((j.take i).map (·.params)).sum ∧
        mb.posInDof i = .ok ((j.take i).map (·.dof)).sum := by
  obtain ⟨mb, h, hi⟩ := ctor_inv b j pred succ parent Xt hl
  refine ⟨mb, h, ?_, ?_, ?_⟩
  · rw [hi.nP, ← hl, List.take_length]
  · rw [hi.nD, ← hl, List.take_length]
  · intro i hij
    constructor
    · simp only [MultiBody.posInParam, rdI_ofNat]
      exact rd_of_getElem? (hi.posP i (by omega))
    · simp only [MultiBody.posInDof, rdI_ofNat]
      exact rd_of_getElem? (hi.posD i (by omega))

/-- C07: the segments `[pos i, pos i + size i)` partition `[0, total)`: every position lies in exactly one of them, and none
reaches beyond the total (stated for parameters and for degrees of freedom). -/
theorem C07_partition (b : List (Body K)) (j : List (Joint K)) (pred succ parent : List Int) (Xt : List (PTransform K))
    (hl : j.length = b.length) :
    ∃ mb, MultiBody.mk' b j pred succ parent Xt = .ok mb ∧
      (∀ k, k < mb.nrParams → ∃! i : Nat, ∃ x pos, j[i]? = some x ∧ mb.posInParam i = .ok pos ∧
        pos ≤ k ∧ k < pos + x.params) ∧
      (∀ k, k < mb.nrDof → ∃! i : Nat, ∃ x pos, j[i]? = some x ∧ mb.posInDof i = .ok pos ∧
        pos ≤ k ∧ k < pos + x.dof) ∧
      (∀ (i : Nat) x, j[i]? = some x → ∃ p d, mb.posInParam i = .ok p ∧ mb.posInDof i = .ok d ∧
        p + x.params ≤ mb.nrParams ∧ d + x.dof ≤ mb.nrDof) := by
  obtain ⟨mb, h, hP, hD, hpos⟩ := C07_layout b j pred succ parent Xt hl
  have aux : ∀ (sz : Joint K → Nat) (posAt : Int → Res Nat)
      (hp : ∀ i : Nat, i < j.length → posAt i = .ok ((j.take i).map sz).sum) (k : Nat), k < (j.map sz).sum →
      ∃! i : Nat, ∃ x pos, j[i]? = some x ∧ posAt i = .ok pos ∧ pos ≤ k ∧ k < pos + sz x := by
    intro sz posAt hp k hk
    obtain ⟨i, ⟨h1, h2, h3⟩, hu⟩ := segment_exists_unique _ hk
    have h1' : i < j.length := by simpa using h1
    rw [← List.map_take] at h2 h3
    refine ⟨i, ⟨j[i], _, List.getElem?_eq_getElem h1', hp i h1', h2, ?_⟩, ?_⟩
    · simpa [List.getElem?_eq_getElem h1'] using h3
    · rintro i' ⟨x, pos, hx, hpo, hlo, hhi⟩
      obtain ⟨hi', rfl⟩ := List.getElem?_eq_some_iff.1 hx
      rw [hp i' hi'] at hpo
      cases hpo
      refine hu i' (by simpa using hi') (by rwa [← List.map_take]) ?_
      rw [← List.map_take]
      simpa [List.getElem?_eq_getElem hi'] using hhi
  refine ⟨mb, h, ?_, ?_, ?_⟩
  · intro k hk
    exact aux _ mb.posInParam (fun i hi => (hpos i hi).1) k (hP ▸ hk)
  · intro k hk
    exact aux _ mb.posInDof (fun i hi => (hpos i hi).2) k (hD ▸ hk)
  · intro i x hx
    obtain ⟨hi, rfl⟩ := List.getElem?_eq_some_iff.1 hx
    refine ⟨_, _, (hpos i hi).1, (hpos i hi).2, ?_, ?_⟩
    · rw [hP]; exact map_take_sum_add_le _ hi
    · rw [hD]; exact map_take_sum_add_le _ hi

/-- The equal-length hypothesis of C07 matters: with fewer joints than bodies the constructor reads out of bounds. -/
theorem C07_too_few_joints :
    MultiBody.mk' [(⟨⟨1, 0, ⟨1, 0, 1, 0, 0, 1⟩⟩, "b"⟩ : Body ℚ)] [] [] [] [] [] = .error .ub := by decide +kernel

/-! ### C08 -/

/-- C08: with distinct body names, `bodyIndexByName(name of body i) = i` for both lookups. -/
theorem C08_body_lookup (b : List (Body K)) (j : List (Joint K)) (pred succ parent : List Int)
    (Xt : List (PTransform K)) (hl : j.length = b.length) (hn : (b.map (·.name)).Nodup) :
    ∃ mb, MultiBody.mk' b j pred succ parent Xt = .ok mb ∧ ∀ (i : Nat) x, b[i]? = some x →
      mb.bodyIndexByName x.name = .ok i ∧ mb.sBodyIndexByName x.name = .ok i := by
  obtain ⟨mb, h, hi⟩ := ctor_inv b j pred succ parent Xt hl
  refine ⟨mb, h, ?_⟩
  intro i x hx
  obtain ⟨hib, rfl⟩ := List.getElem?_eq_some_iff.1 hx
  have key : mb.bodyNameToInd.find b[i].name = some (i : Int) := by
    cases hf : mb.bodyNameToInd.find b[i].name with
    | none => exact absurd (by simp [List.getElem?_eq_getElem hib]) (hi.bName' _ hf i hib)
    | some k =>
      obtain ⟨m, rfl, hm, hmn⟩ := hi.bName _ _ hf
      have : (b.map (·.name))[m]? = (b.map (·.name))[i]? := by
        simp [hmn, List.getElem?_eq_getElem hib]
      have := nodup_getElem?_inj hn (by simpa using hm) this
      rw [this]
  simp [MultiBody.bodyIndexByName, MultiBody.sBodyIndexByName, SMap.get, SMap.getAt, key]

/-- C08: with distinct joint names, `jointIndexByName(name of joint i) = i` for both lookups. -/
theorem C08_joint_lookup (b : List (Body K)) (j : List (Joint K)) (pred succ parent : List Int)
    (Xt : List (PTransform K)) (hl : j.length = b.length) (hn : (j.map (·.name)).Nodup) :
    ∃ mb, MultiBody.mk' b j pred succ parent Xt = .ok mb ∧ ∀ (i : Nat) x, j[i]? = some x →
      mb.jointIndexByName x.name = .ok i ∧ mb.sJointIndexByName x.name = .ok i := by
  obtain ⟨mb, h, hi⟩ := ctor_inv b j pred succ parent Xt hl
  refine ⟨mb, h, ?_⟩
  intro i x hx
  obtain ⟨hib, rfl⟩ := List.getElem?_eq_some_iff.1 hx
  have key : mb.jointNameToInd.find j[i].name = some (i : Int) := by
    cases hf : mb.jointNameToInd.find j[i].name with
    | none => exact absurd (by simp [List.getElem?_eq_getElem hib]) (hi.jName' _ hf i (by omega))
    | some k =>
      obtain ⟨m, rfl, hm, hmn⟩ := hi.jName _ _ hf
      have : (j.map (·.name))[m]? = (j.map (·.name))[i]? := by
        simp [hmn, List.getElem?_eq_getElem hib]
      have := nodup_getElem?_inj hn (by simp; omega) this
      rw [this]
  simp [MultiBody.jointIndexByName, MultiBody.sJointIndexByName, SMap.get, SMap.getAt, key]

/-- C08: exactly for the names that do not occur, the checked lookups throw `out_of_range` and the unchecked ones are
undefined (no distinctness needed). -/
theorem C08_unknown_names (b : List (Body K)) (j : List (Joint K)) (pred succ parent : List Int)
    (Xt : List (PTransform K)) (hl : j.length = b.length) :
    ∃ mb, MultiBody.mk' b j pred succ parent Xt = .ok mb ∧ ∀ s : String,
      (mb.sBodyIndexByName s = .error .outOfRange ↔ s ∉ b.map (·.name)) ∧
      (mb.bodyIndexByName s = .error .ub ↔ s ∉ b.map (·.name)) ∧
      (mb.sJointIndexByName s = .error .outOfRange ↔ s ∉ j.map (·.name)) ∧
      (mb.jointIndexByName s = .error .ub ↔ s ∉ j.map (·.name)) := by
  obtain ⟨mb, h, hi⟩ := ctor_inv b j pred succ parent Xt hl
  refine ⟨mb, h, fun s => ?_⟩
  have hb : mb.bodyNameToInd.find s = none ↔ s ∉ b.map (·.name) := by
    constructor
    · intro hf hm
      obtain ⟨x, hx, rfl⟩ := List.mem_map.1 hm
      obtain ⟨i, hib, rfl⟩ := List.mem_iff_getElem.1 hx
      exact hi.bName' _ hf i hib (by simp [List.getElem?_eq_getElem hib])
    · intro hm
      cases hf : mb.bodyNameToInd.find s with
      | none => rfl
      | some k =>
        obtain ⟨m, rfl, hm', hmn⟩ := hi.bName _ _ hf
        rw [List.getElem?_eq_getElem hm'] at hmn
        simp only [Option.map_some, Option.some.injEq] at hmn
        exact absurd (List.mem_map.2 ⟨_, List.getElem_mem hm', hmn⟩) hm
  have hj : mb.jointNameToInd.find s = none ↔ s ∉ j.map (·.name) := by
    constructor
    · intro hf hm
      obtain ⟨x, hx, rfl⟩ := List.mem_map.1 hm
      obtain ⟨i, hib, rfl⟩ := List.mem_iff_getElem.1 hx
      exact hi.jName' _ hf i (by omega) (by simp [List.getElem?_eq_getElem hib])
    · intro hm
      cases hf : mb.jointNameToInd.find s with
      | none => rfl
      | some k =>
        obtain ⟨m, rfl, hm', hmn⟩ := hi.jName _ _ hf
        have hmj : m < j.length := by omega
        rw [List.getElem?_eq_getElem hmj] at hmn
        simp only [Option.map_some, Option.some.injEq] at hmn
        exact absurd (List.mem_map.2 ⟨_, List.getElem_mem hmj, hmn⟩) hm
  rw [← hb, ← hj]
  simp only [MultiBody.bodyIndexByName, MultiBody.sBodyIndexByName, MultiBody.jointIndexByName,
    MultiBody.sJointIndexByName, SMap.get, SMap.getAt]
  refine ⟨?_, ?_, ?_, ?_⟩ <;> split <;> simp_all

/-- C08 is not vacuous: two bodies with two names. -/
example : (MultiBody.mk' [(⟨0, "a"⟩ : Body ℚ), ⟨0, "b"⟩] [Joint.mkFixed "r", Joint.mkZ .Rev true "j"] [-1, 0] [0, 1]
    [-1, 0] [1, 1] >>= fun mb => mb.sBodyIndexByName "b") = .ok 1 := by decide +kernel

/-! ### C09 -/

/-- C09: the checked accessors throw `out_of_range` exactly for indices outside `[0, size)`, negative ones included, and
return what the unchecked accessors return otherwise (which is then defined). -/
theorem C09_checked_accessors (mb : MultiBody K) (i : Int) :
    ((mb.sBody i = .error .outOfRange ↔ i < 0 ∨ (mb.bodies.length : Int) ≤ i) ∧
      (0 ≤ i → i < mb.bodies.length → mb.sBody i = mb.body i ∧ ∃ x, mb.body i = .ok x)) ∧
    ((mb.sJoint i = .error .outOfRange ↔ i < 0 ∨ (mb.joints.length : Int) ≤ i) ∧
      (0 ≤ i → i < mb.joints.length → mb.sJoint i = mb.joint i ∧ ∃ x, mb.joint i = .ok x)) ∧
    ((mb.sPredecessor i = .error .outOfRange ↔ i < 0 ∨ (mb.pred.length : Int) ≤ i) ∧
      (0 ≤ i → i < mb.pred.length → mb.sPredecessor i = mb.predecessor i ∧ ∃ x, mb.predecessor i = .ok x)) ∧
    ((mb.sSuccessor i = .error .outOfRange ↔ i < 0 ∨ (mb.succ.length : Int) ≤ i) ∧
      (0 ≤ i → i < mb.succ.length → mb.sSuccessor i = mb.successor i ∧ ∃ x, mb.successor i = .ok x)) ∧
    ((mb.sParent i = .error .outOfRange ↔ i < 0 ∨ (mb.parent.length : Int) ≤ i) ∧
      (0 ≤ i → i < mb.parent.length → mb.sParent i = mb.parentAt i ∧ ∃ x, mb.parentAt i = .ok x)) ∧
    ((mb.sTransform i = .error .outOfRange ↔ i < 0 ∨ (mb.Xt.length : Int) ≤ i) ∧
      (0 ≤ i → i < mb.Xt.length → mb.sTransform i = mb.transform i ∧ ∃ x, mb.transform i = .ok x)) ∧
    ((mb.sJointPosInParam i = .error .outOfRange ↔ i < 0 ∨ (mb.jointPosInParam.length : Int) ≤ i) ∧
      (0 ≤ i → i < mb.jointPosInParam.length →
        mb.sJointPosInParam i = mb.posInParam i ∧ ∃ x, mb.posInParam i = .ok x)) ∧
    ((mb.sJointPosInDof i = .error .outOfRange ↔ i < 0 ∨ (mb.jointPosInDof.length : Int) ≤ i) ∧
      (0 ≤ i → i < mb.jointPosInDof.length → mb.sJointPosInDof i = mb.posInDof i ∧ ∃ x, mb.posInDof i = .ok x)) :=
  ⟨⟨rdAtI_error_iff, rdAtI_eq_rdI⟩, ⟨rdAtI_error_iff, rdAtI_eq_rdI⟩, ⟨rdAtI_error_iff, rdAtI_eq_rdI⟩,
    ⟨rdAtI_error_iff, rdAtI_eq_rdI⟩, ⟨rdAtI_error_iff, rdAtI_eq_rdI⟩, ⟨rdAtI_error_iff, rdAtI_eq_rdI⟩,
    ⟨rdAtI_error_iff, rdAtI_eq_rdI⟩, ⟨rdAtI_error_iff, rdAtI_eq_rdI⟩⟩

/-- C09, writing: `sBody(i, b)` and `sTransform(i, X)` throw exactly for invalid indices (the object is then unchanged, no new
state is returned), and otherwise replace exactly entry `i`; `sBodies`/`sTransforms` accept exactly vectors of the current size. -/
theorem C09_checked_setters (mb : MultiBody K) (i : Int) (b : Body K) (X : PTransform K) (bs : List (Body K))
    (Xs : List (PTransform K)) :
    (mb.sSetBody i b = .error .outOfRange ↔ i < 0 ∨ (mb.bodies.length : Int) ≤ i) ∧
    (0 ≤ i → i < mb.bodies.length → mb.sSetBody i b = mb.setBody i b ∧
      ∃ mb', mb.setBody i b = .ok mb' ∧ mb'.body i = .ok b ∧ ∀ k, k ≠ i → mb'.body k = mb.body k) ∧
    (mb.sSetTransform i X = .error .outOfRange ↔ i < 0 ∨ (mb.Xt.length : Int) ≤ i) ∧
    (0 ≤ i → i < mb.Xt.length → mb.sSetTransform i X = mb.setTransform i X ∧
      ∃ mb', mb.setTransform i X = .ok mb' ∧ mb'.transform i = .ok X ∧ ∀ k, k ≠ i → mb'.transform k = mb.transform k) ∧
    (mb.sSetBodies bs = .error .runtimeError ↔ bs.length ≠ mb.bodies.length) ∧
    (mb.sSetTransforms Xs = .error .runtimeError ↔ Xs.length ≠ mb.Xt.length) := by
  have herr : ∀ {α : Type} (l : List α) (a : α), wrAtI l i a = .error .outOfRange ↔ i < 0 ∨ (l.length : Int) ≤ i := by
    intro α l a
    unfold wrAtI
    split
    · simp [*]
    · split
      · constructor
        · intro h; cases h
        · intro h; omega
      · simp; omega
  have hok : ∀ {α : Type} (l : List α) (a : α), 0 ≤ i → i < l.length →
      wrAtI l i a = .ok (l.set i.toNat a) ∧ wrI l i a = .ok (l.set i.toNat a) ∧
      rdI (l.set i.toNat a) i = .ok a ∧ ∀ k, k ≠ i → rdI (l.set i.toNat a) k = rdI l k := by
    intro α l a h0 h1
    have h2 : i.toNat < l.length := by omega
    refine ⟨?_, ?_, ?_, ?_⟩
    · unfold wrAtI; rw [if_neg (by omega), if_pos h2]
    · unfold wrI; rw [if_neg (by omega), wr_ok h2]
    · unfold rdI rd; rw [if_neg (by omega)]; simp [h2]
    · intro k hk
      unfold rdI
      by_cases hk0 : k < 0
      · simp [hk0]
      · rw [if_neg hk0, if_neg hk0]
        unfold rd
        rw [List.getElem?_set_ne (by omega)]
  have hbind : ∀ {α β : Type} (x : Res α) (f : α → β),
      (do let a ← x; return f a : Res β) = .error .outOfRange ↔ x = .error .outOfRange := by
    intro α β x f
    cases x <;> simp
  refine ⟨(hbind _ _).trans (herr _ _), ?_, (hbind _ _).trans (herr _ _), ?_, ?_, ?_⟩
  · intro h0 h1
    obtain ⟨e1, e2, e3, e4⟩ := hok mb.bodies b h0 h1
    exact ⟨by simp [MultiBody.sSetBody, MultiBody.setBody, e1, e2], { mb with bodies := mb.bodies.set i.toNat b },
      by simp [MultiBody.setBody, e2], e3, e4⟩
  · intro h0 h1
    obtain ⟨e1, e2, e3, e4⟩ := hok mb.Xt X h0 h1
    exact ⟨by simp [MultiBody.sSetTransform, MultiBody.setTransform, e1, e2],
      { mb with Xt := mb.Xt.set i.toNat X }, by simp [MultiBody.setTransform, e2], e3, e4⟩
  · simp [MultiBody.sSetBodies]
  · simp [MultiBody.sSetTransforms]

end RBDyn
