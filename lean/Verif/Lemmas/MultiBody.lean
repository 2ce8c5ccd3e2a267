import Verif.Spec.MultiBody
import Verif.Lemmas.Base
import Verif.Lemmas.Joint

/-! Helper lemmas about `MultiBody`. -/

namespace RBDyn
variable {K : Type} [Scalar K]

/-- State of the constructor after `k` iterations. -/
structure CtorInv (b : List (Body K)) (j : List (Joint K)) (pred succ parent : List Int) (Xt : List (PTransform K))
    (k : Nat) (mb : MultiBody K) : Prop where
  bodies : mb.bodies = b
  joints : mb.joints = j
  pred : mb.pred = pred
  succ : mb.succ = succ
  parent : mb.parent = parent
  Xt : mb.Xt = Xt
  lenP : mb.jointPosInParam.length = j.length
  lenD : mb.jointPosInDof.length = j.length
  nP : mb.nrParams = ((j.take k).map (·.params)).sum
  nD : mb.nrDof = ((j.take k).map (·.dof)).sum
  posP : ∀ i, i < k → mb.jointPosInParam[i]? = some ((j.take i).map (·.params)).sum
  posD : ∀ i, i < k → mb.jointPosInDof[i]? = some ((j.take i).map (·.dof)).sum
  bName : ∀ (s : String) (i : Int), mb.bodyNameToInd.find s = some i →
    ∃ m : Nat, i = m ∧ m < k ∧ (b[m]?).map (·.name) = some s
  bName' : ∀ (s : String), mb.bodyNameToInd.find s = none → ∀ m, m < k → (b[m]?).map (·.name) ≠ some s
  jName : ∀ (s : String) (i : Int), mb.jointNameToInd.find s = some i →
    ∃ m : Nat, i = m ∧ m < k ∧ (j[m]?).map (·.name) = some s
  jName' : ∀ (s : String), mb.jointNameToInd.find s = none → ∀ m, m < k → (j[m]?).map (·.name) ≠ some s

omit [Scalar K] in
theorem ctorStep_inv {b : List (Body K)} {j : List (Joint K)} {pred succ parent : List Int} {Xt : List (PTransform K)}
    (hl : j.length = b.length) {k : Nat} {mb : MultiBody K} (hk : k < b.length)
    (h : CtorInv b j pred succ parent Xt k mb) :
    ∃ mb', mb.ctorStep k = .ok mb' ∧ CtorInv b j pred succ parent Xt (k + 1) mb' := by
  obtain ⟨rfl, rfl, rfl, rfl, rfl, rfl, lenP, lenD, nP, nD, posP, posD, bN, bN', jN, jN'⟩ := h
  have hk' : k < mb.joints.length := by omega
  have hP : k < mb.jointPosInParam.length := by omega
  have hD : k < mb.jointPosInDof.length := by omega
  simp only [MultiBody.ctorStep, rd_ok hk, rd_ok hk', wr_ok hP, wr_ok hD, Res.bind_ok, Res.pure_eq, Except.ok.injEq,
    exists_eq_left']
  · constructor <;> try rfl
    · simpa using lenP
    · simpa using lenD
    · rw [map_take_sum_succ _ hk', nP]
    · rw [map_take_sum_succ _ hk', nD]
    · intro i hi
      simp only [List.getElem?_set]
      split
      · rename_i h; subst h; simp [nP]
      · exact posP i (by omega)
    · intro i hi
      simp only [List.getElem?_set]
      split
      · rename_i h; subst h; simp [nD]
      · exact posD i (by omega)
    · intro s i hs
      rw [SMap.find_set] at hs
      split at hs
      · rename_i h
        obtain rfl := by simpa using hs
        exact ⟨k, rfl, by omega, by simp [List.getElem?_eq_getElem hk, h]⟩
      · obtain ⟨m, rfl, hm, h⟩ := bN s i hs
        exact ⟨m, rfl, by omega, h⟩
    · intro s hs m hm
      rw [SMap.find_set] at hs
      split at hs
      · cases hs
      · rename_i h
        by_cases hmk : m = k
        · subst hmk; simp [List.getElem?_eq_getElem hk, Ne.symm h]
        · exact bN' s hs m (by omega)
    · intro s i hs
      rw [SMap.find_set] at hs
      split at hs
      · rename_i h
        obtain rfl := by simpa using hs
        exact ⟨k, rfl, by omega, by simp [List.getElem?_eq_getElem hk', h]⟩
      · obtain ⟨m, rfl, hm, h⟩ := jN s i hs
        exact ⟨m, rfl, by omega, h⟩
    · intro s hs m hm
      rw [SMap.find_set] at hs
      split at hs
      · cases hs
      · rename_i h
        by_cases hmk : m = k
        · subst hmk; simp [List.getElem?_eq_getElem hk', Ne.symm h]
        · exact jN' s hs m (by omega)

omit [Scalar K] in
theorem ctor_inv (b : List (Body K)) (j : List (Joint K)) (pred succ parent : List Int) (Xt : List (PTransform K))
    (hl : j.length = b.length) :
    ∃ mb, MultiBody.mk' b j pred succ parent Xt = .ok mb ∧ CtorInv b j pred succ parent Xt b.length mb := by
  refine foldlM_range_inv _ (CtorInv b j pred succ parent Xt) _ _ ?_ ?_
  · constructor <;> simp
  · intro i s hi h
    exact ctorStep_inv hl hi h

/-- The constructor turns tree-shaped inputs into a well-formed `MultiBody`. -/
theorem MultiBody.mk'_wf (b : List (Body K)) (j : List (Joint K)) (pred succ parent : List Int)
    (Xt : List (PTransform K)) (hl : j.length = b.length) (hp : pred.length = b.length) (hX : Xt.length = b.length)
    (hs : ∀ i, i < b.length → succ[i]? = some (i : Int))
    (hpred : ∀ (i : Nat) (p : Int), pred[i]? = some p → -1 ≤ p ∧ p < i) (hpar : parent = pred)
    (hj : ∀ x ∈ j, x.Built) :
    ∃ mb, MultiBody.mk' b j pred succ parent Xt = .ok mb ∧ mb.WF ∧ mb.bodies = b ∧ mb.joints = j ∧ mb.pred = pred ∧
      mb.succ = succ ∧ mb.parent = parent ∧ mb.Xt = Xt := by
  obtain ⟨mb, h, hi⟩ := ctor_inv b j pred succ parent Xt hl
  obtain ⟨rfl, rfl, rfl, rfl, rfl, rfl, lenP, lenD, nP, nD, posP, posD, bN, bN', jN, jN'⟩ := hi
  refine ⟨mb, h, ⟨hl, hp, hX, hs, hpred, hpar, hj, ?_, ?_, ?_, ?_⟩, rfl, rfl, rfl, rfl, rfl, rfl⟩
  · intro i hi; exact posP i (by omega)
  · intro i hi; exact posD i (by omega)
  · rw [nP, ← hl, List.take_length]
  · rw [nD, ← hl, List.take_length]

theorem MultiBody.Made.njoints {mb : MultiBody K} (h : mb.Made) : mb.joints.length = mb.bodies.length := by
  obtain ⟨b, j, pred, succ, parent, Xt, hl, -, hm⟩ := h
  obtain ⟨mb', h', hi⟩ := ctor_inv b j pred succ parent Xt hl
  rw [h'] at hm; cases hm
  rw [hi.joints, hi.bodies, hl]

theorem MultiBody.Made.built {mb : MultiBody K} (h : mb.Made) : ∀ j ∈ mb.joints, j.Built := by
  obtain ⟨b, j, pred, succ, parent, Xt, hl, hb, hm⟩ := h
  obtain ⟨mb', h', hi⟩ := ctor_inv b j pred succ parent Xt hl
  rw [h'] at hm; cases hm
  rw [hi.joints]; exact hb

theorem MultiBody.Made.inv {mb : MultiBody K} (h : mb.Made) :
    CtorInv mb.bodies mb.joints mb.pred mb.succ mb.parent mb.Xt mb.bodies.length mb := by
  obtain ⟨b, j, pred, succ, parent, Xt, hl, hb, hm⟩ := h
  obtain ⟨mb', h', hi⟩ := ctor_inv b j pred succ parent Xt hl
  rw [h'] at hm; cases hm
  have h := hi
  obtain ⟨rfl, rfl, rfl, rfl, rfl, rfl, -⟩ := h
  exact hi

theorem MultiBody.Made.nParams {mb : MultiBody K} (h : mb.Made) : mb.nrParams = (mb.joints.map (·.params)).sum := by
  rw [h.inv.nP, ← h.njoints, List.take_length]

theorem MultiBody.Made.nDof {mb : MultiBody K} (h : mb.Made) : mb.nrDof = (mb.joints.map (·.dof)).sum := by
  rw [h.inv.nD, ← h.njoints, List.take_length]

theorem MultiBody.Made.posParam {mb : MultiBody K} (h : mb.Made) (i : Nat) (hi : i < mb.joints.length) :
    mb.posInParam i = .ok ((mb.joints.take i).map (·.params)).sum := by
  simp only [MultiBody.posInParam, rdI_ofNat]
  exact rd_of_getElem? (h.inv.posP i (h.njoints ▸ hi))

theorem MultiBody.Made.posDof {mb : MultiBody K} (h : mb.Made) (i : Nat) (hi : i < mb.joints.length) :
    mb.posInDof i = .ok ((mb.joints.take i).map (·.dof)).sum := by
  simp only [MultiBody.posInDof, rdI_ofNat]
  exact rd_of_getElem? (h.inv.posD i (h.njoints ▸ hi))

end RBDyn
