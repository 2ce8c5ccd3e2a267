import Verif.Spec.Kinematics
import Verif.Lemmas.Config
import Verif.Lemmas.Spatial
import Verif.Lemmas.MultiBody
import Mathlib.Algebra.BigOperators.Group.Finset.Sigma
import Mathlib.Algebra.BigOperators.Group.Finset.Piecewise

/-! Paths, subtrees and recursion over the tree. -/

namespace RBDyn

section path
variable {par : Nat → Option Nat}

theorem pathUp_none {i : Nat} (h : par i = none) : pathUp par i = [i] := by
  rw [pathUp]; split
  · simp_all
  · rfl

theorem pathUp_some {i j : Nat} (h : par i = some j) (hj : j < i) : pathUp par i = i :: pathUp par j := by
  rw [pathUp]; split
  · rename_i j' h'
    rw [h] at h'; cases h'
    rw [dif_pos hj]
  · simp_all

theorem self_mem_pathUp (par : Nat → Option Nat) (i : Nat) : i ∈ pathUp par i := by
  rw [pathUp]; split
  · split <;> simp
  · simp

theorem le_of_mem_pathUp {i k : Nat} (h : k ∈ pathUp par i) : k ≤ i := by
  induction i using Nat.strong_induction_on with
  | _ i ih =>
    rw [pathUp] at h
    split at h
    · rename_i j hj
      split at h
      · rename_i hlt
        rcases List.mem_cons.1 h with rfl | h
        · exact le_rfl
        · exact (ih j hlt h).trans hlt.le
      · exact (List.mem_singleton.1 h).le
    · exact (List.mem_singleton.1 h).le

theorem mem_pathUp_some {i j k : Nat} (h : par i = some j) (hj : j < i) :
    k ∈ pathUp par i ↔ k = i ∨ k ∈ pathUp par j := by
  rw [pathUp_some h hj, List.mem_cons]

theorem mem_pathUp_none {i k : Nat} (h : par i = none) : k ∈ pathUp par i ↔ k = i := by
  rw [pathUp_none h, List.mem_singleton]

theorem pathUp_trans {i j k : Nat} (h1 : j ∈ pathUp par i) (h2 : k ∈ pathUp par j) : k ∈ pathUp par i := by
  induction i using Nat.strong_induction_on with
  | _ i ih =>
    rw [pathUp] at h1 ⊢
    split at h1
    · split at h1
      · rename_i p _ hlt
        rcases List.mem_cons.1 h1 with rfl | h1
        · rename_i hp
          rw [pathUp_some hp hlt] at h2
          simpa [hlt] using h2
        · simp only [hlt, dif_pos]
          exact List.mem_cons_of_mem _ (ih _ hlt h1)
      · rename_i hlt
        simp only [hlt, dif_neg, not_false_eq_true]
        rw [List.mem_singleton] at h1
        subst h1
        rw [pathUp] at h2
        simp_all
    · rw [List.mem_singleton] at h1
      subst h1
      rw [pathUp] at h2
      simp_all

theorem pathUp_nodup (i : Nat) : (pathUp par i).Nodup := by
  induction i using Nat.strong_induction_on with
  | _ i ih =>
    rw [pathUp]; split
    · split
      · rename_i j _ hlt
        exact List.nodup_cons.2 ⟨fun h => absurd (le_of_mem_pathUp h) (by omega), ih j hlt⟩
      · simp
    · simp

/-- Recursion from the root to a body. -/
def treeRec {α : Type _} (par : Nat → Option Nat) (root : Nat → α) (step : Nat → α → α) (i : Nat) : α :=
  match par i with
  | some j => if _h : j < i then step i (treeRec par root step j) else root i
  | none => root i
termination_by i

theorem treeRec_none {α : Type _} {root : Nat → α} {step : Nat → α → α} {i : Nat} (h : par i = none) :
    treeRec par root step i = root i := by
  rw [treeRec]; split
  · simp_all
  · rfl

theorem treeRec_some {α : Type _} {root : Nat → α} {step : Nat → α → α} {i j : Nat} (h : par i = some j)
    (hj : j < i) : treeRec par root step i = step i (treeRec par root step j) := by
  rw [treeRec]; split
  · rename_i j' h'
    rw [h] at h'; cases h'
    rw [dif_pos hj]
  · simp_all

theorem treeRec_prod {M : Type _} [Monoid M] (f : Nat → M) (hp : ∀ i j, par i = some j → j < i) (i : Nat) :
    treeRec par f (fun i x => f i * x) i = ((pathUp par i).map f).prod := by
  induction i using Nat.strong_induction_on with
  | _ i ih =>
    cases h : par i with
    | none => rw [treeRec_none h, pathUp_none h]; simp
    | some j =>
      rw [treeRec_some h (hp i j h), pathUp_some h (hp i j h), List.map_cons, List.prod_cons, ih j (hp i j h)]

end path

section filled
variable {α : Type _} {l : List α} {f : Nat → α} {k n : Nat}

theorem Filled.range_map (h : Filled l (fun i => some (f i)) n n) : l = (List.range n).map f := by
  apply List.ext_getElem?
  intro i
  by_cases hi : i < n
  · rw [h.2 i hi]; simp [hi]
  · have := h.1
    rw [List.getElem?_eq_none (by omega), List.getElem?_eq_none (by simp; omega)]

theorem Filled.of_range_map : Filled ((List.range n).map f) (fun i => some (f i)) n n :=
  ⟨by simp, fun i hi => by simp [hi]⟩

theorem range_map_getElem? (hk : k < n) : ((List.range n).map f)[k]? = some (f k) := by simp [hk]

theorem Filled.rd (h : Filled l (fun i => some (f i)) k n) {i : Nat} (hi : i < k) : rd l i = .ok (f i) :=
  rd_of_getElem? (h.2 i hi)

end filled

section wf
variable {K : Type} [Scalar K] {mb : MultiBody K}

theorem MultiBody.WF.pred_cases (wf : mb.WF) {i : Nat} (hi : i < mb.bodies.length) :
    ∃ p, rd mb.pred i = .ok p ∧ ((p = -1 ∧ mb.par i = none) ∨ ∃ j : Nat, p = j ∧ mb.par i = some j ∧ j < i) := by
  have hi' : i < mb.pred.length := by rw [wf.npred]; exact hi
  refine ⟨mb.pred[i], rd_ok hi', ?_⟩
  have hg : mb.pred[i]? = some mb.pred[i] := List.getElem?_eq_getElem hi'
  obtain ⟨h1, h2⟩ := wf.pred i _ hg
  unfold MultiBody.par
  rw [hg]
  by_cases h : mb.pred[i] < 0
  · left; exact ⟨by omega, by simp [h]⟩
  · right; exact ⟨mb.pred[i].toNat, by omega, by simp [h], by omega⟩

theorem MultiBody.WF.par_lt (wf : mb.WF) (i j : Nat) (h : mb.par i = some j) : j < i := by
  by_cases hi : i < mb.bodies.length
  · obtain ⟨p, -, ⟨-, h'⟩ | ⟨j', -, h', hlt⟩⟩ := wf.pred_cases hi
    · rw [h] at h'; cases h'
    · rw [h] at h'; cases h'; exact hlt
  · unfold MultiBody.par at h
    rw [List.getElem?_eq_none (by rw [wf.npred]; omega)] at h
    cases h

theorem MultiBody.WF.rd_succ (wf : mb.WF) {i : Nat} (hi : i < mb.bodies.length) : rd mb.succ i = .ok (i : Int) :=
  rd_of_getElem? (wf.succ i hi)

theorem MultiBody.WF.posAt_none (_wf : mb.WF) (q : List (List K)) {i : Nat} (h : mb.par i = none) :
    mb.posAt q i = mb.ptsAt q i := by
  unfold MultiBody.posAt; rw [pathUp_none h]; simp

theorem MultiBody.WF.posAt_some (wf : mb.WF) (q : List (List K)) {i j : Nat} (h : mb.par i = some j) :
    mb.posAt q i = mb.ptsAt q i * mb.posAt q j := by
  unfold MultiBody.posAt; rw [pathUp_some h (wf.par_lt _ _ h)]; simp

theorem MultiBody.mem_path {i k : Nat} : k ∈ mb.path i ↔ k < mb.bodies.length ∧ k ∈ pathUp mb.par i := by
  simp [MultiBody.path]

theorem MultiBody.mem_subtree {i k : Nat} : k ∈ mb.subtree i ↔ k < mb.bodies.length ∧ i ∈ pathUp mb.par k := by
  simp [MultiBody.subtree]

theorem MultiBody.WF.path_none (_wf : mb.WF) {i : Nat} (hi : i < mb.bodies.length) (h : mb.par i = none) :
    mb.path i = {i} := by
  ext k; rw [MultiBody.mem_path, mem_pathUp_none h, Finset.mem_singleton]
  constructor
  · exact fun h => h.2
  · rintro rfl; exact ⟨hi, rfl⟩

theorem MultiBody.WF.path_some (wf : mb.WF) {i j : Nat} (hi : i < mb.bodies.length) (h : mb.par i = some j) :
    mb.path i = insert i (mb.path j) := by
  ext k; rw [MultiBody.mem_path, mem_pathUp_some h (wf.par_lt _ _ h), Finset.mem_insert, MultiBody.mem_path]
  constructor
  · rintro ⟨h1, rfl | h2⟩
    · exact .inl rfl
    · exact .inr ⟨h1, h2⟩
  · rintro (rfl | h2)
    · exact ⟨hi, .inl rfl⟩
    · exact ⟨h2.1, .inr h2.2⟩

theorem MultiBody.WF.not_mem_path (wf : mb.WF) {i j : Nat} (h : mb.par i = some j) : i ∉ mb.path j := by
  intro h'
  have := le_of_mem_pathUp (MultiBody.mem_path.1 h').2
  have := wf.par_lt _ _ h
  omega

theorem MultiBody.WF.le_of_mem_path {i k : Nat} (h : k ∈ mb.path i) : k ≤ i :=
  le_of_mem_pathUp (MultiBody.mem_path.1 h).2

/-- Sum over a path, split at the last body. -/
theorem MultiBody.WF.sum_path_none {M : Type _} [AddCommMonoid M] (wf : mb.WF) {i : Nat} (hi : i < mb.bodies.length)
    (h : mb.par i = none) (f : Nat → M) : ∑ k ∈ mb.path i, f k = f i := by
  rw [wf.path_none hi h, Finset.sum_singleton]

theorem MultiBody.WF.sum_path_some {M : Type _} [AddCommMonoid M] (wf : mb.WF) {i j : Nat} (hi : i < mb.bodies.length)
    (h : mb.par i = some j) (f : Nat → M) : ∑ k ∈ mb.path i, f k = f i + ∑ k ∈ mb.path j, f k := by
  rw [wf.path_some hi h, Finset.sum_insert (wf.not_mem_path h)]

end wf

end RBDyn
