import Verif.Base.Container
import Mathlib.Data.List.Basic
import Mathlib.Data.List.Nodup
import Mathlib.Algebra.BigOperators.Group.List.Basic
import Mathlib.Algebra.Order.BigOperators.Group.List

/-! Generic lemmas on lists, prefix sums and checked access. -/

namespace RBDyn

/-- Every position below the total belongs to exactly one segment. -/
theorem segment_exists_unique (l : List Nat) {k : Nat} (hk : k < l.sum) :
    ∃ i, (i < l.length ∧ (l.take i).sum ≤ k ∧ k < (l.take i).sum + l.getD i 0) ∧
      ∀ i', i' < l.length → (l.take i').sum ≤ k → k < (l.take i').sum + l.getD i' 0 → i' = i := by
  induction l generalizing k with
  | nil => simp at hk
  | cons a l ih =>
    by_cases hka : k < a
    · refine ⟨0, ⟨by simp, by simp, by simpa using hka⟩, ?_⟩
      intro i' _ h2 _
      cases i' with
      | zero => rfl
      | succ i' => simp at h2; omega
    · have : k - a < l.sum := by simp at hk; omega
      obtain ⟨i, ⟨h1, h2, h3⟩, hu⟩ := ih this
      refine ⟨i + 1, ⟨by simpa using h1, by simp; omega, ?_⟩, ?_⟩
      · simp at h3 ⊢; omega
      · intro i' h1' h2' h3'
        cases i' with
        | zero => simp at h3'; omega
        | succ i' =>
          congr 1
          simp at h1' h2' h3'
          exact hu i' h1' (by omega) (by simp; omega)

theorem take_sum_succ {l : List Nat} {i : Nat} (h : i < l.length) :
    (l.take (i + 1)).sum = (l.take i).sum + l[i] := by
  rw [List.take_succ_eq_append_getElem h, List.sum_append]; simp only [List.sum_cons, List.sum_nil, Nat.add_zero]

theorem map_take_sum_succ {α : Type _} (f : α → Nat) {l : List α} {i : Nat} (h : i < l.length) :
    ((l.take (i + 1)).map f).sum = ((l.take i).map f).sum + f l[i] := by
  rw [List.take_succ_eq_append_getElem h, List.map_append, List.sum_append]
  simp only [List.map_cons, List.map_nil, List.sum_cons, List.sum_nil, Nat.add_zero]

theorem take_sum_le (l : List Nat) (i : Nat) : (l.take i).sum ≤ l.sum := by
  conv_rhs => rw [← List.take_append_drop i l, List.sum_append]
  omega

theorem take_sum_add_le {l : List Nat} {i : Nat} (h : i < l.length) : (l.take i).sum + l[i] ≤ l.sum := by
  rw [← take_sum_succ h]; exact take_sum_le ..

theorem map_take_sum_add_le {α : Type _} (f : α → Nat) {l : List α} {i : Nat} (h : i < l.length) :
    ((l.take i).map f).sum + f l[i] ≤ (l.map f).sum := by
  rw [← map_take_sum_succ f h, List.map_take]; exact take_sum_le ..

theorem nodup_getElem?_inj {α : Type _} {l : List α} (h : l.Nodup) {i k : Nat} (hi : i < l.length)
    (e : l[i]? = l[k]?) : i = k := by
  rw [List.getElem?_eq_getElem hi] at e
  obtain ⟨hk, e'⟩ := List.getElem?_eq_some_iff.1 e.symm
  exact (List.Nodup.getElem_inj_iff h).1 e'.symm

theorem take_sum_mono (l : List Nat) {i j : Nat} (h : i ≤ j) : (l.take i).sum ≤ (l.take j).sum := by
  have := take_sum_le (l.take j) i
  rwa [List.take_take, Nat.min_eq_left h] at this

section
variable {α : Type _}

theorem rdAtI_error_iff {l : List α} {i : Int} : rdAtI l i = .error .outOfRange ↔ i < 0 ∨ (l.length : Int) ≤ i := by
  unfold rdAtI rdAt
  by_cases h : i < 0
  · simp [h]
  · rw [if_neg h]
    by_cases h' : i.toNat < l.length
    · simp only [List.getElem?_eq_getElem h']
      constructor
      · intro h; cases h
      · intro h; omega
    · simp only [List.getElem?_eq_none (Nat.le_of_not_lt h'), true_iff]
      omega

theorem rdAtI_eq_rdI {l : List α} {i : Int} (h0 : 0 ≤ i) (h : i < l.length) :
    rdAtI l i = rdI l i ∧ ∃ a, rdI l i = .ok a := by
  unfold rdAtI rdI rdAt rd
  have h' : i.toNat < l.length := by omega
  rw [if_neg (by omega), if_neg (by omega)]
  simp [List.getElem?_eq_getElem h']

end

end RBDyn
