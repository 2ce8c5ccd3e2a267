import Verif.Lemmas.Tree
import Mathlib.Algebra.BigOperators.Ring.Finset

/-! Backward accumulation over the tree. -/

namespace RBDyn

section sums
variable {M : Type _} [AddCommMonoid M] {par : Nat → Option Nat}

/-- On the path from `k` to the root at most one body has the parent `i`; there is one iff `i` is strictly above `k`. -/
theorem sum_children_path (hp : ∀ i j, par i = some j → j < i) (n i k : Nat) (hk : k < n) (x : M) :
    (∑ c ∈ Finset.range n with par c = some i, if c ∈ pathUp par k then x else 0) =
      if i ∈ pathUp par k ∧ i ≠ k then x else 0 := by
  induction k using Nat.strong_induction_on with
  | _ k ih =>
    cases h : par k with
    | none =>
      rw [Finset.sum_eq_zero]
      · rw [if_neg]; rw [mem_pathUp_none h]; rintro ⟨h1, h2⟩; exact h2 h1
      · intro c hc
        rw [Finset.mem_filter] at hc
        rw [if_neg]
        rw [mem_pathUp_none h]
        rintro rfl
        rw [h] at hc; cases hc.2
    | some p =>
      have hlt := hp k p h
      have e : ∀ c, (if c ∈ pathUp par k then x else 0) = (if c = k then x else 0) + (if c ∈ pathUp par p then x else 0) := by
        intro c
        simp only [mem_pathUp_some h hlt]
        by_cases hc : c = k
        · subst hc
          have : c ∉ pathUp par p := fun h' => absurd (le_of_mem_pathUp h') (by omega)
          simp [this]
        · simp [hc]
      simp only [e, Finset.sum_add_distrib]
      rw [ih p hlt (by omega)]
      simp only [mem_pathUp_some h hlt]
      have e1 : (∑ c ∈ Finset.range n with par c = some i, if c = k then x else 0) = if p = i then x else 0 := by
        rw [Finset.sum_ite_eq']
        simp [hk, h]
      rw [e1]
      by_cases hpi : p = i
      · subst hpi
        have h1 : p ∈ pathUp par p := self_mem_pathUp par p
        have h2 : p ≠ k := by omega
        simp [h1, h2]
      · by_cases hi : i ∈ pathUp par p
        · have h2 : i ≠ k := by have := le_of_mem_pathUp hi; omega
          have h3 : i ≠ p := fun h => hpi h.symm
          simp [hpi, hi, h2, h3]
        · by_cases hik : i = k
          · subst hik; simp [hpi, hi]
          · simp [hpi, hi, hik]

/-- A sum over the bodies carried by `i` splits into body `i` and the sums over the bodies carried by its children. -/
theorem subtree_sum (hp : ∀ i j, par i = some j → j < i) (n i : Nat) (hi : i < n) (g : Nat → M) :
    ∑ k ∈ Finset.range n with i ∈ pathUp par k, g k =
      g i + ∑ c ∈ Finset.range n with par c = some i, ∑ k ∈ Finset.range n with c ∈ pathUp par k, g k := by
  have e : ∑ c ∈ Finset.range n with par c = some i, ∑ k ∈ Finset.range n with c ∈ pathUp par k, g k =
      ∑ k ∈ Finset.range n, if i ∈ pathUp par k ∧ i ≠ k then g k else 0 := by
    simp only [Finset.sum_filter (s := Finset.range n) (p := fun k => _ ∈ pathUp par k)]
    rw [Finset.sum_comm]
    refine Finset.sum_congr rfl fun k hk => ?_
    exact sum_children_path hp n i k (Finset.mem_range.1 hk) (g k)
  rw [e, Finset.sum_filter]
  have e2 : ∀ k ∈ Finset.range n, (if i ∈ pathUp par k then g k else 0) =
      (if k = i then g k else 0) + if i ∈ pathUp par k ∧ i ≠ k then g k else 0 := by
    intro k _
    by_cases h : k = i
    · subst h; simp [self_mem_pathUp]
    · have : i ≠ k := fun h' => h h'.symm
      simp [h, this]
  rw [Finset.sum_congr rfl e2, Finset.sum_add_distrib, Finset.sum_ite_eq', if_pos (Finset.mem_range.2 hi)]

end sums

section filledFrom
variable {α : Type _}

/-- `l` has `n` entries and those from index `k` on are given by `f`. -/
def FilledFrom (l : List α) (f : Nat → α) (k n : Nat) : Prop := l.length = n ∧ ∀ i, k ≤ i → i < n → l[i]? = some (f i)

theorem FilledFrom.start {l : List α} {f : Nat → α} {n : Nat} (h : l.length = n) : FilledFrom l f n n :=
  ⟨h, fun i h1 h2 => by omega⟩

theorem FilledFrom.set {l : List α} {f : Nat → α} {k n : Nat} {a : α} (h : FilledFrom l f (k + 1) n) (hk : k < n) (ha : a = f k) :
    FilledFrom (l.set k a) f k n := by
  refine ⟨by simpa using h.1, fun i h1 h2 => ?_⟩
  rw [List.getElem?_set]
  split
  · rename_i e; subst e; rw [if_pos (by have := h.1; omega), ha]
  · exact h.2 i (by omega) h2

theorem FilledFrom.range_map {l : List α} {f : Nat → α} {n : Nat} (h : FilledFrom l f 0 n) : l = (List.range n).map f :=
  Filled.range_map ⟨h.1, fun i hi => h.2 i (Nat.zero_le i) hi⟩

end filledFrom

section accum
variable {M : Type _} [AddCommMonoid M] {par : Nat → Option Nat}

/-- State of an array in the backward sweep `acc[par c] += T c acc[c]` when the bodies from `i` on are done: `f` is the initial
contents, `sub` the final one. -/
def Accum (par : Nat → Option Nat) (T : Nat → M → M) (f sub : Nat → M) (acc : List M) (i n : Nat) : Prop :=
  acc.length = n ∧ ∀ j, j < n →
    acc[j]? = some (f j + ∑ c ∈ Finset.range n with par c = some j ∧ i ≤ c, T c (sub c))

/-- `sub` satisfies the recurrence of the backward sweep. -/
def SubRec (par : Nat → Option Nat) (T : Nat → M → M) (f sub : Nat → M) (n : Nat) : Prop :=
  ∀ i, i < n → sub i = f i + ∑ c ∈ Finset.range n with par c = some i, T c (sub c)

variable {T : Nat → M → M} {f sub : Nat → M} {acc : List M} {i n : Nat}

theorem Accum.start (h : Filled acc (fun i => some (f i)) n n) : Accum par T f sub acc n n := by
  refine ⟨h.1, fun j hj => ?_⟩
  rw [h.2 j hj, Finset.sum_eq_zero]
  · simp
  · intro c hc
    simp only [Finset.mem_filter, Finset.mem_range] at hc
    omega

theorem Accum.get (hp : ∀ i j, par i = some j → j < i) (hs : SubRec par T f sub n) (h : Accum par T f sub acc (i + 1) n)
    (hi : i < n) : acc[i]? = some (sub i) := by
  rw [h.2 i hi, hs i hi]
  congr 2
  apply Finset.sum_congr _ fun _ _ => rfl
  apply Finset.filter_congr
  intro c _
  constructor
  · exact fun h => h.1
  · intro h; exact ⟨h, hp c i h⟩

theorem Accum.get_all (hp : ∀ i j, par i = some j → j < i) (hs : SubRec par T f sub n) (h : Accum par T f sub acc i n)
    {k : Nat} (hk : k < n) (hik : i ≤ k + 1) : acc[k]? = some (sub k) := by
  rw [h.2 k hk, hs k hk]
  congr 2
  apply Finset.sum_congr _ fun _ _ => rfl
  apply Finset.filter_congr
  intro c _
  constructor
  · exact fun h => h.1
  · intro h; have := hp c k h; exact ⟨h, by omega⟩

theorem Accum.skip (h : Accum par T f sub acc (i + 1) n) (hpar : par i = none) : Accum par T f sub acc i n := by
  refine ⟨h.1, fun j hj => ?_⟩
  rw [h.2 j hj]
  congr 2
  apply Finset.sum_congr _ fun _ _ => rfl
  apply Finset.filter_congr
  intro c _
  constructor
  · exact fun h => ⟨h.1, by omega⟩
  · rintro ⟨h1, h2⟩
    refine ⟨h1, ?_⟩
    have : c ≠ i := by rintro rfl; rw [hpar] at h1; cases h1
    omega

theorem Accum.step (h : Accum par T f sub acc (i + 1) n) (hi : i < n) {k : Nat} (hpar : par i = some k) (hk : k < n) {x : M}
    (hx : acc[k]? = some x) : Accum par T f sub (acc.set k (x + T i (sub i))) i n := by
  refine ⟨by simpa using h.1, fun j hj => ?_⟩
  have key : ∀ j, (Finset.range n).filter (fun c => par c = some j ∧ i ≤ c) =
      if j = k then insert i ((Finset.range n).filter (fun c => par c = some j ∧ i + 1 ≤ c))
      else (Finset.range n).filter (fun c => par c = some j ∧ i + 1 ≤ c) := by
    intro j
    split
    · rename_i e; subst e
      ext c
      simp only [Finset.mem_filter, Finset.mem_range, Finset.mem_insert]
      constructor
      · rintro ⟨h1, h2, h3⟩
        by_cases hc : c = i
        · exact .inl hc
        · exact .inr ⟨h1, h2, by omega⟩
      · rintro (rfl | ⟨h1, h2, h3⟩)
        · exact ⟨hi, hpar, le_rfl⟩
        · exact ⟨h1, h2, by omega⟩
    · rename_i e
      apply Finset.filter_congr
      intro c _
      constructor
      · rintro ⟨h1, h2⟩
        refine ⟨h1, ?_⟩
        have : c ≠ i := by rintro rfl; rw [hpar] at h1; cases h1; exact e rfl
        omega
      · exact fun h => ⟨h.1, by omega⟩
  rw [List.getElem?_set, key j]
  by_cases hjk : k = j
  · subst hjk
    rw [if_pos rfl, if_pos (by have := h.1; omega), if_pos rfl, Finset.sum_insert (by simp)]
    have := h.2 k hk
    rw [hx] at this
    cases this
    congr 1
    rw [add_assoc, add_comm (T i (sub i))]
  · rw [if_neg hjk, if_neg (fun h => hjk h.symm), h.2 j hj]

theorem Accum.range_map (hp : ∀ i j, par i = some j → j < i) (hs : SubRec par T f sub n) (h : Accum par T f sub acc 0 n) :
    acc = (List.range n).map sub :=
  Filled.range_map ⟨h.1, fun _ hi => h.get_all hp hs hi (Nat.zero_le _)⟩

end accum

end RBDyn
