/-
Outcomes of C++ functions, checked vector access, and the loop rule.
-/

namespace RBDyn

/-- Abnormal outcomes of the C++ code.
`ub` is undefined behaviour (out-of-bounds `operator[]`, dereferencing `end()`, null pointer);
the others are the C++ exceptions of the same name. -/
inductive Err where
  | ub
  | outOfRange
  | domainError
  | runtimeError
  | invalidArgument
  /-- recursion that never returns (stack overflow in C++) -/
  | diverges
  deriving DecidableEq, Repr

/-- Result of a C++ function. -/
abbrev Res (α : Type _) := Except Err α

instance {α : Type _} [DecidableEq α] : DecidableEq (Res α) := fun a b =>
  match a, b with
  | .ok x, .ok y => if h : x = y then isTrue (by rw [h]) else isFalse (fun e => h (by injection e))
  | .error x, .error y =>
    if h : x = y then isTrue (by rw [h]) else isFalse (fun e => h (by injection e))
  | .ok _, .error _ => isFalse (by intro e; cases e)
  | .error _, .ok _ => isFalse (by intro e; cases e)

/-- `v[i]` of `std::vector`: undefined behaviour out of bounds. -/
def rd {α : Type _} (l : List α) (i : Nat) : Res α :=
  match l[i]? with
  | some a => .ok a
  | none => .error .ub

/-- `v[i] = a` of `std::vector`: undefined behaviour out of bounds. -/
def wr {α : Type _} (l : List α) (i : Nat) (a : α) : Res (List α) :=
  if i < l.length then .ok (l.set i a) else .error .ub

/-- `v.at(i)` of `std::vector`: `std::out_of_range` out of bounds. -/
def rdAt {α : Type _} (l : List α) (i : Nat) : Res α :=
  match l[i]? with
  | some a => .ok a
  | none => .error .outOfRange

section lemmas
variable {α β : Type _}

@[simp] theorem Res.bind_ok (a : α) (f : α → Res β) : (Except.ok a >>= f : Res β) = f a := rfl
@[simp] theorem Res.bind_error (e : Err) (f : α → Res β) :
    ((Except.error e : Res α) >>= f : Res β) = .error e := rfl
@[simp] theorem Res.map_ok (a : α) (f : α → β) : (f <$> (Except.ok a : Res α)) = .ok (f a) := rfl
@[simp] theorem Res.pure_eq (a : α) : (pure a : Res α) = .ok a := rfl

theorem Res.bind_eq_ok {x : Res α} {f : α → Res β} {b : β} :
    (x >>= f) = .ok b ↔ ∃ a, x = .ok a ∧ f a = .ok b := by
  cases x <;> simp

theorem rd_ok {l : List α} {i : Nat} (h : i < l.length) : rd l i = .ok l[i] := by
  simp [rd, List.getElem?_eq_getElem h]

theorem rd_of_getElem? {l : List α} {i : Nat} {a : α} (h : l[i]? = some a) : rd l i = .ok a := by
  simp [rd, h]

theorem rd_eq_ok_iff {l : List α} {i : Nat} {a : α} : rd l i = .ok a ↔ l[i]? = some a := by
  unfold rd; split <;> simp_all

theorem rd_eq_error_iff {l : List α} {i : Nat} {e : Err} :
    rd l i = .error e ↔ e = .ub ∧ l.length ≤ i := by
  unfold rd
  split
  · rename_i a h
    obtain ⟨hi, -⟩ := List.getElem?_eq_some_iff.1 h
    simp; omega
  · rename_i h
    rw [List.getElem?_eq_none_iff] at h
    simp [h, eq_comm]

theorem wr_ok {l : List α} {i : Nat} {a : α} (h : i < l.length) : wr l i a = .ok (l.set i a) := by
  simp [wr, h]

/-- Loop rule for `for (i = 0; i < n; ++i)`: an invariant established initially and preserved by every
iteration (which, under the invariant, terminates normally) holds after the loop, and the loop
terminates normally. -/
theorem foldlM_range_inv {σ : Type _} (f : σ → Nat → Res σ) (P : Nat → σ → Prop) (n : Nat) (s₀ : σ)
    (h0 : P 0 s₀) (hstep : ∀ i s, i < n → P i s → ∃ s', f s i = .ok s' ∧ P (i + 1) s') :
    ∃ s, (List.range n).foldlM f s₀ = .ok s ∧ P n s := by
  induction n with
  | zero => exact ⟨s₀, rfl, h0⟩
  | succ n ih =>
    obtain ⟨s, hs, hP⟩ := ih (fun i s hi => hstep i s (Nat.lt_succ_of_lt hi))
    obtain ⟨s', hs', hP'⟩ := hstep n s (Nat.lt_succ_self n) hP
    refine ⟨s', ?_, hP'⟩
    rw [List.range_succ, List.foldlM_append, hs]
    simp [hs']

/-- Loop rule for `for (i = n-1; i >= 0; --i)`. `P i` holds before the iteration of index `i-1`. -/
theorem foldlM_range_reverse_inv {σ : Type _} (f : σ → Nat → Res σ) (P : Nat → σ → Prop) (n : Nat)
    (s₀ : σ) (h0 : P n s₀)
    (hstep : ∀ i s, i < n → P (i + 1) s → ∃ s', f s i = .ok s' ∧ P i s') :
    ∃ s, (List.range n).reverse.foldlM f s₀ = .ok s ∧ P 0 s := by
  induction n generalizing s₀ with
  | zero => exact ⟨s₀, rfl, h0⟩
  | succ n ih =>
    obtain ⟨s', hs', hP'⟩ := hstep n s₀ (Nat.lt_succ_self n) h0
    obtain ⟨s, hs, hP⟩ := ih s' hP' (fun i s hi => hstep i s (Nat.lt_succ_of_lt hi))
    refine ⟨s, ?_, hP⟩
    rw [List.range_succ, List.reverse_append, List.reverse_singleton, List.singleton_append,
      List.foldlM_cons, hs']
    exact hs

/-- Loop rule for a loop over the elements of a list. -/
theorem foldlM_list_inv {σ γ : Type _} (f : σ → γ → Res σ) (l : List γ) (P : Nat → σ → Prop) (s₀ : σ)
    (h0 : P 0 s₀)
    (hstep : ∀ i s (hi : i < l.length), P i s → ∃ s', f s l[i] = .ok s' ∧ P (i + 1) s') :
    ∃ s, l.foldlM f s₀ = .ok s ∧ P l.length s := by
  induction l generalizing s₀ P with
  | nil => exact ⟨s₀, rfl, h0⟩
  | cons c l ih =>
    obtain ⟨s', hs', hP'⟩ := hstep 0 s₀ (by simp) h0
    obtain ⟨s, hs, hP⟩ := ih (fun i => P (i + 1)) s' hP' (fun i s hi hp => by
      have := hstep (i + 1) s (by simpa using hi) hp
      simpa using this)
    refine ⟨s, ?_, by simpa using hP⟩
    rw [List.foldlM_cons]
    have : f s₀ c = .ok s' := by simpa using hs'
    rw [this]
    simpa using hs

end lemmas

end RBDyn
