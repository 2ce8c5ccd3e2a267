import Verif.Lemmas.Config
import Verif.Lemmas.MultiBody

/-! Helper lemmas on flattening and on scattered copies. -/

namespace RBDyn
variable {K : Type}

/-- The inner loop of `paramToVector` writes one block. -/
theorem writeBlock (inV : List K) (p : Nat) (e : List K) (h : p + inV.length ≤ e.length) :
    inV.foldlM (fun (st : Nat × List K) d => do
      let e ← wr st.2 st.1 d
      return (st.1 + 1, e)) ((p, e) : Nat × List K) =
      (.ok (p + inV.length, e.take p ++ inV ++ e.drop (p + inV.length)) : Res _) := by
  induction inV generalizing p e with
  | nil => simp
  | cons d l ih =>
    simp only [List.length_cons] at h
    have hp : p < e.length := by omega
    rw [List.foldlM_cons]
    simp only [wr_ok hp, Res.bind_ok, Res.pure_eq]
    refine (ih (p + 1) (e.set p d) (by simp; omega)).trans ?_
    congr 2
    · simp; omega
    · rw [List.length_cons, ← Nat.add_assoc, Nat.add_right_comm p l.length 1, List.drop_set_of_lt (by omega)]
      congr 1
      rw [List.take_set, List.take_succ_eq_append_getElem hp, List.set_append_right _ _ (by simp)]
      simp [Nat.min_eq_left (Nat.le_of_lt hp)]

theorem writeBlocks (v : List (List K)) (p : Nat) (e : List K) (h : p + v.flatten.length ≤ e.length) :
    v.foldlM (fun (st : Nat × List K) inV =>
      inV.foldlM (fun (st : Nat × List K) d => do
        let e ← wr st.2 st.1 d
        return (st.1 + 1, e)) st) ((p, e) : Nat × List K) =
      (.ok (p + v.flatten.length, e.take p ++ v.flatten ++ e.drop (p + v.flatten.length)) : Res _) := by
  induction v generalizing p e with
  | nil => simp
  | cons w v ih =>
    simp only [List.flatten_cons, List.length_append] at h
    rw [List.foldlM_cons, writeBlock w p e (by omega), Res.bind_ok]
    have hm : min p e.length = p := by omega
    refine (ih _ _ (by simp only [List.length_append, List.length_take, List.length_drop]; omega)).trans ?_
    congr 2
    · simp only [List.flatten_cons, List.length_append]; omega
    · simp only [List.flatten_cons, List.length_append]
      rw [List.take_append_of_le_length (by simp only [List.length_append, List.length_take]; omega), List.drop_append, List.take_of_length_le (by simp),
        List.drop_of_length_le (by simp only [List.length_append, List.length_take]; omega)]
      simp only [List.nil_append, List.drop_drop, List.length_append, List.length_take, hm, List.append_assoc]
      congr 4
      omega

theorem paramToVectorInto_eq (v : List (List K)) (e : List K) (h : v.flatten.length ≤ e.length) :
    paramToVectorInto v e = .ok (v.flatten ++ e.drop v.flatten.length) := by
  unfold paramToVectorInto
  rw [writeBlocks v 0 e (by omega)]
  simp

theorem fillFrom_eq (e : List K) (l : List K) (p : Nat) (h : p + l.length ≤ e.length) :
    fillFrom e p l = .ok (p + l.length, (e.drop p).take l.length) := by
  induction l generalizing p with
  | nil => simp [fillFrom]
  | cons d l ih =>
    simp only [List.length_cons] at h
    have hp : p < e.length := by omega
    simp only [fillFrom, rd_ok hp, Res.bind_ok, ih (p + 1) (by omega), Res.pure_eq, List.length_cons]
    congr 2
    · omega
    · rw [List.drop_eq_getElem_cons hp, List.take_succ_cons]

theorem fillAllFrom_eq (e : List K) (v : List (List K)) (p : Nat) (h : p + v.flatten.length ≤ e.length) :
    ∃ r, fillAllFrom e p v = .ok (p + v.flatten.length, r) ∧ r.map List.length = v.map List.length ∧
      r.flatten = (e.drop p).take v.flatten.length := by
  induction v generalizing p with
  | nil => exact ⟨[], by simp [fillAllFrom]⟩
  | cons w v ih =>
    simp only [List.flatten_cons, List.length_append] at h
    obtain ⟨r, h1, h2, h3⟩ := ih (p + w.length) (by omega)
    refine ⟨(e.drop p).take w.length :: r, ?_, ?_, ?_⟩
    · simp only [fillAllFrom, fillFrom_eq e w p (by omega), Res.bind_ok, h1, Res.pure_eq, List.flatten_cons,
        List.length_append]
      congr 2
      omega
    · simp [h2]; omega
    · rw [List.flatten_cons, h3, List.flatten_cons, List.length_append, List.take_add, List.drop_drop]

theorem flatten_length_eq (v : List (List K)) : v.flatten.length = (v.map List.length).sum := by
  simp [List.length_flatten]

/-- Block sizes and flattened contents determine the blocks. -/
theorem blocks_ext {v w : List (List K)} (hl : v.map List.length = w.map List.length) (hf : v.flatten = w.flatten) :
    v = w := by
  induction v generalizing w with
  | nil => cases w with
    | nil => rfl
    | cons _ _ => simp at hl
  | cons a v ih => cases w with
    | nil => simp at hl
    | cons b w =>
      simp only [List.map_cons, List.cons.injEq] at hl
      simp only [List.flatten_cons] at hf
      obtain ⟨h1, h2⟩ := List.append_inj hf hl.1
      rw [h1, ih hl.2 h2]

/-- Where an entry of a block ends up. -/
theorem flatten_getElem? (v : List (List K)) {i k : Nat} {w : List K} {x : K} (hi : v[i]? = some w)
    (hk : w[k]? = some x) : v.flatten[((v.take i).map List.length).sum + k]? = some x := by
  induction v generalizing i with
  | nil => simp at hi
  | cons a v ih =>
    cases i with
    | zero =>
      simp only [List.getElem?_cons_zero, Option.some.injEq] at hi
      subst hi
      obtain ⟨hk', -⟩ := List.getElem?_eq_some_iff.1 hk
      simp [List.getElem?_append_left hk', hk]
    | succ i =>
      simp only [List.getElem?_cons_succ] at hi
      have := ih hi
      simp only [List.flatten_cons, List.take_succ_cons, List.map_cons, List.sum_cons]
      rw [List.getElem?_append_right (by omega)]
      rw [← this]
      congr 1
      omega

/-- `l` is `dst` with entries `ks i` (for `i < n`) replaced by the entries `i + off` of `src`. -/
def Scat {α : Type _} (n : Nat) (ks : Nat → Nat) (off : Nat) (src dst l : List α) : Prop :=
  l.length = dst.length ∧ (∀ i, i < n → l[ks i]? = src[i + off]?) ∧ ∀ m, (∀ i, i < n → ks i ≠ m) → l[m]? = dst[m]?

theorem Scat.zero {α : Type _} (ks : Nat → Nat) (off : Nat) (src dst : List α) : Scat 0 ks off src dst dst :=
  ⟨rfl, fun _ h => absurd h (Nat.not_lt_zero _), fun _ _ => rfl⟩

theorem Scat.step {α : Type _} {n : Nat} {ks : Nat → Nat} {off : Nat} {src dst l : List α} {a : α}
    (h : Scat n ks off src dst l) (hinj : ∀ i, i < n → ks i ≠ ks n) (hlt : ks n < dst.length)
    (ha : src[n + off]? = some a) : Scat (n + 1) ks off src dst (l.set (ks n) a) := by
  obtain ⟨h1, h2, h3⟩ := h
  refine ⟨by simpa using h1, fun i hi => ?_, fun m hm => ?_⟩
  · rw [List.getElem?_set]
    by_cases hin : i < n
    · rw [if_neg (Ne.symm (hinj i hin))]; exact h2 i hin
    · have : i = n := by omega
      subst this
      rw [if_pos rfl, if_pos (by omega), ha]
  · rw [List.getElem?_set, if_neg (hm n (by omega))]
    exact h3 m (fun i hi => hm i (by omega))

section
variable [Scalar K]

omit [Scalar K] in
/-- Lookup of a joint name that occurs. -/
theorem CtorInv.joint_find {b : List (Body K)} {j : List (Joint K)} {pred succ parent : List Int}
    {Xt : List (PTransform K)} {k : Nat} {mb : MultiBody K} (h : CtorInv b j pred succ parent Xt k mb) {m : Nat}
    {s : String} (hm : m < k) (hs : (j[m]?).map (·.name) = some s) :
    ∃ i : Nat, mb.jointNameToInd.find s = some (i : Int) ∧ i < k ∧ (j[i]?).map (·.name) = some s := by
  cases hf : mb.jointNameToInd.find s with
  | none => exact absurd hs (h.jName' s hf m hm)
  | some i =>
    obtain ⟨n, rfl, hn, hns⟩ := h.jName _ _ hf
    exact ⟨n, rfl, hn, hns⟩

omit [Scalar K] in
/-- Lookup of a body name that occurs. -/
theorem CtorInv.body_find {b : List (Body K)} {j : List (Joint K)} {pred succ parent : List Int}
    {Xt : List (PTransform K)} {k : Nat} {mb : MultiBody K} (h : CtorInv b j pred succ parent Xt k mb) {m : Nat}
    {s : String} (hm : m < k) (hs : (b[m]?).map (·.name) = some s) :
    ∃ i : Nat, mb.bodyNameToInd.find s = some (i : Int) ∧ i < k ∧ (b[i]?).map (·.name) = some s := by
  cases hf : mb.bodyNameToInd.find s with
  | none => exact absurd hs (h.bName' s hf m hm)
  | some i =>
    obtain ⟨n, rfl, hn, hns⟩ := h.bName _ _ hf
    exact ⟨n, rfl, hn, hns⟩

end

/-- A loop filling an index table. -/
theorem indexLoop (n : Nat) (look : Nat → Res Int) (ks : Nat → Nat) (hk : ∀ i, i < n → look i = .ok (ks i : Int)) :
    (List.range n).foldlM (fun (l : List Int) i => do
      let k ← look i
      wr l i k) (List.replicate n 0) = .ok ((List.range n).map fun i => (ks i : Int)) := by
  refine (foldlM_range_inv (fun (l : List Int) i => do
      let k ← look i
      wr l i k) (fun k l => Filled l (fun i => ((List.range n)[i]?).map fun i => (ks i : Int)) k n) n
    (List.replicate n 0) (.zero (by simp)) ?_).elim ?_
  · intro i s hi h
    have e := h.1
    simp only [hk i hi, Res.bind_ok, wr_ok (e ▸ hi), Except.ok.injEq, exists_eq_left']
    exact h.set hi (by simp [List.getElem?_range hi])
  · rintro s ⟨hs, h⟩
    rw [hs, h.eq_map (by simp)]

end RBDyn
