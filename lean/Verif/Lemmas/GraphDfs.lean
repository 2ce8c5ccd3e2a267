import Verif.Lemmas.GraphTree

/-! The depth first traversal of a tree. -/

namespace RBDyn
variable {K : Type}

namespace Graph

/-- The nodes in the order of the depth first traversal from `u` coming from `src`. -/
def dfs (h : Heap K) : Nat → Nat → Option Nat → List Nat
  | 0, _, _ => []
  | f + 1, u, src =>
    match h.nodes[u]? with
    | none => []
    | some n => u :: n.arcs.flatMap (fun a => if some a.next ≠ src then dfs h f a.next (some u) else [])

/-- The node `u` is reached from. -/
def srcOf (r : Nat) (par : Nat → Nat) (u : Nat) : Option Nat := if u = r then none else some (par u)

/-- `x` is `v` or is separated from the root `r` by `v`. -/
inductive Below (g : Graph) (r : Nat) (par : Nat → Nat) (v : Nat) : Nat → Prop where
  | refl : v ∈ g.nodes → Below g r par v v
  | step {x : Nat} : x ∈ g.nodes → x ≠ r → Below g r par v (par x) → Below g r par v x

section
variable {h : Heap K} {g : Graph} {r : Nat} {d par : Nat → Nat}

theorem Below.mem {v x : Nat} (hb : Below g r par v x) : x ∈ g.nodes := by
  cases hb <;> assumption

theorem Below.mem_left {v x : Nat} (hb : Below g r par v x) : v ∈ g.nodes := by
  induction hb <;> assumption

theorem Below.trans {u v x : Nat} (h1 : Below g r par u v) (h2 : Below g r par v x) : Below g r par u x := by
  induction h2 with
  | refl _ => exact h1
  | step hx hr _ ih => exact .step hx hr ih

theorem Rooted.up_d (R : Rooted h g r d par) {u : Nat} (hu : u ∈ g.nodes) (hr : u ≠ r) : d u = d (par u) + 1 := by
  obtain ⟨a, _, _, e⟩ := R.up u hu hr; exact e

theorem Rooted.par_mem (R : Rooted h g r d par) (I : Inv h g) {u : Nat} (hu : u ∈ g.nodes) (hr : u ≠ r) :
    par u ∈ g.nodes := by
  obtain ⟨a, ha, e, _⟩ := R.up u hu hr
  rw [← e]; exact I.link_next ha

/-- The arcs followed by the traversal are those going away from the root. -/
theorem Rooted.child_iff (R : Rooted h g r d par) {u : Nat} {a : Arc K} (ha : Link h g u a) :
    some a.next ≠ srcOf r par u ↔ (d a.next = d u + 1 ∧ par a.next = u ∧ a.next ≠ r) := by
  unfold srcOf
  constructor
  · intro hs
    rcases R.step u a ha with e | ⟨_, e2, e3⟩
    · exact e
    · rw [if_neg e3, e2] at hs; exact absurd rfl hs
  · rintro ⟨e1, e2, e3⟩
    by_cases hr : u = r
    · rw [if_pos hr]; simp
    · rw [if_neg hr]
      intro e
      have := R.up_d ha.mem hr
      rw [← Option.some_inj.1 e] at this
      omega

theorem Rooted.src_child (R : Rooted h g r d par) {u : Nat} {a : Arc K} (ha : Link h g u a)
    (hs : some a.next ≠ srcOf r par u) : srcOf r par a.next = some u := by
  obtain ⟨_, e2, e3⟩ := (R.child_iff ha).1 hs
  rw [srcOf, if_neg e3, e2]

theorem Below.d_le (R : Rooted h g r d par) {v x : Nat} (hb : Below g r par v x) : d v ≤ d x := by
  induction hb with
  | refl _ => exact le_rfl
  | step hx hr _ ih => have := R.up_d hx hr; omega

theorem Below.eq_of_d (R : Rooted h g r d par) {c c' x : Nat} (h1 : Below g r par c x) (h2 : Below g r par c' x)
    (e : d c = d c') : c = c' := by
  induction h1 with
  | refl _ =>
    cases h2 with
    | refl _ => rfl
    | step hx hr hb => have := hb.d_le R; have := R.up_d hx hr; omega
  | step hx hr hb ih =>
    cases h2 with
    | refl _ => have := hb.d_le R; have := R.up_d hx hr; omega
    | step _ _ hb' => exact ih hb'

/-- `Below v` and `Below v'` are comparable when they meet. -/
theorem Below.of_child (R : Rooted h g r d par) {u x : Nat} (hb : Below g r par u x) (hne : x ≠ u) :
    ∃ c, c ∈ g.nodes ∧ c ≠ r ∧ par c = u ∧ Below g r par c x := by
  induction hb with
  | refl _ => exact absurd rfl hne
  | @step x hx hr hb ih =>
    by_cases e : par x = u
    · exact ⟨x, hx, hr, e, .refl hx⟩
    · obtain ⟨c, hc, hcr, e', hb'⟩ := ih e
      exact ⟨c, hc, hcr, e', .step hx hr hb'⟩

theorem Rooted.below_root (R : Rooted h g r d par) (I : Inv h g) {x : Nat} (hx : x ∈ g.nodes) : Below g r par r x := by
  obtain ⟨k, hk⟩ : ∃ k, d x = k := ⟨_, rfl⟩
  induction k using Nat.strong_induction_on generalizing x with
  | _ k ih =>
    by_cases e : x = r
    · rw [e]; exact .refl R.mem
    · have := R.up_d hx e
      exact .step hx e (ih (d (par x)) (by omega) (R.par_mem I hx e) rfl)

/-! ### Nodes visited -/

theorem dfs_succ {f u : Nat} {src : Option Nat} {n : GNode K} (hn : h.nodes[u]? = some n) :
    dfs h (f + 1) u src =
      u :: n.arcs.flatMap (fun a => if some a.next ≠ src then dfs h f a.next (some u) else []) := by
  rw [dfs, hn]

theorem mem_dfs_succ {f u x : Nat} {src : Option Nat} {n : GNode K} (hn : h.nodes[u]? = some n) :
    x ∈ dfs h (f + 1) u src ↔ x = u ∨ ∃ a ∈ n.arcs, some a.next ≠ src ∧ x ∈ dfs h f a.next (some u) := by
  rw [dfs_succ hn, List.mem_cons, List.mem_flatMap]
  constructor
  · rintro (e | ⟨a, ha, hx⟩)
    · exact Or.inl e
    · by_cases hs : some a.next ≠ src
      · rw [if_pos hs] at hx; exact Or.inr ⟨a, ha, hs, hx⟩
      · rw [if_neg hs] at hx; simp at hx
  · rintro (e | ⟨a, ha, hs, hx⟩)
    · exact Or.inl e
    · exact Or.inr ⟨a, ha, by rw [if_pos hs]; exact hx⟩

theorem Rooted.dfs_below (R : Rooted h g r d par) (I : Inv h g) (f : Nat) {u x : Nat} (hu : u ∈ g.nodes)
    (hx : x ∈ dfs h f u (srcOf r par u)) : Below g r par u x := by
  induction f generalizing u with
  | zero => simp [dfs] at hx
  | succ f ih =>
    obtain ⟨n, hn⟩ := I.nodes_get u hu
    rcases (mem_dfs_succ hn).1 hx with rfl | ⟨a, ha, hs, hx⟩
    · exact .refl hu
    · have hl : Link h g u a := ⟨hu, n, hn, ha⟩
      obtain ⟨_, e2, e3⟩ := (R.child_iff hl).1 hs
      have ha' := I.link_next hl
      rw [← R.src_child hl hs] at hx
      exact Below.trans (.step ha' e3 (by rw [e2]; exact .refl hu)) (ih ha' hx)

theorem Rooted.dfs_self (R : Rooted h g r d par) (I : Inv h g) {f u : Nat} (hu : u ∈ g.nodes)
    (hf : g.nodes.length ≤ f + d u) (src : Option Nat) : u ∈ dfs h f u src := by
  have := R.lt u hu
  obtain ⟨f, rfl⟩ : ∃ k, f = k + 1 := ⟨f - 1, by omega⟩
  obtain ⟨n, hn⟩ := I.nodes_get u hu
  exact (mem_dfs_succ hn).2 (Or.inl rfl)

section
variable [Scalar K]

/-- The parent has an arc to its child. -/
theorem Rooted.down (R : Rooted h g r d par) (F : Forest h g) {x : Nat} (hx : x ∈ g.nodes) (hr : x ≠ r) :
    ∃ a b, Link h g (par x) a ∧ a.next = x ∧ Link h g x b ∧ b.next = par x ∧
      ∃ (j : Joint K) (d : Bool), a.joint = j.setForward d ∧ b.joint = j.setForward (!d) := by
  obtain ⟨b, hb, e, -⟩ := R.up x hx hr
  obtain ⟨a, ha, e', j, d, h1, h2⟩ := F.paired x b hb
  exact ⟨a, b, by rw [← e]; exact ha, e', hb, e, j, !d, h2, by rw [Bool.not_not]; exact h1⟩

theorem Rooted.below_dfs (R : Rooted h g r d par) (F : Forest h g) {f u x : Nat} (hu : u ∈ g.nodes)
    (hf : g.nodes.length ≤ f + d u) (hb : Below g r par u x) : x ∈ dfs h f u (srcOf r par u) := by
  have hclosed : ∀ f u, u ∈ g.nodes → g.nodes.length ≤ f + d u → ∀ y x, x ∈ g.nodes → x ≠ r → par x = y →
      y ∈ dfs h f u (srcOf r par u) → x ∈ dfs h f u (srcOf r par u) := by
    intro f
    induction f with
    | zero => intro u _ _ y x _ _ _ hy; simp [dfs] at hy
    | succ f ih =>
      intro u hu hf y x hx hxr hp hy
      obtain ⟨n, hn⟩ := F.nodes_get u hu
      rcases (mem_dfs_succ hn).1 hy with rfl | ⟨a, ha, hs, hy⟩
      · obtain ⟨a, b, ha, ea, -⟩ := R.down F hx hxr
        rw [hp] at ha
        have hda := R.up_d hx hxr
        rw [hp] at hda
        have hs : some a.next ≠ srcOf r par y := (R.child_iff ha).2 (by rw [ea]; exact ⟨hda, hp, hxr⟩)
        obtain ⟨_, n', hn', ha'⟩ := ha
        obtain rfl := Option.some_inj.1 (hn.symm.trans hn')
        refine (mem_dfs_succ hn).2 (Or.inr ⟨a, ha', hs, ?_⟩)
        rw [ea]
        exact R.dfs_self F.toInv hx (by omega) _
      · have hl : Link h g u a := ⟨hu, n, hn, ha⟩
        obtain ⟨e1, _, _⟩ := (R.child_iff hl).1 hs
        rw [← R.src_child hl hs] at hy
        have := ih a.next (F.link_next hl) (by omega) y x hx hxr hp hy
        rw [R.src_child hl hs] at this
        exact (mem_dfs_succ hn).2 (Or.inr ⟨a, ha, hs, this⟩)
  induction hb with
  | refl _ => exact R.dfs_self F.toInv hu hf _
  | step hx hr _ ih => exact hclosed f u hu hf _ _ hx hr rfl ih

theorem Rooted.mem_dfs (R : Rooted h g r d par) (F : Forest h g) {f u x : Nat} (hu : u ∈ g.nodes)
    (hf : g.nodes.length ≤ f + d u) : x ∈ dfs h f u (srcOf r par u) ↔ Below g r par u x :=
  ⟨R.dfs_below F.toInv f hu, R.below_dfs F hu hf⟩

theorem Rooted.dfs_nodup (R : Rooted h g r d par) (F : Forest h g) (f : Nat) {u : Nat} (hu : u ∈ g.nodes) :
    (dfs h f u (srcOf r par u)).Nodup := by
  induction f generalizing u with
  | zero => simp [dfs]
  | succ f ih =>
    obtain ⟨n, hn⟩ := F.nodes_get u hu
    rw [dfs_succ hn, List.nodup_cons]
    have hb : ∀ a ∈ n.arcs, some a.next ≠ srcOf r par u → ∀ x ∈ dfs h f a.next (some u),
        Below g r par a.next x ∧ d a.next = d u + 1 := by
      intro a ha hs x hx
      have hl : Link h g u a := ⟨hu, n, hn, ha⟩
      rw [← R.src_child hl hs] at hx
      exact ⟨R.dfs_below F.toInv f (F.link_next hl) hx, ((R.child_iff hl).1 hs).1⟩
    constructor
    · intro hm
      rw [List.mem_flatMap] at hm
      obtain ⟨a, ha, hx⟩ := hm
      by_cases hs : some a.next ≠ srcOf r par u
      · rw [if_pos hs] at hx
        obtain ⟨h1, h2⟩ := hb a ha hs u hx
        have := h1.d_le R
        omega
      · rw [if_neg hs] at hx; simp at hx
    · rw [List.nodup_flatMap]
      constructor
      · intro a ha
        by_cases hs : some a.next ≠ srcOf r par u
        · rw [if_pos hs]
          have hl : Link h g u a := ⟨hu, n, hn, ha⟩
          have := ih (F.link_next hl)
          rwa [R.src_child hl hs] at this
        · rw [if_neg hs]; exact List.nodup_nil
      · have hs := F.single u hu n hn
        rw [List.Nodup, List.pairwise_map] at hs
        refine List.Pairwise.imp_of_mem ?_ hs
        intro a a' ha ha' hne
        rw [Function.onFun, List.disjoint_left]
        intro x hx hx'
        by_cases h1 : some a.next ≠ srcOf r par u
        · rw [if_pos h1] at hx
          by_cases h2 : some a'.next ≠ srcOf r par u
          · rw [if_pos h2] at hx'
            obtain ⟨b1, e1⟩ := hb a ha h1 x hx
            obtain ⟨b2, e2⟩ := hb a' ha' h2 x hx'
            exact hne (b1.eq_of_d R b2 (by omega))
          · rw [if_neg h2] at hx'; simp at hx'
        · rw [if_neg h1] at hx; simp at hx

/-- The traversal from the root visits every node exactly once. -/
theorem Rooted.dfs_perm (R : Rooted h g r d par) (F : Forest h g) {f : Nat} (hf : g.nodes.length ≤ f) :
    (dfs h f r none).Perm g.nodes := by
  have hsrc : srcOf r par r = none := if_pos rfl
  rw [← hsrc]
  refine (List.perm_ext_iff_of_nodup (R.dfs_nodup F f R.mem) F.nodes_nodup).2 (fun x => ?_)
  rw [R.mem_dfs F R.mem (by rw [R.d0]; omega)]
  exact ⟨Below.mem, R.below_root F.toInv⟩

end

/-! ### The loop over the arcs of a node -/

/-- Loop rule for the loop over the arcs: `P N st` says that the state `st` is reached once the nodes `N` have been
visited. -/
theorem dfs_fold {σ : Type _} (F : σ → Arc K → Res σ) (P : List Nat → σ → Prop) (f u : Nat) (src : Option Nat)
    (l : List (Arc K)) (N : List Nat) (st : σ) (h0 : P N st)
    (hskip : ∀ a ∈ l, ¬ some a.next ≠ src → ∀ st, F st a = .ok st)
    (hstep : ∀ a ∈ l, some a.next ≠ src → ∀ M st, P (N ++ M) st →
      ∃ st', F st a = .ok st' ∧ P (N ++ M ++ dfs h f a.next (some u)) st') :
    ∃ st', l.foldlM F st = .ok st' ∧
      P (N ++ l.flatMap (fun a => if some a.next ≠ src then dfs h f a.next (some u) else [])) st' := by
  induction l generalizing N st with
  | nil => exact ⟨st, rfl, by simpa using h0⟩
  | cons a l ih =>
    rw [List.foldlM_cons, List.flatMap_cons]
    by_cases hs : some a.next ≠ src
    · obtain ⟨st1, e1, h1⟩ := hstep a (by simp) hs [] st (by simpa using h0)
      rw [List.append_nil] at h1
      obtain ⟨st2, e2, h2⟩ := ih (N ++ dfs h f a.next (some u)) st1 h1
        (fun b hb => hskip b (List.mem_cons_of_mem _ hb))
        (fun b hb hbs M st hP => by
          rw [List.append_assoc] at hP
          obtain ⟨st', e', h'⟩ := hstep b (List.mem_cons_of_mem _ hb) hbs _ st hP
          exact ⟨st', e', by simpa [List.append_assoc] using h'⟩)
      refine ⟨st2, by rw [e1, Res.bind_ok, e2], ?_⟩
      rw [if_pos hs, ← List.append_assoc]
      exact h2
    · rw [hskip a (by simp) hs st, Res.bind_ok, if_neg hs, List.nil_append]
      exact ih N st h0 (fun b hb => hskip b (List.mem_cons_of_mem _ hb))
        (fun b hb => hstep b (List.mem_cons_of_mem _ hb))

end

end Graph
end RBDyn
