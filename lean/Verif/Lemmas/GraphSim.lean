import Verif.Lemmas.GraphMake

/-! Traversals of two similar graphs. -/

namespace RBDyn
variable {K : Type}

namespace Graph

/-- The cells of `h'` at the images by `φ` of the nodes `N` hold the same bodies and arcs as in `h`, up to the
modification `J` of the joints. -/
structure Sim (h : Heap K) (N : List Nat) (φ : Nat → Nat) (J : Joint K → Joint K) (h' : Heap K) : Prop where
  cells : ∀ x ∈ N, ∀ n, h.nodes[x]? = some n →
    h'.nodes[φ x]? = some ⟨n.body, n.arcs.map (fun a => ⟨a.X, J a.joint, φ a.next⟩)⟩
  closed : ∀ x ∈ N, ∀ n, h.nodes[x]? = some n → ∀ a ∈ n.arcs, a.next ∈ N
  inj : ∀ x ∈ N, ∀ y ∈ N, φ x = φ y → x = y

variable {h h' : Heap K} {N : List Nat} {φ : Nat → Nat} {J : Joint K → Joint K}

theorem Sim.src_iff (S : Sim h N φ J h') {v : Nat} (hv : v ∈ N) {src : Option Nat} (hs : ∀ w ∈ src, w ∈ N) :
    some (φ v) = src.map φ ↔ some v = src := by
  cases src with
  | none => simp
  | some w =>
    simp only [Option.map_some, Option.some.injEq]
    exact ⟨fun e => S.inj v hv w (hs w rfl) e, fun e => by rw [e]⟩

theorem Sim.xFrom (S : Sim h N φ J h') {u : Nat} (hu : u ∈ N) {n : GNode K} (hn : h.nodes[u]? = some n)
    {src : Option Nat} (hs : ∀ w ∈ src, w ∈ N) (Xb : PTransform K) :
    xFrom ⟨n.body, n.arcs.map (fun a => ⟨a.X, J a.joint, φ a.next⟩)⟩ (src.map φ) Xb = xFrom n src Xb := by
  unfold Graph.xFrom
  dsimp only
  rw [List.find?_map]
  have hc := S.closed u hu n hn
  have e : n.arcs.find? ((fun a : Arc K => some a.next == src.map φ) ∘ fun a => (⟨a.X, J a.joint, φ a.next⟩ : Arc K)) =
      n.arcs.find? (fun a => some a.next == src) := by
    generalize n.arcs = l at hc
    induction l with
    | nil => rfl
    | cons a l ih =>
      have ha := S.src_iff (hc a (List.mem_cons_self ..)) hs
      rw [List.find?_cons, List.find?_cons, ih (fun b hb => hc b (List.mem_cons_of_mem _ hb))]
      have : ((fun a : Arc K => some a.next == src.map φ) ∘ fun a => (⟨a.X, J a.joint, φ a.next⟩ : Arc K)) a =
          (some a.next == src) := by
        rw [Bool.eq_iff_iff]
        simpa using ha
      rw [this]
  rw [e]
  cases n.arcs.find? (fun a => some a.next == src) <;> rfl

section
variable [Scalar K]

theorem Sim.makeTree (S : Sim h N φ J h') (f : Nat) :
    ∀ (f' u : Nat) (src : Option Nat) (j j' : Joint K) (p s par : Int) (Xti Xb : PTransform K) (st out : TreeSt K)
      (js : List (Joint K)), f ≤ f' → u ∈ N → (∀ w ∈ src, w ∈ N) →
      Graph.makeTree h f u src j p s par Xti Xb st = .ok out →
      ∃ rest, out.joints = st.joints ++ j :: rest ∧
        Graph.makeTree h' f' (φ u) (src.map φ) j' p s par Xti Xb { st with joints := js } =
          .ok { out with joints := js ++ j' :: rest.map J } := by
  induction f with
  | zero => intro f' u src j j' p s par Xti Xb st out js _ _ _ hm; exact absurd hm (by simp [Graph.makeTree])
  | succ f ih =>
    intro f' u src j j' p s par Xti Xb st out js hf hu hs hm
    obtain ⟨f', rfl⟩ : ∃ k, f' = k + 1 := ⟨f' - 1, by omega⟩
    rw [Graph.makeTree] at hm ⊢
    cases hn : rd h.nodes u with
    | error e => rw [hn, Res.bind_error] at hm; cases hm
    | ok n =>
      rw [hn, Res.bind_ok] at hm
      have hn' := rd_eq_ok_iff.1 hn
      rw [rd_of_getElem? (S.cells u hu n hn'), Res.bind_ok, S.xFrom hu hn' hs]
      dsimp only at hm ⊢
      have hc := S.closed u hu n hn'
      generalize Graph.xFrom n src Xb = XF at hm ⊢
      generalize hci : ((st.bodies ++ [(⟨XF.dualMulI n.body.inertia, n.body.name⟩ : Body K)]).length : Int) - 1 = ci at hm ⊢
      rw [List.foldlM_map]
      have key : ∀ (l : List (Arc K)), (∀ a ∈ l, a.next ∈ N) → ∀ (st out : TreeSt K) (js : List (Joint K)),
          l.foldlM (fun (st : TreeSt K) a =>
            if some a.next ≠ src then
              Graph.makeTree h f a.next (some u) a.joint ci (st.bodies.length : Int) ci (a.X * XF.inv) 1 st
            else pure st) st = .ok out →
          ∃ rest, out.joints = st.joints ++ rest ∧
            l.foldlM (fun (st : TreeSt K) (a : Arc K) =>
              if some (φ a.next) ≠ src.map φ then
                Graph.makeTree h' f' (φ a.next) (some (φ u)) (J a.joint) ci (st.bodies.length : Int) ci (a.X * XF.inv) 1 st
              else pure st) { st with joints := js } = .ok { out with joints := js ++ rest.map J } := by
        intro l
        induction l with
        | nil =>
          intro _ st out js hl
          obtain rfl : st = out := by simpa using hl
          exact ⟨[], by simp, by simp⟩
        | cons a l ihl =>
          intro hc st out js hl
          have hcl : ∀ b ∈ l, b.next ∈ N := fun b hb => hc b (List.mem_cons_of_mem _ hb)
          have ha := S.src_iff (hc a (List.mem_cons_self ..)) hs
          rw [List.foldlM_cons] at hl ⊢
          by_cases hsrc : some a.next = src
          · rw [if_neg (not_not.2 hsrc), Res.pure_eq, Res.bind_ok] at hl
            rw [if_neg (not_not.2 (ha.2 hsrc)), Res.pure_eq, Res.bind_ok]
            exact ihl hcl st out js hl
          · rw [if_pos hsrc] at hl
            rw [if_pos (fun e => hsrc (ha.1 e))]
            cases hmt : Graph.makeTree h f a.next (some u) a.joint ci (st.bodies.length : Int) ci (a.X * XF.inv) 1 st with
            | error e => rw [hmt, Res.bind_error] at hl; cases hl
            | ok st2 =>
              rw [hmt, Res.bind_ok] at hl
              obtain ⟨r1, e1, e2⟩ := ih f' a.next (some u) a.joint (J a.joint) ci (st.bodies.length : Int) ci (a.X * XF.inv) 1
                st st2 js (by omega) (hc a (List.mem_cons_self ..)) (by rintro w ⟨⟩; exact hu) hmt
              obtain ⟨r2, e3, e4⟩ := ihl hcl st2 out (js ++ J a.joint :: r1.map J) hl
              refine ⟨a.joint :: r1 ++ r2, by rw [e3, e1]; simp, ?_⟩
              have e2' := e2
              rw [Option.map_some] at e2'
              rw [e2', Res.bind_ok, e4]
              simp
      obtain ⟨rest, e1, e2⟩ := key n.arcs hc _ out (js ++ [j']) hm
      exact ⟨rest, by rw [e1]; simp, by rw [e2]; simp⟩

theorem Sim.computeTransform (S : Sim h N φ J h') (f : Nat) :
    ∀ (f' u : Nat) (src : Option Nat) (Xb : PTransform K) (m out : SMap (PTransform K)), f ≤ f' → u ∈ N →
      (∀ w ∈ src, w ∈ N) → Graph.computeTransform h f u src Xb m = .ok out →
      Graph.computeTransform h' f' (φ u) (src.map φ) Xb m = .ok out := by
  induction f with
  | zero => intro f' u src Xb m out _ _ _ hm; exact absurd hm (by simp [Graph.computeTransform])
  | succ f ih =>
    intro f' u src Xb m out hf hu hs hm
    obtain ⟨f', rfl⟩ : ∃ k, f' = k + 1 := ⟨f' - 1, by omega⟩
    rw [Graph.computeTransform] at hm ⊢
    cases hn : rd h.nodes u with
    | error e => rw [hn, Res.bind_error] at hm; cases hm
    | ok n =>
      rw [hn, Res.bind_ok] at hm
      have hn' := rd_eq_ok_iff.1 hn
      rw [rd_of_getElem? (S.cells u hu n hn'), Res.bind_ok, S.xFrom hu hn' hs]
      dsimp only at hm ⊢
      rw [List.foldlM_map]
      have hc := S.closed u hu n hn'
      generalize m.set n.body.name (Graph.xFrom n src Xb).inv = m at hm ⊢
      generalize n.arcs = l at hm hc ⊢
      induction l generalizing m with
      | nil => exact hm
      | cons a l ihl =>
        have hcl : ∀ b ∈ l, b.next ∈ N := fun b hb => hc b (List.mem_cons_of_mem _ hb)
        have ha := S.src_iff (hc a (List.mem_cons_self ..)) hs
        rw [List.foldlM_cons] at hm ⊢
        by_cases hsrc : some a.next = src
        · rw [if_neg (not_not.2 hsrc), Res.pure_eq, Res.bind_ok] at hm
          rw [if_neg (not_not.2 (ha.2 hsrc)), Res.pure_eq, Res.bind_ok]
          exact ihl m hm hcl
        · rw [if_pos hsrc] at hm
          rw [if_pos (fun e => hsrc (ha.1 e))]
          cases hmt : Graph.computeTransform h f a.next (some u) 1 m with
          | error e => rw [hmt, Res.bind_error] at hm; cases hm
          | ok m2 =>
            rw [hmt, Res.bind_ok] at hm
            have := ih f' a.next (some u) 1 m m2 (by omega) (hc a (List.mem_cons_self ..)) (by rintro w ⟨⟩; exact hu) hmt
            rw [Option.map_some] at this
            rw [this, Res.bind_ok]
            exact ihl m2 hm hcl

end

theorem Sim.computeSuccessors (S : Sim h N φ J h') (hJ : ∀ j, (J j).name = j.name) (f : Nat) :
    ∀ (f' u : Nat) (src : Option Nat) (m out : SMap (List String)), f ≤ f' → u ∈ N →
      (∀ w ∈ src, w ∈ N) → Graph.computeSuccessors h f u src m = .ok out →
      Graph.computeSuccessors h' f' (φ u) (src.map φ) m = .ok out := by
  induction f with
  | zero => intro f' u src m out _ _ _ hm; exact absurd hm (by simp [Graph.computeSuccessors])
  | succ f ih =>
    intro f' u src m out hf hu hs hm
    obtain ⟨f', rfl⟩ : ∃ k, f' = k + 1 := ⟨f' - 1, by omega⟩
    rw [Graph.computeSuccessors] at hm ⊢
    cases hn : rd h.nodes u with
    | error e => rw [hn, Res.bind_error] at hm; cases hm
    | ok n =>
      rw [hn, Res.bind_ok] at hm
      have hn' := rd_eq_ok_iff.1 hn
      rw [rd_of_getElem? (S.cells u hu n hn'), Res.bind_ok]
      dsimp only at hm ⊢
      rw [List.foldlM_map]
      have hc := S.closed u hu n hn'
      generalize m.set n.body.name [] = m at hm ⊢
      generalize n.arcs = l at hm hc ⊢
      induction l generalizing m with
      | nil => exact hm
      | cons a l ihl =>
        have hcl : ∀ b ∈ l, b.next ∈ N := fun b hb => hc b (List.mem_cons_of_mem _ hb)
        have ha := S.src_iff (hc a (List.mem_cons_self ..)) hs
        rw [List.foldlM_cons] at hm ⊢
        by_cases hsrc : some a.next = src
        · rw [if_neg (not_not.2 hsrc), Res.pure_eq, Res.bind_ok] at hm
          rw [if_neg (not_not.2 (ha.2 hsrc)), Res.pure_eq, Res.bind_ok]
          exact ihl m hm hcl
        · rw [if_pos hsrc] at hm
          rw [if_pos (fun e => hsrc (ha.1 e)), hJ]
          cases hmt : Graph.computeSuccessors h f a.next (some u)
              (m.set n.body.name ((m.find n.body.name).getD [] ++ [a.joint.name])) with
          | error e => rw [hmt, Res.bind_error] at hm; cases hm
          | ok m2 =>
            rw [hmt, Res.bind_ok] at hm
            have := ih f' a.next (some u) _ m2 (by omega) (hc a (List.mem_cons_self ..)) (by rintro w ⟨⟩; exact hu) hmt
            rw [Option.map_some] at this
            rw [this, Res.bind_ok]
            exact ihl m2 hm hcl

theorem Sim.computePredecessor (S : Sim h N φ J h') (hJ : ∀ j, (J j).name = j.name) (f : Nat) :
    ∀ (f' u : Nat) (src : Option Nat) (t : String) (m out : SMap String), f ≤ f' → u ∈ N →
      (∀ w ∈ src, w ∈ N) → Graph.computePredecessor h f u src t m = .ok out →
      Graph.computePredecessor h' f' (φ u) (src.map φ) t m = .ok out := by
  induction f with
  | zero => intro f' u src t m out _ _ _ hm; exact absurd hm (by simp [Graph.computePredecessor])
  | succ f ih =>
    intro f' u src t m out hf hu hs hm
    obtain ⟨f', rfl⟩ : ∃ k, f' = k + 1 := ⟨f' - 1, by omega⟩
    rw [Graph.computePredecessor] at hm ⊢
    cases hn : rd h.nodes u with
    | error e => rw [hn, Res.bind_error] at hm; cases hm
    | ok n =>
      rw [hn, Res.bind_ok] at hm
      have hn' := rd_eq_ok_iff.1 hn
      rw [rd_of_getElem? (S.cells u hu n hn'), Res.bind_ok]
      dsimp only at hm ⊢
      rw [List.foldlM_map]
      have hc := S.closed u hu n hn'
      generalize m.set n.body.name t = m at hm ⊢
      generalize n.arcs = l at hm hc ⊢
      induction l generalizing m with
      | nil => exact hm
      | cons a l ihl =>
        have hcl : ∀ b ∈ l, b.next ∈ N := fun b hb => hc b (List.mem_cons_of_mem _ hb)
        have ha := S.src_iff (hc a (List.mem_cons_self ..)) hs
        rw [List.foldlM_cons] at hm ⊢
        by_cases hsrc : some a.next = src
        · rw [if_neg (not_not.2 hsrc), Res.pure_eq, Res.bind_ok] at hm
          rw [if_neg (not_not.2 (ha.2 hsrc)), Res.pure_eq, Res.bind_ok]
          exact ihl m hm hcl
        · rw [if_pos hsrc] at hm
          rw [if_pos (fun e => hsrc (ha.1 e)), hJ]
          cases hmt : Graph.computePredecessor h f a.next (some u) a.joint.name m with
          | error e => rw [hmt, Res.bind_error] at hm; cases hm
          | ok m2 =>
            rw [hmt, Res.bind_ok] at hm
            have := ih f' a.next (some u) _ m m2 (by omega) (hc a (List.mem_cons_self ..)) (by rintro w ⟨⟩; exact hu) hmt
            rw [Option.map_some] at this
            rw [this, Res.bind_ok]
            exact ihl m2 hm hcl

end Graph
end RBDyn
