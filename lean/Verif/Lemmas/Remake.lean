import Verif.Lemmas.URDF
import Verif.Lemmas.GraphPlace

/-! The graph written from the vectors of a `MultiBody` gives the same vectors back. -/

namespace RBDyn
namespace Graph
variable {K : Type}

/-! ### Depth first order -/

/-- In the vector of predecessors, the entries `lo ≤ i < hi` are a sequence of subtrees in depth first order, the roots
of which have predecessor `p`. -/
inductive Kids (pred : List Int) : Int → Nat → Nat → Prop
  | nil (p : Int) (lo : Nat) : Kids pred p lo lo
  | cons {p : Int} {lo mid hi : Nat} : pred[lo]? = some p → Kids pred lo (lo + 1) mid → Kids pred p mid hi →
      Kids pred p lo hi

theorem Kids.le {pred : List Int} {p : Int} {lo hi : Nat} (k : Kids pred p lo hi) : lo ≤ hi := by
  induction k with
  | nil => exact le_rfl
  | cons _ _ _ ih1 ih2 => omega

theorem Kids.append {pred : List Int} {p : Int} {lo mid hi : Nat} (k1 : Kids pred p lo mid) (k2 : Kids pred p mid hi) :
    Kids pred p lo hi := by
  induction k1 with
  | nil => exact k2
  | cons h a _ _ ih => exact .cons h a (ih k2)

theorem Kids.mono {pred pred' : List Int} (h : pred <+: pred') {p : Int} {lo hi : Nat} (k : Kids pred p lo hi) :
    Kids pred' p lo hi := by
  induction k with
  | nil => exact .nil _ _
  | cons hp _ _ ih1 ih2 =>
    refine .cons ?_ ih1 ih2
    obtain ⟨t, rfl⟩ := h
    rw [List.getElem?_append_left (List.getElem?_eq_some_iff.1 hp).1, hp]

/-- Predecessors inside the segment. -/
theorem Kids.pred {pred : List Int} {p : Int} {lo hi : Nat} (k : Kids pred p lo hi) (j : Nat) (h1 : lo ≤ j) (h2 : j < hi) :
    ∃ v, pred[j]? = some v ∧ (v = p ∨ ((lo : Int) ≤ v ∧ v < j)) := by
  induction k with
  | nil => omega
  | @cons p lo mid hi hp a b iha ihb =>
    by_cases e : j = lo
    · subst e; exact ⟨p, hp, Or.inl rfl⟩
    · by_cases hm : j < mid
      · obtain ⟨v, hv, hc⟩ := iha (by omega) hm
        refine ⟨v, hv, Or.inr ?_⟩
        rcases hc with rfl | hc <;> omega
      · obtain ⟨v, hv, hc⟩ := ihb (by omega) h2
        refine ⟨v, hv, ?_⟩
        have := a.le
        rcases hc with rfl | hc
        · exact Or.inl rfl
        · right; omega

variable [Scalar K]

/-- The six vectors have the same length. -/
structure Same (st : TreeSt K) (n : Nat) : Prop where
  b : st.bodies.length = n
  j : st.joints.length = n
  p : st.pred.length = n
  s : st.succ.length = n
  par : st.parent.length = n
  X : st.Xt.length = n

/-- `makeTree` appends a subtree in depth first order. -/
theorem makeTree_kids (h : Heap K) (f : Nat) :
    ∀ (u : Nat) (src : Option Nat) (j : Joint K) (p s par : Int) (X Xb : PTransform K) (st st' : TreeSt K) (n : Nat),
      Same st n → makeTree h f u src j p s par X Xb st = .ok st' →
      ∃ n', Same st' n' ∧ st.pred <+: st'.pred ∧ n < n' ∧ st'.pred[n]? = some p ∧ Kids st'.pred n (n + 1) n' := by
  induction f with
  | zero => intro u src j p s par X Xb st st' n _ e; simp [makeTree] at e
  | succ f ih =>
    intro u src j p s par X Xb st st' n sm e
    rw [makeTree] at e
    obtain ⟨nd, hn, e⟩ := Res.bind_eq_ok.1 e
    dsimp only at e
    generalize hXF : xFrom nd src Xb = XF at e
    generalize hst : (TreeSt.mk (st.bodies ++ [⟨XF.dualMulI nd.body.inertia, nd.body.name⟩]) (st.joints ++ [j])
        (st.pred ++ [p]) (st.succ ++ [s]) (st.parent ++ [par]) (st.Xt ++ [X])) = st1 at e
    have hci : ((st.bodies ++ [(⟨XF.dualMulI nd.body.inertia, nd.body.name⟩ : Body K)]).length : Int) - 1 = n := by
      rw [List.length_append, sm.b]; simp
    rw [hci] at e
    have sm1 : Same st1 (n + 1) := by
      subst hst
      exact ⟨by simp [sm.b], by simp [sm.j], by simp [sm.p], by simp [sm.s], by simp [sm.par], by simp [sm.X]⟩
    have hp1 : st1.pred = st.pred ++ [p] := by subst hst; rfl
    have key : ∀ (l : List (Arc K)) (st2 st' : TreeSt K) (m : Nat), Same st2 m → st1.pred <+: st2.pred →
        n + 1 ≤ m → Kids st2.pred n (n + 1) m →
        l.foldlM (fun (st : TreeSt K) a =>
          if some a.next ≠ src then
            makeTree h f a.next (some u) a.joint n (st.bodies.length : Int) n (a.X * XF.inv) 1 st
          else pure st) st2 = .ok st' →
        ∃ n', Same st' n' ∧ st1.pred <+: st'.pred ∧ n + 1 ≤ n' ∧ Kids st'.pred n (n + 1) n' := by
      intro l
      induction l with
      | nil =>
        intro st2 st' m sm2 hpre hm k e
        obtain rfl : st2 = st' := by simpa using e
        exact ⟨m, sm2, hpre, hm, k⟩
      | cons a l ihl =>
        intro st2 st' m sm2 hpre hm k e
        rw [List.foldlM_cons] at e
        obtain ⟨st3, e1, e2⟩ := Res.bind_eq_ok.1 e
        by_cases hs : some a.next = src
        · rw [if_neg (not_not.2 hs)] at e1
          obtain rfl : st2 = st3 := by simpa using e1
          exact ihl _ _ _ sm2 hpre hm k e2
        · rw [if_pos hs] at e1
          obtain ⟨m', sm3, hpre3, hlt, hget, k3⟩ := ih _ _ _ _ _ _ _ _ _ _ m sm2 e1
          exact ihl _ _ m' sm3 (hpre.trans hpre3) (by omega) ((k.mono hpre3).append (.cons hget k3 (.nil _ _))) e2
    obtain ⟨n', sm', hpre, hle, k⟩ := key nd.arcs st1 st' (n + 1) sm1 (List.prefix_refl _) le_rfl (.nil _ _) e
    refine ⟨n', sm', ?_, by omega, ?_, k⟩
    · rw [hp1] at hpre
      exact (List.prefix_append _ _).trans hpre
    · obtain ⟨t, ht⟩ := hpre
      rw [← ht, hp1, List.append_assoc, List.getElem?_append_right (by rw [sm.p]), sm.p]
      simp

/-! ### From the vectors to the graph and back -/

/-- The first `k` entries of the vectors. -/
def TreeSt.upTo (st : TreeSt K) (k : Nat) : TreeSt K :=
  ⟨st.bodies.take k, st.joints.take k, st.pred.take k, st.succ.take k, st.parent.take k, st.Xt.take k⟩

/-- The links `es` are those between the bodies of the vectors `st`. -/
structure Links (st : TreeSt K) (es : List (Edge K)) (n : Nat) : Prop where
  same : Same st n
  pos : 0 < n
  succ : ∀ i : Nat, i < n → st.succ[i]? = some (i : Int)
  par : st.parent = st.pred
  root : st.pred[0]? = some (-1)
  kids : Kids st.pred 0 1 n
  elen : es.length + 1 = n
  edge : ∀ (t : Nat) (e : Edge K), es[t]? = some e → ∃ (p : Nat) (bp bc : Body K), p < t + 1 ∧
    st.pred[t + 1]? = some (p : Int) ∧ st.bodies[p]? = some bp ∧ st.bodies[t + 1]? = some bc ∧ e.parent = bp.name ∧
    e.child = bc.name ∧ st.Xt[t + 1]? = some e.X ∧ st.joints[t + 1]? = some e.j ∧ e.j.isForward = true ∧ e.j.Built

omit [Scalar K] in
theorem foldlM_shift {α σ : Type} (G : σ → α → Res σ) (G' : σ → Nat → Res σ) (l : List α) (a : Nat)
    (h : ∀ (t : Nat) (x : α) (s : σ), l[t]? = some x → G s x = G' s (a + t)) (s : σ) :
    l.foldlM G s = (List.range' a l.length).foldlM G' s := by
  induction l generalizing a s with
  | nil => rfl
  | cons x l ih =>
    rw [List.length_cons, List.range'_succ, List.foldlM_cons, List.foldlM_cons, h 0 x s rfl]
    congr 1
    funext s'
    exact ih (a + 1) (fun t y s hy => by rw [h (t + 1) y s (by simpa using hy)]; congr 1; omega) s'

omit [Scalar K] in
theorem foldlM_flatMap' {α β σ : Type} (G : σ → β → Res σ) (f : α → List β) (l : List α) (s : σ) :
    (l.flatMap f).foldlM G s = l.foldlM (fun s x => (f x).foldlM G s) s := by
  induction l generalizing s with
  | nil => rfl
  | cons x l ih =>
    rw [List.flatMap_cons, List.foldlM_append, List.foldlM_cons]
    congr 1
    funext s'
    exact ih s'

omit [Scalar K] in
theorem foldlM_pure {α σ : Type} (G : σ → α → Res σ) (l : List α) (s : σ) (h : ∀ x ∈ l, G s x = .ok s) :
    l.foldlM G s = .ok s := by
  induction l with
  | nil => rfl
  | cons x l ih =>
    rw [List.foldlM_cons, h x (by simp), Res.bind_ok]
    exact ih (fun y hy => h y (by simp [hy]))

theorem one_dualMulI (I : RBInertia K) : (1 : PTransform K).dualMulI I = I := by
  rw [PTransform.dualMulI_eq IsRigid.one, PTransform.inv_one, PTransform.one_transMulI]

/-- One step of the loop over the children of the body `i`. -/
def kidStep (h : Heap K) (f : Nat) (st : TreeSt K) (es : List (Edge K)) (i : Nat) (s : TreeSt K) (j : Nat) :
    Res (TreeSt K) :=
  match es[j - 1]? with
  | none => .ok s
  | some e =>
    if st.pred[j]? = some (i : Int) then
      makeTree h f j (some i) e.j i (s.bodies.length : Int) i e.X 1 s
    else .ok s

variable {st : TreeSt K} {es : List (Edge K)} {n : Nat} {s : GSt K}

theorem Assembled.posOf (A : Assembled st.bodies es s) {i : Nat} {b : Body K}
    (h : st.bodies[i]? = some b) : Graph.posOf st.bodies b.name = some i :=
  (posOf_eq_some_iff A.bnodup).2 ⟨b, h, rfl⟩

/-- The arcs of a node. -/
theorem Links.arcs (L : Links st es n) (A : Assembled st.bodies es s) (i : Nat) :
    ∀ (t : Nat) (e : Edge K), es[t]? = some e →
      ((if Graph.posOf st.bodies e.parent = some i then
          [mkArc e.X e.j e.j.isForward ((Graph.posOf st.bodies e.child).getD 0)] else []) ++
        (if Graph.posOf st.bodies e.child = some i then
          [mkArc 1 e.j (!e.j.isForward) ((Graph.posOf st.bodies e.parent).getD 0)] else []) : List (Arc K)) =
      (if st.pred[t + 1]? = some (i : Int) then [⟨e.X, e.j, t + 1⟩] else []) ++
        (if t + 1 = i then [⟨1, e.j.setForward false, ((st.pred[i]?).getD 0).toNat⟩] else []) := by
  intro t e he
  obtain ⟨p, bp, bc, hp, e1, e2, e3, e4, e5, e6, e7, e8, e9⟩ := L.edge t e he
  rw [e4, e5, A.posOf e2, A.posOf e3, e1]
  have hfw : e.j.setForward true = e.j := by
    have := e9.setForward_isForward
    rwa [e8] at this
  congr 1
  · by_cases c : p = i
    · simp [c, mkArc, e8, hfw]
    · simp [c]
  · by_cases c : t + 1 = i
    · subst c; simp [mkArc, e8, e1]
    · simp [c]

/-- The source of the body `i` in the visit. -/
def srcAt (st : TreeSt K) (i : Nat) : Option Nat :=
  if i = 0 then none else some ((st.pred[i]?).getD 0).toNat

theorem Links.pred_spec (L : Links st es n) {i : Nat} (h0 : 0 < i) (hi : i < n) :
    ∃ p : Nat, st.pred[i]? = some (p : Int) ∧ p < i := by
  obtain ⟨v, hv, hc⟩ := L.kids.pred i (by omega) hi
  refine ⟨v.toNat, ?_, ?_⟩
  · rw [hv]; congr 1; rcases hc with rfl | hc <;> omega
  · rcases hc with rfl | hc <;> omega

theorem Links.make_node (L : Links st es n) (A : Assembled st.bodies es s) (f i mid : Nat) (j : Joint K)
    (X : PTransform K) (p : Int) (hi : i < n) (him : i + 1 ≤ mid) (hm : mid ≤ n)
    (hj : st.joints[i]? = some j) (hX : st.Xt[i]? = some X) (hp : st.pred[i]? = some p)
    (hk : (List.range' (i + 1) (mid - (i + 1))).foldlM (kidStep s.1 f st es i) (st.upTo (i + 1)) = .ok (st.upTo mid))
    (hx : ∀ k, mid ≤ k → k < n → st.pred[k]? ≠ some (i : Int)) :
    makeTree s.1 (f + 1) i (srcAt st i) j p i p X 1 (st.upTo i) = .ok (st.upTo mid) := by
  obtain ⟨b, hb⟩ : ∃ b, st.bodies[i]? = some b :=
    ⟨_, List.getElem?_eq_getElem (by rw [L.same.b]; exact hi)⟩
  have hcell := A.cell i b hb
  rw [makeTree, rd_of_getElem? hcell, Res.bind_ok]
  dsimp only
  -- the source arc carries the identity
  have hflat : arcsAt st.bodies es i = es.zipIdx.flatMap (fun et =>
      (if st.pred[et.2 + 1]? = some (i : Int) then [⟨et.1.X, et.1.j, et.2 + 1⟩] else []) ++
        (if et.2 + 1 = i then [⟨1, et.1.j.setForward false, ((st.pred[i]?).getD 0).toNat⟩] else [])) := by
    unfold arcsAt
    rw [List.flatMap_def, List.flatMap_def]
    congr 1
    apply List.ext_getElem?
    intro t
    rw [List.getElem?_map, List.getElem?_map, List.getElem?_zipIdx]
    cases he : es[t]? with
    | none => rfl
    | some e =>
      simp only [Option.map_some, Nat.zero_add]
      rw [L.arcs A i t e he]
  have hXF : xFrom (⟨b, arcsAt st.bodies es i⟩ : GNode K) (srcAt st i) 1 = 1 := by
    unfold xFrom
    dsimp only
    cases hf : (arcsAt st.bodies es i).find? (fun a => some a.next == srcAt st i) with
    | none => rfl
    | some a =>
      have h1 := List.find?_some hf
      have h2 := List.mem_of_find?_eq_some hf
      dsimp only at h1 ⊢
      rw [hflat, List.mem_flatMap] at h2
      obtain ⟨⟨e, t⟩, he, h2⟩ := h2
      rw [List.mem_append] at h2
      rcases h2 with h2 | h2
      · dsimp only at h2
        split at h2
        · rename_i hpt
          obtain rfl := List.mem_singleton.1 h2
          exfalso
          have ht : t < n - 1 := by
            have := (List.mem_zipIdx he).2.1
            have := L.elen
            omega
          obtain ⟨q, hq, hlt⟩ := L.pred_spec (i := t + 1) (by omega) (by omega)
          rw [hq, Option.some_inj] at hpt
          unfold srcAt at h1
          split at h1
          · simp at h1
          · obtain ⟨q', hq', hlt'⟩ := L.pred_spec (i := i) (by omega) hi
            rw [hq'] at h1
            simp at h1
            omega
        · cases h2
      · dsimp only at h2
        split at h2
        · obtain rfl := List.mem_singleton.1 h2
          rfl
        · cases h2
  rw [hXF, one_dualMulI, PTransform.inv_one]
  have hlen : (st.upTo i).bodies.length = i := by
    unfold TreeSt.upTo; dsimp only; rw [List.length_take, L.same.b]; omega
  have hst1 : (⟨(st.upTo i).bodies ++ [⟨b.inertia, b.name⟩], (st.upTo i).joints ++ [j], (st.upTo i).pred ++ [p],
      (st.upTo i).succ ++ [(i : Int)], (st.upTo i).parent ++ [p], (st.upTo i).Xt ++ [X]⟩ : TreeSt K) =
      st.upTo (i + 1) := by
    unfold TreeSt.upTo
    dsimp only
    rw [List.take_add_one, List.take_add_one, List.take_add_one, List.take_add_one, List.take_add_one,
      List.take_add_one, hb, hj, hp, L.succ i hi, L.par, hp, hX]
    rfl
  rw [hst1]
  have hci : ((((st.upTo i).bodies ++ [(⟨b.inertia, b.name⟩ : Body K)]).length : Int)) - 1 = i := by
    rw [List.length_append, hlen]; simp
  rw [hci]
  have harc : ∀ (t : Nat) (x : Edge K) (s' : TreeSt K), es[t]? = some x →
      (((if Graph.posOf st.bodies x.parent = some i then
          [mkArc x.X x.j x.j.isForward ((Graph.posOf st.bodies x.child).getD 0)] else []) ++
        (if Graph.posOf st.bodies x.child = some i then
          [mkArc 1 x.j (!x.j.isForward) ((Graph.posOf st.bodies x.parent).getD 0)] else []) : List (Arc K)).foldlM
        (fun (st' : TreeSt K) a =>
          if some a.next ≠ srcAt st i then
            makeTree s.1 f a.next (some i) a.joint i (st'.bodies.length : Int) i (a.X * 1) 1 st'
          else pure st') s') = kidStep s.1 f st es i s' (1 + t) := by
    intro t e s' he
    rw [L.arcs A i t e he]
    have ht : t < n - 1 := by
      have := (List.getElem?_eq_some_iff.1 he).1
      have := L.elen
      omega
    obtain ⟨q, hq, hlt⟩ := L.pred_spec (i := t + 1) (by omega) (by omega)
    unfold kidStep
    rw [show 1 + t - 1 = t by omega, show 1 + t = t + 1 by omega, he]
    dsimp only
    have hX1 : e.X * 1 = e.X := mul_one _
    by_cases c1 : st.pred[t + 1]? = some (i : Int)
    · have hqi : q = i := by
        rw [hq, Option.some_inj] at c1; omega
      rw [if_pos c1, if_pos c1, if_neg (by omega), List.append_nil, List.foldlM_cons]
      dsimp only
      rw [if_pos ?_]
      · simp only [hX1, List.foldlM_nil]
        exact bind_pure _
      · unfold srcAt
        split
        · simp
        · obtain ⟨q', hq', hlt'⟩ := L.pred_spec (i := i) (by omega) hi
          rw [hq']
          simp
          omega
    · rw [if_neg c1, if_neg c1]
      by_cases c2 : t + 1 = i
      · rw [if_pos c2]
        simp [srcAt, ← c2]
      · rw [if_neg c2]; rfl
  unfold arcsAt
  rw [foldlM_flatMap', foldlM_shift _ _ es 1 harc]
  have hsplit : List.range' 1 es.length =
      List.range' 1 i ++ (List.range' (i + 1) (mid - (i + 1)) ++ List.range' mid (n - mid)) := by
    have e1 : List.range' 1 i ++ List.range' (1 + i) (es.length - i) = List.range' 1 es.length := by
      rw [List.range'_append_1]; congr 1; have := L.elen; omega
    have e2 : List.range' (i + 1) (mid - (i + 1)) ++ List.range' (i + 1 + (mid - (i + 1))) (n - mid) =
        List.range' (i + 1) (es.length - i) := by
      rw [List.range'_append_1]; congr 1; have := L.elen; omega
    rw [show i + 1 + (mid - (i + 1)) = mid by omega] at e2
    rw [← e1, e2, Nat.add_comm 1 i]
  have hlow : (List.range' 1 i).foldlM (kidStep s.1 f st es i) (st.upTo (i + 1)) = .ok (st.upTo (i + 1)) := by
    refine foldlM_pure _ _ _ ?_
    intro k hk'
    rw [List.mem_range'_1] at hk'
    obtain ⟨q, hq, hlt⟩ := L.pred_spec (i := k) (by omega) (by omega)
    unfold kidStep
    cases es[k - 1]? with
    | none => rfl
    | some e =>
      refine if_neg ?_
      rw [hq, Option.some_inj]
      omega
  have hhigh : (List.range' mid (n - mid)).foldlM (kidStep s.1 f st es i) (st.upTo mid) = .ok (st.upTo mid) := by
    refine foldlM_pure _ _ _ ?_
    intro k hk'
    rw [List.mem_range'_1] at hk'
    unfold kidStep
    cases es[k - 1]? with
    | none => rfl
    | some e => exact if_neg (hx k (by omega) (by omega))
  rw [hsplit, List.foldlM_append, hlow, Res.bind_ok, List.foldlM_append, hk, Res.bind_ok, hhigh]

/-- The loop over the children of a body. -/
theorem Links.make_kids (L : Links st es n) (A : Assembled st.bodies es s) {p : Int} {lo hi : Nat}
    (k : Kids st.pred p lo hi) : ∀ (i f : Nat), p = i → i < lo → hi ≤ n → hi - lo ≤ f →
      (∀ m, hi ≤ m → m < n → ∀ v, st.pred[m]? = some v → v < lo ∨ (hi : Int) ≤ v) →
      (List.range' lo (hi - lo)).foldlM (kidStep s.1 f st es i) (st.upTo lo) = .ok (st.upTo hi) := by
  induction k with
  | nil p lo => intro i f _ _ _ _ _; simp
  | @cons p lo mid hi hp k1 k2 ih1 ih2 =>
    intro i f hpi hil hhn hf hctx
    subst hpi
    have h1 := k1.le
    have h2 := k2.le
    obtain ⟨f, rfl⟩ : ∃ f', f = f' + 1 := ⟨f - 1, by omega⟩
    have hctx1 : ∀ m, mid ≤ m → m < n → ∀ v, st.pred[m]? = some v → v < (lo : Int) ∨ (mid : Int) ≤ v := by
      intro m hm hmn v hv
      by_cases c : m < hi
      · obtain ⟨w, hw, hc⟩ := k2.pred m hm c
        rw [hv, Option.some_inj] at hw
        subst hw
        rcases hc with rfl | hc <;> omega
      · rcases hctx m (by omega) hmn v hv with h | h <;> omega
    have hr : List.range' lo (hi - lo) = lo :: (List.range' (lo + 1) (mid - (lo + 1)) ++ List.range' mid (hi - mid)) := by
      have e : List.range' (lo + 1) (mid - (lo + 1)) ++ List.range' (lo + 1 + (mid - (lo + 1))) (hi - mid) =
          List.range' (lo + 1) (hi - lo - 1) := by
        rw [List.range'_append_1]; congr 1; omega
      rw [show lo + 1 + (mid - (lo + 1)) = mid by omega] at e
      rw [e, show hi - lo = (hi - lo - 1) + 1 by omega, List.range'_succ]
      simp
    obtain ⟨e, he⟩ : ∃ e, es[lo - 1]? = some e :=
      ⟨_, List.getElem?_eq_getElem (by have := L.elen; omega)⟩
    obtain ⟨q, bp, bc, hq, e1, e2, e3, e4, e5, e6, e7, e8, e9⟩ := L.edge _ e he
    rw [show lo - 1 + 1 = lo by omega] at e1 e3 e6 e7
    have hstep : kidStep s.1 (f + 1) st es i (st.upTo lo) lo = .ok (st.upTo mid) := by
      unfold kidStep
      rw [he]
      dsimp only
      rw [if_pos hp]
      have hlen : (st.upTo lo).bodies.length = lo := by
        unfold TreeSt.upTo; dsimp only; rw [List.length_take, L.same.b]; omega
      rw [hlen]
      have hsrc : some i = srcAt st lo := by
        unfold srcAt
        rw [if_neg (by omega), hp]
        simp
      rw [hsrc]
      refine L.make_node A f lo mid e.j e.X i (by omega) h1 (by omega) e7 e6 hp ?_ ?_
      · refine ih1 lo f rfl (by omega) (by omega) (by omega) ?_
        intro m hm hmn v hv
        rcases hctx1 m hm hmn v hv with h | h
        · left; push_cast; omega
        · right; exact h
      · intro m hm hmn hv
        rcases hctx1 m hm hmn _ hv with h | h <;> omega
    rw [hr, List.foldlM_cons, hstep, Res.bind_ok, List.foldlM_append, foldlM_pure, Res.bind_ok]
    · refine ih2 i (f + 1) rfl (by omega) hhn (by omega) ?_
      intro m hm hmn v hv
      rcases hctx m hm hmn v hv with h | h
      · left; omega
      · right; exact h
    · intro m hm
      rw [List.mem_range'_1] at hm
      obtain ⟨w, hw, hc⟩ := k1.pred m (by omega) (by omega)
      unfold kidStep
      cases es[m - 1]? with
      | none => rfl
      | some e =>
        refine if_neg ?_
        rw [hw, Option.some_inj]
        rcases hc with rfl | hc <;> omega

/-- The graph with the links of the vectors gives the vectors. -/
theorem Links.make (L : Links st es n) (A : Assembled st.bodies es s) {j : Joint K} {X : PTransform K}
    (hj : st.joints[0]? = some j) (hX : st.Xt[0]? = some X) :
    makeTree s.1 s.1.fuel 0 none j (-1) 0 (-1) X 1 ⟨[], [], [], [], [], []⟩ = .ok st := by
  have hfull : st.upTo n = st := by
    unfold TreeSt.upTo
    rw [List.take_of_length_le L.same.b.le, List.take_of_length_le L.same.j.le, List.take_of_length_le L.same.p.le,
      List.take_of_length_le L.same.s.le, List.take_of_length_le L.same.par.le, List.take_of_length_le L.same.X.le]
  have hfuel : ∃ f, s.1.fuel = f + 1 ∧ n - 1 ≤ f := by
    have := A.len
    have := L.same.b
    have : s.1.nodes.length + 1 ≤ s.1.fuel := Nat.le_mul_of_pos_right _ (by omega)
    exact ⟨s.1.fuel - 1, by omega, by omega⟩
  obtain ⟨f, hf, hle⟩ := hfuel
  rw [hf]
  have := L.make_node A f 0 n j X (-1) L.pos L.pos le_rfl hj hX L.root
    (L.make_kids A L.kids 0 f rfl (by omega) le_rfl hle (by intro m h1 h2; omega))
    (by intro m h1 h2; omega)
  rw [hfull] at this
  exact this

end Graph
end RBDyn
