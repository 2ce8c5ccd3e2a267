import Mathlib.Order.Monotone.Basic
import Mathlib.Data.Finset.Card
import Mathlib.Data.Finset.Prod
import Verif.Lemmas.GraphDfs
import Verif.Lemmas.GraphMake

/-! The traversals of arbitrary graphs: they end exactly when no walk that never turns back can go on for ever. -/

namespace RBDyn
variable {K : Type}

namespace Graph

/-- From the node `u`, reached from `src`, one can go on along `n` arcs without ever going straight back. -/
def CanStep (h : Heap K) : Nat → Nat → Option Nat → Prop
  | 0, _, _ => True
  | n + 1, u, src => ∃ nd a, h.nodes[u]? = some nd ∧ a ∈ nd.arcs ∧ some a.next ≠ src ∧ CanStep h n a.next (some u)

variable {h : Heap K} {g : Graph}

theorem CanStep.pred {n u : Nat} {src : Option Nat} (c : CanStep h (n + 1) u src) : CanStep h n u src := by
  induction n generalizing u src with
  | zero => trivial
  | succ n ih =>
    obtain ⟨nd, a, h1, h2, h3, h4⟩ := c
    exact ⟨nd, a, h1, h2, h3, ih h4⟩

theorem CanStep.mono {n m u : Nat} {src : Option Nat} (hm : n ≤ m) (c : CanStep h m u src) : CanStep h n u src := by
  induction hm with
  | refl => exact c
  | step _ ih => exact ih c.pred

/-- A loop in which every call either runs out of fuel whatever the state or returns whatever the state. -/
theorem foldlM_ends {σ α : Type} {f : σ → α → Res σ} {P : α → Prop} (l : List α)
    (h1 : ∀ a ∈ l, P a → ∀ s, f s a = .error .diverges) (h2 : ∀ a ∈ l, ¬ P a → ∀ s, ∃ s', f s a = .ok s') (s : σ) :
    ((∃ a ∈ l, P a) → l.foldlM f s = .error .diverges) ∧ ((∀ a ∈ l, ¬ P a) → ∃ s', l.foldlM f s = .ok s') := by
  induction l generalizing s with
  | nil => exact ⟨by simp, fun _ => ⟨s, rfl⟩⟩
  | cons x l ih =>
    have ih' := fun s => ih (fun a ha => h1 a (List.mem_cons_of_mem _ ha)) (fun a ha => h2 a (List.mem_cons_of_mem _ ha)) s
    constructor
    · rintro ⟨a, ha, hp⟩
      rw [List.foldlM_cons]
      by_cases hx : P x
      · rw [h1 x List.mem_cons_self hx, Res.bind_error]
      · obtain ⟨s', e⟩ := h2 x List.mem_cons_self hx s
        rw [e, Res.bind_ok]
        refine (ih' s').1 ⟨a, ?_, hp⟩
        rcases List.mem_cons.1 ha with rfl | ha
        · exact absurd hp hx
        · exact ha
    · intro hn
      rw [List.foldlM_cons]
      obtain ⟨s', e⟩ := h2 x List.mem_cons_self (hn x List.mem_cons_self) s
      rw [e, Res.bind_ok]
      exact (ih' s').2 fun a ha => hn a (List.mem_cons_of_mem _ ha)

/-- The common step of the traversals. -/
private theorem ends_step {σ : Type} {f u : Nat} {src : Option Nat} (I : Inv h g) (hu : u ∈ g.nodes) {n : GNode K}
    (hn : h.nodes[u]? = some n) {F : σ → Arc K → Res σ}
    (h1 : ∀ a : Arc K, a.next ∈ g.nodes → some a.next ≠ src → CanStep h f a.next (some u) → ∀ s, F s a = .error .diverges)
    (h2 : ∀ a : Arc K, a.next ∈ g.nodes → some a.next ≠ src → ¬ CanStep h f a.next (some u) → ∀ s, ∃ s', F s a = .ok s')
    (h3 : ∀ a : Arc K, ¬ some a.next ≠ src → ∀ s, F s a = .ok s) (s : σ) :
    (CanStep h (f + 1) u src → n.arcs.foldlM F s = .error .diverges) ∧
    (¬ CanStep h (f + 1) u src → ∃ s', n.arcs.foldlM F s = .ok s') := by
  have hnext := I.arcs u hu n hn
  have := foldlM_ends (f := F) (P := fun a => some a.next ≠ src ∧ CanStep h f a.next (some u)) n.arcs
    (fun a ha hp s => h1 a (hnext a ha) hp.1 hp.2 s)
    (fun a ha hp s => by
      by_cases e : some a.next ≠ src
      · exact h2 a (hnext a ha) e (fun hc => hp ⟨e, hc⟩) s
      · exact ⟨s, h3 a e s⟩) s
  refine ⟨?_, fun hc => this.2 fun a ha hp => hc ⟨n, a, hn, ha, hp.1, hp.2⟩⟩
  rintro ⟨nd, a, e1, e2, e3, e4⟩
  rw [hn] at e1
  obtain rfl := Option.some_inj.1 e1
  exact this.1 ⟨a, e2, e3, e4⟩

section
variable [Scalar K]

theorem makeTree_ends (I : Inv h g) (f : Nat) {u : Nat} (hu : u ∈ g.nodes) (src : Option Nat) (j : Joint K) (p s par : Int)
    (Xti Xb : PTransform K) (st : TreeSt K) :
    (CanStep h f u src → makeTree h f u src j p s par Xti Xb st = .error .diverges) ∧
    (¬ CanStep h f u src → ∃ st', makeTree h f u src j p s par Xti Xb st = .ok st') := by
  induction f generalizing u src j p s par Xti Xb st with
  | zero => exact ⟨fun _ => rfl, fun hc => absurd trivial hc⟩
  | succ f ih =>
    obtain ⟨n, hn⟩ := I.nodes_get u hu
    rw [makeTree, rd_of_getElem? hn, Res.bind_ok]
    exact ends_step I hu hn (fun a ha e hc st => by rw [if_pos e]; exact (ih ha ..).1 hc)
      (fun a ha e hc st => by rw [if_pos e]; exact (ih ha ..).2 hc) (fun a e st => by rw [if_neg e]; rfl) _

theorem computeTransform_ends (I : Inv h g) (f : Nat) {u : Nat} (hu : u ∈ g.nodes) (src : Option Nat) (Xb : PTransform K)
    (m : SMap (PTransform K)) :
    (CanStep h f u src → computeTransform h f u src Xb m = .error .diverges) ∧
    (¬ CanStep h f u src → ∃ m', computeTransform h f u src Xb m = .ok m') := by
  induction f generalizing u src Xb m with
  | zero => exact ⟨fun _ => rfl, fun hc => absurd trivial hc⟩
  | succ f ih =>
    obtain ⟨n, hn⟩ := I.nodes_get u hu
    rw [computeTransform, rd_of_getElem? hn, Res.bind_ok]
    exact ends_step I hu hn (fun a ha e hc st => by rw [if_pos e]; exact (ih ha ..).1 hc)
      (fun a ha e hc st => by rw [if_pos e]; exact (ih ha ..).2 hc) (fun a e st => by rw [if_neg e]; rfl) _

end

theorem computeSuccessors_ends (I : Inv h g) (f : Nat) {u : Nat} (hu : u ∈ g.nodes) (src : Option Nat)
    (m : SMap (List String)) :
    (CanStep h f u src → computeSuccessors h f u src m = .error .diverges) ∧
    (¬ CanStep h f u src → ∃ m', computeSuccessors h f u src m = .ok m') := by
  induction f generalizing u src m with
  | zero => exact ⟨fun _ => rfl, fun hc => absurd trivial hc⟩
  | succ f ih =>
    obtain ⟨n, hn⟩ := I.nodes_get u hu
    rw [computeSuccessors, rd_of_getElem? hn, Res.bind_ok]
    exact ends_step I hu hn (fun a ha e hc st => by rw [if_pos e]; exact (ih ha ..).1 hc)
      (fun a ha e hc st => by rw [if_pos e]; exact (ih ha ..).2 hc) (fun a e st => by rw [if_neg e]; rfl) _

theorem computePredecessor_ends (I : Inv h g) (f : Nat) {u : Nat} (hu : u ∈ g.nodes) (src : Option Nat) (s : String)
    (m : SMap String) :
    (CanStep h f u src → computePredecessor h f u src s m = .error .diverges) ∧
    (¬ CanStep h f u src → ∃ m', computePredecessor h f u src s m = .ok m') := by
  induction f generalizing u src s m with
  | zero => exact ⟨fun _ => rfl, fun hc => absurd trivial hc⟩
  | succ f ih =>
    obtain ⟨n, hn⟩ := I.nodes_get u hu
    rw [computePredecessor, rd_of_getElem? hn, Res.bind_ok]
    exact ends_step I hu hn (fun a ha e hc st => by rw [if_pos e]; exact (ih ha ..).1 hc)
      (fun a ha e hc st => by rw [if_pos e]; exact (ih ha ..).2 hc) (fun a e st => by rw [if_neg e]; rfl) _

/-! ### The fuel is enough -/

open Classical in
/-- The states from which one cannot go on along `n` arcs. -/
private noncomputable def stuck (h : Heap K) (g : Graph) (n : Nat) : Finset (Nat × Nat) :=
  (g.nodes.toFinset ×ˢ g.nodes.toFinset).filter fun s => ¬ CanStep h n s.1 (some s.2)

private theorem mem_stuck {n u v : Nat} :
    (u, v) ∈ stuck h g n ↔ (u ∈ g.nodes ∧ v ∈ g.nodes) ∧ ¬ CanStep h n u (some v) := by
  simp [stuck]

private theorem stuck_mono {n m : Nat} (hm : n ≤ m) : stuck h g n ⊆ stuck h g m := by
  rintro ⟨u, v⟩ hs
  rw [mem_stuck] at hs ⊢
  exact ⟨hs.1, fun hc => hs.2 (hc.mono hm)⟩

/-- Walks of a length that exceeds the number of states go on for ever. -/
theorem Inv.canStep_stable (I : Inv h g) {n m u : Nat} {src : Option Nat} (hu : u ∈ g.nodes)
    (hn : g.nodes.length * g.nodes.length + 1 ≤ n) (c : CanStep h n u src) : CanStep h m u src := by
  classical
  have card : ∀ k, (stuck h g k).card ≤ g.nodes.length * g.nodes.length := by
    intro k
    refine (Finset.card_filter_le _ _).trans ?_
    rw [Finset.card_product]
    exact Nat.mul_le_mul (List.toFinset_card_le _) (List.toFinset_card_le _)
  have eqs : ∀ k, (stuck h g k).card = (stuck h g (k + 1)).card → stuck h g k = stuck h g (k + 1) := fun k e =>
    Finset.eq_of_subset_of_card_le (stuck_mono (by omega)) (by omega)
  have stab : ∀ k, g.nodes.length * g.nodes.length ≤ k →
      (stuck h g k).card = (stuck h g (g.nodes.length * g.nodes.length)).card := by
    intro k hk
    refine Nat.stabilises_of_monotone (f := fun k => (stuck h g k).card)
      (fun a b hab => Finset.card_le_card (stuck_mono hab)) card ?_ hk
    intro k e
    have e' := eqs k e
    congr 1
    ext ⟨u, v⟩
    rw [mem_stuck, mem_stuck]
    refine and_congr_right fun hm => not_congr ?_
    constructor
    · rintro ⟨nd, a, h1, h2, h3, h4⟩
      refine ⟨nd, a, h1, h2, h3, ?_⟩
      by_contra hc
      have : (a.next, u) ∈ stuck h g (k + 1) := mem_stuck.2 ⟨⟨I.arcs u hm.1 nd h1 a h2, hm.1⟩, hc⟩
      rw [← e', mem_stuck] at this
      exact this.2 h4
    · exact CanStep.pred
  have all : ∀ k u v, u ∈ g.nodes → v ∈ g.nodes → CanStep h (g.nodes.length * g.nodes.length) u (some v) →
      CanStep h k u (some v) := by
    intro k u v hu hv c
    rcases Nat.le_total k (g.nodes.length * g.nodes.length) with hk | hk
    · exact c.mono hk
    · by_contra hc
      have hs : (u, v) ∈ stuck h g k := mem_stuck.2 ⟨⟨hu, hv⟩, hc⟩
      rw [← Finset.eq_of_subset_of_card_le (stuck_mono hk) (stab k hk).le, mem_stuck] at hs
      exact hs.2 c
  cases m with
  | zero => trivial
  | succ m =>
    obtain ⟨nd, a, h1, h2, h3, h4⟩ := c.mono hn
    exact ⟨nd, a, h1, h2, h3, all m _ _ (I.arcs u hu nd h1 a h2) hu h4⟩

theorem Inv.length_le (I : Inv h g) : g.nodes.length ≤ h.nodes.length := by
  classical
  have : g.nodes.toFinset ⊆ Finset.range h.nodes.length := fun p hp =>
    Finset.mem_range.2 (I.node_lt (List.mem_toFinset.1 hp))
  have := Finset.card_le_card this
  rwa [List.toFinset_card_of_nodup I.nodes_nodup, Finset.card_range] at this

/-- The fuel of the model runs out only if the recursion has no end. -/
theorem Inv.canStep_fuel (I : Inv h g) {u : Nat} {src : Option Nat} (hu : u ∈ g.nodes) (m : Nat)
    (c : CanStep h h.fuel u src) : CanStep h m u src := by
  refine I.canStep_stable hu ?_ c
  have := I.length_le
  unfold Heap.fuel
  nlinarith [Nat.mul_le_mul this this]

end Graph
end RBDyn
