import Verif.Lemmas.GraphIso
import Mathlib.GroupTheory.GroupAction.MultipleTransitivity

/-! Graphs with the same bodies and links, whatever the order of their vectors. -/

namespace RBDyn
variable {K : Type}

namespace Graph

/-- What an arc says, with the name of the body it leads to instead of its address. -/
def named (h : Heap K) (a : Arc K) : PTransform K × Joint K × Option String :=
  (a.X, a.joint, (h.nodes[a.next]?).map fun n => n.body.name)

/-- Two graphs have the same bodies, and the same links at each body; the order of the bodies and of the links of a body may differ. -/
structure SameParts (h : Heap K) (g : Graph) (h' : Heap K) (g' : Graph) : Prop where
  rootName : g'.rootName = g.rootName
  body : ∀ x ∈ g.nodes, ∀ n, h.nodes[x]? = some n → ∃ y ∈ g'.nodes, ∃ n', h'.nodes[y]? = some n' ∧ n'.body = n.body ∧
    (n'.arcs.map (named h')).Perm (n.arcs.map (named h))
  back : ∀ y ∈ g'.nodes, ∀ n', h'.nodes[y]? = some n' → ∃ x ∈ g.nodes, ∃ n, h.nodes[x]? = some n ∧ n.body.name = n'.body.name
  joints : ∀ t p, g.jointMap.find t = some p → ∃ p', g'.jointMap.find t = some p'

/-- The node `x` of the first graph is the node `φ x` of the second. -/
structure PartIso (h : Heap K) (g : Graph) (φ : Nat → Nat) (h' : Heap K) (g' : Graph) : Prop where
  inv : Inv h' g'
  mem : ∀ x ∈ g.nodes, φ x ∈ g'.nodes
  inj : ∀ x ∈ g.nodes, ∀ y ∈ g.nodes, φ x = φ y → x = y
  surj : ∀ y ∈ g'.nodes, ∃ x ∈ g.nodes, φ x = y
  body : ∀ x ∈ g.nodes, ∀ n, h.nodes[x]? = some n → ∃ n', h'.nodes[φ x]? = some n' ∧ n'.body = n.body ∧
    n'.arcs.Perm (n.arcs.map fun a => ⟨a.X, a.joint, φ a.next⟩)
  joints : ∀ t p, g.jointMap.find t = some p → ∃ p', g'.jointMap.find t = some p'
  rootName : g'.rootName = g.rootName

variable {h h' : Heap K} {g g' : Graph} {φ : Nat → Nat}

theorem SameParts.iso (S : SameParts h g h' g') (I : Inv h g) (I' : Inv h' g') : ∃ φ, PartIso h g φ h' g' := by
  have hφ : ∀ x, ∃ y, x ∈ g.nodes → ∀ n, h.nodes[x]? = some n → g'.bodyMap.find n.body.name = some y := by
    intro x
    by_cases hx : x ∈ g.nodes
    · obtain ⟨n, hn⟩ := I.nodes_get x hx
      obtain ⟨y, hy, n', hn', e, -⟩ := S.body x hx n hn
      refine ⟨y, fun _ m hm => ?_⟩
      obtain rfl := Option.some_inj.1 (hn.symm.trans hm)
      exact (I'.body _ _).2 ⟨hy, n', hn', by rw [e]⟩
    · exact ⟨0, fun hx' => absurd hx' hx⟩
  choose φ hφ using hφ
  have hφ' : ∀ x ∈ g.nodes, ∀ n, h.nodes[x]? = some n → φ x ∈ g'.nodes ∧ ∃ n', h'.nodes[φ x]? = some n' ∧ n'.body = n.body ∧
      (n'.arcs.map (named h')).Perm (n.arcs.map (named h)) := by
    intro x hx n hn
    obtain ⟨y, hy, n', hn', e, hp⟩ := S.body x hx n hn
    have e1 := hφ x hx n hn
    rw [(I'.body n.body.name y).2 ⟨hy, n', hn', by rw [e]⟩, Option.some_inj] at e1
    subst e1
    exact ⟨hy, n', hn', e, hp⟩
  refine ⟨φ, I', ?_, ?_, ?_, ?_, S.joints, S.rootName⟩
  · intro x hx
    obtain ⟨n, hn⟩ := I.nodes_get x hx
    exact (hφ' x hx n hn).1
  · intro x hx y hy e
    obtain ⟨n, hn⟩ := I.nodes_get x hx
    obtain ⟨m, hm⟩ := I.nodes_get y hy
    obtain ⟨-, n', hn', e1, -⟩ := hφ' x hx n hn
    obtain ⟨-, m', hm', e2, -⟩ := hφ' y hy m hm
    rw [e, hm', Option.some_inj] at hn'
    subst hn'
    exact I.name_inj hx hy hn hm (by rw [← e1, ← e2])
  · intro y hy
    obtain ⟨n', hn'⟩ := I'.nodes_get y hy
    obtain ⟨x, hx, n, hn, e⟩ := S.back y hy n' hn'
    obtain ⟨hm, m', hm', e', -⟩ := hφ' x hx n hn
    exact ⟨x, hx, I'.name_inj hm hy hm' hn' (by rw [e', e])⟩
  · intro x hx n hn
    obtain ⟨hm, n', hn', e, hp⟩ := hφ' x hx n hn
    refine ⟨n', hn', e, ?_⟩
    let toArc : PTransform K × Joint K × Option String → Arc K := fun t => ⟨t.1, t.2.1, (t.2.2.bind fun s => g'.bodyMap.find s).getD 0⟩
    have h1 : (n'.arcs.map (named h')).map toArc = n'.arcs := by
      rw [List.map_map]
      conv_rhs => rw [← List.map_id n'.arcs]
      refine List.map_congr_left fun a ha => ?_
      have hn := I'.arcs _ hm n' hn' a ha
      obtain ⟨m, hm⟩ := I'.nodes_get _ hn
      simp only [toArc, named, Function.comp_apply, hm, Option.map_some, Option.bind_some, (I'.body _ _).2 ⟨hn, m, hm, rfl⟩, Option.getD_some, id]
    have h2 : (n.arcs.map (named h)).map toArc = n.arcs.map fun a => ⟨a.X, a.joint, φ a.next⟩ := by
      rw [List.map_map]
      refine List.map_congr_left fun a ha => ?_
      have hn := I.arcs _ hx n hn a ha
      obtain ⟨m, hm⟩ := I.nodes_get _ hn
      simp only [toArc, named, Function.comp_apply, hm, Option.map_some, Option.bind_some, hφ _ hn m hm, Option.getD_some]
    rw [← h1, ← h2]
    exact hp.map toArc

theorem PartIso.link (S : PartIso h g φ h' g') {u : Nat} {a : Arc K} (hl : Link h g u a) : Link h' g' (φ u) ⟨a.X, a.joint, φ a.next⟩ := by
  obtain ⟨hu, n, hn, ha⟩ := hl
  obtain ⟨n', hn', -, hp⟩ := S.body u hu n hn
  exact ⟨S.mem u hu, n', hn', hp.mem_iff.2 (List.mem_map.2 ⟨a, ha, rfl⟩)⟩

theorem PartIso.link_inv (S : PartIso h g φ h' g') (I : Inv h g) {v : Nat} {b : Arc K} (hl : Link h' g' v b) :
    ∃ u a, Link h g u a ∧ v = φ u ∧ b = ⟨a.X, a.joint, φ a.next⟩ := by
  obtain ⟨hv, m, hm, hb⟩ := hl
  obtain ⟨u, hu, rfl⟩ := S.surj v hv
  obtain ⟨n, hn⟩ := I.nodes_get u hu
  obtain ⟨n', hn', -, hp⟩ := S.body u hu n hn
  obtain rfl := Option.some_inj.1 (hn'.symm.trans hm)
  obtain ⟨a, ha, rfl⟩ := List.mem_map.1 (hp.mem_iff.1 hb)
  exact ⟨u, a, ⟨hu, n, hn, ha⟩, rfl, rfl⟩

theorem PartIso.adj (S : PartIso h g φ h' g') (I : Inv h g) {x y : Nat} (e : (simple h' g').Adj x y) :
    ∃ u v, x = φ u ∧ y = φ v ∧ u ∈ g.nodes ∧ v ∈ g.nodes ∧ (simple h g).Adj u v := by
  obtain ⟨hne, ⟨b, hl, e⟩ | ⟨b, hl, e⟩⟩ := e
  · obtain ⟨u, a, ha, rfl, rfl⟩ := S.link_inv I hl
    subst e
    exact ⟨u, a.next, rfl, rfl, ha.mem, I.link_next ha, fun e => hne (by rw [e]), .inl ⟨a, ha, rfl⟩⟩
  · obtain ⟨u, a, ha, rfl, rfl⟩ := S.link_inv I hl
    subst e
    exact ⟨a.next, u, rfl, rfl, I.link_next ha, ha.mem, fun e => hne (by rw [e]), .inr ⟨a, ha, rfl⟩⟩

theorem PartIso.adj_map (S : PartIso h g φ h' g') (I : Inv h g) {u v : Nat} (e : (simple h g).Adj u v) : (simple h' g').Adj (φ u) (φ v) := by
  have hm := I.adj_mem e
  refine ⟨fun e' => e.1 (S.inj u hm.1 v hm.2 e'), ?_⟩
  rcases e.2 with ⟨a, ha, rfl⟩ | ⟨a, ha, rfl⟩
  · exact .inl ⟨_, S.link ha, rfl⟩
  · exact .inr ⟨_, S.link ha, rfl⟩

/-- An injective function on a list of numbers agrees with a permutation of all numbers. -/
theorem exists_perm {l : List Nat} (hl : l.Nodup) {f : Nat → Nat} (hf : ∀ x ∈ l, ∀ y ∈ l, f x = f y → x = y) :
    ∃ e : Equiv.Perm Nat, ∀ x ∈ l, e x = f x := by
  let a : Fin l.length ↪ Nat := ⟨fun i => l[i], fun i j e => Fin.ext ((List.Nodup.getElem_inj_iff hl).1 e)⟩
  let b : Fin l.length ↪ Nat := ⟨fun i => f l[i], fun i j e => Fin.ext ((List.Nodup.getElem_inj_iff hl).1
    (hf _ (List.getElem_mem _) _ (List.getElem_mem _) e))⟩
  have := Equiv.Perm.isMultiplyPretransitive Nat l.length
  obtain ⟨e, he⟩ := this.exists_smul_eq a b
  refine ⟨e, fun x hx => ?_⟩
  obtain ⟨i, hi, rfl⟩ := List.getElem_of_mem hx
  exact DFunLike.congr_fun he ⟨i, hi⟩

theorem PartIso.acyclic (S : PartIso h g φ h' g') (I : Inv h g) (ac : (simple h g).IsAcyclic) : (simple h' g').IsAcyclic := by
  obtain ⟨e, he⟩ := exists_perm I.nodes_nodup S.inj
  refine ac.comap (⟨e.symm, ?_⟩ : simple h' g' →g simple h g) e.symm.injective
  intro x y hxy
  obtain ⟨u, v, rfl, rfl, hu, hv, hadj⟩ := S.adj I hxy
  rw [← he u hu, ← he v hv, e.symm_apply_apply, e.symm_apply_apply]
  exact hadj

section
variable [Scalar K]

theorem PartIso.forest (S : PartIso h g φ h' g') (F : Forest h g) : Forest h' g' where
  toInv := S.inv
  acyclic := S.acyclic F.toInv F.acyclic
  noLoop := by
    intro v b hl e
    obtain ⟨u, a, ha, rfl, rfl⟩ := S.link_inv F.toInv hl
    exact F.noLoop u a ha (S.inj _ (F.link_next ha) _ ha.mem e)
  single := by
    intro v hv m hm
    obtain ⟨u, hu, rfl⟩ := S.surj v hv
    obtain ⟨n, hn⟩ := F.nodes_get u hu
    obtain ⟨n', hn', -, hp⟩ := S.body u hu n hn
    obtain rfl := Option.some_inj.1 (hn'.symm.trans hm)
    have := F.single u hu n hn
    rw [(hp.map Arc.next).nodup_iff, List.map_map]
    have e : (Arc.next ∘ fun a : Arc K => (⟨a.X, a.joint, φ a.next⟩ : Arc K)) = φ ∘ Arc.next := rfl
    rw [e, ← List.map_map]
    refine List.Nodup.map_on ?_ this
    intro x hx y hy e
    obtain ⟨a, ha, rfl⟩ := List.mem_map.1 hx
    obtain ⟨b, hb, rfl⟩ := List.mem_map.1 hy
    exact S.inj _ (F.arcs u hu n hn a ha) _ (F.arcs u hu n hn b hb) e
  paired := by
    intro v b hl
    obtain ⟨u, a, ha, rfl, rfl⟩ := S.link_inv F.toInv hl
    obtain ⟨c, hc, e, j, d, ea, ec⟩ := F.paired u a ha
    exact ⟨_, S.link hc, by rw [← e], j, d, ea, ec⟩
  registered := by
    intro v b hl
    obtain ⟨u, a, ha, rfl, rfl⟩ := S.link_inv F.toInv hl
    obtain ⟨p, hp⟩ := F.registered u a ha
    exact S.joints _ p hp
  jointOnce := by
    intro v w b c hb hc e
    obtain ⟨u, a, ha, rfl, rfl⟩ := S.link_inv F.toInv hb
    obtain ⟨u', a', ha', rfl, rfl⟩ := S.link_inv F.toInv hc
    rcases F.jointOnce u u' a a' ha ha' e with ⟨rfl, rfl⟩ | ⟨rfl, rfl⟩
    · exact .inl ⟨rfl, rfl⟩
    · exact .inr ⟨rfl, rfl⟩

theorem PartIso.tree (S : PartIso h g φ h' g') (T : Tree h g) : Tree h' g' where
  toForest := S.forest T.toForest
  connected := by
    intro x hx y hy
    obtain ⟨u, hu, rfl⟩ := S.surj x hx
    obtain ⟨v, hv, rfl⟩ := S.surj y hy
    exact (T.connected u hu v hv).map (⟨φ, fun e => S.adj_map T.toInv e⟩ : simple h g →g simple h' g')

theorem PartIso.builtArcs (S : PartIso h g φ h' g') (I : Inv h g) (hB : BuiltArcs h g) : BuiltArcs h' g' := by
  intro v b hl
  obtain ⟨u, a, ha, rfl, rfl⟩ := S.link_inv I hl
  exact hB u a ha

/-- The parents correspond. -/
theorem PartIso.par {r : Nat} {d par d' par' : Nat → Nat} (S : PartIso h g φ h' g') (I : Inv h g) (R : Rooted h g r d par)
    (R' : Rooted h' g' (φ r) d' par') : ∀ x ∈ g.nodes, x ≠ r → par' (φ x) = φ (par x) := by
  intro x hx
  induction hd : d x using Nat.strong_induction_on generalizing x with
  | _ k ih =>
    intro hr
    obtain ⟨a, ha, e, he⟩ := R.up x hx hr
    have hp : par x ∈ g.nodes := e ▸ I.link_next ha
    rcases R'.step _ _ (S.link ha) with ⟨-, h2, h3⟩ | ⟨-, h2, -⟩
    · exfalso
      simp only [e] at h2 h3
      have hpr : par x ≠ r := fun e' => h3 (by rw [e'])
      have h4 := ih (d (par x)) (by omega) (par x) hp rfl hpr
      obtain ⟨b, hb, e', he'⟩ := R.up _ hp hpr
      have hpp : par (par x) ∈ g.nodes := e' ▸ I.link_next hb
      have := S.inj _ hpp _ hx (h4.symm.trans h2)
      rw [this] at he'
      omega
    · simp only [e] at h2
      exact h2

end

end Graph

end RBDyn
