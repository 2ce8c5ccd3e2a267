import Verif.Lemmas.GraphParts
import Verif.Props.Renumber
import Verif.Props.Graph
import Verif.Props.GraphMake
import Verif.Props.GraphDyn

/-! Property C84: the order in which the parts of a graph are added only changes the numbers of the bodies. -/

namespace RBDyn
open Graph

variable {K : Type} [Scalar K]

/-! ### The numbers of the bodies of two graphs with the same parts -/

section
variable {h h' : Heap K} {g g' : Graph} {φ : Nat → Nat} {r : Nat} {d par d' par' : Nat → Nat} {J : Joint K} {X0 Xb : PTransform K}

theorem Graph.PartIso.xf_eq (S : PartIso h g φ h' g') (F : Forest h g) (F' : Forest h' g') (R : Rooted h g r d par)
    (R' : Rooted h' g' (φ r) d' par') (Xb : PTransform K) {x : Nat} (hx : x ∈ g.nodes) :
    xf h' (φ r) par' Xb (φ x) = xf h r par Xb x := by
  by_cases hr : x = r
  · rw [hr, xf_root, xf_root]
  · obtain ⟨a, ha, e, -⟩ := R.up x hx hr
    rw [F.xf_arc ha e hr, F'.xf_arc (S.link ha) (by rw [S.par F.toInv R R' x hx hr, e]) (fun e' => hr (S.inj _ hx _ R.mem e'))]

theorem Graph.PartIso.renumbered (S : PartIso h g φ h' g') (F : Forest h g) (F' : Forest h' g') (R : Rooted h g r d par)
    (R' : Rooted h' g' (φ r) d' par') {N N' : List Nat} (hN : N.Perm g.nodes) (hN' : N'.Perm g'.nodes) {mb mb' : MultiBody K}
    (tr : TreeRel h g r par J X0 Xb N (stOf mb)) (tr' : TreeRel h' g' (φ r) par' J X0 Xb N' (stOf mb')) :
    Renumbered (fun i => N'.idxOf (φ (N.getD i 0))) mb mb' := by
  have nd : N.Nodup := hN.nodup_iff.2 F.nodes_nodup
  have nd' : N'.Nodup := hN'.nodup_iff.2 F'.nodes_nodup
  have hlen : g'.nodes.length = g.nodes.length := by
    have e : (g.nodes.map φ).Perm g'.nodes := by
      refine (List.perm_ext_iff_of_nodup (List.Nodup.map_on (fun x hx y hy e => S.inj x hx y hy e) F.nodes_nodup) F'.nodes_nodup).2 fun y => ?_
      constructor
      · intro hy
        obtain ⟨x, hx, rfl⟩ := List.mem_map.1 hy
        exact S.mem x hx
      · intro hy
        obtain ⟨x, hx, rfl⟩ := S.surj y hy
        exact List.mem_map.2 ⟨x, hx, rfl⟩
    rw [← e.length_eq, List.length_map]
  have hb : mb.bodies.length = N.length := tr.nbodies
  have hb' : mb'.bodies.length = N'.length := tr'.nbodies
  have hl : N'.length = N.length := by rw [hN.length_eq, hN'.length_eq, hlen]
  have hget : ∀ i, i < mb.bodies.length → ∃ x, N[i]? = some x ∧ N.getD i 0 = x ∧ x ∈ g.nodes ∧ N'[N'.idxOf (φ x)]? = some (φ x) ∧
      N'.idxOf (φ x) < mb.bodies.length := by
    intro i hi
    rw [hb] at hi
    have hx : N[i] ∈ g.nodes := hN.mem_iff.1 (List.getElem_mem hi)
    have hm : φ N[i] ∈ N' := hN'.mem_iff.2 (S.mem _ hx)
    have hlt := List.idxOf_lt_length_of_mem hm
    exact ⟨N[i], List.getElem?_eq_getElem hi, by simp [List.getD, hi], hx, by
      rw [List.getElem?_eq_getElem hlt, List.getElem_idxOf], by omega⟩
  have harc : ∀ x, x ∈ g.nodes → x ≠ r → ∀ a a', Link h g (par x) a → a.next = x → Link h' g' (par' (φ x)) a' → a'.next = φ x →
      a'.joint = a.joint ∧ a'.X = a.X := by
    intro x hx hr a a' ha e ha' e'
    rw [S.par F.toInv R R' x hx hr] at ha'
    have := F'.arc_unique ha' (S.link ha) (by rw [e', e])
    rw [this]
    exact ⟨rfl, rfl⟩
  have hφr : ∀ x, x ∈ g.nodes → x ≠ r → φ x ≠ φ r := fun x hx hr e => hr (S.inj _ hx _ R.mem e)
  have hpm : ∀ x, x ∈ g.nodes → x ≠ r → par x ∈ g.nodes := by
    intro x hx hr
    obtain ⟨a, ha, e, -⟩ := R.up x hx hr
    exact e ▸ F.link_next ha
  refine ⟨by omega, ?_, ?_, ?_, ?_, ?_, ?_⟩
  · intro i hi
    obtain ⟨x, -, e, -, -, h2⟩ := hget i hi
    rw [e]; exact h2
  · intro i j hi hj e
    obtain ⟨x, h1, e1, hx, h2, -⟩ := hget i hi
    obtain ⟨y, h3, e2, hy, h4, -⟩ := hget j hj
    simp only [e1, e2] at e
    rw [e, h4, Option.some_inj] at h2
    have := S.inj _ hy _ hx h2
    subst this
    exact (List.getElem?_inj (hb ▸ hi) nd).1 (h1.trans h3.symm)
  · intro i hi
    obtain ⟨x, h1, e, hx, h2, -⟩ := hget i hi
    simp only [e]
    obtain ⟨n, hn, hbn⟩ := (tr.entry i x h1).body
    obtain ⟨n', hn', hbn'⟩ := (tr'.entry _ _ h2).body
    obtain ⟨m, hm, e2, -⟩ := S.body x hx n hn
    obtain rfl := Option.some_inj.1 (hm.symm.trans hn')
    rw [e2, S.xf_eq F F' R R' Xb hx] at hbn'
    exact hbn'.trans hbn.symm
  · intro i hi
    obtain ⟨x, h1, e, hx, h2, -⟩ := hget i hi
    simp only [e]
    by_cases hr : x = r
    · exact ((tr'.entry _ _ h2).root (by rw [hr])).2.1.trans ((tr.entry i x h1).root hr).2.1.symm
    · obtain ⟨k, a, -, -, ha, ea, ej, -⟩ := (tr.entry i x h1).child hr
      obtain ⟨k', a', -, -, ha', ea', ej', -⟩ := (tr'.entry _ _ h2).child (hφr x hx hr)
      refine ej'.trans (Eq.trans ?_ ej.symm)
      rw [(harc x hx hr a a' ha ea ha' ea').1]
  · intro i hi
    obtain ⟨x, h1, e, hx, h2, -⟩ := hget i hi
    simp only [e]
    by_cases hr : x = r
    · exact ((tr'.entry _ _ h2).root (by rw [hr])).2.2.2.2.trans ((tr.entry i x h1).root hr).2.2.2.2.symm
    · obtain ⟨k, a, -, -, ha, ea, -, -, -, eX⟩ := (tr.entry i x h1).child hr
      obtain ⟨k', a', -, -, ha', ea', -, -, -, eX'⟩ := (tr'.entry _ _ h2).child (hφr x hx hr)
      refine eX'.trans (Eq.trans ?_ eX.symm)
      rw [(harc x hx hr a a' ha ea ha' ea').2, S.par F.toInv R R' x hx hr, S.xf_eq F F' R R' Xb (hpm x hx hr)]
  · intro i hi
    obtain ⟨x, h1, e, hx, h2, -⟩ := hget i hi
    simp only [e]
    by_cases hr : x = r
    · have e1 : mb.pred[i]? = some (-1) := ((tr.entry i x h1).root hr).2.2.1
      have e2 : mb'.pred[N'.idxOf (φ x)]? = some (-1) := ((tr'.entry _ _ h2).root (by rw [hr])).2.2.1
      unfold MultiBody.par
      rw [e1, e2]
      rfl
    · obtain ⟨k, a, hk, -, -, -, -, ep, -⟩ := (tr.entry i x h1).child hr
      obtain ⟨k', a', hk', -, -, -, -, ep', -⟩ := (tr'.entry _ _ h2).child (hφr x hx hr)
      have e1 : mb.pred[i]? = some (k : Int) := ep
      have e2 : mb'.pred[N'.idxOf (φ x)]? = some (k' : Int) := ep'
      rw [S.par F.toInv R R' x hx hr] at hk'
      have hkl : k < N.length := (List.getElem?_eq_some_iff.1 hk).1
      have ek : N.getD k 0 = par x := by simp [List.getD, hk]
      have ek' : k' = N'.idxOf (φ (par x)) := by
        obtain ⟨hk1, hk2⟩ := List.getElem?_eq_some_iff.1 hk'
        rw [← hk2, List.Nodup.idxOf_getElem nd']
      unfold MultiBody.par
      rw [e1, e2]
      simp only [Int.not_ofNat_neg, if_false, Int.toNat_natCast, Option.map_some, ek, ek']

end

/-- C84: if two graphs have the same bodies and links, and the first is a tree, then `makeMultiBody` with the same root makes the same robot from
both up to the numbers of the bodies. -/
theorem C84_same_parts {h h' : Heap K} {g g' : Graph} (S : SameParts h g h' g') (T : Tree h g) (hB : BuiltArcs h g) (I' : Inv h' g') {root : String}
    {r : Nat} (hr : g.nodeByName root = .ok r) (t : JointType) (axis : Vec3 K) (X0 Xb : PTransform K) :
    ∃ mb mb' σ, makeMultiBody h g root t axis X0 Xb = .ok mb ∧ makeMultiBody h' g' root t axis X0 Xb = .ok mb' ∧ mb.WF ∧ mb'.WF ∧
      Renumbered σ mb mb' := by
  obtain ⟨φ, P⟩ := S.iso T.toInv I'
  have T' := P.tree T
  have hr' : g.bodyMap.find root = some r := by
    unfold nodeByName SMap.getAt at hr
    split at hr <;> simp_all
  obtain ⟨hrm, n, hn, e⟩ := (T.body _ _).1 hr'
  obtain ⟨n', hn', e', -⟩ := P.body r hrm n hn
  have hr2 : g'.bodyMap.find root = some (φ r) := (I'.body _ _).2 ⟨P.mem r hrm, n', hn', by rw [e', e]⟩
  obtain ⟨d, par, R⟩ := T.rooted hrm
  obtain ⟨d', par', R'⟩ := T'.rooted (P.mem r hrm)
  obtain ⟨mb, e1, wf, -, tr⟩ := R.makeMultiBody T.toForest hB hr' t axis X0 Xb
  obtain ⟨mb', e2, wf', -, tr'⟩ := R'.makeMultiBody T'.toForest (P.builtArcs T.toInv hB) hr2 t axis X0 Xb
  rw [P.rootName] at tr'
  exact ⟨mb, mb', _, e1, e2, wf, wf', P.renumbered T.toForest T'.toForest R R' (R.dfs_perm T.toForest T.nodes_length_le_fuel)
    (R'.dfs_perm T'.toForest T'.nodes_length_le_fuel) tr tr'⟩

/-! ### The parts of a graph built by some calls -/

/-- A sequence of calls; it stops at the first exception. -/
def runAll : List (BuildOp K) → GM K Unit
  | [] => pure ()
  | op :: ops => do
    op.run
    runAll ops

/-- `look` knows the joints of the calls. -/
def LookOK (look : String → Option (Joint K)) (ops : List (BuildOp K)) : Prop := ∀ j, BuildOp.joint j ∈ ops → look j.name = some j

/-- The arcs that a call adds to the body `name`. -/
def arcsOf (look : String → Option (Joint K)) (name : String) : BuildOp K → List (PTransform K × Joint K × Option String)
  | .link b1 t1 b2 t2 jn dir =>
    match look jn with
    | some j =>
      let f := if dir then j.isForward else !j.isForward
      (if b1 = name then [(t1, j.setForward f, some b2)] else []) ++ (if b2 = name then [(t2, j.setForward (!f), some b1)] else [])
    | none => []
  | _ => []

/-- The state after the calls `done`, none of which threw. -/
structure PartsInv (rootName : String) (done : List (BuildOp K)) (s : GSt K) : Prop where
  inv : Inv s.1 s.2
  rootName : s.2.rootName = rootName
  node : ∀ x ∈ s.2.nodes, ∀ n, s.1.nodes[x]? = some n → BuildOp.body n.body ∈ done
  arcs : ∀ look, LookOK look done → ∀ x ∈ s.2.nodes, ∀ n, s.1.nodes[x]? = some n →
    n.arcs.map (named s.1) = done.flatMap (arcsOf look n.body.name)
  body : ∀ b, BuildOp.body b ∈ done → ∃ x ∈ s.2.nodes, ∃ n, s.1.nodes[x]? = some n ∧ n.body = b
  jnt : ∀ p ∈ s.2.joints, ∀ j, s.1.joints[p]? = some j → BuildOp.joint j ∈ done
  joint : ∀ j, BuildOp.joint j ∈ done → ∃ p ∈ s.2.joints, s.1.joints[p]? = some j
  links : ∀ b1 t1 b2 t2 jn dir, BuildOp.link b1 t1 b2 t2 jn dir ∈ done → (∃ p, s.2.bodyMap.find b1 = some p) ∧ ∃ p, s.2.bodyMap.find b2 = some p

theorem PartsInv.empty (h : Heap K) (rootName : String) : PartsInv rootName [] (h, Graph.empty rootName) where
  inv := Inv.empty h rootName
  rootName := rfl
  node := by simp [Graph.empty]
  arcs := by simp [Graph.empty]
  body := by simp
  jnt := by simp [Graph.empty]
  joint := by simp
  links := by simp

theorem LookOK.left {look : String → Option (Joint K)} {a b : List (BuildOp K)} (h : LookOK look (a ++ b)) : LookOK look a :=
  fun j hj => h j (List.mem_append_left _ hj)

/-- A body without links has none. -/
theorem PartsInv.noArcs {rootName : String} {done : List (BuildOp K)} {s : GSt K} (P : PartsInv rootName done s) {name : String}
    (hn : s.2.bodyMap.find name = none) (look : String → Option (Joint K)) : done.flatMap (arcsOf look name) = [] := by
  rw [List.flatMap_eq_nil_iff]
  intro op hop
  cases op with
  | body b => rfl
  | joint j => rfl
  | link b1 t1 b2 t2 jn dir =>
    obtain ⟨⟨p1, h1⟩, p2, h2⟩ := P.links _ _ _ _ _ _ hop
    have n1 : b1 ≠ name := by rintro rfl; rw [hn] at h1; cases h1
    have n2 : b2 ≠ name := by rintro rfl; rw [hn] at h2; cases h2
    simp only [arcsOf]
    cases look jn with
    | none => rfl
    | some j => simp [n1, n2]

theorem PartsInv.addBody {rootName : String} {done : List (BuildOp K)} {s : GSt K} (P : PartsInv rootName done s) {b : Body K}
    (hb : s.2.bodyMap.find b.name = none) : PartsInv rootName (done ++ [.body b]) (addBodySt b s) := by
  obtain ⟨h, g⟩ := s
  have I := P.inv
  have hfresh : h.nodes.length ∉ g.nodes := fun hm => absurd (I.node_lt hm) (Nat.lt_irrefl _)
  have hget : ∀ p ∈ g.nodes, (h.nodes ++ [⟨b, []⟩])[p]? = h.nodes[p]? := fun p hp => by
    rw [getElem?_append_one, if_neg (by rintro rfl; exact hfresh hp)]
  have hlast : (h.nodes ++ [(⟨b, []⟩ : GNode K)])[h.nodes.length]? = some ⟨b, []⟩ := by rw [getElem?_append_one, if_pos rfl]
  refine ⟨I.addBody hb, P.rootName, ?_, ?_, ?_, ?_, ?_, ?_⟩ <;> dsimp only [addBodySt]
  · intro x hx n hn
    rw [List.mem_append, List.mem_singleton] at hx
    rcases hx with hx | rfl
    · rw [hget x hx] at hn
      exact List.mem_append_left _ (P.node x hx n hn)
    · rw [hlast, Option.some_inj] at hn
      subst hn
      simp
  · intro look hl x hx n hn
    rw [List.flatMap_append]
    rw [List.mem_append, List.mem_singleton] at hx
    rcases hx with hx | rfl
    · rw [hget x hx] at hn
      rw [← P.arcs look hl.left x hx n hn]
      simp only [List.flatMap_cons, List.flatMap_nil, arcsOf, List.append_nil]
      refine List.map_congr_left fun a ha => ?_
      simp only [named, hget _ (I.arcs x hx n hn a ha)]
    · rw [hlast, Option.some_inj] at hn
      subst hn
      rw [P.noArcs hb look]
      rfl
  · intro b' hb'
    rw [List.mem_append, List.mem_singleton] at hb'
    rcases hb' with hb' | e
    · obtain ⟨x, hx, n, hn, e⟩ := P.body b' hb'
      exact ⟨x, List.mem_append_left _ hx, n, by rw [hget x hx]; exact hn, e⟩
    · cases e
      exact ⟨_, List.mem_append_right _ (List.mem_singleton_self _), _, hlast, rfl⟩
  · intro p hp j hj
    exact List.mem_append_left _ (P.jnt p hp j hj)
  · intro j hj
    rw [List.mem_append, List.mem_singleton] at hj
    rcases hj with hj | e
    · exact P.joint j hj
    · cases e
  · intro b1 t1 b2 t2 jn dir hm
    rw [List.mem_append, List.mem_singleton] at hm
    rcases hm with hm | e
    · obtain ⟨⟨p1, h1⟩, p2, h2⟩ := P.links _ _ _ _ _ _ hm
      have key : ∀ (t : String) (p : Nat), g.bodyMap.find t = some p → ∃ p', (g.bodyMap.set b.name h.nodes.length).find t = some p' := by
        intro t p hp
        rw [SMap.find_set]
        split
        · exact ⟨_, rfl⟩
        · exact ⟨p, hp⟩
      exact ⟨key _ _ h1, key _ _ h2⟩
    · cases e

theorem PartsInv.addJoint {rootName : String} {done : List (BuildOp K)} {s : GSt K} (P : PartsInv rootName done s) {j : Joint K}
    (hb : s.2.jointMap.find j.name = none) : PartsInv rootName (done ++ [.joint j]) (addJointSt j s) := by
  obtain ⟨h, g⟩ := s
  have I := P.inv
  have hfresh : h.joints.length ∉ g.joints := fun hm => absurd (I.joint_lt hm) (Nat.lt_irrefl _)
  have hget : ∀ p ∈ g.joints, (h.joints ++ [j])[p]? = h.joints[p]? := fun p hp => by
    rw [getElem?_append_one, if_neg (by rintro rfl; exact hfresh hp)]
  have hlast : (h.joints ++ [j])[h.joints.length]? = some j := by rw [getElem?_append_one, if_pos rfl]
  refine ⟨I.addJoint hb, P.rootName, ?_, ?_, ?_, ?_, ?_, ?_⟩ <;> dsimp only [addJointSt]
  · intro x hx n hn
    exact List.mem_append_left _ (P.node x hx n hn)
  · intro look hl x hx n hn
    rw [List.flatMap_append, ← P.arcs look hl.left x hx n hn]
    simp only [List.flatMap_cons, List.flatMap_nil, arcsOf, List.append_nil]
    rfl
  · intro b' hb'
    rw [List.mem_append, List.mem_singleton] at hb'
    rcases hb' with hb' | e
    · exact P.body b' hb'
    · cases e
  · intro p hp i hi
    rw [List.mem_append, List.mem_singleton] at hp
    rcases hp with hp | rfl
    · rw [hget p hp] at hi
      exact List.mem_append_left _ (P.jnt p hp i hi)
    · rw [hlast, Option.some_inj] at hi
      subst hi
      simp
  · intro i hi
    rw [List.mem_append, List.mem_singleton] at hi
    rcases hi with hi | e
    · obtain ⟨p, hp, e⟩ := P.joint i hi
      exact ⟨p, List.mem_append_left _ hp, by rw [hget p hp]; exact e⟩
    · cases e
      exact ⟨_, List.mem_append_right _ (List.mem_singleton_self _), hlast⟩
  · intro b1 t1 b2 t2 jn dir hm
    rw [List.mem_append, List.mem_singleton] at hm
    rcases hm with hm | e
    · exact P.links _ _ _ _ _ _ hm
    · cases e

theorem PartsInv.link {rootName : String} {done : List (BuildOp K)} {h : Heap K} {g : Graph} (P : PartsInv rootName done (h, g)) {b1 b2 jn : String}
    {t1 t2 : PTransform K} {dir : Bool} {h' : Heap K} (e : linkHeap h g b1 t1 b2 t2 jn dir = .ok h') :
    PartsInv rootName (done ++ [.link b1 t1 b2 t2 jn dir]) (h', g) := by
  have I : Inv h g := P.inv
  have hnone : ¬ (g.bodyMap.find b1 = none ∨ g.bodyMap.find b2 = none ∨ g.jointMap.find jn = none) := by
    intro hu
    rw [linkHeap_unknown hu] at e
    cases e
  simp only [not_or, ← ne_eq, Option.ne_none_iff_exists'] at hnone
  obtain ⟨⟨p1, h1⟩, ⟨p2, h2⟩, pj, h3⟩ := hnone
  obtain ⟨hp1, n1, hn1, en1⟩ := (I.body _ _).1 h1
  obtain ⟨hp2, n2, hn2, en2⟩ := (I.body _ _).1 h2
  obtain ⟨hpj, j, hj, ej⟩ := (I.joint _ _).1 h3
  obtain ⟨h'', hok, hI, hjs, hlen, hoth, hdiff, hsame⟩ := linkHeap_known I h1 h2 h3 hn1 hn2 hj t1 t2 dir
  rw [e] at hok
  cases hok
  -- every node keeps its body and gets the arcs of the call
  have hlinkname : ∀ x ∈ g.nodes, ∀ n, h.nodes[x]? = some n → (n.body.name = b1 ↔ x = p1) ∧ (n.body.name = b2 ↔ x = p2) := by
    intro x hx n hn
    refine ⟨⟨fun e => I.name_inj hx hp1 hn hn1 (by rw [e, en1]), ?_⟩, ⟨fun e => I.name_inj hx hp2 hn hn2 (by rw [e, en2]), ?_⟩⟩
    · rintro rfl
      rw [hn, Option.some_inj] at hn1
      rw [hn1, en1]
    · rintro rfl
      rw [hn, Option.some_inj] at hn2
      rw [hn2, en2]
  have hnew : ∀ x ∈ g.nodes, ∀ n, h.nodes[x]? = some n → h'.nodes[x]? = some { n with arcs := n.arcs ++
      ((if x = p1 then [(linkArcs j p1 p2 t1 t2 dir).1] else []) ++ (if x = p2 then [(linkArcs j p1 p2 t1 t2 dir).2] else [])) } := by
    intro x hx n hn
    by_cases x1 : x = p1
    · subst x1
      rw [hn, Option.some_inj] at hn1
      subst hn1
      by_cases x2 : x = p2
      · subst x2
        simpa using hsame rfl
      · simpa [x2] using (hdiff x2).1
    · by_cases x2 : x = p2
      · subst x2
        rw [hn, Option.some_inj] at hn2
        subst hn2
        simpa [x1] using (hdiff (Ne.symm x1)).2
      · simpa [x1, x2] using (hoth x x1 x2).trans hn
  have hname : ∀ x ∈ g.nodes, (h'.nodes[x]?).map (fun n => n.body.name) = (h.nodes[x]?).map fun n => n.body.name := by
    intro x hx
    obtain ⟨n, hn⟩ := I.nodes_get x hx
    rw [hnew x hx n hn, hn]
    rfl
  refine ⟨hI, P.rootName, ?_, ?_, ?_, ?_, ?_, ?_⟩ <;> dsimp only
  · intro x hx n' hn'
    obtain ⟨n, hn⟩ := I.nodes_get x hx
    rw [hnew x hx n hn, Option.some_inj] at hn'
    subst hn'
    exact List.mem_append_left _ (P.node x hx n hn)
  · intro look hl x hx n' hn'
    obtain ⟨n, hn⟩ := I.nodes_get x hx
    rw [hnew x hx n hn, Option.some_inj] at hn'
    subst hn'
    have hlj : look jn = some j := by rw [← ej]; exact hl.left j (P.jnt pj hpj j hj)
    obtain ⟨i1, i2⟩ := hlinkname x hx n hn
    have m1 : named h' (linkArcs j p1 p2 t1 t2 dir).1 = (t1, j.setForward (if dir then j.isForward else !j.isForward), some b2) := by
      simp only [named, linkArcs, hname p2 hp2, hn2, Option.map_some, en2]
    have m2 : named h' (linkArcs j p1 p2 t1 t2 dir).2 = (t2, j.setForward (!(if dir then j.isForward else !j.isForward)), some b1) := by
      simp only [named, linkArcs, hname p1 hp1, hn1, Option.map_some, en1]
    have e1 : n.arcs.map (named h') = n.arcs.map (named h) := by
      refine List.map_congr_left fun a ha => ?_
      simp only [named, hname _ (I.arcs x hx n hn a ha)]
    rw [List.flatMap_append, ← P.arcs look hl.left x hx n hn]
    simp only [List.flatMap_cons, List.flatMap_nil, List.append_nil, List.map_append, e1]
    congr 1
    simp only [arcsOf, hlj]
    congr 1
    · by_cases x1 : x = p1
      · rw [if_pos x1, if_pos (i1.2 x1).symm, List.map_cons, List.map_nil, m1]
      · rw [if_neg x1, if_neg (fun e => x1 (i1.1 e.symm)), List.map_nil]
    · by_cases x2 : x = p2
      · rw [if_pos x2, if_pos (i2.2 x2).symm, List.map_cons, List.map_nil, m2]
      · rw [if_neg x2, if_neg (fun e => x2 (i2.1 e.symm)), List.map_nil]
  · intro b' hb'
    rw [List.mem_append, List.mem_singleton] at hb'
    rcases hb' with hb' | e
    · obtain ⟨x, hx, n, hn, e⟩ := P.body b' hb'
      exact ⟨x, hx, _, hnew x hx n hn, e⟩
    · cases e
  · intro p hp i hi
    rw [hjs] at hi
    exact List.mem_append_left _ (P.jnt p hp i hi)
  · intro i hi
    rw [List.mem_append, List.mem_singleton] at hi
    rcases hi with hi | e
    · obtain ⟨p, hp, e⟩ := P.joint i hi
      exact ⟨p, hp, by rw [hjs]; exact e⟩
    · cases e
  · intro c1 u1 c2 u2 kn kdir hm
    rw [List.mem_append, List.mem_singleton] at hm
    rcases hm with hm | e
    · exact P.links _ _ _ _ _ _ hm
    · cases e
      exact ⟨⟨p1, h1⟩, p2, h2⟩

theorem PartsInv.run {rootName : String} {done : List (BuildOp K)} {s s' : GSt K} (P : PartsInv rootName done s) {op : BuildOp K}
    (e : op.run s = .ok () s') : PartsInv rootName (done ++ [op]) s' := by
  cases op with
  | body b =>
    cases hb : s.2.bodyMap.find b.name with
    | some p =>
      have : Graph.addBody b s = .error .domainError s := addBody_some (by rw [hb]; rfl)
      rw [BuildOp.run, this] at e
      cases e
    | none =>
      rw [BuildOp.run, addBody_none hb] at e
      cases e
      exact P.addBody hb
  | joint j =>
    cases hb : s.2.jointMap.find j.name with
    | some p =>
      have : Graph.addJoint j s = .error .domainError s := addJoint_some (by rw [hb]; rfl)
      rw [BuildOp.run, this] at e
      cases e
    | none =>
      rw [BuildOp.run, addJoint_none hb] at e
      cases e
      exact P.addJoint hb
  | link b1 t1 b2 t2 jn dir =>
    cases hk : linkHeap s.1 s.2 b1 t1 b2 t2 jn dir with
    | error er =>
      rw [BuildOp.run, linkBodies_error hk] at e
      cases e
    | ok h' =>
      rw [BuildOp.run, linkBodies_ok hk] at e
      cases e
      exact PartsInv.link P hk

theorem PartsInv.runAll {rootName : String} {ops done : List (BuildOp K)} {s s' : GSt K} (P : PartsInv rootName done s)
    (e : RBDyn.runAll ops s = .ok () s') : PartsInv rootName (done ++ ops) s' := by
  induction ops generalizing done s with
  | nil =>
    cases e
    rwa [List.append_nil]
  | cons op ops ih =>
    simp only [RBDyn.runAll, bind, EStateM.bind] at e
    cases ho : op.run s with
    | error er s1 => rw [ho] at e; cases e
    | ok u s1 =>
      rw [ho] at e
      have := ih (P.run ho) e
      rwa [List.append_assoc] at this

/-- C84: two sequences of the same calls, none of which throws, build graphs with the same bodies and links, whatever the order of the calls. -/
theorem C84_call_order {h h' : Heap K} {rootName : String} {ops ops' : List (BuildOp K)} (hp : ops.Perm ops') {s s' : GSt K}
    (e : runAll ops (h, Graph.empty rootName) = .ok () s) (e' : runAll ops' (h', Graph.empty rootName) = .ok () s') :
    SameParts s.1 s.2 s'.1 s'.2 ∧ Inv s.1 s.2 ∧ Inv s'.1 s'.2 := by
  have P : PartsInv rootName ops s := by simpa using (PartsInv.empty h rootName).runAll e
  have P' : PartsInv rootName ops' s' := by simpa using (PartsInv.empty h' rootName).runAll e'
  obtain ⟨look, hlook⟩ : ∃ look, LookOK look ops := by
    classical
    refine ⟨fun t => if hj : ∃ j, BuildOp.joint j ∈ ops ∧ j.name = t then some hj.choose else none, fun j hj => ?_⟩
    have hex : ∃ i, BuildOp.joint i ∈ ops ∧ i.name = j.name := ⟨j, hj, rfl⟩
    refine (dif_pos hex).trans ?_
    obtain ⟨h1, h2⟩ := hex.choose_spec
    obtain ⟨p, hp, ep⟩ := P.joint _ h1
    obtain ⟨q, hq, eq⟩ := P.joint _ hj
    have := P.inv.joint_inj hp hq ep eq h2
    subst this
    exact ep.symm.trans eq
  have hlook' : LookOK look ops' := fun j hj => hlook j (hp.mem_iff.2 hj)
  refine ⟨⟨P'.rootName.trans P.rootName.symm, ?_, ?_, ?_⟩, P.inv, P'.inv⟩
  · intro x hx n hn
    obtain ⟨y, hy, n', hn', eb⟩ := P'.body _ (hp.mem_iff.1 (P.node x hx n hn))
    refine ⟨y, hy, n', hn', eb, ?_⟩
    rw [P.arcs look hlook x hx n hn, P'.arcs look hlook' y hy n' hn', eb]
    exact (hp.flatMap_right _).symm
  · intro y hy n' hn'
    obtain ⟨x, hx, n, hn, eb⟩ := P.body _ (hp.mem_iff.2 (P'.node y hy n' hn'))
    exact ⟨x, hx, n, hn, by rw [eb]⟩
  · intro t p ht
    obtain ⟨hpj, j, hj, ej⟩ := (P.inv.joint _ _).1 ht
    obtain ⟨q, hq, eq⟩ := P'.joint _ (hp.mem_iff.1 (P.jnt p hpj j hj))
    exact ⟨q, (P'.inv.joint _ _).2 ⟨hq, j, eq, ej⟩⟩

/-- C84: the robots made from two graphs built by the same calls in different orders are the same up to the numbers of the bodies. -/
theorem C84_build_order {h h' : Heap K} {rootName : String} {ops ops' : List (BuildOp K)} (hp : ops.Perm ops') {s s' : GSt K}
    (e : runAll ops (h, Graph.empty rootName) = .ok () s) (e' : runAll ops' (h', Graph.empty rootName) = .ok () s') (T : Tree s.1 s.2)
    (hB : BuiltArcs s.1 s.2) {root : String} {r : Nat} (hr : s.2.nodeByName root = .ok r) (t : JointType) (axis : Vec3 K) (X0 Xb : PTransform K) :
    ∃ mb mb' σ, makeMultiBody s.1 s.2 root t axis X0 Xb = .ok mb ∧ makeMultiBody s'.1 s'.2 root t axis X0 Xb = .ok mb' ∧ mb.WF ∧ mb'.WF ∧
      Renumbered σ mb mb' := by
  obtain ⟨S, -, I'⟩ := C84_call_order hp e e'
  exact C84_same_parts S T hB I' hr t axis X0 Xb

/-! ### Examples -/

namespace Sample.Roots

/-- The calls which attach a body. -/
def leafOps (l : Leaf ℚ) : List (BuildOp ℚ) := [.body l.body, .joint l.joint, .link l.dst l.t1 l.body.name l.t2 l.joint.name l.dir]

/-- The calls which built the sample graph, and the same calls in another order. -/
def opsC : List (BuildOp ℚ) := .body base :: (leafOps leaf1 ++ leafOps leafC ++ leafOps leafB)
def opsD : List (BuildOp ℚ) :=
  [.joint leafC.joint, .body leafC.body, .joint leafB.joint, .body leafB.body, .body base,
    .link leafB.dst leafB.t1 leafB.body.name leafB.t2 leafB.joint.name leafB.dir, .joint leaf1.joint, .body leaf1.body,
    .link leafC.dst leafC.t1 leafC.body.name leafC.t2 leafC.joint.name leafC.dir,
    .link leaf1.dst leaf1.t1 leaf1.body.name leaf1.t2 leaf1.joint.name leaf1.dir]

/-- The graph of the second sequence. -/
def gd : GSt ℚ := stateAfter (runAll opsD (⟨[], []⟩, Graph.empty "Root"))

theorem opsC_run : runAll opsC (⟨[], []⟩, Graph.empty "Root") = .ok () gc := rfl
theorem opsD_run : runAll opsD (⟨[], []⟩, Graph.empty "Root") = .ok () gd := rfl

/-- Calls as values with decidable equality. -/
def code : BuildOp ℚ → Option (Body ℚ) × Option (Joint ℚ) × Option (String × PTransform ℚ × String × PTransform ℚ × String × Bool)
  | .body b => (some b, none, none)
  | .joint j => (none, some j, none)
  | .link a t b u j d => (none, none, some (a, t, b, u, j, d))

def decode : Option (Body ℚ) × Option (Joint ℚ) × Option (String × PTransform ℚ × String × PTransform ℚ × String × Bool) → BuildOp ℚ
  | (some b, _, _) => .body b
  | (none, some j, _) => .joint j
  | (none, none, some (a, t, b, u, j, d)) => .link a t b u j d
  | (none, none, none) => .body base

theorem opsD_perm : opsC.Perm opsD := by
  have h : (opsC.map code).Perm (opsD.map code) := List.isPerm_iff.1 (by decide +kernel)
  have e : ∀ l : List (BuildOp ℚ), (l.map code).map decode = l := by
    intro l
    rw [List.map_map]
    conv_rhs => rw [← List.map_id l]
    refine List.map_congr_left fun op _ => ?_
    cases op <;> rfl
  rw [← e opsC, ← e opsD]
  exact h.map decode

/-- The robots rooted at "base" are renumbered: the second has the body which is last in the first at place 1. -/
example : ∃ mb mb' σ, makeMultiBody gc.1 gc.2 "base" .Free ⟨0, 0, 1⟩ 1 gX = .ok mb ∧ makeMultiBody gd.1 gd.2 "base" .Free ⟨0, 0, 1⟩ 1 gX = .ok mb' ∧
    mb.WF ∧ mb'.WF ∧ Renumbered σ mb mb' ∧ mb.bodies.map Body.name = ["base", "arm", "hand", "slider"] ∧
    mb'.bodies.map Body.name = ["base", "slider", "arm", "hand"] := by
  obtain ⟨mb, mb', σ, h1, h2, h3, h4, h5⟩ := C84_build_order opsD_perm opsC_run opsD_run gc_tree gc_rigidGraph.built (root := "base") (r := 0)
    (by decide +kernel) .Free ⟨0, 0, 1⟩ 1 gX
  have k1 : (makeMultiBody gc.1 gc.2 "base" .Free ⟨0, 0, 1⟩ 1 gX).map (fun mb => mb.bodies.map Body.name) = .ok ["base", "arm", "hand", "slider"] := by
    decide +kernel
  have k2 : (makeMultiBody gd.1 gd.2 "base" .Free ⟨0, 0, 1⟩ 1 gX).map (fun mb => mb.bodies.map Body.name) = .ok ["base", "slider", "arm", "hand"] := by
    decide +kernel
  rw [h1] at k1
  rw [h2] at k2
  exact ⟨mb, mb', σ, h1, h2, h3, h4, h5, Except.ok.inj k1, Except.ok.inj k2⟩

end Sample.Roots

end RBDyn
