import Verif.Lemmas.GraphTwin

/-! Two `MultiBody` made from the same body, one from a graph and one from a part of it where a body carries what was cut off. -/

namespace RBDyn
variable {K : Type} [Scalar K]

theorem applyCols_zeros (S : List (MotionVec K)) {b : List K} (hb : ∀ y ∈ b, y = 0) : applyCols S b = 0 := by
  unfold applyCols
  induction S generalizing b with
  | nil => simp
  | cons c S ih =>
    cases b with
    | nil => simp
    | cons y b =>
      simp only [List.zipWith_cons_cons, List.sum_cons, hb y (by simp), zero_smul, zero_add]
      exact ih fun z hz => hb z (by simp [hz])

theorem PTransform.transMulI_inj {X : PTransform K} (hX : IsRigid X) {I I' : RBInertia K} (e : X.transMulI I = X.transMulI I') : I = I' := by
  have := congrArg X.inv.transMulI e
  rwa [← PTransform.mul_transMulI _ _ hX hX.inv, ← PTransform.mul_transMulI _ _ hX hX.inv, PTransform.mul_inv hX, PTransform.one_transMulI,
    PTransform.one_transMulI] at this

namespace Graph
variable {h h' : Heap K} {g g' : Graph} {u : Nat} {Q : String → List K}

/-- `g'` is a part of `g`; the body `u` of `g'` carries the bodies cut off, each at the place it has at the configuration `Q`. -/
structure MergedAt (h : Heap K) (g : Graph) (u : Nat) (Q : String → List K) (h' : Heap K) (g' : Graph) : Prop where
  tree : Tree h' g'
  rootName : g'.rootName = g.rootName
  cell : ∀ x ∈ g'.nodes, ∃ n n' : GNode K, h.nodes[x]? = some n ∧ h'.nodes[x]? = some n' ∧ n'.body.name = n.body.name
  nodes : g'.nodes.Sublist g.nodes
  link : ∀ x b, Link h' g' x b → Link h g x b
  mem : u ∈ g'.nodes
  hang : ∃ d : Nat → Nat, ∀ x ∈ g.nodes, x ∉ g'.nodes → ∃ b, Link h g x b ∧ (b.next = u ∨ (b.next ∉ g'.nodes ∧ d b.next < d x))
  inertia : ∀ x ∈ g'.nodes, x ≠ u → nodeInertia h' x = nodeInertia h x
  merged : ∀ W, Placement h g Q W → (∀ x ∈ g.nodes, IsRigid (W x)) → (W u).transMulI (nodeInertia h' u) =
    (W u).transMulI (nodeInertia h u) + ((g.nodes.filter fun x => decide (x ∉ g'.nodes)).map fun x => (W x).transMulI (nodeInertia h x)).sum

/-- The values of the joints of the bodies cut off are zero. -/
def Still (h : Heap K) (g g' : Graph) (A : String → List K) : Prop :=
  ∀ x b, Link h g x b → x ∉ g'.nodes → ∀ y ∈ A b.joint.name, y = 0

theorem MergedAt.rigid (M : MergedAt h g u Q h' g') (H : RigidGraph h g) : RigidGraph h' g' :=
  ⟨fun x b hb => H.joint x b (M.link x b hb), fun x b hb => H.X x b (M.link x b hb)⟩

theorem MergedAt.validConf (M : MergedAt h g u Q h' g') (hQ : ValidConf h g Q) : ValidConf h' g' Q :=
  fun x b hb => hQ x b (M.link x b hb)

theorem MergedAt.placement (M : MergedAt h g u Q h' g') {W : Nat → PTransform K} (hW : Placement h g Q W) : Placement h' g' Q W :=
  fun x b c X hb hc => hW x b c X (M.link x b hb) (M.link _ c hc)

theorem MergedAt.flow (M : MergedAt h g u Q h' g') {T : Nat → Arc K → PTransform K → MotionVec K} {V : Nat → MotionVec K}
    (f : Flow h g Q T V) : Flow h' g' Q T V := fun x b c X hb hc => f x b c X (M.link x b hb) (M.link _ c hc)

/-- The bodies cut off move with `u`. -/
theorem MergedAt.carried (M : MergedAt h g u Q h' g') (F : Forest h g) (H : RigidGraph h g) (hQ : ValidConf h g Q) {W : Nat → PTransform K}
    (hW : Placement h g Q W) (rW : ∀ x ∈ g.nodes, IsRigid (W x)) {T : Nat → Arc K → PTransform K → MotionVec K} {V : Nat → MotionVec K}
    (f : Flow h g Q T V) (h0 : ∀ x b X, Link h g x b → x ∉ g'.nodes → T x b X = 0) {x : Nat} (hx : x ∈ g.nodes) (hn : x ∉ g'.nodes) :
    V x = (W x * (W u).inv).mulMotion (V u) := by
  obtain ⟨d, hd⟩ := M.hang
  have hug : u ∈ g.nodes := M.nodes.subset M.mem
  have key : ∀ n x, d x < n → x ∈ g.nodes → x ∉ g'.nodes → V x = (W x * (W u).inv).mulMotion (V u) := by
    intro n
    induction n with
    | zero => intro x h; omega
    | succ n ih =>
      intro x hlt hx hn
      obtain ⟨b, hb, hor⟩ := hd x hx hn
      have hb' := F.link_next hb
      have e : V b.next = (W b.next * (W u).inv).mulMotion (V u) := by
        rcases hor with e | ⟨h1, h2⟩
        · rw [e, PTransform.mul_inv (rW u hug), PTransform.one_mulMotion]
        · exact ih b.next (by omega) hb' h1
      obtain ⟨c, hc, ec, -⟩ := F.paired x b hb
      obtain ⟨X, hX, -, rX⟩ := F.pair_pose H hQ hb hc ec
      have e1 := f x b c X hb hc ec hX
      rw [h0 x b X hb hn, add_zero, e] at e1
      have rb := H.X _ b hb
      have rc := H.X _ c hc
      have e2 := hW x b c X hb hc ec hX
      have e3 : W x = b.X.inv * (X.inv * (c.X * W b.next)) := by
        rw [e2, PTransform.mul_assoc', ← PTransform.mul_assoc' X.inv, PTransform.inv_mul rX, PTransform.one_mul', ← PTransform.mul_assoc',
          PTransform.inv_mul rb, PTransform.one_mul']
      have e4 : V x = b.X.inv.mulMotion (X.inv.mulMotion (c.X.mulMotion ((W b.next * (W u).inv).mulMotion (V u)))) := by
        rw [e1, PTransform.inv_mulMotion_cancel rX, PTransform.inv_mulMotion_cancel rb]
      have r1 : IsRigid (W b.next * (W u).inv) := (rW _ hb').mul (rW u hug).inv
      rw [e4, e3, PTransform.mul_assoc', PTransform.mul_assoc', PTransform.mul_assoc',
        PTransform.mul_mulMotion _ _ _ (rX.inv.mul (rc.mul r1)), PTransform.mul_mulMotion _ _ _ (rc.mul r1), PTransform.mul_mulMotion _ _ _ r1]
  exact key (d x + 1) x (by omega) hx hn

theorem velStep_still {D : Nat → Arc K → Prop} {A : String → List K} (hA : Still h g g' A) {x : Nat} {b : Arc K} (X : PTransform K)
    (hb : Link h g x b) (hx : x ∉ g'.nodes) : velStep D A x b X = 0 := by
  unfold velStep
  rw [applyCols_zeros _ (hA x b hb hx), PTransform.mulMotion_zero, ite_self]

theorem accStep_still {D : Nat → Arc K → Prop} {A AD : String → List K} (V : Nat → MotionVec K) (hA : Still h g g' A) (hD : Still h g g' AD)
    {x : Nat} {b : Arc K} (X : PTransform K) (hb : Link h g x b) (hx : x ∉ g'.nodes) : accStep D A AD V x b X = 0 := by
  unfold accStep
  rw [applyCols_zeros _ (hA x b hb hx), applyCols_zeros _ (hD x b hb hx), MotionVec.cross_zero, MotionVec.cross_zero, add_zero,
    PTransform.mulMotion_zero, ite_self]

theorem velStep_congr {D D' : Nat → Arc K → Prop} {x : Nat} {b : Arc K} (e : D x b ↔ D' x b) (A : String → List K) (X : PTransform K) :
    velStep D A x b X = velStep D' A x b X := by
  unfold velStep
  by_cases k : D x b
  · rw [if_pos k, if_pos (e.1 k)]
  · rw [if_neg k, if_neg fun k' => k (e.2 k')]

theorem accStep_congr {D D' : Nat → Arc K → Prop} {x : Nat} {b : Arc K} (e : D x b ↔ D' x b) (A AD : String → List K) {V V' : Nat → MotionVec K}
    (hV : V x = V' x) (X : PTransform K) : accStep D A AD V x b X = accStep D' A AD V' x b X := by
  unfold accStep
  rw [hV]
  by_cases k : D x b
  · rw [if_pos k, if_pos (e.1 k)]
  · rw [if_neg k, if_neg fun k' => k (e.2 k')]

/-! ### The two `MultiBody` -/

variable {s : Nat} {d par d' par' : Nat → Nat} {J : Joint K} {X0 Xb : PTransform K} {N N' : List Nat} {mb mb' : MultiBody K}

theorem MergedAt.par_eq (M : MergedAt h g u Q h' g') (R : Rooted h g s d par) (R' : Rooted h' g' s d' par') {x : Nat} (hx : x ∈ g'.nodes)
    (hs : x ≠ s) : par' x = par x := by
  have key : ∀ n x, d' x < n → x ∈ g'.nodes → x ≠ s → par' x = par x := by
    intro n
    induction n with
    | zero => intro x h; omega
    | succ n ih =>
      intro x hlt hx hs
      obtain ⟨a, ha, ea, hd⟩ := R'.up x hx hs
      rcases R.step x a (M.link x a ha) with ⟨-, h1, h2⟩ | ⟨-, h1, h2⟩
      · have hm := M.tree.link_next ha
        have := ih a.next (by rw [ea]; omega) hm h2
        rw [h1] at this
        have h3 := R'.up_d hm h2
        rw [this, ea] at h3
        omega
      · rw [h1, ea]
  exact key (d' x + 1) x (by omega) hx hs

theorem MergedAt.down_iff (M : MergedAt h g u Q h' g') (R : Rooted h g s d par) (R' : Rooted h' g' s d' par') {x : Nat} {b : Arc K}
    (hb : Link h' g' x b) : Down s par' x b ↔ Down s par x b := by
  unfold Down
  by_cases e : b.next = s
  · simp [e]
  · rw [M.par_eq R R' (M.tree.link_next hb) e]

theorem MergedAt.xf_eq (M : MergedAt h g u Q h' g') (F : Forest h g) (R : Rooted h g s d par) (R' : Rooted h' g' s d' par') {x : Nat}
    (hx : x ∈ g'.nodes) : xf h' s par' Xb x = xf h s par Xb x := by
  by_cases hs : x = s
  · rw [hs, xf_root, xf_root]
  · obtain ⟨a, ha, ea, -⟩ := R'.up x hx hs
    rw [M.tree.toForest.xf_arc ha ea hs, F.xf_arc (M.link x a ha) (ea.trans (M.par_eq R R' hx hs)) hs]

theorem Rooting.place_rigid (G : Rooting h g s d par J X0 Xb N mb) (F : Forest h g) (H : RigidGraph h g) {q : List (List K)} (hv : ValidQ mb q) :
    ∀ x ∈ g.nodes, IsRigid (fkPlace h s par Xb N mb q x) := fun x hx => (G.xf_rigid F H hx).inv.mul (mb.posAt_rigid G.rigid hv _)

/-- The root joints are the same. -/
theorem Rooting.root_eq (G : Rooting h g s d par J X0 Xb N mb) (G' : Rooting h' g' s d' par' J X0 Xb N' mb') :
    (∀ q q' : List (List K), q[0]? = q'[0]? → mb.ptsAt q 0 = mb'.ptsAt q' 0 ∧ mb.jointMotion q 0 = mb'.jointMotion q' 0) ∧ mb.SAt 0 = mb'.SAt 0 ∧
      mb.dofAt 0 = mb'.dofAt 0 := by
  obtain ⟨a1, a2, a3, a4, a5⟩ := G.root
  obtain ⟨b1, b2, b3, b4, b5⟩ := G'.root
  obtain ⟨-, -, -, -, a6⟩ := (G.tr.entry _ _ (G.index G.R.mem).1).root rfl
  obtain ⟨-, -, -, -, b6⟩ := (G'.tr.entry _ _ (G'.index G'.R.mem).1).root rfl
  rw [a1] at a6
  rw [b1] at b6
  have a7 : mb.Xt[0]? = some X0 := a6
  have b7 : mb'.Xt[0]? = some X0 := b6
  refine ⟨fun q q' e => ⟨?_, ?_⟩, ?_, ?_⟩
  · unfold MultiBody.ptsAt MultiBody.poseAt MultiBody.XtAt
    rw [a4, b4, a7, b7, e]
  · unfold MultiBody.jointMotion MultiBody.SAt
    rw [a4, b4, e]
  · unfold MultiBody.SAt
    rw [a4, b4]
  · unfold MultiBody.dofAt
    rw [a4, b4]

section
variable {q q' α α' αD αD' : List (List K)} {A AD : String → List K}

theorem MergedAt.pos_eq (M : MergedAt h g u Q h' g') (T : Tree h g) (H : RigidGraph h g) (G : Rooting h g s d par J X0 Xb N mb)
    (G' : Rooting h' g' s d' par' J X0 Xb N' mb') (hQ : ValidConf h g Q) (hq : MatchesConf mb q Q) (hq' : MatchesConf mb' q' Q)
    (hv : ValidQ mb q) (hv' : ValidQ mb' q') (h0 : q[0]? = q'[0]?) {x : Nat} (hx : x ∈ g'.nodes) :
    fkPlace h s par Xb N mb q x = fkPlace h' s par' Xb N' mb' q' x := by
  have w := M.placement (fk_placement G.R T.toForest H G.wf G.tr G.perm hQ hq)
  have w' := fk_placement G'.R M.tree.toForest (M.rigid H) G'.wf G'.tr G'.perm (M.validConf hQ) hq'
  have i := G.place_rigid T.toForest H hv
  have i' := G'.place_rigid M.tree.toForest (M.rigid H) hv'
  have hs := G'.R.mem
  have e0 : fkPlace h s par Xb N mb q s = fkPlace h' s par' Xb N' mb' q' s := by
    obtain ⟨a1, -, -, -, a5⟩ := G.root
    obtain ⟨b1, -, -, -, b5⟩ := G'.root
    unfold fkPlace
    rw [xf_root, xf_root, a1, b1, G.wf.posAt_none q a5, G'.wf.posAt_none q' b5, ((G.root_eq G').1 q q' h0).1]
  have e := Placement.rel M.tree.toForest (M.rigid H) (M.validConf hQ) w w' (fun y hy => i y (M.nodes.subset hy)) i' hs
    (M.tree.connected s hs x hx)
  rw [← e0] at e
  have := congrArg (· * fkPlace h s par Xb N mb q s) e
  simp only [PTransform.mul_assoc', PTransform.inv_mul (i s G.R.mem), PTransform.mul_one'] at this
  exact this

theorem MergedAt.vel_eq (M : MergedAt h g u Q h' g') (T : Tree h g) (H : RigidGraph h g) (G : Rooting h g s d par J X0 Xb N mb)
    (G' : Rooting h' g' s d' par' J X0 Xb N' mb') (hQ : ValidConf h g Q) (hq : MatchesConf mb q Q) (hq' : MatchesConf mb' q' Q)
    (hv : ValidQ mb q) (hv' : ValidQ mb' q') (hα : MatchesConf mb α A) (hα' : MatchesConf mb' α' A) (h1 : α[0]? = α'[0]?)
    {x : Nat} (hx : x ∈ g'.nodes) :
    inGraph h s par Xb N (mb.velAt q α) x = inGraph h' s par' Xb N' (mb'.velAt q' α') x := by
  have w := M.placement (fk_placement G.R T.toForest H G.wf G.tr G.perm hQ hq)
  have i := G.place_rigid T.toForest H hv
  have f := M.flow (G.velFlow T.toForest H hQ hq hv hα)
  have f' : Flow h' g' Q (velStep (Down s par) A) (inGraph h' s par' Xb N' (mb'.velAt q' α')) := by
    intro y b c X hb hc ec hX
    rw [G'.velFlow M.tree.toForest (M.rigid H) (M.validConf hQ) hq' hv' hα' y b c X hb hc ec hX, velStep_congr (M.down_iff G.R G'.R hb)]
  refine f.eq M.tree (M.rigid H) (M.validConf hQ) w (fun y hy => i y (M.nodes.subset hy)) f' G'.R.mem ?_ x hx
  obtain ⟨a1, a2, -, -, a5⟩ := G.root
  obtain ⟨b1, b2, -, -, b5⟩ := G'.root
  unfold inGraph
  rw [xf_root, xf_root, a1, b1, G.wf.velAt_none G.rigid hv _ a2 a5, G'.wf.velAt_none G'.rigid hv' _ b2 b5, ((G.root_eq G').1 α α' h1).2]

theorem MergedAt.acc_eq (M : MergedAt h g u Q h' g') (T : Tree h g) (H : RigidGraph h g) (G : Rooting h g s d par J X0 Xb N mb)
    (G' : Rooting h' g' s d' par' J X0 Xb N' mb') (hQ : ValidConf h g Q) (hq : MatchesConf mb q Q) (hq' : MatchesConf mb' q' Q)
    (hv : ValidQ mb q) (hv' : ValidQ mb' q') (hα : MatchesConf mb α A) (hα' : MatchesConf mb' α' A) (hD : MatchesConf mb αD AD)
    (hD' : MatchesConf mb' αD' AD) (h0 : q[0]? = q'[0]?) (h1 : α[0]? = α'[0]?) (h2 : αD[0]? = αD'[0]?) (a0 : MotionVec K)
    {x : Nat} (hx : x ∈ g'.nodes) :
    inGraph h s par Xb N (mb.accAt q α αD a0) x = inGraph h' s par' Xb N' (mb'.accAt q' α' αD' a0) x := by
  have w := M.placement (fk_placement G.R T.toForest H G.wf G.tr G.perm hQ hq)
  have i := G.place_rigid T.toForest H hv
  have f := M.flow (G.accFlow T.toForest H hQ hq hv hα hD a0)
  have f' : Flow h' g' Q (accStep (Down s par) A AD (inGraph h s par Xb N (mb.velAt q α)))
      (inGraph h' s par' Xb N' (mb'.accAt q' α' αD' a0)) := by
    intro y b c X hb hc ec hX
    rw [G'.accFlow M.tree.toForest (M.rigid H) (M.validConf hQ) hq' hv' hα' hD' a0 y b c X hb hc ec hX,
      accStep_congr (M.down_iff G.R G'.R hb) _ _ (M.vel_eq T H G G' hQ hq hq' hv hv' hα hα' h1 hb.mem).symm]
  refine f.eq M.tree (M.rigid H) (M.validConf hQ) w (fun y hy => i y (M.nodes.subset hy)) f' G'.R.mem ?_ x hx
  obtain ⟨a1, a2, -, -, a5⟩ := G.root
  obtain ⟨b1, b2, -, -, b5⟩ := G'.root
  unfold inGraph
  rw [xf_root, xf_root, a1, b1, G.wf.accAt_none G.rigid hv _ _ _ a2 a5, G'.wf.accAt_none G'.rigid hv' _ _ _ b2 b5,
    G.wf.velAt_none G.rigid hv _ a2 a5, G'.wf.velAt_none G'.rigid hv' _ b2 b5, ((G.root_eq G').1 α α' h1).2, ((G.root_eq G').1 αD αD' h2).2,
    ((G.root_eq G').1 q q' h0).1]

end

/-- The bodies left and the bodies cut off. -/
theorem MergedAt.split (M : MergedAt h g u Q h' g') (F : Forest h g) {β : Type} [AddCommMonoid β] (w : Nat → β) :
    (g.nodes.map w).sum = (g'.nodes.map w).sum + ((g.nodes.filter fun x => decide (x ∉ g'.nodes)).map w).sum := by
  have hg' : g'.nodes.Perm (g.nodes.filter (fun x => decide (x ∈ g'.nodes))) := by
    refine (List.perm_ext_iff_of_nodup M.tree.nodes_nodup (F.nodes_nodup.filter _)).2 fun x => ?_
    rw [List.mem_filter, decide_eq_true_eq]
    exact ⟨fun hx => ⟨M.nodes.subset hx, hx⟩, fun hx => hx.2⟩
  rw [(hg'.map w).sum_eq, ← List.sum_append, ← List.map_append]
  apply List.Perm.sum_eq
  apply List.Perm.map
  have := List.filter_append_perm (fun x => decide (x ∈ g'.nodes)) g.nodes
  refine List.Perm.trans this.symm ?_
  simp

/-- A sum over the bodies where only `u` changes. -/
theorem MergedAt.sum_eq (M : MergedAt h g u Q h' g') (F : Forest h g) {β : Type} [AddCommMonoid β] {w w' : Nat → β}
    (hk : ∀ x ∈ g'.nodes, x ≠ u → w' x = w x)
    (hu : w' u = w u + ((g.nodes.filter fun x => decide (x ∉ g'.nodes)).map w).sum) : (g'.nodes.map w').sum = (g.nodes.map w).sum := by
  have hu1 : ∀ f : Nat → β, (g'.nodes.map f).sum = f u + ((g'.nodes.erase u).map f).sum := by
    intro f
    rw [((List.perm_cons_erase M.mem).map f).sum_eq, List.map_cons, List.sum_cons]
  have he : (g'.nodes.erase u).map w' = (g'.nodes.erase u).map w := by
    refine List.map_congr_left fun x hx => ?_
    obtain ⟨h1, h2⟩ := (M.tree.nodes_nodup.mem_erase_iff).1 hx
    exact hk x h2 h1
  rw [M.split F w, hu1 w', hu1 w, hu, he, add_right_comm]

/-- The inertia of `u` in its own frame. -/
theorem MergedAt.inertia_u (M : MergedAt h g u Q h' g') {W : Nat → PTransform K} (hW : Placement h g Q W) (rW : ∀ x ∈ g.nodes, IsRigid (W x)) :
    nodeInertia h' u = nodeInertia h u +
      ((g.nodes.filter fun x => decide (x ∉ g'.nodes)).map fun x => (W x * (W u).inv).transMulI (nodeInertia h x)).sum := by
  have ru := rW u (M.nodes.subset M.mem)
  apply PTransform.transMulI_inj ru
  rw [M.merged W hW rW, PTransform.transMulI_add]
  congr 1
  rw [← PTransform.transIHom_apply, map_list_sum, List.map_map]
  congr 1
  refine List.map_congr_left fun x hx => ?_
  have rx := rW x (List.mem_filter.1 hx).1
  simp only [Function.comp, PTransform.transIHom_apply]
  rw [← PTransform.mul_transMulI _ _ (rx.mul ru.inv) ru, PTransform.mul_assoc', PTransform.inv_mul ru, PTransform.mul_one']

theorem sum_mulMotion (l : List Nat) (I : Nat → RBInertia K) (v : MotionVec K) : (l.map I).sum.mulMotion v = (l.map fun x => (I x).mulMotion v).sum := by
  induction l with
  | nil => simp
  | cons x l ih => simp [RBInertia.add_mulMotion, ih]

theorem sum_crossDual (l : List Nat) (f : Nat → ForceVec K) (v : MotionVec K) : v.crossDual (l.map f).sum = (l.map fun x => v.crossDual (f x)).sum := by
  induction l with
  | nil => simp
  | cons x l ih => simp [MotionVec.crossDual_add, ih]

theorem sum_dualMul (l : List Nat) (f : Nat → ForceVec K) (X : PTransform K) : X.dualMul (l.map f).sum = (l.map fun x => X.dualMul (f x)).sum := by
  induction l with
  | nil => simp
  | cons x l ih => simp [PTransform.dualMul_add, ih]

theorem sum_dot (l : List Nat) (f : Nat → ForceVec K) (v : MotionVec K) : v.dot (l.map f).sum = (l.map fun x => v.dot (f x)).sum := by
  induction l with
  | nil => simp
  | cons x l ih => simp [MotionVec.dot_add, ih]

/-- What the body `u` needs after merging. -/
theorem MergedAt.net_u (M : MergedAt h g u Q h' g') {W : Nat → PTransform K} (hW : Placement h g Q W) (rW : ∀ x ∈ g.nodes, IsRigid (W x))
    {V A : Nat → MotionVec K} {fe fe' : Nat → ForceVec K}
    (hV : ∀ x ∈ g.nodes, x ∉ g'.nodes → V x = (W x * (W u).inv).mulMotion (V u))
    (hA : ∀ x ∈ g.nodes, x ∉ g'.nodes → A x = (W x * (W u).inv).mulMotion (A u))
    (hf : fe' u = fe u + ((g.nodes.filter fun x => decide (x ∉ g'.nodes)).map fe).sum) :
    bodyNet h' W V A fe' u = bodyNet h W V A fe u +
      ((g.nodes.filter fun x => decide (x ∉ g'.nodes)).map fun x => (W x * (W u).inv).transMul (bodyNet h W V A fe x)).sum := by
  have ru := rW u (M.nodes.subset M.mem)
  have e : ((g.nodes.filter fun x => decide (x ∉ g'.nodes)).map fun x => (W x * (W u).inv).transMul (bodyNet h W V A fe x)) =
      (g.nodes.filter fun x => decide (x ∉ g'.nodes)).map fun x => ((W x * (W u).inv).transMulI (nodeInertia h x)).mulMotion (A u) +
        (V u).crossDual (((W x * (W u).inv).transMulI (nodeInertia h x)).mulMotion (V u)) - (W u).dualMul (fe x) := by
    refine List.map_congr_left fun x hx => ?_
    obtain ⟨hx, hn⟩ := List.mem_filter.1 hx
    have hn : x ∉ g'.nodes := by simpa using hn
    have rx := rW x hx
    have rX := rx.mul ru.inv
    have eW : W x = W x * (W u).inv * W u := by rw [PTransform.mul_assoc', PTransform.inv_mul ru, PTransform.mul_one']
    unfold bodyNet
    rw [hV x hx hn, hA x hx hn]
    have e1 : (W x).dualMul (fe x) = (W x * (W u).inv).dualMul ((W u).dualMul (fe x)) := by
      rw [← PTransform.mul_dualMul rX ru, ← eW]
    rw [e1, PTransform.transMul_sub, PTransform.transMul_add, PTransform.transMul_dualMul rX, PTransform.transMul_crossDual rX,
      ← PTransform.transMulI_mulMotion rX, ← PTransform.transMulI_mulMotion rX]
  rw [e]
  unfold bodyNet
  rw [M.inertia_u hW rW, hf, RBInertia.add_mulMotion, RBInertia.add_mulMotion, MotionVec.crossDual_add, PTransform.dualMul_add,
    sum_mulMotion, sum_mulMotion, sum_crossDual, sum_dualMul]
  generalize g.nodes.filter _ = l
  have e2 : ∀ f1 f2 f3 : Nat → ForceVec K, (l.map fun x => f1 x + f2 x - f3 x).sum = (l.map f1).sum + (l.map f2).sum - (l.map f3).sum := by
    intro f1 f2 f3
    induction l with
    | nil => simp
    | cons x l ih => simp only [List.map_cons, List.sum_cons, ih]; abel
  rw [e2]
  abel

/-- `fx'` is `fx` on the bodies left, with the forces on the bodies cut off added to those on `u`. -/
structure Loaded (g g' : Graph) (u : Nat) (N N' : List Nat) (fx fx' : Nat → ForceVec K) : Prop where
  kept : ∀ x ∈ g'.nodes, x ≠ u → fx' (N'.idxOf x) = fx (N.idxOf x)
  merged : fx' (N'.idxOf u) = fx (N.idxOf u) + ((g.nodes.filter fun x => decide (x ∉ g'.nodes)).map fun x => fx (N.idxOf x)).sum

/-- The same motion of the two `MultiBody`: the same root joint and the same joints left, the other joints still. -/
structure Moving (h : Heap K) (g g' : Graph) (mb mb' : MultiBody K) (A : String → List K) (α α' : List (List K)) : Prop where
  conf : MatchesConf mb α A
  conf' : MatchesConf mb' α' A
  root : α[0]? = α'[0]?
  still : Still h g g' A

/-- The same positions of the two `MultiBody`. -/
structure Posed (h : Heap K) (g : Graph) (mb mb' : MultiBody K) (Q : String → List K) (q q' : List (List K)) : Prop where
  valid : ValidConf h g Q
  conf : MatchesConf mb q Q
  conf' : MatchesConf mb' q' Q
  vq : ValidQ mb q
  vq' : ValidQ mb' q'
  root : q[0]? = q'[0]?

section
variable {q q' α α' αD αD' β β' : List (List K)} {A AD B : String → List K} {fx fx' : Nat → ForceVec K}

/-- Virtual work of the two `MultiBody`. -/
theorem MergedAt.power (M : MergedAt h g u Q h' g') (T : Tree h g) (H : RigidGraph h g) (G : Rooting h g s d par J X0 Xb N mb)
    (G' : Rooting h' g' s d' par' J X0 Xb N' mb') (P : Posed h g mb mb' Q q q') (mα : Moving h g g' mb mb' A α α')
    (mD : Moving h g g' mb mb' AD αD αD') (mβ : Moving h g g' mb mb' B β β') (a0 : MotionVec K) (hf : Loaded g g' u N N' fx fx') :
    (mb.dofSum fun i a => entry β i a * torqueAt mb q (mb.netForceAt q α αD a0 fx) i a) =
      mb'.dofSum fun i a => entry β' i a * torqueAt mb' q' (mb'.netForceAt q' α' αD' a0 fx') i a := by
  have F := T.toForest
  have hW := fk_placement G.R F H G.wf G.tr G.perm P.valid P.conf
  have rW := G.place_rigid F H P.vq
  have hV := fun x => M.carried F H P.valid hW rW (G.velFlow F H P.valid P.conf P.vq mα.conf) (fun x b X hb hx => velStep_still mα.still X hb hx) (x := x)
  have hB := fun x => M.carried F H P.valid hW rW (G.velFlow F H P.valid P.conf P.vq mβ.conf) (fun x b X hb hx => velStep_still mβ.still X hb hx) (x := x)
  have hA := fun x => M.carried F H P.valid hW rW (G.accFlow F H P.valid P.conf P.vq mα.conf mD.conf a0)
    (fun x b X hb hx => accStep_still _ mα.still mD.still X hb hx) (x := x)
  have e1 := G.power F H P.vq α αD β a0 (fe := fun x => fx (N.idxOf x)) (fx := fx) (fun _ _ => rfl)
  have e2 := G'.power M.tree.toForest (M.rigid H) P.vq' α' αD' β' a0 (fe := fun x => fx' (N'.idxOf x)) (fx := fx') (fun _ _ => rfl)
  unfold torqueAt
  rw [e1, e2]
  symm
  have hnet : ∀ x ∈ g'.nodes, bodyNet h' (fkPlace h' s par' Xb N' mb' q') (inGraph h' s par' Xb N' (mb'.velAt q' α'))
      (inGraph h' s par' Xb N' (mb'.accAt q' α' αD' a0)) (fun x => fx' (N'.idxOf x)) x =
      bodyNet h' (fkPlace h s par Xb N mb q) (inGraph h s par Xb N (mb.velAt q α)) (inGraph h s par Xb N (mb.accAt q α αD a0))
        (fun x => fx' (N'.idxOf x)) x := by
    intro x hx
    unfold bodyNet
    rw [M.pos_eq T H G G' P.valid P.conf P.conf' P.vq P.vq' P.root hx, M.vel_eq T H G G' P.valid P.conf P.conf' P.vq P.vq' mα.conf mα.conf' mα.root hx,
      M.acc_eq T H G G' P.valid P.conf P.conf' P.vq P.vq' mα.conf mα.conf' mD.conf mD.conf' P.root mα.root mD.root a0 hx]
  have hvel : ∀ x ∈ g'.nodes, inGraph h' s par' Xb N' (mb'.velAt q' β') x = inGraph h s par Xb N (mb.velAt q β) x := fun x hx =>
    (M.vel_eq T H G G' P.valid P.conf P.conf' P.vq P.vq' mβ.conf mβ.conf' mβ.root hx).symm
  refine M.sum_eq F (fun x hx hne => ?_) ?_
  · rw [hnet x hx, hvel x hx]
    unfold bodyNet
    beta_reduce
    rw [M.inertia x hx hne, hf.kept x hx hne]
  · rw [hnet u M.mem, hvel u M.mem, M.net_u hW rW hV hA (fe := fun x => fx (N.idxOf x)) hf.merged, MotionVec.dot_add, sum_dot]
    congr 2
    refine List.map_congr_left fun x hx => ?_
    obtain ⟨hx, hn⟩ := List.mem_filter.1 hx
    have hn : x ∉ g'.nodes := by simpa using hn
    rw [hB x hx hn, PTransform.mulMotion_dot]

/-- The joints left are not among those cut off. -/
theorem MergedAt.other (M : MergedAt h g u Q h' g') (F : Forest h g) {v : Nat} {b : Arc K} (hb : Link h' g' v b) (l : List K) :
    Still h g g' fun n => if n = b.joint.name then l else [] := by
  intro x c hc hx y hy
  beta_reduce at hy
  rw [if_neg] at hy
  · simp at hy
  · intro e
    rcases F.jointOnce x v c b hc (M.link v b hb) e with ⟨h1, -⟩ | ⟨h1, -⟩
    · exact hx (h1 ▸ hb.mem)
    · exact hx (h1 ▸ M.tree.link_next hb)

theorem MergedAt.moving (mb mb' : MultiBody K) {b : List K} {B : String → List K} (hs : Still h g g' B)
    (hj : 0 < mb.joints.length) (hj' : 0 < mb'.joints.length) : Moving h g g' mb mb' B (mb.blocks b B) (mb'.blocks b B) where
  conf := blocks_matches mb b B
  conf' := blocks_matches mb' b B
  root := by unfold MultiBody.blocks; rw [range_map_getElem? hj, range_map_getElem? hj', if_pos rfl, if_pos rfl]
  still := hs

/-- Joints of the same name are the same joint. -/
theorem MergedAt.same_joint (M : MergedAt h g u Q h' g') (F : Forest h g) (G : Rooting h g s d par J X0 Xb N mb)
    (G' : Rooting h' g' s d' par' J X0 Xb N' mb') {i i' : Nat} {j j' : Joint K} (hj : mb.joints[i]? = some j) (hj' : mb'.joints[i']? = some j')
    (h0 : i ≠ 0) (h0' : i' ≠ 0) (e : j.name = j'.name) : mb.dofAt i = mb'.dofAt i' := by
  obtain ⟨x, a, ha, rfl⟩ := G.joint hj h0
  obtain ⟨v, b, hb, rfl⟩ := G'.joint hj' h0'
  unfold MultiBody.dofAt
  rw [hj, hj']
  rcases F.jointOnce x v a b ha (M.link v b hb) e with ⟨-, rfl⟩ | ⟨h1, h2⟩
  · rfl
  · rw [(F.pair ha (h2 ▸ M.link v b hb) h1.symm).1]
    rfl

theorem linkPower_none (mb : MultiBody K) (q : List (List K)) (f : Nat → ForceVec K) : linkPower mb q f (fun _ => []) = 0 := by
  unfold linkPower
  refine Finset.sum_eq_zero fun i _ => Finset.sum_eq_zero fun a _ => ?_
  cases mb.joints[i + 1]? <;> simp

/-- The torques of the two `MultiBody`. -/
theorem MergedAt.torque (M : MergedAt h g u Q h' g') (T : Tree h g) (H : RigidGraph h g) (G : Rooting h g s d par J X0 Xb N mb)
    (G' : Rooting h' g' s d' par' J X0 Xb N' mb') (P : Posed h g mb mb' Q q q') (mα : Moving h g g' mb mb' A α α')
    (mD : Moving h g g' mb mb' AD αD αD') (a0 : MotionVec K) (hf : Loaded g g' u N N' fx fx') :
    (∀ a, a < mb.dofAt 0 → torqueAt mb q (mb.netForceAt q α αD a0 fx) 0 a = torqueAt mb' q' (mb'.netForceAt q' α' αD' a0 fx') 0 a) ∧
      ∀ i i' j j' a, mb.joints[i]? = some j → mb'.joints[i']? = some j' → i ≠ 0 → i' ≠ 0 → j.name = j'.name → a < mb.dofAt i →
        torqueAt mb q (mb.netForceAt q α αD a0 fx) i a = torqueAt mb' q' (mb'.netForceAt q' α' αD' a0 fx') i' a := by
  obtain ⟨-, -, hl, -, -⟩ := G.root
  obtain ⟨-, -, hl', -, -⟩ := G'.root
  have key : ∀ (b : List K) (B : String → List K), Still h g g' B →
      (∑ a ∈ Finset.range (mb.dofAt 0), b.getD a 0 * torqueAt mb q (mb.netForceAt q α αD a0 fx) 0 a) +
        linkPower mb q (mb.netForceAt q α αD a0 fx) B =
      (∑ a ∈ Finset.range (mb'.dofAt 0), b.getD a 0 * torqueAt mb' q' (mb'.netForceAt q' α' αD' a0 fx') 0 a) +
        linkPower mb' q' (mb'.netForceAt q' α' αD' a0 fx') B := by
    intro b B hB
    have := M.power T H G G' P mα mD (MergedAt.moving (b := b) mb mb' hB hl hl') a0 hf
    rwa [G.power_blocks, G'.power_blocks] at this
  have unit : ∀ (n a : Nat) (t : Nat → K), a < n →
      ∑ k ∈ Finset.range n, ((List.range (a + 1)).map fun b => if b = a then (1 : K) else 0).getD k 0 * t k = t a := by
    intro n a t ha
    rw [Finset.sum_eq_single a]
    · simp
    · intro b _ hb
      by_cases hba : b < a + 1
      · simp [hba, hb]
      · simp [hba]
    · intro hn
      exact absurd (Finset.mem_range.2 ha) hn
  constructor
  · intro a ha
    have := key ((List.range (a + 1)).map fun b => if b = a then 1 else 0) (fun _ => []) (by intro x b _ _ y hy; simp at hy)
    rwa [linkPower_none, linkPower_none, add_zero, add_zero, unit _ a _ ha, unit _ a _ (by rwa [← (G.root_eq G').2.2])] at this
  · intro i i' j j' a hj hj' hi hi' e ha
    obtain ⟨v, b, hb, rfl⟩ := G'.joint hj' hi'
    have ha' : a < mb'.dofAt i' := by rwa [← M.same_joint T.toForest G G' hj hj' hi hi' e]
    have := key [] _ (M.other T.toForest hb ((List.range (a + 1)).map fun b => if b = a then 1 else 0))
    rw [G'.linkPower_unit M.tree.toForest q' _ hj' hi' ha', ← e, G.linkPower_unit T.toForest q _ hj hi ha] at this
    simpa using this

end

end Graph
end RBDyn
