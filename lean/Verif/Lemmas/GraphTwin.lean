import Verif.Lemmas.GraphForce
import Verif.Lemmas.Dynamics

/-! Two `MultiBody` made from the same graph with free root joints, in the same motion. -/

namespace RBDyn
variable {K : Type} [Scalar K]

/-- The velocities of a free joint that give the motion vector `v`. -/
def freeBlock (v : MotionVec K) : List K := [v.ang.x, v.ang.y, v.ang.z, v.lin.x, v.lin.y, v.lin.z]

theorem applyCols_freeBlock (ax : Vec3 K) (n : String) (v : MotionVec K) :
    applyCols (Joint.mk' .Free ax true n : Joint K).S (freeBlock v) = v := by
  ext <;> simp [applyCols, Joint.mk', Joint.mkS, freeBlock]

/-- One block for each joint: `b` for the root joint, `B` by name for the others. -/
def MultiBody.blocks (mb : MultiBody K) (b : List K) (B : String → List K) : List (List K) :=
  (List.range mb.joints.length).map fun i => if i = 0 then b else ((mb.joints[i]?).map fun j => B j.name).getD []

namespace Graph

theorem blocks_matches (mb : MultiBody K) (b : List K) (B : String → List K) : MatchesConf mb (mb.blocks b B) B := by
  intro i j h0 hj
  have hi := (List.getElem?_eq_some_iff.1 hj).1
  unfold MultiBody.blocks
  rw [range_map_getElem? hi, if_neg h0, hj]
  rfl

variable {h : Heap K} {g : Graph} {r r' : Nat} {d par d' par' : Nat → Nat}
variable {J J' : Joint K} {X0 Xb X0' Xb' : PTransform K} {N N' : List Nat} {mb mb' : MultiBody K}

theorem Rooting.root (G : Rooting h g r d par J X0 Xb N mb) : N.idxOf r = 0 ∧ 0 < mb.bodies.length ∧ 0 < mb.joints.length ∧
    mb.joints[0]? = some J ∧ mb.par 0 = none := by
  obtain ⟨h1, h2⟩ := G.index G.R.mem
  obtain ⟨h3, h4, h5, -⟩ := (G.tr.entry _ _ h1).root rfl
  rw [h3] at h2 h4 h5
  refine ⟨h3, h2, by rw [G.wf.njoints]; exact h2, h4, ?_⟩
  unfold MultiBody.par
  rw [show mb.pred[0]? = _ from h5]
  rfl

theorem Rooting.joint (G : Rooting h g r d par J X0 Xb N mb) {i : Nat} {j : Joint K} (hj : mb.joints[i]? = some j) (h0 : i ≠ 0) :
    ∃ u a, Link h g u a ∧ j = a.joint := by
  have hi : i < N.length := by rw [← G.tr.njoints]; exact (List.getElem?_eq_some_iff.1 hj).1
  have E := G.tr.entry i _ (List.getElem?_eq_getElem hi)
  by_cases hxr : N[i] = r
  · exact absurd (E.root hxr).1 h0
  · obtain ⟨k, a, -, -, ha, -, h2, -⟩ := E.child hxr
    rw [show (stOf mb).joints[i]? = _ from hj] at h2
    exact ⟨_, a, ha, Option.some_inj.1 h2⟩

/-- The joints that are not the root joint have different names. -/
theorem Rooting.joint_inj (G : Rooting h g r d par J X0 Xb N mb) (F : Forest h g) {i i' : Nat} {b b' : Joint K}
    (hb : mb.joints[i]? = some b) (hb' : mb.joints[i']? = some b') (h0 : i ≠ 0) (h0' : i' ≠ 0) (e : b.name = b'.name) : i = i' := by
  have hi : i < N.length := by rw [← G.tr.njoints]; exact (List.getElem?_eq_some_iff.1 hb).1
  have hi' : i' < N.length := by rw [← G.tr.njoints]; exact (List.getElem?_eq_some_iff.1 hb').1
  have E := G.tr.entry i _ (List.getElem?_eq_getElem hi)
  have E' := G.tr.entry i' _ (List.getElem?_eq_getElem hi')
  rw [← List.Nodup.getElem_inj_iff (G.nodup F) (hi := hi) (hj := hi')]
  have hr : N[i] ≠ r := fun h => h0 (E.root h).1
  have hr' : N[i'] ≠ r := fun h => h0' (E'.root h).1
  obtain ⟨k, a, -, -, ha, ea, e1, -⟩ := E.child hr
  rw [show (stOf mb).joints[i]? = _ from hb] at e1
  obtain rfl := Option.some_inj.1 e1
  obtain ⟨k', a', -, -, ha', ea', e1', -⟩ := E'.child hr'
  rw [show (stOf mb).joints[i']? = _ from hb'] at e1'
  obtain rfl := Option.some_inj.1 e1'
  rcases F.jointOnce _ _ a a' ha ha' e with ⟨-, rfl⟩ | ⟨h1, h2⟩
  · rw [← ea, ← ea']
  · have d1 := G.R.up_d E.mem hr
    have d2 := G.R.up_d E'.mem hr'
    rw [ea'] at h1
    rw [ea] at h2
    rw [h1] at d1
    rw [h2] at d2
    omega

/-- A free root joint can give the root body any velocity. -/
theorem Rooting.exists_velocity (G : Rooting h g r d par J X0 Xb N mb) (F : Forest h g) (H : RigidGraph h g) {ax : Vec3 K} {nm : String}
    (hJ : J = Joint.mk' .Free ax true nm) {q : List (List K)} (hv : ValidQ mb q) (B : String → List K) (v : MotionVec K) :
    ∃ b : List K, b.length = 6 ∧ inGraph h r par Xb N (mb.velAt q (mb.blocks b B)) r = v := by
  obtain ⟨h1, h2, h3, h4, h5⟩ := G.root
  refine ⟨freeBlock ((xf h r par Xb r).mulMotion v), rfl, ?_⟩
  unfold inGraph
  rw [h1, G.wf.velAt_none G.rigid hv _ h2 h5, MultiBody.jointMotion, MultiBody.SAt, h4, MultiBody.blocks, range_map_getElem? h3, if_pos rfl,
    Option.map_some, Option.getD_some, Option.getD_some, hJ, applyCols_freeBlock, PTransform.inv_mulMotion_cancel (G.xf_rigid F H G.R.mem)]

/-- A free root joint can give the root body any acceleration. -/
theorem Rooting.exists_acceleration (G : Rooting h g r d par J X0 Xb N mb) (F : Forest h g) (H : RigidGraph h g) {ax : Vec3 K} {nm : String}
    (hJ : J = Joint.mk' .Free ax true nm) {q : List (List K)} (hv : ValidQ mb q) (α : List (List K)) (a0 : MotionVec K)
    (B : String → List K) (v : MotionVec K) :
    ∃ b : List K, b.length = 6 ∧ inGraph h r par Xb N (mb.accAt q α (mb.blocks b B) a0) r = v := by
  obtain ⟨h1, h2, h3, h4, h5⟩ := G.root
  refine ⟨freeBlock ((xf h r par Xb r).mulMotion v - (mb.ptsAt q 0).mulMotion a0 - (mb.velAt q α 0).cross (mb.jointMotion α 0)), rfl, ?_⟩
  unfold inGraph
  have e : mb.jointMotion (mb.blocks (freeBlock ((xf h r par Xb r).mulMotion v - (mb.ptsAt q 0).mulMotion a0 -
      (mb.velAt q α 0).cross (mb.jointMotion α 0))) B) 0 = (xf h r par Xb r).mulMotion v - (mb.ptsAt q 0).mulMotion a0 -
      (mb.velAt q α 0).cross (mb.jointMotion α 0) := by
    rw [MultiBody.jointMotion, MultiBody.SAt, h4, MultiBody.blocks, range_map_getElem? h3, if_pos rfl,
      Option.map_some, Option.getD_some, Option.getD_some, hJ, applyCols_freeBlock]
  rw [h1, G.wf.accAt_none G.rigid hv _ _ _ h2 h5, e, sub_add_cancel, add_sub_cancel, PTransform.inv_mulMotion_cancel (G.xf_rigid F H G.R.mem)]

/-- The torque of the joint `i` along its motion `a`. -/
def torqueAt (mb : MultiBody K) (q : List (List K)) (f : Nat → ForceVec K) (i a : Nat) : K :=
  ((mb.SAt i).getD a 0).dot (mb.wrenchAt q f i)

/-- The torques of the joints that are not the root joint, along the velocities `B`. -/
def linkPower (mb : MultiBody K) (q : List (List K)) (f : Nat → ForceVec K) (B : String → List K) : K :=
  ∑ i ∈ Finset.range (mb.bodies.length - 1), ∑ a ∈ Finset.range (mb.dofAt (i + 1)),
    (((mb.joints[i + 1]?).map fun j => B j.name).getD []).getD a 0 * torqueAt mb q f (i + 1) a

theorem Rooting.power_blocks (G : Rooting h g r d par J X0 Xb N mb) (b : List K) (B : String → List K) (q : List (List K))
    (f : Nat → ForceVec K) : (mb.dofSum fun i a => entry (mb.blocks b B) i a * torqueAt mb q f i a) =
      (∑ a ∈ Finset.range (mb.dofAt 0), b.getD a 0 * torqueAt mb q f 0 a) + linkPower mb q f B := by
  obtain ⟨-, h2, h3, -, -⟩ := G.root
  unfold MultiBody.dofSum linkPower
  obtain ⟨n, hn⟩ : ∃ n, mb.bodies.length = n + 1 := ⟨mb.bodies.length - 1, by omega⟩
  rw [hn, Finset.sum_range_succ', add_comm, Nat.add_sub_cancel]
  congr 1
  · refine Finset.sum_congr rfl fun a _ => ?_
    unfold entry MultiBody.blocks
    beta_reduce
    rw [range_map_getElem? h3, if_pos rfl]
    rfl
  · refine Finset.sum_congr rfl fun i hi => Finset.sum_congr rfl fun a _ => ?_
    have hi' : i + 1 < mb.joints.length := by have := Finset.mem_range.1 hi; rw [G.wf.njoints]; omega
    unfold entry MultiBody.blocks
    beta_reduce
    rw [range_map_getElem? hi', if_neg (by omega)]
    rfl

theorem Rooting.linkPower_unit (G : Rooting h g r d par J X0 Xb N mb) (F : Forest h g) (q : List (List K)) (f : Nat → ForceVec K)
    {i a : Nat} {j : Joint K} (hj : mb.joints[i]? = some j) (h0 : i ≠ 0) (ha : a < mb.dofAt i) :
    linkPower mb q f (fun s => if s = j.name then (List.range (a + 1)).map fun b => if b = a then 1 else 0 else []) = torqueAt mb q f i a := by
  obtain ⟨k, rfl⟩ : ∃ k, i = k + 1 := ⟨i - 1, by omega⟩
  have hk : k < mb.bodies.length - 1 := by
    have := (List.getElem?_eq_some_iff.1 hj).1
    rw [G.wf.njoints] at this
    omega
  unfold linkPower
  rw [Finset.sum_eq_single k, Finset.sum_eq_single a]
  · rw [hj]
    simp
  · intro b _ hb
    rw [hj]
    by_cases hba : b < a + 1
    · simp [hba, hb]
    · simp [hba]
  · intro hn
    exact absurd (Finset.mem_range.2 ha) hn
  · intro i' hi' hne
    refine Finset.sum_eq_zero fun b _ => ?_
    have hi2 : i' + 1 < mb.joints.length := by have := Finset.mem_range.1 hi'; rw [G.wf.njoints]; omega
    rw [List.getElem?_eq_getElem hi2, Option.map_some, Option.getD_some]
    beta_reduce
    rw [if_neg]
    · simp
    · intro e
      have := G.joint_inj F (List.getElem?_eq_getElem hi2) hj (by omega) h0 e
      omega
  · intro hn
    exact absurd (Finset.mem_range.2 hk) hn

theorem Rooting.child_joint (G : Rooting h g r d par J X0 Xb N mb) (F : Forest h g) {x : Nat} {a : Arc K} (hx : x ∈ g.nodes) (hr : x ≠ r)
    (ha : Link h g (par x) a) (ea : a.next = x) : N.idxOf x ≠ 0 ∧ mb.joints[N.idxOf x]? = some a.joint := by
  obtain ⟨hx, -⟩ := G.index hx
  generalize N.idxOf x = i at hx ⊢
  obtain ⟨k, a', -, hki, ha', ea', h1, -⟩ := (G.tr.entry i _ hx).child hr
  obtain rfl := F.arc_unique ha' ha (ea'.trans ea.symm)
  exact ⟨by omega, h1⟩

theorem Rooting.turned (G : Rooting h g r d par J X0 Xb N mb) (G' : Rooting h g r' d' par' J' X0' Xb' N' mb') (F : Forest h g)
    (O : ReversedOneAxis mb mb') : OneAxisBetween h g (Down r' par') (Down r par) := by
  have key : ∀ u a, Link h g u a → Down r par u a → ¬ Down r' par' u a → a.joint.type.OneAxis := by
    intro u a ha hD hD'
    obtain ⟨c, hc, ec, -⟩ := F.paired u a ha
    obtain ⟨e1, e2, -⟩ := F.pair ha hc ec
    have h' : par' u = a.next ∧ u ≠ r' := by
      rcases G'.R.step u a ha with ⟨-, h1, h2⟩ | ⟨-, h1, h2⟩
      · exact absurd ⟨h1, h2⟩ hD'
      · exact ⟨h1, h2⟩
    obtain ⟨h3, h4⟩ := G.child_joint F (F.link_next ha) hD.2 (by rw [hD.1]; exact ha) rfl
    obtain ⟨h5, h6⟩ := G'.child_joint F ha.mem h'.2 (by rw [h'.1]; exact hc) ec
    refine O _ _ _ _ h3 h5 h4 h6 e2.symm ?_
    rw [e1]
    have hm : ((-1 : K) = 1) = False := by simp; norm_num
    unfold Joint.flip Joint.setForward
    cases hf : a.joint.isForward <;> simp [Joint.isForward, hm]
  intro u a ha
  by_cases h1 : Down r par u a
  · by_cases h2 : Down r' par' u a
    · exact .inl (iff_of_true h2 h1)
    · exact .inr (key u a ha h1 h2)
  · by_cases h2 : Down r' par' u a
    · right
      obtain ⟨c, hc, ec, -⟩ := F.paired u a ha
      rw [← (F.pair ha hc ec).2.2]
      have h3 : Down r par a.next c := by
        rcases G.R.step u a ha with ⟨-, k1, k2⟩ | ⟨-, k1, k2⟩
        · exact absurd ⟨k1, k2⟩ h1
        · exact ⟨by rw [ec]; exact k1, by rw [ec]; exact k2⟩
      refine key _ c hc h3 fun h4 => ?_
      rcases G'.R.step u a ha with ⟨k0, -, -⟩ | ⟨k0, -, -⟩
      · have := G'.R.up_d ha.mem (by rw [← ec]; exact h4.2)
        have e := h4.1
        rw [ec] at e
        rw [e] at this
        omega
      · have := G'.R.up_d (F.link_next ha) h2.2
        rw [h2.1] at this
        omega
    · exact .inl (iff_of_false h2 h1)

/-- Two `MultiBody` made from the graph move its bodies alike under the same forces. -/
structure Twins (h : Heap K) (g : Graph) (r r' : Nat) (par par' : Nat → Nat) (Xb Xb' : PTransform K) (N N' : List Nat) (mb mb' : MultiBody K)
    (q α αD q' α' αD' : List (List K)) (a0 : MotionVec K) (fx fx' : Nat → ForceVec K) : Prop where
  pos : ∀ x ∈ g.nodes, fkPlace h r par Xb N mb q x = fkPlace h r' par' Xb' N' mb' q' x
  vel : ∀ x ∈ g.nodes, inGraph h r par Xb N (mb.velAt q α) x = inGraph h r' par' Xb' N' (mb'.velAt q' α') x
  acc : ∀ x ∈ g.nodes, inGraph h r par Xb N (mb.accAt q α αD a0) x = inGraph h r' par' Xb' N' (mb'.accAt q' α' αD' a0) x
  force : ∀ x ∈ g.nodes, fx (N.idxOf x) = fx' (N'.idxOf x)

section
variable {q α αD q' α' αD' : List (List K)} {a0 : MotionVec K} {fx fx' : Nat → ForceVec K}

theorem Twins.power (t : Twins h g r r' par par' Xb Xb' N N' mb mb' q α αD q' α' αD' a0 fx fx')
    (G : Rooting h g r d par J X0 Xb N mb) (G' : Rooting h g r' d' par' J' X0' Xb' N' mb') (F : Forest h g) (H : RigidGraph h g)
    (hv : ValidQ mb q) (hv' : ValidQ mb' q') {β β' : List (List K)}
    (hβ : ∀ x ∈ g.nodes, inGraph h r par Xb N (mb.velAt q β) x = inGraph h r' par' Xb' N' (mb'.velAt q' β') x) :
    (mb.dofSum fun i a => entry β i a * torqueAt mb q (mb.netForceAt q α αD a0 fx) i a) =
      mb'.dofSum fun i a => entry β' i a * torqueAt mb' q' (mb'.netForceAt q' α' αD' a0 fx') i a := by
  have e1 := G.power F H hv α αD β a0 (fe := fun x => fx (N.idxOf x)) (fx := fx) (fun _ _ => rfl)
  have e2 := G'.power F H hv' α' αD' β' a0 (fe := fun x => fx' (N'.idxOf x)) (fx := fx') (fun _ _ => rfl)
  unfold torqueAt
  rw [e1, e2]
  congr 1
  refine List.map_congr_left fun x hx => ?_
  unfold bodyNet
  beta_reduce
  rw [hβ x hx, t.pos x hx, t.vel x hx, t.acc x hx, t.force x hx]

/-- If the root joint of the first is free and has no torque, the root joint of the second has no torque and the other joints have the same
torques. -/
theorem Twins.torque (t : Twins h g r r' par par' Xb Xb' N N' mb mb' q α αD q' α' αD' a0 fx fx')
    (G : Rooting h g r d par J X0 Xb N mb) (G' : Rooting h g r' d' par' J' X0' Xb' N' mb') (T : Tree h g) (H : RigidGraph h g)
    (O : ReversedOneAxis mb mb') {Q : String → List K} (hQ : ValidConf h g Q) (hq : MatchesConf mb q Q) (hq' : MatchesConf mb' q' Q)
    (hv : ValidQ mb q) (hv' : ValidQ mb' q') {ax : Vec3 K} {nm : String} (hJ : J = Joint.mk' .Free ax true nm)
    (h0 : ∀ a, a < mb.dofAt 0 → torqueAt mb q (mb.netForceAt q α αD a0 fx) 0 a = 0) :
    (∀ a, a < mb'.dofAt 0 → torqueAt mb' q' (mb'.netForceAt q' α' αD' a0 fx') 0 a = 0) ∧
      ∀ i i' j j' a, mb.joints[i]? = some j → mb'.joints[i']? = some j' → i ≠ 0 → i' ≠ 0 → j.name = j'.name → a < mb.dofAt i →
        a < mb'.dofAt i' → torqueAt mb q (mb.netForceAt q α αD a0 fx) i a = torqueAt mb' q' (mb'.netForceAt q' α' αD' a0 fx') i' a := by
  have rW : ∀ x ∈ g.nodes, IsRigid (fkPlace h r par Xb N mb q x) := fun x hx =>
    (G.xf_rigid T.toForest H hx).inv.mul (mb.posAt_rigid G.rigid hv _)
  have hW := fk_placement G.R T.toForest H G.wf G.tr G.perm hQ hq
  have key : ∀ (b' : List K) (B : String → List K), linkPower mb q (mb.netForceAt q α αD a0 fx) B =
      (∑ a ∈ Finset.range (mb'.dofAt 0), b'.getD a 0 * torqueAt mb' q' (mb'.netForceAt q' α' αD' a0 fx') 0 a) +
        linkPower mb' q' (mb'.netForceAt q' α' αD' a0 fx') B := by
    intro b' B
    obtain ⟨b, -, hb⟩ := G.exists_velocity T.toForest H hJ hv B (inGraph h r' par' Xb' N' (mb'.velAt q' (mb'.blocks b' B)) r)
    have f1 := G.velFlow T.toForest H hQ hq hv (blocks_matches mb b B)
    have f2 := (G'.velFlow T.toForest H hQ hq' hv' (blocks_matches mb' b' B)).vel_turn T.toForest H (G.turned G' T.toForest O) hQ
    have := t.power G G' T.toForest H hv hv' (f1.eq T H hQ hW rW f2 G.R.mem hb)
    rw [G.power_blocks, G'.power_blocks, Finset.sum_eq_zero, zero_add] at this
    · exact this
    · intro a ha
      rw [h0 a (Finset.mem_range.1 ha), mul_zero]
  have hz : linkPower mb q (mb.netForceAt q α αD a0 fx) (fun _ => []) = 0 := by
    unfold linkPower
    refine Finset.sum_eq_zero fun i _ => Finset.sum_eq_zero fun a _ => ?_
    cases mb.joints[i + 1]? <;> simp
  have hz' : linkPower mb' q' (mb'.netForceAt q' α' αD' a0 fx') (fun _ => []) = 0 := by
    unfold linkPower
    refine Finset.sum_eq_zero fun i _ => Finset.sum_eq_zero fun a _ => ?_
    cases mb'.joints[i + 1]? <;> simp
  constructor
  · intro a ha
    have := key ((List.range (a + 1)).map fun b => if b = a then 1 else 0) fun _ => []
    rw [hz, hz', add_zero, Finset.sum_eq_single a] at this
    · simpa using this.symm
    · intro b _ hb
      by_cases hba : b < a + 1
      · simp [hba, hb]
      · simp [hba]
    · intro hn
      exact absurd (Finset.mem_range.2 ha) hn
  · intro i i' j j' a hj hj' hi hi' e ha ha'
    have := key [] (fun s => if s = j.name then (List.range (a + 1)).map fun b => if b = a then 1 else 0 else [])
    rw [G.linkPower_unit T.toForest q _ hj hi ha, e, G'.linkPower_unit T.toForest q' _ hj' hi' ha', Finset.sum_eq_zero, zero_add] at this
    · exact this
    · intro b _
      simp

end

/-! ### The joints of two `MultiBody` -/

/-- Every link is a joint of the `MultiBody`. -/
theorem Rooting.find_joint (G : Rooting h g r d par J X0 Xb N mb) (F : Forest h g) {u : Nat} {a : Arc K} (ha : Link h g u a) :
    ∃ i j, i ≠ 0 ∧ mb.joints[i]? = some j ∧ j.name = a.joint.name ∧ j.type = a.joint.type := by
  rcases G.R.step u a ha with ⟨-, h1, h2⟩ | ⟨-, h1, h2⟩
  · obtain ⟨h3, h4⟩ := G.child_joint F (F.link_next ha) h2 (by rw [h1]; exact ha) rfl
    exact ⟨_, _, h3, h4, rfl, rfl⟩
  · obtain ⟨c, hc, ec, -⟩ := F.paired u a ha
    obtain ⟨h3, h4⟩ := G.child_joint F ha.mem h2 (by rw [h1]; exact hc) ec
    obtain ⟨-, h5, h6⟩ := F.pair ha hc ec
    exact ⟨_, _, h3, h4, h5, h6⟩

/-- Blocks of one `MultiBody` by name. -/
theorem Rooting.exists_named (G : Rooting h g r d par J X0 Xb N mb) (F : Forest h g) {l : List (List K)} (hl : l.length = mb.joints.length) :
    ∃ B, MatchesConf mb l B := by
  classical
  refine ⟨fun s => if hs : ∃ i j, i ≠ 0 ∧ mb.joints[i]? = some j ∧ j.name = s then (l[hs.choose]?).getD [] else [], ?_⟩
  intro i j h0 hj
  have hs : ∃ i' j', i' ≠ 0 ∧ mb.joints[i']? = some j' ∧ j'.name = j.name := ⟨i, j, h0, hj, rfl⟩
  beta_reduce
  rw [dif_pos hs]
  obtain ⟨j', h1, h2, h3⟩ := hs.choose_spec
  rw [G.joint_inj F h2 hj h1 h0 h3]
  have hi : i < l.length := by rw [hl]; exact (List.getElem?_eq_some_iff.1 hj).1
  rw [List.getElem?_eq_getElem hi]
  rfl

/-- Joints of the same name are the same joint, maybe in the other direction. -/
theorem Rooting.same_joint (G : Rooting h g r d par J X0 Xb N mb) (G' : Rooting h g r' d' par' J' X0' Xb' N' mb') (F : Forest h g)
    {i i' : Nat} {j j' : Joint K} (hj : mb.joints[i]? = some j) (hj' : mb'.joints[i']? = some j') (h0 : i ≠ 0) (h0' : i' ≠ 0)
    (e : j.name = j'.name) : j' = j ∨ j' = j.flip := by
  obtain ⟨u, a, ha, rfl⟩ := G.joint hj h0
  obtain ⟨v, b, hb, rfl⟩ := G'.joint hj' h0'
  rcases F.jointOnce u v a b ha hb e with ⟨-, rfl⟩ | ⟨h1, h2⟩
  · exact .inl rfl
  · exact .inr (F.pair ha (h2 ▸ hb) h1.symm).1

theorem Rooting.same_dof (G : Rooting h g r d par J X0 Xb N mb) (G' : Rooting h g r' d' par' J' X0' Xb' N' mb') (F : Forest h g)
    {i i' : Nat} {j j' : Joint K} (hj : mb.joints[i]? = some j) (hj' : mb'.joints[i']? = some j') (h0 : i ≠ 0) (h0' : i' ≠ 0)
    (e : j.name = j'.name) : mb.dofAt i = mb'.dofAt i' := by
  unfold MultiBody.dofAt
  rw [hj, hj']
  rcases G.same_joint G' F hj hj' h0 h0' e with rfl | rfl <;> rfl

theorem Rooting.project_zero (G : Rooting h g r d par J X0 Xb N mb) {q : List (List K)} {f : Nat → ForceVec K} {i : Nat}
    (hi : i < mb.bodies.length) : (∀ x ∈ mb.project i (mb.wrenchAt q f i), x = 0) ↔ ∀ a, a < mb.dofAt i → torqueAt mb q f i a = 0 := by
  unfold MultiBody.project torqueAt
  rw [← G.wf.SAt_length hi]
  constructor
  · intro h0 a ha
    rw [List.getD_eq_getElem?_getD, List.getElem?_eq_getElem ha]
    exact h0 _ (List.mem_map.2 ⟨_, List.getElem_mem ha, rfl⟩)
  · intro h0 x hx
    obtain ⟨c, hc, rfl⟩ := List.mem_map.1 hx
    obtain ⟨a, ha, rfl⟩ := List.mem_iff_getElem.1 hc
    have := h0 a ha
    rwa [List.getD_eq_getElem?_getD, List.getElem?_eq_getElem ha] at this

theorem Rooting.project_eq {h' : Heap K} {g' : Graph} (G : Rooting h g r d par J X0 Xb N mb) (G' : Rooting h' g' r' d' par' J' X0' Xb' N' mb')
    {q q' : List (List K)}
    {f f' : Nat → ForceVec K} {i i' : Nat} (hi : i < mb.bodies.length) (hi' : i' < mb'.bodies.length) (e : mb.dofAt i = mb'.dofAt i')
    (h0 : ∀ a, a < mb.dofAt i → torqueAt mb q f i a = torqueAt mb' q' f' i' a) :
    mb.project i (mb.wrenchAt q f i) = mb'.project i' (mb'.wrenchAt q' f' i') := by
  unfold MultiBody.project
  have l1 := G.wf.SAt_length hi
  have l2 := G'.wf.SAt_length hi'
  refine List.ext_getElem (by simp [l1, l2, e]) fun a h1 h2 => ?_
  have ha : a < (mb.SAt i).length := by simpa using h1
  have ha' : a < (mb'.SAt i').length := by simpa using h2
  have := h0 a (by omega)
  unfold torqueAt at this
  rw [List.getD_eq_getElem?_getD, List.getElem?_eq_getElem ha, List.getD_eq_getElem?_getD, List.getElem?_eq_getElem ha'] at this
  simpa using this

end Graph
end RBDyn
