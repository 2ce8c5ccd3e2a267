import Verif.Props.Units
import Verif.Lemmas.Transpose
import Verif.Lemmas.Momentum
import Verif.Lemmas.CoM

/-! Property C84: the numbering of the bodies and joints does not matter. -/

namespace RBDyn
open scoped Mat3

variable {K : Type} [Scalar K] {mb mb' : MultiBody K} {σ : Nat → Nat}

/-- The same robot with other numbers: body and joint `i` of the first is body and joint `σ i` of the second. -/
structure Renumbered (σ : Nat → Nat) (mb mb' : MultiBody K) : Prop where
  bodies : mb'.bodies.length = mb.bodies.length
  lt : ∀ i, i < mb.bodies.length → σ i < mb.bodies.length
  inj : ∀ i j, i < mb.bodies.length → j < mb.bodies.length → σ i = σ j → i = j
  body : ∀ i, i < mb.bodies.length → mb'.bodies[σ i]? = mb.bodies[i]?
  joint : ∀ i, i < mb.bodies.length → mb'.joints[σ i]? = mb.joints[i]?
  Xt : ∀ i, i < mb.bodies.length → mb'.Xt[σ i]? = mb.Xt[i]?
  par : ∀ i, i < mb.bodies.length → mb'.par (σ i) = (mb.par i).map σ

/-- The entries of the second list are those of the first at the other numbers. -/
def Moved (σ : Nat → Nat) (n : Nat) {α : Type} (l l' : List α) : Prop := ∀ i, i < n → l'[σ i]? = l[i]?

/-- The same positions, velocities, accelerations, external forces and torques with other numbers. -/
structure RenumberedState (σ : Nat → Nat) (n : Nat) (m m' : MBC K) : Prop where
  q : Moved σ n m.q m'.q
  alpha : Moved σ n m.alpha m'.alpha
  force : Moved σ n m.force m'.force
  gravity : m'.gravity = m.gravity

namespace Renumbered

theorem surj (h : Renumbered σ mb mb') {k : Nat} (hk : k < mb.bodies.length) : ∃ i, i < mb.bodies.length ∧ σ i = k := by
  have := Finset.surj_on_of_inj_on_of_card_le (s := Finset.range mb.bodies.length) (t := Finset.range mb.bodies.length) (fun a _ => σ a)
    (fun a ha => Finset.mem_range.2 (h.lt a (Finset.mem_range.1 ha)))
    (fun a b ha hb e => h.inj a b (Finset.mem_range.1 ha) (Finset.mem_range.1 hb) e) le_rfl k (Finset.mem_range.2 hk)
  obtain ⟨i, hi, e⟩ := this
  exact ⟨i, Finset.mem_range.1 hi, e.symm⟩

theorem sum (h : Renumbered σ mb mb') {M : Type} [AddCommMonoid M] (f : Nat → M) :
    ∑ k ∈ Finset.range mb.bodies.length, f k = ∑ k ∈ Finset.range mb.bodies.length, f (σ k) := by
  symm
  refine Finset.sum_bij (fun a _ => σ a) (fun a ha => Finset.mem_range.2 (h.lt a (Finset.mem_range.1 ha)))
    (fun a ha b hb e => h.inj a b (Finset.mem_range.1 ha) (Finset.mem_range.1 hb) e) (fun b hb => ?_) (fun _ _ => rfl)
  obtain ⟨i, hi, e⟩ := h.surj (Finset.mem_range.1 hb)
  exact ⟨i, Finset.mem_range.2 hi, e⟩

theorem pathUp (h : Renumbered σ mb mb') (wf : mb.WF) (wf' : mb'.WF) : ∀ i, i < mb.bodies.length →
    RBDyn.pathUp mb'.par (σ i) = (RBDyn.pathUp mb.par i).map σ := by
  intro i
  induction i using Nat.strong_induction_on with
  | _ i ih =>
    intro hi
    have e := h.par i hi
    cases hp : mb.par i with
    | none =>
      rw [hp] at e
      rw [pathUp_none hp, pathUp_none e]
      rfl
    | some p =>
      rw [hp] at e
      have hlt := wf.par_lt _ _ hp
      rw [pathUp_some hp hlt, pathUp_some e (wf'.par_lt _ _ e), ih p hlt (by omega)]
      rfl

theorem mem_pathUp (h : Renumbered σ mb mb') (wf : mb.WF) (wf' : mb'.WF) {i k : Nat} (hi : i < mb.bodies.length) (hk : k < mb.bodies.length) :
    σ i ∈ RBDyn.pathUp mb'.par (σ k) ↔ i ∈ RBDyn.pathUp mb.par k := by
  rw [h.pathUp wf wf' k hk, List.mem_map]
  constructor
  · rintro ⟨x, hx, e⟩
    have hx' : x < mb.bodies.length := lt_of_le_of_lt (le_of_mem_pathUp hx) hk
    rwa [← h.inj x i hx' hi e]
  · exact fun hx => ⟨i, hx, rfl⟩

variable {q q' a a' b b' : List (List K)}

theorem ptsAt (h : Renumbered σ mb mb') (hq : Moved σ mb.bodies.length q q') {i : Nat} (hi : i < mb.bodies.length) : mb'.ptsAt q' (σ i) = mb.ptsAt q i := by
  unfold MultiBody.ptsAt MultiBody.poseAt MultiBody.XtAt
  rw [h.joint i hi, h.Xt i hi, hq i hi]

theorem posAt (h : Renumbered σ mb mb') (wf : mb.WF) (wf' : mb'.WF) (hq : Moved σ mb.bodies.length q q') {i : Nat} (hi : i < mb.bodies.length) :
    mb'.posAt q' (σ i) = mb.posAt q i := by
  unfold MultiBody.posAt
  rw [h.pathUp wf wf' i hi, List.map_map]
  congr 1
  exact List.map_congr_left fun k hk => h.ptsAt hq (lt_of_le_of_lt (le_of_mem_pathUp hk) hi)

theorem relAt (h : Renumbered σ mb mb') (wf : mb.WF) (wf' : mb'.WF) (hq : Moved σ mb.bodies.length q q') {i k : Nat} (hi : i < mb.bodies.length)
    (hk : k < mb.bodies.length) : mb'.relAt q' (σ k) (σ i) = mb.relAt q k i := by
  unfold MultiBody.relAt
  rw [h.posAt wf wf' hq hi, h.posAt wf wf' hq hk]

theorem SAt (h : Renumbered σ mb mb') {i : Nat} (hi : i < mb.bodies.length) : mb'.SAt (σ i) = mb.SAt i := by
  unfold MultiBody.SAt
  rw [h.joint i hi]

theorem inertiaAt (h : Renumbered σ mb mb') {i : Nat} (hi : i < mb.bodies.length) : mb'.inertiaAt (σ i) = mb.inertiaAt i := by
  unfold MultiBody.inertiaAt
  rw [h.body i hi]

theorem dofAt (h : Renumbered σ mb mb') {i : Nat} (hi : i < mb.bodies.length) : mb'.dofAt (σ i) = mb.dofAt i := by
  unfold MultiBody.dofAt
  rw [h.joint i hi]

theorem jointMotion (h : Renumbered σ mb mb') (ha : Moved σ mb.bodies.length a a') {i : Nat} (hi : i < mb.bodies.length) :
    mb'.jointMotion a' (σ i) = mb.jointMotion a i := by
  unfold MultiBody.jointMotion
  rw [h.SAt hi, ha i hi]

theorem sum_path (h : Renumbered σ mb mb') (wf : mb.WF) (wf' : mb'.WF) {M : Type} [AddCommMonoid M] (f : Nat → M) {i : Nat} (hi : i < mb.bodies.length) :
    ∑ k ∈ mb'.path (σ i), f k = ∑ k ∈ mb.path i, f (σ k) := by
  unfold MultiBody.path
  rw [h.bodies, Finset.sum_filter, Finset.sum_filter, h.sum]
  refine Finset.sum_congr rfl fun k hk => ?_
  simp only [h.mem_pathUp wf wf' (Finset.mem_range.1 hk) hi]

theorem sum_subtree (h : Renumbered σ mb mb') (wf : mb.WF) (wf' : mb'.WF) {M : Type} [AddCommMonoid M] (f : Nat → M) {i : Nat} (hi : i < mb.bodies.length) :
    ∑ k ∈ mb'.subtree (σ i), f k = ∑ k ∈ mb.subtree i, f (σ k) := by
  unfold MultiBody.subtree
  rw [h.bodies, Finset.sum_filter, Finset.sum_filter, h.sum]
  refine Finset.sum_congr rfl fun k hk => ?_
  simp only [h.mem_pathUp wf wf' hi (Finset.mem_range.1 hk)]

theorem velAt (h : Renumbered σ mb mb') (wf : mb.WF) (wf' : mb'.WF) (hq : Moved σ mb.bodies.length q q') (ha : Moved σ mb.bodies.length a a') {i : Nat}
    (hi : i < mb.bodies.length) : mb'.velAt q' a' (σ i) = mb.velAt q a i := by
  unfold MultiBody.velAt
  rw [h.sum_path wf wf' _ hi]
  refine Finset.sum_congr rfl fun k hk => ?_
  have hk' := (MultiBody.mem_path.1 hk).1
  rw [h.relAt wf wf' hq hi hk', h.jointMotion ha hk']

theorem accAt (h : Renumbered σ mb mb') (wf : mb.WF) (wf' : mb'.WF) (hq : Moved σ mb.bodies.length q q') (ha : Moved σ mb.bodies.length a a')
    (hb : Moved σ mb.bodies.length b b') (a0 : MotionVec K) {i : Nat} (hi : i < mb.bodies.length) : mb'.accAt q' a' b' a0 (σ i) = mb.accAt q a b a0 i := by
  unfold MultiBody.accAt
  rw [h.sum_path wf wf' _ hi, h.posAt wf wf' hq hi]
  congr 1
  refine Finset.sum_congr rfl fun k hk => ?_
  have hk' := (MultiBody.mem_path.1 hk).1
  rw [h.relAt wf wf' hq hi hk', h.jointMotion ha hk', h.jointMotion hb hk', h.velAt wf wf' hq ha hk']

theorem netForceAt (h : Renumbered σ mb mb') (wf : mb.WF) (wf' : mb'.WF) (hq : Moved σ mb.bodies.length q q') (ha : Moved σ mb.bodies.length a a')
    (hb : Moved σ mb.bodies.length b b') (a0 : MotionVec K) {f f' : Nat → ForceVec K} (hf : ∀ i, i < mb.bodies.length → f' (σ i) = f i) {i : Nat}
    (hi : i < mb.bodies.length) : mb'.netForceAt q' a' b' a0 f' (σ i) = mb.netForceAt q a b a0 f i := by
  unfold MultiBody.netForceAt
  rw [h.accAt wf wf' hq ha hb a0 hi, h.velAt wf wf' hq ha hi, h.inertiaAt hi, h.posAt wf wf' hq hi, hf i hi]

theorem wrenchAt (h : Renumbered σ mb mb') (wf : mb.WF) (wf' : mb'.WF) (hq : Moved σ mb.bodies.length q q') {f f' : Nat → ForceVec K}
    (hf : ∀ i, i < mb.bodies.length → f' (σ i) = f i) {i : Nat} (hi : i < mb.bodies.length) : mb'.wrenchAt q' f' (σ i) = mb.wrenchAt q f i := by
  unfold MultiBody.wrenchAt
  rw [h.sum_subtree wf wf' _ hi]
  refine Finset.sum_congr rfl fun k hk => ?_
  have hk' := Finset.mem_range.1 (Finset.mem_filter.1 hk).1
  rw [h.relAt wf wf' hq hk' hi, hf k hk']

theorem project (h : Renumbered σ mb mb') {i : Nat} (hi : i < mb.bodies.length) (f : ForceVec K) : mb'.project (σ i) f = mb.project i f := by
  unfold MultiBody.project
  rw [h.SAt hi]

theorem colAt (h : Renumbered σ mb mb') (wf : mb.WF) (wf' : mb'.WF) (hq : Moved σ mb.bodies.length q q') {k i : Nat} (hk : k < mb.bodies.length)
    (hi : i < mb.bodies.length) (x : Nat) : mb'.colAt q' (σ k) (σ i) x = mb.colAt q k i x := by
  unfold MultiBody.colAt
  rw [h.relAt wf wf' hq hk hi, h.SAt hi]
  simp only [h.mem_pathUp wf wf' hi hk]

theorem massAt (h : Renumbered σ mb mb') (wf : mb.WF) (wf' : mb'.WF) (hq : Moved σ mb.bodies.length q q') {i j : Nat} (hi : i < mb.bodies.length)
    (hj : j < mb.bodies.length) (x y : Nat) : mb'.massAt q' (σ i) x (σ j) y = mb.massAt q i x j y := by
  unfold MultiBody.massAt
  rw [h.bodies, h.sum]
  refine Finset.sum_congr rfl fun k hk => ?_
  have hk' := Finset.mem_range.1 hk
  rw [h.colAt wf wf' hq hk' hi, h.colAt wf wf' hq hk' hj, h.inertiaAt hk']

theorem rigid (h : Renumbered σ mb mb') (wf' : mb'.WF) (hr : mb.Rigid) : mb'.Rigid := by
  constructor
  · intro j hj
    obtain ⟨k, hk, e⟩ := List.getElem_of_mem hj
    obtain ⟨i, hi, rfl⟩ := h.surj (by rw [← h.bodies, ← wf'.njoints]; exact hk)
    exact hr.joints j (List.mem_of_getElem? (by rw [← h.joint i hi, List.getElem?_eq_getElem hk, e]))
  · intro X hX
    obtain ⟨k, hk, e⟩ := List.getElem_of_mem hX
    obtain ⟨i, hi, rfl⟩ := h.surj (by rw [← h.bodies, ← wf'.nXt]; exact hk)
    exact hr.Xt X (List.mem_of_getElem? (by rw [← h.Xt i hi, List.getElem?_eq_getElem hk, e]))

theorem validQ (h : Renumbered σ mb mb') (wf : mb.WF) (wf' : mb'.WF) (hq : Moved σ mb.bodies.length q q') (hl : q'.length = mb.bodies.length)
    (hv : ValidQ mb q) : ValidQ mb' q' := by
  unfold ValidQ at *
  rw [List.forall₂_iff_get] at *
  refine ⟨by rw [wf'.njoints, h.bodies, hl], fun k h1 h2 => ?_⟩
  obtain ⟨i, hi, rfl⟩ := h.surj (k := k) (by omega)
  have hij : i < mb.joints.length := by rw [wf.njoints]; exact hi
  have hiq : i < q.length := by rw [← hv.1]; exact hij
  have e1 := h.joint i hi
  have e2 := hq i hi
  rw [List.getElem?_eq_getElem h1, List.getElem?_eq_getElem hij, Option.some_inj] at e1
  rw [List.getElem?_eq_getElem h2, List.getElem?_eq_getElem hiq, Option.some_inj] at e2
  have := hv.2 i hij hiq
  simp only [List.get_eq_getElem] at this ⊢
  rw [e1, e2]
  exact this

theorem totalMass (h : Renumbered σ mb mb') : mb'.totalMass = mb.totalMass := by
  unfold MultiBody.totalMass
  rw [h.bodies, h.sum]
  exact Finset.sum_congr rfl fun k hk => by rw [h.inertiaAt (Finset.mem_range.1 hk)]

theorem massOK (h : Renumbered σ mb mb') (hm : mb.MassOK) : mb'.MassOK := by
  intro b hb
  obtain ⟨k, hk, e⟩ := List.getElem_of_mem hb
  obtain ⟨i, hi, rfl⟩ := h.surj (by rw [← h.bodies]; exact hk)
  exact hm b (List.mem_of_getElem? (by rw [← h.body i hi, List.getElem?_eq_getElem hk, e]))

theorem inertia (h : Renumbered σ mb mb') {P : Body K → Prop} (hm : ∀ b ∈ mb.bodies, P b) : ∀ b ∈ mb'.bodies, P b := by
  intro b hb
  obtain ⟨k, hk, e⟩ := List.getElem_of_mem hb
  obtain ⟨i, hi, rfl⟩ := h.surj (by rw [← h.bodies]; exact hk)
  exact hm b (List.mem_of_getElem? (by rw [← h.body i hi, List.getElem?_eq_getElem hk, e]))

theorem joints (h : Renumbered σ mb mb') (wf' : mb'.WF) {P : Joint K → Prop} (hm : ∀ b ∈ mb.joints, P b) : ∀ b ∈ mb'.joints, P b := by
  intro b hb
  obtain ⟨k, hk, e⟩ := List.getElem_of_mem hb
  obtain ⟨i, hi, rfl⟩ := h.surj (by rw [← h.bodies, ← wf'.njoints]; exact hk)
  exact hm b (List.mem_of_getElem? (by rw [← h.joint i hi, List.getElem?_eq_getElem hk, e]))

end Renumbered

variable {m m' : MBC K}

/-- C84: the bodies have the same poses and velocities under their other numbers. -/
theorem C84_kinematics (h : Renumbered σ mb mb') (wf : mb.WF) (wf' : mb'.WF) (hs : RenumberedState σ mb.nrBodies m m') (hv : m.VelReady mb)
    (hv' : m'.VelReady mb') : Moved σ mb.nrBodies m.bodyPosW m'.bodyPosW ∧ Moved σ mb.nrBodies m.bodyVelB m'.bodyVelB ∧
      Moved σ mb.nrBodies m.bodyVelW m'.bodyVelW := by
  refine ⟨fun i hi => ?_, fun i hi => ?_, fun i hi => ?_⟩ <;> replace hi : i < mb.bodies.length := hi
  · rw [hv.bodyPosW, hv'.bodyPosW, h.bodies, range_map_getElem? hi, range_map_getElem? (h.lt i hi), h.posAt wf wf' hs.q hi]
  · rw [hv.bodyVelB, hv'.bodyVelB, h.bodies, range_map_getElem? hi, range_map_getElem? (h.lt i hi), h.velAt wf wf' hs.q hs.alpha hi]
  · rw [hv.bodyVelW, hv'.bodyVelW, h.bodies, range_map_getElem? hi, range_map_getElem? (h.lt i hi), MultiBody.velWAt, MultiBody.velWAt,
      h.velAt wf wf' hs.q hs.alpha hi, h.posAt wf wf' hs.q hi]

/-- C84: inverse dynamics finds the same torques and accelerations under the other numbers. -/
theorem C84_torques (h : Renumbered σ mb mb') (wf : mb.WF) (wf' : mb'.WF) (hr : mb.Rigid) (hs : RenumberedState σ mb.nrBodies m m')
    (hd : Moved σ mb.nrBodies m.alphaD m'.alphaD) (sz : m.Sized mb) (sz' : m'.Sized mb') (hq : ValidQ mb m.q) (hv : m.VelReady mb)
    (hv' : m'.VelReady mb') {d d' : ID K} (hl : d.f.length = mb.nrBodies) (hl' : d'.f.length = mb.nrBodies) :
    ∃ d₁ m₁ d₁' m₁', d.inverseDynamics mb m = .ok (d₁, m₁) ∧ d'.inverseDynamics mb' m' = .ok (d₁', m₁') ∧
      Moved σ mb.nrBodies m₁.jointTorque m₁'.jointTorque ∧ Moved σ mb.nrBodies m₁.bodyAccB m₁'.bodyAccB := by
  have hq' : ValidQ mb' m'.q := h.validQ wf wf' hs.q (by
    have := congrArg List.length sz'.q
    simp only [List.length_map] at this
    rw [this, wf'.njoints, h.bodies]) hq
  have hf : ∀ i, i < mb.bodies.length → m'.forceAt (σ i) = m.forceAt i := by
    intro i hi
    unfold MBC.forceAt
    rw [hs.force i hi]
  refine ⟨_, _, _, _, id_eq wf hr sz hq hv hl rfl, id_eq wf' (h.rigid wf' hr) sz' hq' hv' (hl'.trans h.bodies.symm) rfl, fun i hi => ?_, fun i hi => ?_⟩ <;> replace hi : i < mb.bodies.length := hi
  · simp only
    rw [h.bodies, range_map_getElem? hi, range_map_getElem? (h.lt i hi), h.project hi, hs.gravity]
    congr 2
    exact h.wrenchAt wf wf' hs.q (fun k hk => h.netForceAt wf wf' hs.q hs.alpha hd _ hf hk) hi
  · simp only
    rw [h.bodies, range_map_getElem? hi, range_map_getElem? (h.lt i hi), hs.gravity, h.accAt wf wf' hs.q hs.alpha hd _ hi]

/-- C84: forward dynamics finds the same accelerations of the joints under the other numbers. -/
theorem C84_accelerations (h : Renumbered σ mb mb') (wf : mb.WF) (wf' : mb'.WF) (hr : mb.Rigid) (hs : RenumberedState σ mb.nrBodies m m')
    (ht : Moved σ mb.nrBodies m.jointTorque m'.jointTorque) (sz : m.Sized mb) (sz' : m'.Sized mb') (hq : ValidQ mb m.q) (hv : m.VelReady mb)
    (hv' : m'.VelReady mb') {fd fd' : FD K} (hf : fd.Fits mb) (hf' : fd'.Fits mb')
    (hI : ∀ b ∈ mb.bodies, ∀ v : MotionVec K, v ≠ 0 → 0 < v.dot (b.inertia.mulMotion v)) (hS : ∀ j ∈ mb.joints, ∀ c ∈ j.S, c ≠ 0)
    {solve : DMat K → List K → List K} (hs1 : ∀ fd₁, fd.computeH mb m = .ok fd₁ → ExactSolve solve fd₁.H)
    (hs2 : ∀ fd₁, fd'.computeH mb' m' = .ok fd₁ → ExactSolve solve fd₁.H) :
    ∃ fd₁ m₁ fd₁' m₁', fd.forwardDynamics solve mb m = .ok (fd₁, m₁) ∧ fd'.forwardDynamics solve mb' m' = .ok (fd₁', m₁') ∧
      SizedDof mb m₁.alphaD ∧ Moved σ mb.nrBodies m₁.alphaD m₁'.alphaD := by
  have hl : (⟨List.replicate mb.nrBodies 0⟩ : ID K).f.length = mb.nrBodies := by simp
  obtain ⟨fd₁, m₁, d₁, m₂, e1, hm, -, szm, e2, htq⟩ := C27_forward_then_inverse wf hr sz hq hv hl hf hs1
  have hm' : m₁ = { m with alphaD := m₁.alphaD } := by rw [← hm]
  have hsr : SizedDof mb m₁.alphaD := szm.alphaD
  have hr' := h.rigid wf' hr
  have hq' : ValidQ mb' m'.q := h.validQ wf wf' hs.q (by
    have := congrArg List.length sz'.q
    simp only [List.length_map] at this
    rw [this, wf'.njoints, h.bodies]) hq
  have hlen : m₁.alphaD.length = mb.bodies.length := by
    have := congrArg List.length hsr
    simp only [List.length_map] at this
    rw [this, wf.njoints]
  choose! τ hτ using fun k (hk : k < mb.bodies.length) => h.surj hk
  have hτσ : ∀ i, i < mb.bodies.length → τ (σ i) = i := fun i hi => h.inj _ _ (hτ _ (h.lt i hi)).1 hi (hτ _ (h.lt i hi)).2
  obtain ⟨r, hr0⟩ : ∃ r, r = (List.range mb.bodies.length).map fun k => (m₁.alphaD[τ k]?).getD [] := ⟨_, rfl⟩
  have hmv : Moved σ mb.nrBodies m₁.alphaD r := by
    intro i hi
    have hi' : i < mb.bodies.length := hi
    rw [hr0, range_map_getElem? (h.lt i hi), hτσ i hi, List.getElem?_eq_getElem (by omega)]
    rfl
  have hsr' : SizedDof mb' r := by
    unfold SizedDof
    refine List.ext_getElem? fun k => ?_
    by_cases hk : k < mb.bodies.length
    · obtain ⟨i, hi, rfl⟩ := h.surj hk
      rw [List.getElem?_map, hmv i hi, List.getElem?_map, h.joint i hi, ← List.getElem?_map, hsr, List.getElem?_map]
    · rw [List.getElem?_eq_none (by rw [hr0]; simp; omega), List.getElem?_eq_none (by rw [List.length_map, wf'.njoints, h.bodies]; omega)]
  rw [hm'] at e1 e2
  have hsp : SamePosVel { m with alphaD := m₁.alphaD } m := rfl
  have hsp' : SamePosVel { m' with alphaD := r } m' := rfl
  obtain ⟨hv1, hq1⟩ := hsp.ready hv hq
  obtain ⟨hv1', hq1'⟩ := hsp'.ready hv' hq'
  have sz2 : MBC.Sized mb' { m' with alphaD := r } := { sz' with alphaD := hsr' }
  obtain ⟨d₂, m₃, d₃, m₄, e3, e4, ht', -⟩ := C84_torques (m := { m with alphaD := m₁.alphaD }) (m' := { m' with alphaD := r }) h wf wf' hr
    ⟨hs.q, hs.alpha, hs.force, hs.gravity⟩ hmv { sz with alphaD := hsr } sz2 hq1 hv1 hv1' hl hl
  rw [e2] at e3
  cases e3
  have htq' : m₄.jointTorque = m'.jointTorque := by
    refine List.ext_getElem? fun k => ?_
    by_cases hk : k < mb.bodies.length
    · obtain ⟨i, hi, rfl⟩ := h.surj hk
      rw [ht' i hi, htq, ht i hi]
    · have l1 : m'.jointTorque.length = mb.bodies.length := by
        have := congrArg List.length sz'.jointTorque
        simp only [List.length_map] at this
        rw [this, wf'.njoints, h.bodies]
      rw [id_eq wf' hr' sz2 hq1' hv1' (by rw [h.bodies]; exact hl) rfl] at e4
      cases e4
      rw [List.getElem?_eq_none (by simp [h.bodies]; omega), List.getElem?_eq_none (by omega)]
  obtain ⟨fd₂, e5⟩ := fd_unique wf' hr' sz' hq' hv' (by rw [show mb'.nrBodies = mb.nrBodies from h.bodies]; exact hl) hf'
    (h.inertia (P := fun b => ∀ v : MotionVec K, v ≠ 0 → 0 < v.dot (b.inertia.mulMotion v)) hI)
    (h.joints wf' (P := fun j => ∀ c ∈ j.S, c ≠ 0) hS) hs2 hsr' e4 htq'
  exact ⟨fd₁, _, fd₂, _, e1, e5, hsr, hmv⟩

/-- C84: the entries of the mass matrix are the same, at the positions that the other numbers give them. -/
theorem C84_mass_matrix (h : Renumbered σ mb mb') (wf : mb.WF) (wf' : mb'.WF) (hr : mb.Rigid) (hs : Moved σ mb.nrBodies m.q m'.q)
    (sz' : m'.Sized mb') (hq : ValidQ mb m.q) (hv : m.PosReady mb) (hv' : m'.PosReady mb') {fd fd' : FD K} (hf : fd.Fits mb) (hf' : fd'.Fits mb') :
    ∃ fd₁ fd₁', fd.computeH mb m = .ok fd₁ ∧ fd'.computeH mb' m' = .ok fd₁' ∧
      ∀ (i j : Nat) (J₁ J₂ : Joint K) (p₁ p₂ p₁' p₂' x y : Nat), mb.joints[i]? = some J₁ → mb.joints[j]? = some J₂ → x < J₁.dof → y < J₂.dof →
        mb.jointPosInDof[i]? = some p₁ → mb.jointPosInDof[j]? = some p₂ → mb'.jointPosInDof[σ i]? = some p₁' → mb'.jointPosInDof[σ j]? = some p₂' →
        fd₁'.H.get (p₁' + x) (p₂' + y) = fd₁.H.get (p₁ + x) (p₂ + y) := by
  have hq' : ValidQ mb' m'.q := h.validQ wf wf' hs (by
    have := congrArg List.length sz'.q
    simp only [List.length_map] at this
    rw [this, wf'.njoints, h.bodies]) hq
  obtain ⟨fd₁, e1, s1, -, -⟩ := computeH_eq wf hr hq hv hf
  obtain ⟨fd₁', e2, s2, -, -⟩ := computeH_eq wf' (h.rigid wf' hr) hq' hv' hf'
  refine ⟨fd₁, fd₁', e1, e2, ?_⟩
  intro i j J₁ J₂ p₁ p₂ p₁' p₂' x y h1 h2 hx hy h3 h4 h5 h6
  have hi : i < mb.bodies.length := by rw [← wf.njoints]; exact (List.getElem?_eq_some_iff.1 h1).1
  have hj : j < mb.bodies.length := by rw [← wf.njoints]; exact (List.getElem?_eq_some_iff.1 h2).1
  have dx : x < mb.dofAt i := by unfold MultiBody.dofAt; rw [h1]; exact hx
  have dy : y < mb.dofAt j := by unfold MultiBody.dofAt; rw [h2]; exact hy
  have hi' := h.lt i hi
  have hj' := h.lt j hj
  rw [wf.posDof i (by rw [wf.njoints]; exact hi)] at h3
  rw [wf.posDof j (by rw [wf.njoints]; exact hj)] at h4
  rw [wf'.posDof _ (by rw [wf'.njoints, h.bodies]; exact hi')] at h5
  rw [wf'.posDof _ (by rw [wf'.njoints, h.bodies]; exact hj')] at h6
  cases h3; cases h4; cases h5; cases h6
  have k1 := (s1.2.2 i x j y hi hj dx dy).1 trivial
  have k2 := (s2.2.2 (σ i) x (σ j) y (by rw [h.bodies]; exact hi') (by rw [h.bodies]; exact hj') (by rw [h.dofAt hi]; exact dx)
    (by rw [h.dofAt hj]; exact dy)).1 trivial
  rw [h.massAt wf wf' hs hi hj] at k2
  exact k2.trans k1.symm

/-- C84: the centre of mass and the momentum do not depend on the numbering. -/
theorem C84_com_momentum (h : Renumbered σ mb mb') (wf : mb.WF) (wf' : mb'.WF) (hm : mb.MassOK) (hM : 0 < mb.totalMass)
    (hs : RenumberedState σ mb.nrBodies m m') (hv : m.VelReady mb) (hv' : m'.VelReady mb') (p : Vec3 K) :
    ∃ c P, computeCoM mb m = .ok c ∧ computeCoM mb' m' = .ok c ∧ computeCentroidalMomentum mb m p = .ok P ∧
      computeCentroidalMomentum mb' m' p = .ok P := by
  refine ⟨_, _, computeCoM_eq hm hM hv.toPosReady, ?_, computeCentroidalMomentum_eq hv p, ?_⟩
  · rw [computeCoM_eq (h.massOK hm) (h.totalMass ▸ hM) hv'.toPosReady]
    congr 1
    unfold MultiBody.comAt
    rw [h.totalMass, h.bodies, h.sum]
    congr 1
    refine Finset.sum_congr rfl fun k hk => ?_
    have hk' := Finset.mem_range.1 hk
    unfold MultiBody.corComAt
    rw [h.inertiaAt hk', h.posAt wf wf' hs.q hk', h.body k hk']
  · rw [computeCentroidalMomentum_eq hv']
    congr 1
    unfold MultiBody.momentumAt
    rw [h.bodies, h.sum]
    refine Finset.sum_congr rfl fun k hk => ?_
    have hk' := Finset.mem_range.1 hk
    rw [h.inertiaAt hk', h.posAt wf wf' hs.q hk', h.velAt wf wf' hs.q hs.alpha hk']

/-- C84: the Jacobian of a body has the same columns, at the positions that the other numbers give them. -/
theorem C84_jacobian (h : Renumbered σ mb mb') (wf : mb.WF) (wf' : mb'.WF) (hs : Moved σ mb.nrBodies m.q m'.q) (hv : m.PosReady mb)
    (hv' : m'.PosReady mb') {J J' : Jac K} {N : Nat} {p : Vec3 K} (hJ : J.Of mb N p) (hJ' : J'.Of mb' (σ N) p) {res res' : DMat K}
    (h1 : res.rows = 6) (h2 : res.cols = mb.nrDof) (h1' : res'.rows = 6) (h2' : res'.cols = mb'.nrDof) :
    ∃ J₁ A J₁' A', J.jacobian mb m = .ok J₁ ∧ J₁.fullJacobian mb (DMat.ofCols J₁.jac) res = .ok A ∧
      J'.jacobian mb' m' = .ok J₁' ∧ J₁'.fullJacobian mb' (DMat.ofCols J₁'.jac) res' = .ok A' ∧
      ∀ (x i a pos pos' : Nat) (j : Joint K), x < 6 → mb.joints[i]? = some j → a < j.dof → mb.jointPosInDof[i]? = some pos →
        mb'.jointPosInDof[σ i]? = some pos' → A'.get x (pos' + a) = A.get x (pos + a) := by
  obtain ⟨J₁, A, e1, e2, -, -, e3⟩ := hJ.full_cols wf hv h1 h2
  obtain ⟨J₁', A', f1, f2, -, -, f3⟩ := hJ'.full_cols wf' hv' h1' h2'
  refine ⟨J₁, A, J₁', A', e1, e2, f1, f2, ?_⟩
  intro x i a pos pos' j hx hj ha hp hp'
  have hi : i < mb.bodies.length := by rw [← wf.njoints]; exact (List.getElem?_eq_some_iff.1 hj).1
  have dx : a < mb.dofAt i := by unfold MultiBody.dofAt; rw [hj]; exact ha
  have hi' := h.lt i hi
  rw [wf.posDof i (by rw [wf.njoints]; exact hi)] at hp
  rw [wf'.posDof _ (by rw [wf'.njoints, h.bodies]; exact hi')] at hp'
  cases hp; cases hp'
  have k1 := e3 x i a hx hi dx
  have k2 := f3 x (σ i) a hx (by rw [h.bodies]; exact hi') (by rw [h.dofAt hi]; exact dx)
  refine k2.trans (Eq.trans ?_ k1.symm)
  unfold MultiBody.wcol MultiBody.pathCol
  simp only [h.posAt wf wf' hs hi, h.posAt wf wf' hs hJ.isBody, h.SAt hi, h.mem_pathUp wf wf' hi hJ.isBody]

/-- One solve serves all robots made of positive inertias with the same number of degrees of freedom. -/
theorem exact_of_physical (wf : mb.WF) (hr : mb.Rigid) (hq : ValidQ mb m.q) (hv : m.PosReady mb) {fd : FD K} (hf : fd.Fits mb)
    (hI : ∀ b ∈ mb.bodies, ∀ v : MotionVec K, v ≠ 0 → 0 < v.dot (b.inertia.mulMotion v)) (hS : ∀ j ∈ mb.joints, ∀ c ∈ j.S, c ≠ 0) {n : Nat}
    (hn : mb.nrDof = n) {solve : DMat K → List K → List K} (hs : ∀ H : DMat K, H.rows = n → H.cols = n →
      (∀ x : List K, x.length = n → (∃ y ∈ x, y ≠ 0) → ∃ r, r < n ∧ H.mulVecAt x r ≠ 0) → ExactSolve solve H) :
    ∀ fd₁, fd.computeH mb m = .ok fd₁ → ExactSolve solve fd₁.H := by
  subst hn
  intro fd₁ e
  obtain ⟨d', e', h⟩ := C29_positive_definite wf hr hq hv hf hI hS
  obtain ⟨d'', e'', hr, hc, -⟩ := C28_symmetric wf hr hq hv hf
  rw [e] at e' e''
  cases e'
  cases e''
  refine hs _ hr hc fun x hx hne => ?_
  by_contra hcon
  push Not at hcon
  have := h x hx hne
  rw [Finset.sum_eq_zero fun r hr => by rw [hcon r (Finset.mem_range.1 hr), mul_zero]] at this
  exact lt_irrefl _ this

/-! ### Examples -/

namespace Sample

/-- The numbers that the bodies of the sample robot have if the slider comes before the arm. -/
def sigma (i : Nat) : Nat := [0, 2, 3, 1].getD i 0

/-- The entries of the sample robot in the other order. -/
def shuffle {α : Type} (l : List α) : List α := [l[0]?, l[3]?, l[1]?, l[2]?].filterMap _root_.id

def mbS : MultiBody ℚ :=
  ((MultiBody.mk' (shuffle bodies) (shuffle joints) [-1, 0, 0, 2] [0, 1, 2, 3] [-1, 0, 0, 2] (shuffle Xt)).toOption).getD
    ⟨[], [], [], [], [], [], [], [], [], [], 0, 0⟩

theorem mbS_eq : MultiBody.mk' (shuffle bodies) (shuffle joints) [-1, 0, 0, 2] [0, 1, 2, 3] [-1, 0, 0, 2] (shuffle Xt) = .ok mbS := by decide +kernel

theorem mbS_wf : mbS.WF := by
  obtain ⟨mb', h, hw, -⟩ := MultiBody.mk'_wf (shuffle bodies) (shuffle joints) [-1, 0, 0, 2] [0, 1, 2, 3] [-1, 0, 0, 2] (shuffle Xt) rfl rfl rfl
    (by intro i hi
        have : i < 4 := hi
        obtain rfl | rfl | rfl | rfl : i = 0 ∨ i = 1 ∨ i = 2 ∨ i = 3 := by omega
        all_goals rfl)
    (by intro i p hp
        obtain ⟨hi, -⟩ := List.getElem?_eq_some_iff.1 hp
        have : i < 4 := hi
        obtain rfl | rfl | rfl | rfl : i = 0 ∨ i = 1 ∨ i = 2 ∨ i = 3 := by omega
        all_goals (cases hp; decide))
    rfl (fun j hj => (units j (by
      simp only [shuffle, joints, List.mem_filterMap, List.mem_cons, List.not_mem_nil, or_false, _root_.id] at hj ⊢
      obtain ⟨a, ha, rfl⟩ := hj
      rcases ha with e | e | e | e <;> simp at e <;> subst e <;> simp)).built)
  rw [mbS_eq] at h
  cases h
  exact hw

theorem renumbered : Renumbered sigma Sample.mb mbS where
  bodies := by decide +kernel
  lt := by decide +kernel
  inj := by
    have key : ∀ i, i < Sample.mb.bodies.length → ∀ j, j < Sample.mb.bodies.length → sigma i = sigma j → i = j := by decide +kernel
    exact fun i j hi hj e => key i hi j hj e
  body := by decide +kernel
  joint := by decide +kernel
  Xt := by decide +kernel
  par := by decide +kernel

/-- The state of the sample robot in the other order. -/
def mbcS : MBC ℚ :=
  { mbc with q := shuffle mbc.q, alpha := shuffle mbc.alpha, alphaD := shuffle mbc.alphaD, jointTorque := shuffle mbc.jointTorque, force := shuffle mbc.force
             motionSubspace := shuffle mbc.motionSubspace }

theorem mbcS_sized : mbcS.Sized mbS := by
  constructor
  · show mbcS.q.map List.length = mbS.joints.map (·.params); decide +kernel
  · show mbcS.alpha.map List.length = mbS.joints.map (·.dof); decide +kernel
  · show mbcS.alphaD.map List.length = mbS.joints.map (·.dof); decide +kernel
  · show mbcS.jointTorque.map List.length = mbS.joints.map (·.dof); decide +kernel
  all_goals decide +kernel

end Sample

/-- All hypotheses hold for the sample robot with the slider before the arm, in a moving state. -/
example : ∃ (m m' k k' : MBC ℚ) (d d' : ID ℚ), Moved Sample.sigma 4 m.bodyPosW m'.bodyPosW ∧ Moved Sample.sigma 4 m.bodyVelB m'.bodyVelB ∧
    Sample.id.inverseDynamics Sample.mb m = .ok (d, k) ∧ Sample.id.inverseDynamics Sample.mbS m' = .ok (d', k') ∧
    Moved Sample.sigma 4 k.jointTorque k'.jointTorque ∧ m.q = Sample.q ∧ m.alpha = Sample.alpha ∧
    ∃ (solve : DMat ℚ → List ℚ → List ℚ) (fd fd' f f' : FD ℚ) (x x' : MBC ℚ), fd.forwardDynamics solve Sample.mb m = .ok (f, x) ∧
      fd'.forwardDynamics solve Sample.mbS m' = .ok (f', x') ∧ Moved Sample.sigma 4 x.alphaD x'.alphaD := by
  have R := Sample.renumbered
  have hr := Sample.rigid
  have hr' := R.rigid Sample.mbS_wf hr
  have hq' : ValidQ Sample.mbS Sample.mbcS.q := R.validQ Sample.wf Sample.mbS_wf (q := Sample.mbc.q) (by unfold Moved; decide +kernel) (by decide +kernel) Sample.validQ
  obtain ⟨m₁, m, -, -, v, sz, e1, e2, e3, e4, e5, e6⟩ := C24_velReady Sample.wf hr Sample.sized Sample.validQ
  obtain ⟨m₁', m', -, -, v', sz', f1, f2, f3, f4, f5, f6⟩ := C24_velReady Sample.mbS_wf hr' Sample.mbcS_sized hq'
  have hn : Sample.mb.nrBodies = 4 := by decide +kernel
  have hs : RenumberedState Sample.sigma Sample.mb.nrBodies m m' := by
    refine ⟨?_, ?_, ?_, ?_⟩
    · rw [e1, f1]; unfold Moved; decide +kernel
    · rw [e2, f2]; unfold Moved; decide +kernel
    · rw [e4, f4]; unfold Moved; decide +kernel
    · rw [e5, f5]; rfl
  have hd : Moved Sample.sigma Sample.mb.nrBodies m.alphaD m'.alphaD := by rw [e3, f3]; unfold Moved; decide +kernel
  have ht : Moved Sample.sigma Sample.mb.nrBodies m.jointTorque m'.jointTorque := by rw [e6, f6]; unfold Moved; decide +kernel
  have hvq : ValidQ Sample.mb m.q := by rw [e1]; exact Sample.validQ
  have hvq' : ValidQ Sample.mbS m'.q := by rw [f1]; exact hq'
  obtain ⟨k1, k2, -⟩ := C84_kinematics R Sample.wf Sample.mbS_wf hs v v'
  obtain ⟨d, k, d', k', g1, g2, g3, -⟩ := C84_torques R Sample.wf Sample.mbS_wf hr hs hd sz sz' hvq v v' (d := Sample.id) (d' := Sample.id)
    (by decide +kernel) (by decide +kernel)
  obtain ⟨fd', -, hf'⟩ := C27_constructor Sample.mbS_wf (⟨⟨0, 0, fun _ _ => 0⟩, [], [], [], [], [], [], []⟩ : FD ℚ)
  have hI' := R.inertia (P := fun b => ∀ v : MotionVec ℚ, v ≠ 0 → 0 < v.dot (b.inertia.mulMotion v)) Sample.inertia_pos
  have hS' := R.joints Sample.mbS_wf (P := fun j => ∀ c ∈ j.S, c ≠ 0) Sample.subspace_ne
  obtain ⟨solve, hsol⟩ := ExactSolve.exists_of_regular (K := ℚ) 11
  obtain ⟨f, x, f', x', o1, o2, -, o3⟩ := C84_accelerations R Sample.wf Sample.mbS_wf hr hs ht sz sz' hvq v v' Sample.fd_fits hf' Sample.inertia_pos
    Sample.subspace_ne (exact_of_physical Sample.wf hr hvq v.toPosReady Sample.fd_fits Sample.inertia_pos Sample.subspace_ne (by decide +kernel) hsol)
    (exact_of_physical Sample.mbS_wf hr' hvq' v'.toPosReady hf' hI' hS' (by decide +kernel) hsol)
  rw [hn] at k1 k2 g3 o3
  exact ⟨m, m', k, k', d, d', k1, k2, g1, g2, g3, e1, e2, solve, Sample.fd, fd', f, f', x, x', o1, o2, o3⟩

/-- The hypotheses of the other three statements hold there too: the column of the slider, at position 10 in one robot and 6 in the other. -/
example : ∃ (m m' : MBC ℚ) (fd' f f' : FD ℚ) (c : Vec3 ℚ) (J J' J₁ J₁' : Jac ℚ) (A A' : DMat ℚ), Sample.fd.computeH Sample.mb m = .ok f ∧
    fd'.computeH Sample.mbS m' = .ok f' ∧ f'.H.get 6 6 = f.H.get 10 10 ∧ f'.H.get 6 0 = f.H.get 10 0 ∧ computeCoM Sample.mb m = .ok c ∧
    computeCoM Sample.mbS m' = .ok c ∧ J.jacobian Sample.mb m = .ok J₁ ∧ J₁.fullJacobian Sample.mb (DMat.ofCols J₁.jac) ⟨6, 11, fun _ _ => 3⟩ = .ok A ∧
    J'.jacobian Sample.mbS m' = .ok J₁' ∧ J₁'.fullJacobian Sample.mbS (DMat.ofCols J₁'.jac) ⟨6, 11, fun _ _ => 5⟩ = .ok A' ∧
    J.Of Sample.mb 3 ⟨1, 2, 3⟩ ∧ J'.Of Sample.mbS 1 ⟨1, 2, 3⟩ ∧ A'.get 4 6 = A.get 4 10 := by
  have R := Sample.renumbered
  have hr := Sample.rigid
  have hr' := R.rigid Sample.mbS_wf hr
  have hq' : ValidQ Sample.mbS Sample.mbcS.q := R.validQ Sample.wf Sample.mbS_wf (q := Sample.mbc.q) (by unfold Moved; decide +kernel) (by decide +kernel) Sample.validQ
  obtain ⟨m₁, m, -, -, v, sz, e1, e2, e3, e4, e5, e6⟩ := C24_velReady Sample.wf hr Sample.sized Sample.validQ
  obtain ⟨m₁', m', -, -, v', sz', f1, f2, f3, f4, f5, f6⟩ := C24_velReady Sample.mbS_wf hr' Sample.mbcS_sized hq'
  have hs : RenumberedState Sample.sigma Sample.mb.nrBodies m m' := by
    refine ⟨?_, ?_, ?_, ?_⟩
    · rw [e1, f1]; unfold Moved; decide +kernel
    · rw [e2, f2]; unfold Moved; decide +kernel
    · rw [e4, f4]; unfold Moved; decide +kernel
    · rw [e5, f5]; rfl
  have hvq : ValidQ Sample.mb m.q := by rw [e1]; exact Sample.validQ
  obtain ⟨fd', -, hf'⟩ := C27_constructor Sample.mbS_wf (⟨⟨0, 0, fun _ _ => 0⟩, [], [], [], [], [], [], []⟩ : FD ℚ)
  obtain ⟨f, f', h1, h2, h3⟩ := C84_mass_matrix R Sample.wf Sample.mbS_wf hr hs.q sz' hvq v.toPosReady v'.toPosReady Sample.fd_fits hf'
  obtain ⟨c, P, c1, c2, -, -⟩ := C84_com_momentum R Sample.wf Sample.mbS_wf (by unfold MultiBody.MassOK; decide +kernel) (by decide +kernel) hs v v' ⟨1, 2, 3⟩
  obtain ⟨J, hJ⟩ := Jac.exists_of Sample.wf (N := 3) (by decide +kernel) ⟨1, 2, 3⟩
  obtain ⟨J', hJ'⟩ := Jac.exists_of Sample.mbS_wf (N := 1) (by decide +kernel) ⟨1, 2, 3⟩
  obtain ⟨J₁, A, J₁', A', j1, j2, j3, j4, j5⟩ := C84_jacobian R Sample.wf Sample.mbS_wf hs.q v.toPosReady v'.toPosReady hJ hJ'
    (res := ⟨6, 11, fun _ _ => 3⟩) (res' := ⟨6, 11, fun _ _ => 5⟩) rfl (by decide +kernel) rfl (by decide +kernel)
  refine ⟨m, m', fd', f, f', c, J, J', J₁, J₁', A, A', h1, h2, ?_, ?_, c1, c2, j1, j2, j3, j4, hJ, hJ', ?_⟩
  · exact h3 3 3 (Joint.mk' .Prism ⟨0, 2, 0⟩ true "slide") (Joint.mk' .Prism ⟨0, 2, 0⟩ true "slide") 10 10 6 6 0 0 (by decide +kernel) (by decide +kernel)
      (by decide +kernel) (by decide +kernel) (by decide +kernel) (by decide +kernel) (by decide +kernel) (by decide +kernel)
  · exact h3 3 0 (Joint.mk' .Prism ⟨0, 2, 0⟩ true "slide") (Joint.mk' .Free ⟨0, 0, 1⟩ true "root") 10 0 6 0 0 0 (by decide +kernel) (by decide +kernel)
      (by decide +kernel) (by decide +kernel) (by decide +kernel) (by decide +kernel) (by decide +kernel) (by decide +kernel)
  · exact j5 4 3 0 10 6 (Joint.mk' .Prism ⟨0, 2, 0⟩ true "slide") (by omega) (by decide +kernel) (by decide +kernel) (by decide +kernel) (by decide +kernel)

end RBDyn
