import Verif.Lemmas.Dynamics
import Verif.Lemmas.Jacobian
import Verif.Lemmas.Config
import Verif.Lemmas.Flatten

/-!
No function below accesses anything out of bounds if the sizes fit, whatever the values are. The rules are those of a Hoare logic whose
postconditions speak about sizes only.
-/

namespace RBDyn
variable {K : Type} [Scalar K] {mb : MultiBody K}

/-- `m` returns a value that satisfies `P`. -/
def Res.Safe {α : Type} (m : Res α) (P : α → Prop) : Prop := ∃ a, m = .ok a ∧ P a

namespace Res.Safe
variable {α β : Type}

theorem bind {m : Res α} {f : α → Res β} {P : α → Prop} {Q : β → Prop} (h : Safe m P) (hf : ∀ a, P a → Safe (f a) Q) :
    Safe (m >>= f) Q := by
  obtain ⟨a, rfl, ha⟩ := h
  exact hf a ha

theorem pure {a : α} {P : α → Prop} (h : P a) : Safe (Pure.pure a : Res α) P := ⟨a, rfl, h⟩
theorem ok {a : α} {P : α → Prop} (h : P a) : Safe (Except.ok a : Res α) P := ⟨a, rfl, h⟩
theorem mono {m : Res α} {P Q : α → Prop} (h : Safe m P) (hPQ : ∀ a, P a → Q a) : Safe m Q := by
  obtain ⟨a, ha, hp⟩ := h; exact ⟨a, ha, hPQ a hp⟩
theorem exists_ok {m : Res α} {P : α → Prop} (h : Safe m P) : ∃ a, m = .ok a := by
  obtain ⟨a, ha, -⟩ := h; exact ⟨a, ha⟩

theorem rd {l : List α} {i : Nat} (h : i < l.length) : Safe (RBDyn.rd l i) fun a => l[i]? = some a :=
  ⟨_, rd_ok h, List.getElem?_eq_getElem h⟩
theorem wr {l : List α} {i : Nat} (h : i < l.length) (x : α) : Safe (RBDyn.wr l i x) fun l' => l' = l.set i x :=
  ⟨_, wr_ok h, rfl⟩

theorem range {σ : Type} {f : σ → Nat → Res σ} (P : σ → Prop) {n : Nat} {s : σ} (h0 : P s)
    (hf : ∀ i s, i < n → P s → Safe (f s i) P) : Safe ((List.range n).foldlM f s) P :=
  foldlM_range_inv f (fun _ => P) n s h0 fun i s hi hs => hf i s hi hs
theorem range_reverse {σ : Type} {f : σ → Nat → Res σ} (P : σ → Prop) {n : Nat} {s : σ} (h0 : P s)
    (hf : ∀ i s, i < n → P s → Safe (f s i) P) : Safe ((List.range n).reverse.foldlM f s) P :=
  foldlM_range_reverse_inv f (fun _ => P) n s h0 fun i s hi hs => hf i s hi hs

end Res.Safe

/-- `m` returns if `P` holds and throws `std::domain_error` if not. -/
def Res.Decides {α : Type} (m : Res α) (P : Prop) : Prop := (P → ∃ r, m = .ok r) ∧ (¬ P → m = .error .domainError)

namespace Res.Decides
variable {α : Type}

theorem done {m : Res α} (h : ∃ r, m = .ok r) : Decides m True := ⟨fun _ => h, fun n => absurd trivial n⟩

theorem seq {m : Res Unit} {k : Res α} {P Q : Prop} (h : Decides m P) (hk : P → Decides k Q) :
    Decides (m >>= fun _ => k) (P ∧ Q) := by
  by_cases hP : P
  · obtain ⟨⟨⟩, rfl⟩ := h.1 hP
    exact ⟨fun hh => (hk hP).1 hh.2, fun hh => (hk hP).2 fun hQ => hh ⟨hP, hQ⟩⟩
  · rw [h.2 hP]
    exact ⟨fun hh => absurd hh.1 hP, fun _ => rfl⟩

theorem congr {m : Res α} {P Q : Prop} (h : Decides m P) (e : P ↔ Q) : Decides m Q :=
  ⟨fun hQ => h.1 (e.2 hQ), fun hQ => h.2 fun hP => hQ (e.1 hP)⟩

end Res.Decides

open Res

theorem checkMatchBodiesVector_decides {α : Type} (v : List α) : Decides (checkMatchBodiesVector mb v) (v.length = mb.bodies.length) := by
  unfold checkMatchBodiesVector MultiBody.nrBodies
  exact ⟨fun h => ⟨(), by simp [h]⟩, fun h => by simp [h]⟩

theorem checkMatchJointsVector_decides (wf : mb.WF) {α : Type} (v : List α) :
    Decides (checkMatchJointsVector mb v) (v.length = mb.bodies.length) := by
  unfold checkMatchJointsVector MultiBody.nrJoints
  rw [wf.njoints]
  exact ⟨fun h => ⟨(), by simp [h]⟩, fun h => by simp [h]⟩

theorem checkVecSizes_decides (wf : mb.WF) {α : Type} (sz : Joint K → Nat) (v : List (List α)) :
    Decides (do checkMatchJointsVector mb v; checkJointVecSizes mb sz .domainError v.length v)
      (v.map List.length = mb.joints.map sz) := by
  have h1 := checkMatchJointsVector_decides wf v
  refine (h1.seq (Q := v.map List.length = mb.joints.map sz) fun h => ?_).congr ⟨fun h => h.2, fun h => ⟨?_, h⟩⟩
  · have hl : v.length = mb.joints.length := by rw [h, wf.njoints]
    rw [checkJointVecSizes_eq mb sz .domainError v hl hl]
    exact ⟨fun e => ⟨(), by simp [e]⟩, fun e => by simp [e]⟩
  · have := congrArg List.length h
    simpa [wf.njoints] using this

section checks
variable (wf : mb.WF) (mbc : MBC K)
include wf
theorem checkMatchQ_decides : Decides (checkMatchQ mb mbc) (SizedQ mb mbc.q) := checkVecSizes_decides wf _ _
theorem checkMatchAlpha_decides : Decides (checkMatchAlpha mb mbc) (SizedDof mb mbc.alpha) := checkVecSizes_decides wf _ _
theorem checkMatchAlphaD_decides : Decides (checkMatchAlphaD mb mbc) (SizedDof mb mbc.alphaD) := checkVecSizes_decides wf _ _
theorem checkMatchJointTorque_decides : Decides (checkMatchJointTorque mb mbc) (SizedDof mb mbc.jointTorque) :=
  checkVecSizes_decides wf _ _
theorem checkMatchMotionSubspace_decides :
    Decides (checkMatchMotionSubspace mb mbc) (mbc.motionSubspace.map List.length = mb.joints.map (·.dof)) :=
  checkVecSizes_decides wf _ _
theorem checkMatchParentToSon_decides : Decides (checkMatchParentToSon mb mbc) (mbc.parentToSon.length = mb.bodies.length) :=
  checkMatchJointsVector_decides wf _
theorem checkMatchJointConf_decides : Decides (checkMatchJointConf mb mbc) (mbc.jointConfig.length = mb.bodies.length) :=
  checkMatchJointsVector_decides wf _
theorem checkMatchJointVelocity_decides : Decides (checkMatchJointVelocity mb mbc) (mbc.jointVelocity.length = mb.bodies.length) :=
  checkMatchJointsVector_decides wf _
omit wf
theorem checkMatchBodyPos_decides : Decides (checkMatchBodyPos mb mbc) (mbc.bodyPosW.length = mb.bodies.length) :=
  checkMatchBodiesVector_decides _
theorem checkMatchBodyAcc_decides : Decides (checkMatchBodyAcc mb mbc) (mbc.bodyAccB.length = mb.bodies.length) :=
  checkMatchBodiesVector_decides _
theorem checkMatchForce_decides : Decides (checkMatchForce mb mbc) (mbc.force.length = mb.bodies.length) :=
  checkMatchBodiesVector_decides _
theorem checkMatchBodyVel_decides :
    Decides (checkMatchBodyVel mb mbc) (mbc.bodyVelW.length = mb.bodies.length ∧ mbc.bodyVelB.length = mb.bodies.length) := by
  have h := (checkMatchBodiesVector_decides (mb := mb) mbc.bodyVelW).seq fun _ => checkMatchBodiesVector_decides (mb := mb) mbc.bodyVelB
  exact h
end checks

/-! ### Rows of the right size -/

/-- One list per joint, of the size of its degrees of freedom. -/
def Rows (mb : MultiBody K) {α : Type} (v : List (List α)) : Prop := v.map List.length = mb.joints.map (·.dof)

theorem Rows.length (wf : mb.WF) {α : Type} {v : List (List α)} (h : Rows mb v) : v.length = mb.bodies.length := by
  have := congrArg List.length h
  simpa [wf.njoints] using this

theorem Rows.size (wf : mb.WF) {α : Type} {v : List (List α)} (h : Rows mb v) {i : Nat} {x : List α} (hx : v[i]? = some x)
    (hi : i < mb.bodies.length) : x.length = mb.dofAt i := by
  obtain ⟨j, hj, -⟩ := wf.joint_get hi
  have := congrArg (·[i]?) h
  simp only [List.getElem?_map, hx, hj, Option.map_some, Option.some.injEq] at this
  rw [this]; simp [MultiBody.dofAt, hj]

theorem Rows.rd (wf : mb.WF) {α : Type} {v : List (List α)} (h : Rows mb v) {i : Nat} (hi : i < mb.bodies.length) :
    Safe (rd v i) fun x => x.length = mb.dofAt i :=
  (Safe.rd (by rw [h.length wf]; exact hi)).mono fun _ hx => h.size wf hx hi

theorem Rows.set (wf : mb.WF) {α : Type} {v : List (List α)} (h : Rows mb v) {i : Nat} {x : List α} (hi : i < mb.bodies.length)
    (hx : x.length = mb.dofAt i) : Rows mb (v.set i x) := by
  obtain ⟨j, hj, -⟩ := wf.joint_get hi
  have e : mb.dofAt i = j.dof := by simp [MultiBody.dofAt, hj]
  unfold Rows at h ⊢
  rw [List.map_set, h]
  apply List.ext_getElem?
  intro m
  rw [List.getElem?_set]
  split
  · next hm =>
    subst hm
    have hl : i < mb.joints.length := by rw [wf.njoints]; exact hi
    have hg : mb.joints[i] = j := by rw [List.getElem?_eq_getElem hl] at hj; exact Option.some.inj hj
    simp [hl, hg, hx, e]
  · rfl

theorem safe_joint (wf : mb.WF) {i : Nat} (hi : i < mb.bodies.length) : Safe (rd mb.joints i) fun j => j.dof = mb.dofAt i := by
  obtain ⟨j, hj, h⟩ := wf.rd_joint hi; exact ⟨j, hj, h⟩

theorem safe_body {i : Nat} (hi : i < mb.bodies.length) : Safe (rd mb.bodies i) fun _ => True := ⟨_, rd_ok hi, trivial⟩

theorem safe_pred (wf : mb.WF) {i : Nat} (hi : i < mb.bodies.length) :
    Safe (rd mb.pred i) fun p => p = -1 ∨ ∃ k : Nat, p = k ∧ k < i := by
  obtain ⟨p, hp, ⟨h, -⟩ | ⟨k, h, -, hk⟩⟩ := wf.pred_cases hi
  · exact ⟨p, hp, .inl h⟩
  · exact ⟨p, hp, .inr ⟨k, h, hk⟩⟩

theorem safe_len {α : Type} {l : List α} {n i : Nat} (hl : l.length = n) (hi : i < n) : Safe (rd l i) fun _ => True :=
  (Safe.rd (by omega)).mono fun _ _ => trivial

theorem safe_wr {α : Type} {l : List α} {n i : Nat} (hl : l.length = n) (hi : i < n) (x : α) :
    Safe (wr l i x) fun l' => l'.length = n :=
  (Safe.wr (by omega) x).mono fun l' h => by rw [h, List.length_set, hl]

theorem safe_setCols {α : Type} {n : Nat} {A : List α} {g : Nat → Res α} (hA : A.length = n)
    (hg : ∀ c, c < n → Safe (g c) fun _ => True) : Safe (setCols n A g) fun A' => A'.length = n := by
  unfold setCols
  refine Safe.range (fun A : List α => A.length = n) hA fun i s hi hs => ?_
  exact (hg i hi).bind fun x _ => safe_wr hs hi x

theorem safe_project {S : List (MotionVec K)} {f : ForceVec K} {t : List K} {n : Nat} (h1 : S.length = n) (h2 : t.length = n) :
    Safe (projectInto S f n t) fun t' => t'.length = n :=
  ⟨_, projectInto_eq S f t h1 h2, by simp [h1]⟩

theorem safe_setSegment {α : Type} {v w : List α} {p n N : Nat} (hv : v.length = N) (h : p + n ≤ N) (hw : w.length = n) :
    Safe (setSegment v p n w) fun v' => v'.length = N := by
  unfold setSegment
  rw [if_pos ⟨by omega, hw⟩]
  refine Safe.ok ?_
  simp only [List.length_append, List.length_take, List.length_drop]
  omega

theorem safe_setBlock {m b : DMat K} {r c p q R C : Nat} (h1 : m.rows = R) (h2 : m.cols = C) (hr : r + p ≤ R) (hc : c + q ≤ C)
    (hp : b.rows = p) (hq : b.cols = q) : Safe (m.setBlock r c p q b) fun m' => m'.rows = R ∧ m'.cols = C := by
  unfold DMat.setBlock
  rw [if_pos ⟨by omega, by omega, hp, hq⟩]
  exact Safe.ok ⟨h1, h2⟩

theorem safe_block {m : DMat K} {r c p q R C : Nat} (h1 : m.rows = R) (h2 : m.cols = C) (hr : r + p ≤ R) (hc : c + q ≤ C) :
    Safe (m.block r c p q) fun m' => m'.rows = p ∧ m'.cols = q := by
  unfold DMat.block
  rw [if_pos ⟨by omega, by omega⟩]
  exact Safe.ok ⟨rfl, rfl⟩

/-! ### Kinematics -/

theorem filled_of_length {α : Type} [Inhabited α] {l : List α} {n : Nat} (h : l.length = n) :
    Filled l (fun i => some (l.getD i default)) n n := by
  refine ⟨h, fun i hi => ?_⟩
  have : i < l.length := by omega
  simp [this]

/-! ### Inverse dynamics -/

theorem idStep_safe (wf : mb.WF) {mbc : MBC K} (hX : mbc.parentToSon.length = mb.bodies.length)
    (hvj : mbc.jointVelocity.length = mb.bodies.length) (ha : SizedDof mb mbc.alphaD) (hv : mbc.bodyVelB.length = mb.bodies.length)
    (hW : mbc.bodyPosW.length = mb.bodies.length) (hf : mbc.force.length = mb.bodies.length) {s : ID K × MBC K} {i : Nat}
    (hi : i < mb.bodies.length)
    (hs : s.1.f.length = mb.bodies.length ∧ s.2.bodyAccB.length = mb.bodies.length ∧ s.2 = { mbc with bodyAccB := s.2.bodyAccB }) :
    Safe (idStep mb s i) fun s => s.1.f.length = mb.bodies.length ∧ s.2.bodyAccB.length = mb.bodies.length ∧
      s.2 = { mbc with bodyAccB := s.2.bodyAccB } := by
  obtain ⟨d, m⟩ := s
  obtain ⟨h1, h2, h3⟩ := hs
  dsimp only at h1 h2 h3
  obtain ⟨j, x, hj, hx, -, ht⟩ := wf.rd_motion ha hi
  unfold idStep
  dsimp only
  refine (safe_len (l := m.parentToSon) (by rw [h3]; exact hX) hi).bind fun X _ => ?_
  refine (safe_len (l := m.jointVelocity) (by rw [h3]; exact hvj) hi).bind fun vj _ => ?_
  have hx' : rd m.alphaD i = .ok x := by rw [h3]; exact hx
  rw [hj, bind_ok, hx', bind_ok, ht, bind_ok]
  refine (safe_len (l := m.bodyVelB) (by rw [h3]; exact hv) hi).bind fun vb _ => ?_
  refine (safe_pred wf hi).bind fun p hp => ?_
  have tail : ∀ a, Safe (do
      let bodyAccB ← wr m.bodyAccB i a
      let b ← rd mb.bodies i
      let W ← rd m.bodyPosW i
      let fe ← rd m.force i
      let f ← wr d.f i (b.inertia.mulMotion a + vb.crossDual (b.inertia.mulMotion vb) - W.dualMul fe)
      return (({ d with f }, { m with bodyAccB }) : ID K × MBC K)) fun s =>
        s.1.f.length = mb.bodies.length ∧ s.2.bodyAccB.length = mb.bodies.length ∧ s.2 = { mbc with bodyAccB := s.2.bodyAccB } := by
    intro a
    refine (safe_wr h2 hi a).bind fun acc hacc => ?_
    refine (safe_body hi).bind fun b _ => ?_
    refine (safe_len (l := m.bodyPosW) (by rw [h3]; exact hW) hi).bind fun W _ => ?_
    refine (safe_len (l := m.force) (by rw [h3]; exact hf) hi).bind fun fe _ => ?_
    refine (safe_wr h1 hi _).bind fun f hf => ?_
    exact Safe.pure ⟨hf, hacc, by rw [h3]⟩
  rcases hp with rfl | ⟨k, rfl, hk⟩
  · simp only [ne_eq, not_true_eq_false, if_false, pure_bind]
    exact tail _
  · have hne : ((k : Int) ≠ -1) := by omega
    simp only [ne_eq, hne, not_false_eq_true, if_true, rdI_ofNat, bind_assoc, pure_bind]
    exact (safe_len h2 (by omega)).bind fun _ _ => tail _

theorem torqueStep_safe (wf : mb.WF) {mbc : MBC K} (hX : mbc.parentToSon.length = mb.bodies.length)
    (hS : Rows mb mbc.motionSubspace) {s : ID K × MBC K} {i : Nat} (hi : i < mb.bodies.length)
    (hs : s.1.f.length = mb.bodies.length ∧ Rows mb s.2.jointTorque ∧ s.2 = { mbc with jointTorque := s.2.jointTorque }) :
    Safe (torqueStep mb s i) fun s => s.1.f.length = mb.bodies.length ∧ Rows mb s.2.jointTorque ∧
      s.2 = { mbc with jointTorque := s.2.jointTorque } := by
  obtain ⟨d, m⟩ := s
  obtain ⟨h1, h2, h3⟩ := hs
  dsimp only at h1 h2 h3
  unfold torqueStep
  dsimp only
  refine (safe_joint wf hi).bind fun j hj => ?_
  refine (safe_len h1 hi).bind fun fi _ => ?_
  have hS' : Rows mb m.motionSubspace := by rw [h3]; exact hS
  refine (hS'.rd wf hi).bind fun S hSl => ?_
  refine (h2.rd wf hi).bind fun t ht => ?_
  rw [hj]
  refine (safe_project hSl ht).bind fun t' ht' => ?_
  refine (Safe.wr (by rw [h2.length wf]; exact hi) t').bind ?_
  rintro _ rfl
  refine (safe_pred wf hi).bind fun p hp => ?_
  rcases hp with rfl | ⟨k, rfl, hk⟩
  · simp only [ne_eq, not_true_eq_false, if_false, pure_bind]
    exact Safe.pure ⟨h1, h2.set wf hi ht', by rw [h3]⟩
  · have hne : ((k : Int) ≠ -1) := by omega
    simp only [ne_eq, hne, not_false_eq_true, if_true, rdI_ofNat, wrI_ofNat, bind_assoc, pure_bind]
    refine (safe_len (l := m.parentToSon) (by rw [h3]; exact hX) hi).bind fun X _ => ?_
    refine (safe_len h1 (by omega)).bind fun fk _ => ?_
    refine (safe_wr h1 (by omega) _).bind fun f hf => ?_
    exact Safe.pure ⟨hf, h2.set wf hi ht', by rw [h3]⟩

theorem torques_safe (wf : mb.WF) {mbc : MBC K} (hX : mbc.parentToSon.length = mb.bodies.length)
    (hS : Rows mb mbc.motionSubspace) (ht : Rows mb mbc.jointTorque) {d : ID K} (hd : d.f.length = mb.bodies.length) :
    Safe (d.computeJointTorques mb mbc) fun s => s.1.f.length = mb.bodies.length :=
  (Safe.range_reverse (fun s : ID K × MBC K => s.1.f.length = mb.bodies.length ∧ Rows mb s.2.jointTorque ∧
    s.2 = { mbc with jointTorque := s.2.jointTorque }) ⟨hd, ht, rfl⟩ fun _ _ hi hs => torqueStep_safe wf hX hS hi hs).mono fun _ h => h.1

/-! ### Forward dynamics -/

theorem MultiBody.WF.rd_dofPos (_wf : mb.WF) {d : FD K} (h : d.Fits mb) {i : Nat} (hi : i < mb.bodies.length) :
    rd d.dofPos i = .ok (mb.dofPosAt i) := by
  rw [h.dofPos]; exact rd_of_getElem? (range_map_getElem? hi)

theorem hUp_safe (wf : mb.WF) {mbc : MBC K} (hX : mbc.parentToSon.length = mb.bodies.length) (hS : Rows mb mbc.motionSubspace)
    {i : Nat} (hi : i < mb.bodies.length) : ∀ (fuel j : Nat) (d : FD K), j < fuel → j < mb.bodies.length → d.Fits mb →
      Safe (hUp mb mbc i fuel j d) (FD.Fits mb) := by
  intro fuel
  induction fuel with
  | zero => intro j d h; omega
  | succ fuel ih =>
    intro j d hj hjn hd
    unfold hUp
    refine (safe_pred wf hjn).bind fun p hp => ?_
    rcases hp with rfl | ⟨k, rfl, hk⟩
    · simp only [ne_eq, not_true_eq_false, if_false]
      exact Safe.pure hd
    · have hne : ((k : Int) ≠ -1) := by omega
      have hnn : ¬ ((k : Int) < 0) := by omega
      simp only [ne_eq, hne, not_false_eq_true, if_true, hnn, if_false, pure_bind, Int.toNat_natCast]
      refine (safe_len hX hjn).bind fun X _ => ?_
      refine (safe_joint wf hi).bind fun ji hji => ?_
      have hF : Rows mb d.F := hd.F
      refine (hF.rd wf hi).bind fun Fi hFi => ?_
      rw [hji]
      refine (safe_setCols hFi fun c hc => (safe_len hFi hc).bind fun _ _ => Safe.pure trivial).bind fun Fi' hFi' => ?_
      refine (Safe.wr (by rw [hF.length wf]; exact hi) Fi').bind ?_
      rintro _ rfl
      have hkn : k < mb.bodies.length := by omega
      refine (safe_joint wf hkn).bind fun jk hjk => ?_
      rw [hjk]
      have hd' : FD.Fits mb { d with F := d.F.set i Fi' } := { hd with F := hF.set wf hi hFi' }
      split
      · have e1 := wf.rd_dofPos hd' hi
        have e2 := wf.rd_dofPos hd' hkn
        dsimp only at e1 e2 ⊢
        rw [e1, bind_ok, e2, bind_ok]
        have b1 := wf.dofPosAt_add_le hi
        have b2 := wf.dofPosAt_add_le hkn
        refine (hS.rd wf hkn).bind fun S hSl => ?_
        refine (safe_setBlock (b := (gram S Fi').tr) hd.Hrows hd.Hcols b1 b2 hFi' hSl).bind fun H hH => ?_
        refine (safe_block hH.1 hH.2 b1 b2).bind fun B hB => ?_
        refine (safe_setBlock (b := B.tr) hH.1 hH.2 b2 b1 hB.2 hB.1).bind fun H' hH' => ?_
        exact ih k _ (by omega) hkn { hd' with Hrows := hH'.1, Hcols := hH'.2 }
      · exact ih k _ (by omega) hkn hd'

theorem hStep_safe (wf : mb.WF) {mbc : MBC K} (hX : mbc.parentToSon.length = mb.bodies.length) (hS : Rows mb mbc.motionSubspace)
    {i : Nat} (hi : i < mb.bodies.length) {d : FD K} (hd : d.Fits mb) : Safe (hStep mb mbc d i) (FD.Fits mb) := by
  unfold hStep
  refine (safe_pred wf hi).bind fun p hp => ?_
  refine (safe_len hd.Ist hi).bind fun Ii _ => ?_
  have tail : ∀ Ist : List (RBInertia K), Ist.length = mb.bodies.length → Safe (do
      let d := { d with Ist }
      let j ← rd mb.joints i
      let Ii ← rd d.Ist i
      let S ← rd mbc.motionSubspace i
      let Fi ← setCols j.dof (← rd d.F i) fun c => do return Ii.mulMotion (← rd S c)
      let F ← wr d.F i Fi
      let p ← rd d.dofPos i
      let H ← d.H.setBlock p p j.dof j.dof (gram S Fi)
      hUp mb mbc i (mb.bodies.length + 1) i { d with F, H }) (FD.Fits mb) := by
    intro Ist hIst
    dsimp only
    refine (safe_joint wf hi).bind fun j hj => ?_
    refine (safe_len hIst hi).bind fun Ii _ => ?_
    refine (hS.rd wf hi).bind fun S hSl => ?_
    have hF : Rows mb d.F := hd.F
    refine (hF.rd wf hi).bind fun Fi hFi => ?_
    rw [hj]
    refine (safe_setCols hFi fun c hc => (safe_len hSl hc).bind fun _ _ => Safe.pure trivial).bind fun Fi' hFi' => ?_
    refine (Safe.wr (by rw [hF.length wf]; exact hi) Fi').bind ?_
    rintro _ rfl
    rw [wf.rd_dofPos hd hi, bind_ok]
    have b1 := wf.dofPosAt_add_le hi
    refine (safe_setBlock (b := gram S Fi') hd.Hrows hd.Hcols b1 b1 hSl hFi').bind fun H hH => ?_
    exact hUp_safe wf hX hS hi _ _ _ (by omega) hi
      { hd with Ist := hIst, F := hF.set wf hi hFi', Hrows := hH.1, Hcols := hH.2 }
  rcases hp with rfl | ⟨k, rfl, hk⟩
  · simp only [ne_eq, not_true_eq_false, if_false, pure_bind]
    exact tail _ hd.Ist
  · have hne : ((k : Int) ≠ -1) := by omega
    simp only [ne_eq, hne, not_false_eq_true, if_true, rdI_ofNat, wrI_ofNat, bind_assoc, pure_bind]
    refine (safe_len hX hi).bind fun X _ => ?_
    refine (safe_len hd.Ist (by omega)).bind fun fk _ => ?_
    exact (safe_wr hd.Ist (by omega) _).bind fun Ist hIst => tail Ist hIst

theorem computeH_safe (wf : mb.WF) {mbc : MBC K} (hX : mbc.parentToSon.length = mb.bodies.length) (hS : Rows mb mbc.motionSubspace)
    {d : FD K} (hd : d.Fits mb) : Safe (d.computeH mb mbc) (FD.Fits mb) := by
  unfold FD.computeH
  have hd' : FD.Fits mb { d with H := d.H.setZero } := { hd with Hrows := hd.Hrows, Hcols := hd.Hcols }
  refine (Safe.range (FD.Fits mb) hd' fun i s hi hs => ?_).bind fun d' h' =>
    Safe.range_reverse (FD.Fits mb) h' fun i s hi hs => hStep_safe wf hX hS hi hs
  refine (safe_body hi).bind fun b _ => ?_
  exact (safe_wr hs.Ist hi _).bind fun Ist h => Safe.pure { hs with Ist := h }

theorem cStep_safe (wf : mb.WF) {mbc : MBC K} (hX : mbc.parentToSon.length = mb.bodies.length)
    (hvj : mbc.jointVelocity.length = mb.bodies.length) (hv : mbc.bodyVelB.length = mb.bodies.length)
    (hW : mbc.bodyPosW.length = mb.bodies.length) (hf : mbc.force.length = mb.bodies.length) {i : Nat} (hi : i < mb.bodies.length)
    {d : FD K} (hd : d.Fits mb) : Safe (cStep mb mbc d i) (FD.Fits mb) := by
  unfold cStep
  dsimp only
  refine (safe_len hX hi).bind fun X _ => ?_
  refine (safe_len hvj hi).bind fun vj _ => ?_
  refine (safe_len hv hi).bind fun vb _ => ?_
  refine (safe_pred wf hi).bind fun p hp => ?_
  have tail : ∀ a, Safe (do
      let acc ← wr d.acc i a
      let b ← rd mb.bodies i
      let W ← rd mbc.bodyPosW i
      let fe ← rd mbc.force i
      let f ← wr d.f i (b.inertia.mulMotion a + vb.crossDual (b.inertia.mulMotion vb) - W.dualMul fe)
      return { d with acc, f }) (FD.Fits mb) := by
    intro a
    refine (safe_wr hd.acc hi a).bind fun acc hacc => ?_
    refine (safe_body hi).bind fun b _ => ?_
    refine (safe_len hW hi).bind fun W _ => ?_
    refine (safe_len hf hi).bind fun fe _ => ?_
    refine (safe_wr hd.f hi _).bind fun f hf => ?_
    exact Safe.pure { hd with acc := hacc, f := hf }
  rcases hp with rfl | ⟨k, rfl, hk⟩
  · simp only [ne_eq, not_true_eq_false, if_false, pure_bind]
    exact tail _
  · have hne : ((k : Int) ≠ -1) := by omega
    simp only [ne_eq, hne, not_false_eq_true, if_true, rdI_ofNat, bind_assoc, pure_bind]
    exact (safe_len hd.acc (by omega)).bind fun _ _ => tail _

theorem cBackStep_safe (wf : mb.WF) {mbc : MBC K} (hX : mbc.parentToSon.length = mb.bodies.length) (hS : Rows mb mbc.motionSubspace)
    {i : Nat} (hi : i < mb.bodies.length) {d : FD K} (hd : d.Fits mb) : Safe (cBackStep mb mbc d i) (FD.Fits mb) := by
  unfold cBackStep
  refine (safe_joint wf hi).bind fun j hj => ?_
  refine (hS.rd wf hi).bind fun S hSl => ?_
  refine (safe_len hd.f hi).bind fun fi _ => ?_
  rw [wf.rd_dofPos hd hi, bind_ok, hj]
  refine (safe_setSegment hd.C (wf.dofPosAt_add_le hi) (by simpa using hSl)).bind fun C hC => ?_
  refine (safe_pred wf hi).bind fun p hp => ?_
  rcases hp with rfl | ⟨k, rfl, hk⟩
  · simp only [ne_eq, not_true_eq_false, if_false, pure_bind]
    exact Safe.pure { hd with C := hC }
  · have hne : ((k : Int) ≠ -1) := by omega
    simp only [ne_eq, hne, not_false_eq_true, if_true, rdI_ofNat, wrI_ofNat, bind_assoc, pure_bind]
    refine (safe_len hX hi).bind fun X _ => ?_
    refine (safe_len hd.f (by omega)).bind fun fk _ => ?_
    refine (safe_wr hd.f (by omega) _).bind fun f hf => ?_
    exact Safe.pure { hd with C := hC, f := hf }

theorem computeC_safe (wf : mb.WF) {mbc : MBC K} (hX : mbc.parentToSon.length = mb.bodies.length) (hS : Rows mb mbc.motionSubspace)
    (hvj : mbc.jointVelocity.length = mb.bodies.length) (hv : mbc.bodyVelB.length = mb.bodies.length)
    (hW : mbc.bodyPosW.length = mb.bodies.length) (hf : mbc.force.length = mb.bodies.length) {d : FD K} (hd : d.Fits mb) :
    Safe (d.computeC mb mbc) (FD.Fits mb) :=
  (Safe.range (FD.Fits mb) hd fun _ _ hi hs => cStep_safe wf hX hvj hv hW hf hi hs).bind fun _ h' =>
    Safe.range_reverse (FD.Fits mb) h' fun _ _ hi hs => cBackStep_safe wf hX hS hi hs

theorem Rows.sum (wf : mb.WF) {v : List (List K)} (h : Rows mb v) : v.flatten.length = mb.nrDof := by
  rw [flatten_length_eq, h, wf.nDof]

theorem forwardDynamics_safe (wf : mb.WF) {solve : DMat K → List K → List K} (hsolve : ∀ m v, (solve m v).length = m.cols)
    {mbc : MBC K} (hX : mbc.parentToSon.length = mb.bodies.length) (hS : Rows mb mbc.motionSubspace)
    (hvj : mbc.jointVelocity.length = mb.bodies.length) (hv : mbc.bodyVelB.length = mb.bodies.length)
    (hW : mbc.bodyPosW.length = mb.bodies.length) (hf : mbc.force.length = mb.bodies.length) (ht : Rows mb mbc.jointTorque)
    (ha : Rows mb mbc.alphaD) {d : FD K} (hd : d.Fits mb) :
    Safe (d.forwardDynamics solve mb mbc) fun r => r.1.Fits mb ∧ Rows mb r.2.alphaD := by
  unfold FD.forwardDynamics
  refine (computeH_safe wf hX hS hd).bind fun d1 h1 => ?_
  refine (computeC_safe wf hX hS hvj hv hW hf h1).bind fun d2 h2 => ?_
  have e1 := ht.sum wf
  rw [paramToVectorInto_eq _ _ (by rw [e1, h2.tmpFd]), bind_ok]
  have e2 : (mbc.jointTorque.flatten ++ d2.tmpFd.drop mbc.jointTorque.flatten.length).length = d2.C.length := by
    rw [List.length_append, List.length_drop, e1, h2.tmpFd, h2.C]; omega
  unfold vecSub
  rw [if_pos e2, bind_ok]
  set z := solve d2.H _ with hz
  have hzl : z.length = mb.nrDof := by rw [hz, hsolve, h2.Hcols]
  obtain ⟨r, hr, hl, -⟩ := fillAllFrom_eq z mbc.alphaD 0 (by rw [ha.sum wf, hzl]; omega)
  have hv : vectorToParamInto z mbc.alphaD = .ok r := by
    unfold vectorToParamInto; rw [hr]; rfl
  dsimp only
  rw [hv, bind_ok]
  exact Safe.pure ⟨{ h2 with tmpFd := hzl }, hl.trans ha⟩

theorem inverseDynamics_safe (wf : mb.WF) {mbc : MBC K} (hX : mbc.parentToSon.length = mb.bodies.length)
    (hvj : mbc.jointVelocity.length = mb.bodies.length) (ha : SizedDof mb mbc.alphaD) (hv : mbc.bodyVelB.length = mb.bodies.length)
    (hW : mbc.bodyPosW.length = mb.bodies.length) (hf : mbc.force.length = mb.bodies.length)
    (hacc : mbc.bodyAccB.length = mb.bodies.length) (hS : Rows mb mbc.motionSubspace) (ht : Rows mb mbc.jointTorque) {d : ID K}
    (hd : d.f.length = mb.bodies.length) : Safe (d.inverseDynamics mb mbc) fun s => s.1.f.length = mb.bodies.length := by
  unfold ID.inverseDynamics
  refine (Safe.range (fun s : ID K × MBC K => s.1.f.length = mb.bodies.length ∧ s.2.bodyAccB.length = mb.bodies.length ∧
    s.2 = { mbc with bodyAccB := s.2.bodyAccB }) ⟨hd, hacc, rfl⟩ fun i s hi hs => idStep_safe wf hX hvj ha hv hW hf hi hs).bind ?_
  rintro ⟨d', m⟩ ⟨h1, -, h3⟩
  dsimp only at h1 h3 ⊢
  exact torques_safe wf (by rw [h3]; exact hX) (by rw [h3]; exact hS) (by rw [h3]; exact ht) h1

theorem inverseDynamicsNoInertia_safe (wf : mb.WF) {mbc : MBC K} (hX : mbc.parentToSon.length = mb.bodies.length)
    (hW : mbc.bodyPosW.length = mb.bodies.length) (hf : mbc.force.length = mb.bodies.length) (hS : Rows mb mbc.motionSubspace)
    (ht : Rows mb mbc.jointTorque) {d : ID K} (hd : d.f.length = mb.bodies.length) :
    Safe (d.inverseDynamicsNoInertia mb mbc) fun s => s.1.f.length = mb.bodies.length := by
  unfold ID.inverseDynamicsNoInertia
  refine (Safe.range (fun d : ID K => d.f.length = mb.bodies.length) hd fun i s hi hs => ?_).bind fun d' h' =>
    torques_safe wf hX hS ht h'
  refine (safe_len hW hi).bind fun W _ => ?_
  refine (safe_len hf hi).bind fun fe _ => ?_
  exact (safe_wr hs hi _).bind fun f h => Safe.pure h

/-! ### Jacobians -/

theorem safe_writeCols {α : Type} {cols : List α} {cur n N : Nat} {g : Nat → α → Res α} (hl : cols.length = N) (h : cur + n ≤ N)
    (hg : ∀ a, a < n → ∀ old, Safe (g a old) fun _ => True) : Safe (writeCols cols cur n g) fun c => c.length = N := by
  unfold writeCols
  refine Safe.range (fun c : List α => c.length = N) hl fun a c ha hc => ?_
  refine (safe_len hc (by omega)).bind fun old _ => ?_
  exact (hg a ha old).bind fun x _ => safe_wr hc (by omega) x

theorem safe_fillCols (wf : mb.WF) {α : Type} {path : List Nat} {prep : Nat → Nat → Res (Nat → α → Res α)} {cols : List α}
    (hp : ∀ i ∈ path, i < mb.bodies.length) (hl : cols.length = (path.map mb.dofAt).sum)
    (hg : ∀ x i, path[x]? = some i → Safe (prep x i) fun g => ∀ a, a < mb.dofAt i → ∀ old, Safe (g a old) fun _ => True) :
    Safe (fillCols mb path prep cols) fun r => r.1.length = (path.map mb.dofAt).sum := by
  unfold fillCols
  refine (foldlM_range_inv (fun (s : List α × Nat) index => do
    let i ← rd path index
    let g ← prep index i
    let j ← rd mb.joints i
    return (← writeCols s.1 s.2 j.dof g, s.2 + j.dof))
    (fun k s => s.1.length = (path.map mb.dofAt).sum ∧ s.2 = mb.colOff path k) path.length (cols, 0)
    ⟨hl, by simp [MultiBody.colOff]⟩ ?_).elim fun r hr => ⟨r, hr.1, hr.2.1⟩
  rintro k ⟨c, cur⟩ hk ⟨hc, rfl⟩
  have hb := mb.colOff_le hk
  have hs := mb.colOff_succ hk
  have hin := hp _ (List.getElem_mem hk)
  dsimp only
  rw [rd_ok hk, bind_ok]
  refine (hg k path[k] (List.getElem?_eq_getElem hk)).bind fun g hg' => ?_
  refine (safe_joint wf hin).bind fun j hj => ?_
  rw [hj]
  refine (safe_writeCols hc hb hg').bind fun c' hc' => ?_
  exact Safe.pure ⟨hc', hs.symm⟩

/-- What a configuration needs for the columns of a joint. -/
theorem safe_col (wf : mb.WF) {mbc : MBC K} (hS : Rows mb mbc.motionSubspace) {i a : Nat} (hi : i < mb.bodies.length)
    (ha : a < mb.dofAt i) : Safe (do rd (← rd mbc.motionSubspace i) a) fun _ => True :=
  (hS.rd wf hi).bind fun _ hSl => safe_len hSl ha

theorem jacobianFill_safe (wf : mb.WF) {mbc : MBC K} (hW : mbc.bodyPosW.length = mb.bodies.length) (hS : Rows mb mbc.motionSubspace)
    {J : Jac K} (hJ : J.Fits mb) (X : PTransform K) :
    Safe (jacobianFill mb mbc X J.path J.sign J.jac) fun c => c.length = (J.path.map mb.dofAt).sum := by
  unfold jacobianFill
  refine (safe_fillCols wf hJ.path hJ.jac fun x i hx => ?_).bind fun r hr => Safe.pure hr
  have hi : i < mb.bodies.length := hJ.path i (List.mem_of_getElem? hx)
  have hxl : x < J.sign.length := by rw [hJ.sign]; exact (List.getElem?_eq_some_iff.1 hx).1
  refine (safe_len hW hi).bind fun W _ => Safe.pure fun a ha old => ?_
  refine (Safe.rd hxl).bind fun _ _ => ?_
  exact (hS.rd wf hi).bind fun _ hSl => (safe_len hSl ha).bind fun _ _ => Safe.pure trivial

theorem back_safe {J : Jac K} (hJ : J.Fits mb) (hne : J.path ≠ []) : Safe J.back fun N => N < mb.bodies.length := by
  unfold Jac.back
  rw [if_neg hne]
  have hl : 0 < J.path.length := List.length_pos_iff.2 hne
  exact (Safe.rd (by omega)).mono fun N hN => hJ.path N (List.mem_of_getElem? hN)

theorem toRef_safe {J : Jac K} (href : J.refBodyIndex < mb.bodies.length) {mbc : MBC K}
    (hW : mbc.bodyPosW.length = mb.bodies.length) (jac : List (MotionVec K)) : Safe (J.toRef mbc jac) fun _ => True := by
  unfold Jac.toRef
  split
  · next h =>
    obtain ⟨k, hk⟩ := Int.eq_ofNat_of_zero_le (le_of_lt h)
    rw [hk, rdI_ofNat]
    exact (safe_len hW (by omega)).bind fun _ _ => Safe.pure trivial
  · exact Safe.pure trivial

theorem jacobian_safe (wf : mb.WF) {mbc : MBC K} (hW : mbc.bodyPosW.length = mb.bodies.length) (hS : Rows mb mbc.motionSubspace)
    {J : Jac K} (hJ : J.Fits mb) (hne : J.path ≠ []) (href : J.refBodyIndex < mb.bodies.length) :
    Safe (J.jacobian mb mbc) fun _ => True := by
  unfold Jac.jacobian
  refine (back_safe hJ hne).bind fun N hN => ?_
  refine (safe_len hW hN).bind fun W _ => ?_
  refine (jacobianFill_safe wf hW hS hJ _).bind fun c _ => ?_
  exact (toRef_safe href hW c).bind fun _ _ => Safe.pure trivial

theorem jacobianX_safe (wf : mb.WF) {mbc : MBC K} (hW : mbc.bodyPosW.length = mb.bodies.length) (hS : Rows mb mbc.motionSubspace)
    {J : Jac K} (hJ : J.Fits mb) (href : J.refBodyIndex < mb.bodies.length) (X : PTransform K) :
    Safe (J.jacobianX mb mbc X) fun _ => True := by
  unfold Jac.jacobianX
  refine (jacobianFill_safe wf hW hS hJ _).bind fun c _ => ?_
  exact (toRef_safe href hW c).bind fun _ _ => Safe.pure trivial

theorem bodyJacobian_safe (wf : mb.WF) {mbc : MBC K} (hW : mbc.bodyPosW.length = mb.bodies.length) (hS : Rows mb mbc.motionSubspace)
    {J : Jac K} (hJ : J.Fits mb) (hne : J.path ≠ []) : Safe (J.bodyJacobian mb mbc) fun _ => True := by
  unfold Jac.bodyJacobian
  refine (back_safe hJ hne).bind fun N hN => ?_
  refine (safe_len hW hN).bind fun W _ => ?_
  exact (jacobianFill_safe wf hW hS hJ _).bind fun c _ => Safe.pure trivial

theorem vectorJacobian_safe (wf : mb.WF) {mbc : MBC K} (hW : mbc.bodyPosW.length = mb.bodies.length)
    (hS : Rows mb mbc.motionSubspace) {J : Jac K} (hJ : J.Fits mb) (hne : J.path ≠ []) (v : Vec3 K) :
    Safe (J.vectorJacobian mb mbc v) fun _ => True := by
  unfold Jac.vectorJacobian
  refine (back_safe hJ hne).bind fun N hN => ?_
  refine (safe_len hW hN).bind fun W _ => ?_
  refine (safe_fillCols wf hJ.path hJ.jac fun x i hx => ?_).bind fun r _ => Safe.pure trivial
  have hi : i < mb.bodies.length := hJ.path i (List.mem_of_getElem? hx)
  refine (safe_len hW hi).bind fun W _ => Safe.pure fun a ha old => ?_
  exact (hS.rd wf hi).bind fun _ hSl => (safe_len hSl ha).bind fun _ _ => Safe.pure trivial

theorem vectorBodyJacobian_safe (wf : mb.WF) {mbc : MBC K} (hW : mbc.bodyPosW.length = mb.bodies.length)
    (hS : Rows mb mbc.motionSubspace) {J : Jac K} (hJ : J.Fits mb) (hne : J.path ≠ []) (v : Vec3 K) :
    Safe (J.vectorBodyJacobian mb mbc v) fun _ => True := by
  unfold Jac.vectorBodyJacobian
  refine (back_safe hJ hne).bind fun N hN => ?_
  refine (safe_len hW hN).bind fun W _ => ?_
  refine (safe_fillCols wf hJ.path hJ.jac fun x i hx => ?_).bind fun r _ => Safe.pure trivial
  have hi : i < mb.bodies.length := hJ.path i (List.mem_of_getElem? hx)
  refine (safe_len hW hi).bind fun W _ => Safe.pure fun a ha old => ?_
  exact (hS.rd wf hi).bind fun _ hSl => (safe_len hSl ha).bind fun _ _ => Safe.pure trivial

theorem jacobianDot_safe (wf : mb.WF) {mbc : MBC K} (hW : mbc.bodyPosW.length = mb.bodies.length)
    (hV : mbc.bodyVelB.length = mb.bodies.length) (hVW : mbc.bodyVelW.length = mb.bodies.length)
    (hS : Rows mb mbc.motionSubspace) {J : Jac K} (hJ : J.Fits mb) (hne : J.path ≠ []) :
    Safe (J.jacobianDot mb mbc) fun _ => True := by
  unfold Jac.jacobianDot
  refine (back_safe hJ hne).bind fun N hN => ?_
  refine (safe_len hW hN).bind fun W _ => ?_
  refine (safe_len hV hN).bind fun V _ => ?_
  refine (safe_len hVW hN).bind fun VW _ => ?_
  refine (safe_fillCols wf hJ.path hJ.jacDot fun x i hx => ?_).bind fun r _ => Safe.pure trivial
  have hi : i < mb.bodies.length := hJ.path i (List.mem_of_getElem? hx)
  refine (safe_len hW hi).bind fun W _ => ?_
  refine (safe_len hV hi).bind fun V _ => Safe.pure fun a ha old => ?_
  exact (hS.rd wf hi).bind fun _ hSl => (safe_len hSl ha).bind fun _ _ => Safe.pure trivial

theorem bodyJacobianDot_safe (wf : mb.WF) {mbc : MBC K} (hW : mbc.bodyPosW.length = mb.bodies.length)
    (hV : mbc.bodyVelB.length = mb.bodies.length) (hS : Rows mb mbc.motionSubspace) {J : Jac K} (hJ : J.Fits mb) (hne : J.path ≠ []) :
    Safe (J.bodyJacobianDot mb mbc) fun _ => True := by
  unfold Jac.bodyJacobianDot
  refine (back_safe hJ hne).bind fun N hN => ?_
  refine (safe_len hW hN).bind fun W _ => ?_
  refine (safe_len hV hN).bind fun V _ => ?_
  refine (safe_fillCols wf hJ.path hJ.jacDot fun x i hx => ?_).bind fun r _ => Safe.pure trivial
  have hi : i < mb.bodies.length := hJ.path i (List.mem_of_getElem? hx)
  refine (safe_len hW hi).bind fun W _ => ?_
  refine (safe_len hV hi).bind fun V _ => Safe.pure fun a ha old => ?_
  exact (hS.rd wf hi).bind fun _ hSl => (safe_len hSl ha).bind fun _ _ => Safe.pure trivial

theorem foldl_max_lt {l : List Nat} {i n : Nat} : l.foldl max i < n ↔ i < n ∧ ∀ x ∈ l, x < n := by
  induction l generalizing i with
  | nil => simp
  | cons a l ih =>
    rw [List.foldl_cons, ih, max_lt_iff]
    simp only [List.mem_cons, forall_eq_or_imp]
    tauto

theorem checkPath_decides (wf : mb.WF) {J : Jac K} (hne : J.path ≠ []) :
    Decides (J.checkPath mb) (∀ i ∈ J.path, i < mb.bodies.length) := by
  unfold Jac.checkPath MultiBody.nrJoints
  rw [wf.njoints]
  obtain ⟨i, l, h⟩ := List.exists_cons_of_ne_nil hne
  rw [h]
  have e : (∀ x ∈ i :: l, x < mb.bodies.length) ↔ ¬ mb.bodies.length ≤ l.foldl max i := by
    rw [not_le, foldl_max_lt]; simp
  rw [e]
  exact ⟨fun hh => ⟨(), if_neg hh⟩, fun hh => if_pos (not_not.1 hh)⟩

end RBDyn
