import Verif.Model.CoM
import Verif.Lemmas.Coriolis

/-! Centre of mass: closed forms of `computeCoM`, `computeCoMVelocity`, `computeCoMAcceleration` and of the loops of `CoMJacobian`. -/

namespace RBDyn
variable {K : Type} [Scalar K] {mb : MultiBody K}
open scoped Mat3

/-- A loop that adds up. -/
theorem foldlM_range_sum {M : Type} [AddCommMonoid M] (F : M → Nat → Res M) (f : Nat → M) (n : Nat) (s0 : M)
    (h : ∀ i, i < n → ∀ s, F s i = .ok (s + f i)) : (List.range n).foldlM F s0 = .ok (s0 + ∑ i ∈ Finset.range n, f i) := by
  refine (foldlM_range_inv F (fun k s => s = s0 + ∑ i ∈ Finset.range k, f i) n s0 (by simp) ?_).elim ?_
  · rintro k s hk rfl
    exact ⟨_, h k hk _, by rw [Finset.sum_range_succ, add_assoc]⟩
  · rintro s ⟨e, rfl⟩
    exact e

/-- Total mass. -/
def MultiBody.totalMass (mb : MultiBody K) : K := ∑ k ∈ Finset.range mb.bodies.length, (mb.inertiaAt k).m

/-- World position of the point `p` of a body with pose `W`. -/
def worldPoint (W : PTransform K) (p : Vec3 K) : Vec3 K := W.r + W.E.tr *ᵥ p

/-- Every body has a centre of mass: its mass is positive, or it has no first moment of mass. -/
def MultiBody.MassOK (mb : MultiBody K) : Prop := ∀ b ∈ mb.bodies, 0 < b.inertia.m ∨ b.inertia.h = 0

theorem MultiBody.MassOK.moment (hm : mb.MassOK) {k : Nat} (hk : k < mb.bodies.length) :
    (mb.inertiaAt k).h = (mb.inertiaAt k).m • mb.corComAt k := by
  have hb : mb.bodies[k]? = some mb.bodies[k] := List.getElem?_eq_getElem hk
  have := mb.bodies[k].corCom_spec (hm _ (List.getElem_mem hk))
  simpa [MultiBody.inertiaAt, MultiBody.corComAt, hb] using this

/-- The centre of mass of the robot: the mean of the centres of mass of the bodies, weighted with their masses. -/
def MultiBody.comAt (mb : MultiBody K) (q : List (List K)) : Vec3 K :=
  (1 / mb.totalMass) • ∑ k ∈ Finset.range mb.bodies.length, (mb.inertiaAt k).m • worldPoint (mb.posAt q k) (mb.corComAt k)

/-- Its velocity: the mean of the velocities. -/
def MultiBody.comVelAt (mb : MultiBody K) (q alpha : List (List K)) : Vec3 K :=
  (1 / mb.totalMass) • ∑ k ∈ Finset.range mb.bodies.length,
    (mb.inertiaAt k).m • (pointVel (mb.posAt q k) (mb.velAt q alpha k) (mb.corComAt k)).lin

/-- Its acceleration: the mean of the accelerations. -/
def MultiBody.comAccAt (mb : MultiBody K) (q alpha alphaD : List (List K)) : Vec3 K :=
  (1 / mb.totalMass) • ∑ k ∈ Finset.range mb.bodies.length,
    (mb.inertiaAt k).m • (pointAcc (mb.posAt q k) (mb.velAt q alpha k) (mb.accAt q alpha alphaD 0 k) (mb.corComAt k)).lin

theorem MultiBody.rd_bodies {k : Nat} (hk : k < mb.bodies.length) : ∃ b, rd mb.bodies k = .ok b ∧ mb.inertiaAt k = b.inertia ∧
    mb.corComAt k = b.com ∧ b ∈ mb.bodies := by
  have hb : mb.bodies[k]? = some mb.bodies[k] := List.getElem?_eq_getElem hk
  exact ⟨mb.bodies[k], rd_ok hk, by simp [MultiBody.inertiaAt, hb], by simp [MultiBody.corComAt, hb]; rfl, List.getElem_mem hk⟩

theorem computeCoM_eq (hm : mb.MassOK) (hM : 0 < mb.totalMass) {mbc : MBC K} (hv : mbc.PosReady mb) :
    computeCoM mb mbc = .ok (mb.comAt mbc.q) := by
  unfold computeCoM
  rw [foldlM_range_sum _ (fun k => ((mb.inertiaAt k).m • worldPoint (mb.posAt mbc.q k) (mb.corComAt k), (mb.inertiaAt k).m))]
  · simp only [Res.bind_ok, Prod.fst_add, Prod.snd_add, Prod.fst_sum, Prod.snd_sum, zero_add]
    rw [if_pos (by exact hM)]
    rfl
  · intro i hi s
    obtain ⟨b, e, hI, -, -⟩ := mb.rd_bodies hi
    have hh := hm.moment hi
    simp only [e, Res.bind_ok, hv.rd_pos hi, Res.pure_eq, ← hI, hh]
    congr 2
    ext <;> simp [worldPoint, PTransform.ofTrans] <;> ring

theorem computeCoMVelocity_eq (hm : mb.MassOK) (hM : 0 < mb.totalMass) {mbc : MBC K} (hv : mbc.VelReady mb) :
    computeCoMVelocity mb mbc = .ok (mb.comVelAt mbc.q mbc.alpha) := by
  unfold computeCoMVelocity
  rw [foldlM_range_sum _ (fun k => ((mb.inertiaAt k).m • (pointVel (mb.posAt mbc.q k) (mb.velAt mbc.q mbc.alpha k) (mb.corComAt k)).lin,
    (mb.inertiaAt k).m))]
  · simp only [Res.bind_ok, Prod.fst_add, Prod.snd_add, Prod.fst_sum, Prod.snd_sum, zero_add]
    rw [if_pos (by exact hM)]
    rfl
  · intro i hi s
    obtain ⟨b, e, hI, -, -⟩ := mb.rd_bodies hi
    have hh := hm.moment hi
    simp only [e, Res.bind_ok, hv.rd_pos hi, hv.rd_vB hi, Res.pure_eq, ← hI, hh]
    congr 2
    ext <;> simp [pointVel, PTransform.mulMotion] <;> ring

theorem computeCoMAcceleration_eq (hr : mb.Rigid) (hm : mb.MassOK) (hM : 0 < mb.totalMass) {mbc : MBC K} (hq : ValidQ mb mbc.q)
    (hv : mbc.VelReady mb) {alphaD : List (List K)} (hA : mbc.bodyAccB = (List.range mb.bodies.length).map (mb.accAt mbc.q mbc.alpha alphaD 0)) :
    computeCoMAcceleration mb mbc = .ok (mb.comAccAt mbc.q mbc.alpha alphaD) := by
  unfold computeCoMAcceleration
  rw [foldlM_range_sum _ (fun k => ((mb.inertiaAt k).m • (pointAcc (mb.posAt mbc.q k) (mb.velAt mbc.q mbc.alpha k)
    (mb.accAt mbc.q mbc.alpha alphaD 0 k) (mb.corComAt k)).lin, (mb.inertiaAt k).m))]
  · simp only [Res.bind_ok, Prod.fst_add, Prod.snd_add, Prod.fst_sum, Prod.snd_sum, zero_add]
    rw [if_pos (by exact hM)]
    rfl
  · intro i hi s
    obtain ⟨b, e, hI, -, -⟩ := mb.rd_bodies hi
    have hh := hm.moment hi
    have ea : rd mbc.bodyAccB i = .ok (mb.accAt mbc.q mbc.alpha alphaD 0 i) := by
      rw [hA]; exact rd_of_getElem? (range_map_getElem? hi)
    simp only [e, Res.bind_ok, hv.rd_pos hi, hv.rd_vB hi, hv.rd_vW hi, ea, Res.pure_eq, ← hI, hh, mb.velWAt_ang]
    rw [← pointAcc_eq (mb.posAt_rigid hr hq i)]
    congr 2
    ext <;> simp [PTransform.mulMotion, MotionVec.cross] <;> ring

theorem MBC.VelReady.withAcc {mbc : MBC K} (hv : mbc.VelReady mb) (A : List (MotionVec K)) :
    ({ mbc with bodyAccB := A } : MBC K).VelReady mb :=
  { parentToSon := hv.parentToSon, bodyPosW := hv.bodyPosW, motionSubspace := hv.motionSubspace,
    jointVelocity := hv.jointVelocity, bodyVelB := hv.bodyVelB, bodyVelW := hv.bodyVelW }

/-- After `forwardAcceleration`. -/
theorem computeCoMAcceleration_fa (hr : mb.Rigid) (hm : mb.MassOK) (hM : 0 < mb.totalMass) (mbc : MBC K) (hq : ValidQ mb mbc.q)
    (hv : mbc.VelReady mb) (alphaD : List (List K)) :
    computeCoMAcceleration mb { mbc with bodyAccB := (List.range mb.bodies.length).map (mb.accAt mbc.q mbc.alpha alphaD 0) } =
      .ok (mb.comAccAt mbc.q mbc.alpha alphaD) :=
  computeCoMAcceleration_eq (mbc := { mbc with bodyAccB := (List.range mb.bodies.length).map (mb.accAt mbc.q mbc.alpha alphaD 0) })
    hr hm hM hq (hv.withAcc _) rfl

/-! ### `CoMJacobian` -/

/-- Writing a range of columns, column by column. -/
theorem writeCols_getD {M : Type} [Zero M] (cols : List M) (cur n : Nat) (g : Nat → M → Res M) (h : Nat → M → M) (hl : cur + n ≤ cols.length)
    (hg : ∀ a, a < n → ∀ old, g a old = .ok (h a old)) : ∃ cols', writeCols cols cur n g = .ok cols' ∧ cols'.length = cols.length ∧
      ∀ c, cols'.getD c 0 = if cur ≤ c ∧ c < cur + n then h (c - cur) (cols.getD c 0) else cols.getD c 0 := by
  refine ⟨_, writeCols_eq cols cur n g h hl hg, ?_, fun c => ?_⟩
  · simp only [List.length_append, List.length_take, List.length_map, List.length_range, List.length_drop]; omega
  · have e1 : (cols.take cur).length = cur := by rw [List.length_take]; omega
    rw [List.getD_eq_getElem?_getD]
    rcases Nat.lt_or_ge c cur with h1 | h1
    · rw [if_neg (by omega), List.append_assoc, List.getElem?_append_left (by omega), List.getElem?_take_of_lt h1, List.getD_eq_getElem?_getD]
    · rcases Nat.lt_or_ge c (cur + n) with h2 | h2
      · rw [if_pos ⟨h1, h2⟩, List.getElem?_append_left (by simp only [List.length_append, e1, List.length_map, List.length_range]; omega),
          List.getElem?_append_right (by omega), e1, List.getElem?_map, List.getElem?_range (by omega)]
        simp only [Option.map_some, Option.getD_some]
        rw [Nat.add_sub_cancel' h1]
      · rw [if_neg (by omega), List.getElem?_append_right (by simp only [List.length_append, e1, List.length_map, List.length_range]; omega),
          List.length_append, e1, List.length_map, List.length_range, List.getElem?_drop, List.getD_eq_getElem?_getD]
        congr 2
        omega

/-- The loop over the bodies that a joint carries: it adds up the columns of the joint. -/
theorem accCols {M : Type} [AddCommMonoid M] (F : List M → Nat → Res (List M)) (cur n : Nat) (h : Nat → Nat → M) (l : List Nat)
    (L : Nat) (hL : cur + n ≤ L)
    (hF : ∀ b ∈ l, ∀ (cols : List M), cols.length = L → ∃ g, F cols b = writeCols cols cur n g ∧
      ∀ a, a < n → ∀ old, g a old = .ok (old + h b a))
    (cols : List M) (hc : cols.length = L) : ∃ cols', l.foldlM F cols = .ok cols' ∧ cols'.length = L ∧
      ∀ c, cols'.getD c 0 = if cur ≤ c ∧ c < cur + n then cols.getD c 0 + (l.map fun b => h b (c - cur)).sum else cols.getD c 0 := by
  induction l generalizing cols with
  | nil => exact ⟨cols, rfl, hc, fun c => by split <;> simp⟩
  | cons b l ih =>
    obtain ⟨g, e, hg⟩ := hF b (List.mem_cons_self ..) cols hc
    obtain ⟨c1, e1, l1, h1⟩ := writeCols_getD cols cur n g (fun a old => old + h b a) (by omega) hg
    obtain ⟨c2, e2, l2, h2⟩ := ih (fun b' hb' => hF b' (List.mem_cons_of_mem _ hb')) c1 (l1.trans hc)
    refine ⟨c2, ?_, l2, fun c => ?_⟩
    · simp only [List.foldlM_cons, e, e1, Res.bind_ok, e2]
    · rw [h2, h1]
      split
      · rw [List.map_cons, List.sum_cons, add_assoc]
      · rfl

/-- The loop over the joints: afterwards the column of every degree of freedom is the sum over the bodies that the joint carries. -/
theorem jointCols (wf : mb.WF) {M : Type} [AddCommMonoid M] (F : List M × Nat → Nat → Res (List M × Nat)) (sub : Nat → List Nat)
    (h : Nat → Nat → Nat → M)
    (hF : ∀ i, i < mb.bodies.length → ∀ (cols : List M), cols.length = mb.nrDof →
      ∃ cols', F (cols, mb.dofPosAt i) i = .ok (cols', mb.dofPosAt i + mb.dofAt i) ∧ cols'.length = mb.nrDof ∧
      ∀ c, cols'.getD c 0 = if mb.dofPosAt i ≤ c ∧ c < mb.dofPosAt i + mb.dofAt i then
        cols.getD c 0 + ((sub i).map fun b => h i b (c - mb.dofPosAt i)).sum else cols.getD c 0)
    (cols : List M) (hc : cols.length = mb.nrDof) (hz : ∀ c, cols.getD c 0 = 0) :
    ∃ cols', (List.range mb.nrJoints).foldlM F (cols, 0) = .ok (cols', mb.nrDof) ∧ cols'.length = mb.nrDof ∧
      ∀ i a, i < mb.bodies.length → a < mb.dofAt i → cols'.getD (mb.dofPosAt i + a) 0 = ((sub i).map fun b => h i b a).sum := by
  have hn : mb.nrJoints = mb.bodies.length := wf.njoints
  rw [hn]
  refine (foldlM_range_inv F (fun k s => s.2 = mb.dofPosAt k ∧ s.1.length = mb.nrDof ∧
    ∀ i a, i < mb.bodies.length → a < mb.dofAt i → s.1.getD (mb.dofPosAt i + a) 0 =
      if i < k then ((sub i).map fun b => h i b a).sum else 0) mb.bodies.length (cols, 0) ?_ ?_).elim ?_
  · exact ⟨by simp [MultiBody.dofPosAt], hc, fun i a _ _ => by simp only [Nat.not_lt_zero, if_false]; exact hz _⟩
  · rintro k ⟨cs, cur⟩ hk ⟨h1, h2, h3⟩
    dsimp only at h1 h2 h3
    subst h1
    obtain ⟨cs', e, hl, hg⟩ := hF k hk cs h2
    refine ⟨(cs', mb.dofPosAt k + mb.dofAt k), e, (mb.dofPosAt_succ (by rw [wf.njoints]; exact hk)).symm, hl, fun i a hi ha => ?_⟩
    dsimp only
    rw [hg]
    by_cases hki : k = i
    · subst hki
      rw [if_pos ((wf.in_segment hk hi ha).2 rfl), h3 k a hi ha, if_neg (lt_irrefl _), if_pos (Nat.lt_succ_self _), zero_add,
        Nat.add_sub_cancel_left]
    · rw [if_neg (fun hh => hki ((wf.in_segment hk hi ha).1 hh)), h3 i a hi ha]
      by_cases hik : i < k
      · rw [if_pos hik, if_pos (by omega)]
      · rw [if_neg hik, if_neg (by omega)]
  · rintro ⟨cs, cur⟩ ⟨e, h1, h2, h3⟩
    dsimp only at h1 h2 h3
    refine ⟨cs, ?_, h2, fun i a hi ha => by rw [h3 i a hi ha, if_pos hi]⟩
    rw [e, h1, wf.dofPosAt_total]

/-- A `CoMJacobian` object that belongs to the robot, with the weights `w`. -/
structure CoMJac.For (mb : MultiBody K) (w : List K) (c : CoMJac K) : Prop where
  jac : c.jac.length = mb.nrDof
  jacDot : c.jacDot.length = mb.nrDof
  coeff : c.coeff = (List.range mb.bodies.length).map fun k => (mb.inertiaAt k).m * w.getD k 0 / mb.totalMass
  com : c.com = (List.range mb.bodies.length).map fun k => PTransform.ofTrans (mb.corComAt k)
  sub : ∀ i, i < mb.bodies.length → ∃ l : List Nat, c.sub[i]? = some l ∧ l.Perm (mb.subtree i).toList
  comWorld : c.comWorld.length = mb.bodies.length
  comVelB : c.comVelB.length = mb.bodies.length
  normalAcc : c.normalAcc.length = mb.bodies.length
  weight : c.weight = w
  weights : w.length = mb.bodies.length
  subs : c.sub.length = mb.bodies.length

theorem MultiBody.successor_eq (wf : mb.WF) {i : Nat} (hi : i < mb.bodies.length) : mb.successor (i : Int) = .ok (i : Int) := by
  unfold MultiBody.successor
  rw [rdI_ofNat, wf.rd_succ hi]

/-- `jointBodiesSuccessors` appends the bodies that the joint carries. -/
theorem jointBodiesSuccessors_eq (wf : mb.WF) (fuel : Nat) : ∀ (i : Nat) (sub : List Nat), i < mb.bodies.length →
    mb.bodies.length - i ≤ fuel → ∃ l, jointBodiesSuccessors mb fuel i sub = .ok (sub ++ l) ∧
      ∀ x, l.count x = ∑ k ∈ mb.subtree i, if k = x then 1 else 0 := by
  induction fuel with
  | zero => intro i sub hi h; omega
  | succ fuel ih =>
    intro i sub hi hf
    unfold jointBodiesSuccessors
    have hn : mb.nrJoints = mb.bodies.length := wf.njoints
    simp only [MultiBody.successor_eq wf hi, Res.bind_ok, toIdx_ofNat, hn]
    refine (foldlM_range_inv (fun (sub : List Nat) (j : Nat) => do
      if (← mb.predecessor (j : Int)) = (i : Int) then jointBodiesSuccessors mb fuel j sub else pure sub)
      (fun m s => ∃ l, s = sub ++ [i] ++ l ∧ ∀ x, l.count x =
        ∑ c ∈ Finset.range m with mb.par c = some i, ∑ k ∈ mb.subtree c, if k = x then 1 else 0)
      mb.bodies.length (sub ++ [i]) ⟨[], by simp, by simp⟩ ?_).elim ?_
    · rintro j s hj ⟨l, rfl, hl⟩
      have hpr : ∃ p, mb.predecessor (j : Int) = .ok p ∧ (p = (i : Int) ↔ mb.par j = some i) := by
        obtain ⟨p, hp, ⟨rfl, hpar⟩ | ⟨k, rfl, hpar, hk⟩⟩ := wf.pred_cases hj
        · exact ⟨-1, by unfold MultiBody.predecessor; rw [rdI_ofNat, hp], by rw [hpar]; simp⟩
        · exact ⟨k, by unfold MultiBody.predecessor; rw [rdI_ofNat, hp], by rw [hpar]; simp⟩
      obtain ⟨p, e, hp⟩ := hpr
      simp only [e, Res.bind_ok]
      by_cases hpi : mb.par j = some i
      · have hij := wf.par_lt _ _ hpi
        obtain ⟨l', e', hl'⟩ := ih j (sub ++ [i] ++ l) hj (by omega)
        refine ⟨_, by rw [if_pos (hp.2 hpi)]; exact e', l ++ l', by simp only [List.append_assoc], fun x => ?_⟩
        rw [List.count_append, hl, hl', Finset.sum_filter, Finset.sum_filter, Finset.sum_range_succ, if_pos hpi]
      · refine ⟨_, by rw [if_neg (fun h => hpi (hp.1 h))]; rfl, l, rfl, fun x => ?_⟩
        rw [hl, Finset.sum_filter, Finset.sum_filter, Finset.sum_range_succ, if_neg hpi, add_zero]
    · rintro s ⟨e, l, rfl, hl⟩
      refine ⟨i :: l, by rw [e]; simp, fun x => ?_⟩
      have hsub : ∀ c, mb.subtree c = (Finset.range mb.bodies.length).filter (fun k => c ∈ pathUp mb.par k) := fun _ => rfl
      rw [List.count_cons, hl, hsub i, subtree_sum wf.par_lt _ _ hi, add_comm]
      simp only [hsub, beq_iff_eq]

theorem perm_of_count {l : List Nat} {s : Finset Nat} (h : ∀ x, l.count x = ∑ k ∈ s, if k = x then 1 else 0) : l.Perm s.toList := by
  rw [List.perm_iff_count]
  intro x
  rw [h, Finset.sum_ite_eq' s x fun _ => 1]
  split
  · rename_i hx
    exact (List.count_eq_one_of_mem s.nodup_toList (Finset.mem_toList.2 hx)).symm
  · rename_i hx
    exact (List.count_eq_zero_of_not_mem fun h => hx (Finset.mem_toList.1 h)).symm

theorem CoMJac.update_eq {w : List K} (hw : w.length = mb.bodies.length) {c : CoMJac K} (h1 : c.coeff.length = mb.bodies.length)
    (h2 : c.com.length = mb.bodies.length) (h3 : c.weight = w) :
    c.update mb = .ok { c with
      coeff := (List.range mb.bodies.length).map fun k => (mb.inertiaAt k).m * w.getD k 0 / mb.totalMass,
      com := (List.range mb.bodies.length).map fun k => PTransform.ofTrans (mb.corComAt k) } := by
  unfold CoMJac.update
  have e0 : (List.range mb.nrBodies).foldlM (fun (s : K) i => do return s + (← rd mb.bodies i).inertia.m) 0 = .ok mb.totalMass := by
    rw [foldlM_range_sum _ (fun k => (mb.inertiaAt k).m), zero_add]
    · rfl
    · intro i hi s
      obtain ⟨b, e, hI, -, -⟩ := mb.rd_bodies hi
      simp only [e, Res.bind_ok, Res.pure_eq, hI]
  rw [e0, Res.bind_ok]
  refine (foldlM_range_inv (CoMJac.updateStep mb mb.totalMass) (fun k s =>
    Filled s.coeff (fun k => some ((mb.inertiaAt k).m * w.getD k 0 / mb.totalMass)) k mb.bodies.length ∧
    Filled s.com (fun k => some (PTransform.ofTrans (mb.corComAt k))) k mb.bodies.length ∧
    s = { c with coeff := s.coeff, com := s.com }) mb.nrBodies c ⟨.zero h1, .zero h2, rfl⟩ ?_).elim ?_
  · rintro i s hi ⟨f1, f2, hs⟩
    have hi : i < mb.bodies.length := hi
    obtain ⟨b, e, hI, hp, -⟩ := mb.rd_bodies hi
    have ew : rd s.weight i = .ok (w.getD i 0) := by
      rw [hs]
      show rd c.weight i = _
      rw [h3, rd_ok (by omega), List.getD_eq_getElem?_getD, List.getElem?_eq_getElem (by omega)]
      rfl
    have b1 : i < s.coeff.length := by rw [f1.1]; exact hi
    have b2 : i < s.com.length := by rw [f2.1]; exact hi
    have ec : (if 0 < b.inertia.m then PTransform.ofTrans ((1 / b.inertia.m) • b.inertia.h) else 1) = PTransform.ofTrans (mb.corComAt i) := by
      rw [hp]
      unfold Body.com
      split <;> rfl
    simp only [CoMJac.updateStep, e, Res.bind_ok, ew, wr_ok b1, wr_ok b2, Res.pure_eq, Except.ok.injEq, exists_eq_left', ec]
    rw [← hI]
    exact ⟨f1.set hi rfl, f2.set hi rfl, by rw [hs]⟩
  · rintro s ⟨e, f1, f2, hs⟩
    have f1 : Filled s.coeff _ mb.bodies.length mb.bodies.length := f1
    have f2 : Filled s.com _ mb.bodies.length mb.bodies.length := f2
    rw [e, ← f1.range_map, ← f2.range_map, ← hs]

theorem CoMJac.mk'_for (wf : mb.WF) (junkV : Nat → MotionVec K) (junkK : Nat → K) (junkX : Nat → PTransform K) (junkC : Nat → Vec3 K)
    {w : List K} (hw : w.length = mb.bodies.length) : ∃ c, CoMJac.mk' junkV junkK junkX junkC mb w = .ok c ∧ c.For mb w := by
  unfold CoMJac.mk' CoMJac.init
  have hn : mb.nrJoints = mb.bodies.length := wf.njoints
  have hb : mb.nrBodies = mb.bodies.length := rfl
  dsimp only
  rw [if_neg (by rw [hw, hb]; simp), CoMJac.update_eq hw (by simp [hb]) (by simp [hb]) rfl, Res.bind_ok, hn]
  dsimp only
  refine (foldlM_range_inv (fun (sub : List (List Nat)) i => do
    wr sub i (← jointBodiesSuccessors mb (mb.bodies.length + 1) i (← rd sub i))) (fun k s => s.length = mb.bodies.length ∧
      ∀ i, i < mb.bodies.length → if i < k then ∃ l : List Nat, s[i]? = some l ∧ l.Perm (mb.subtree i).toList else s[i]? = some [])
    mb.bodies.length ((List.range mb.bodies.length).map fun _ => []) ⟨by simp, fun i hi => by
      rw [if_neg (Nat.not_lt_zero _), range_map_getElem? hi]⟩ ?_).elim ?_
  · rintro k s hk ⟨hl, hs⟩
    have h0 := hs k hk
    rw [if_neg (lt_irrefl _)] at h0
    obtain ⟨l, e, hc⟩ := jointBodiesSuccessors_eq wf (mb.bodies.length + 1) k [] hk (by omega)
    refine ⟨s.set k l, ?_, by rw [List.length_set]; exact hl, fun i hi => ?_⟩
    · simp only [rd_of_getElem? h0, Res.bind_ok, e, List.nil_append]
      rw [wr_ok (by omega)]
    · by_cases hki : k = i
      · subst hki
        rw [if_pos (Nat.lt_succ_self _)]
        exact ⟨l, List.getElem?_set_self (by omega), perm_of_count hc⟩
      · rw [List.getElem?_set_ne hki]
        have := hs i hi
        by_cases hik : i < k
        · rw [if_pos (by omega)]; rwa [if_pos hik] at this
        · rw [if_neg (by omega)]; rwa [if_neg hik] at this
  · rintro s ⟨e, hl, hs⟩
    rw [e]
    refine ⟨_, rfl, ?_⟩
    exact
      { jac := by simp
        jacDot := by simp
        coeff := rfl
        com := rfl
        sub := fun i hi => by have := hs i hi; rwa [if_pos hi] at this
        comWorld := by simp [hb]
        comVelB := by simp [hb]
        normalAcc := by simp
        weight := rfl
        weights := hw
        subs := hl }

/-- Changing the weights. -/
theorem CoMJac.For.setWeight {w : List K} {c : CoMJac K} (h : c.For mb w) {w' : List K} (hw : w'.length = mb.bodies.length) :
    ∃ c', c.setWeight mb w' = .ok c' ∧ c'.For mb w' := by
  unfold CoMJac.setWeight
  rw [CoMJac.update_eq (c := { c with weight := w' }) hw (by dsimp only; rw [h.coeff]; simp) (by dsimp only; rw [h.com]; simp) rfl]
  exact ⟨_, rfl, ⟨h.jac, h.jacDot, rfl, rfl, h.sub, h.comWorld, h.comVelB, h.normalAcc, rfl, hw, h.subs⟩⟩

/-- Coefficient of body `k`. -/
def MultiBody.comCoeff (mb : MultiBody K) (w : List K) (k : Nat) : K := (mb.inertiaAt k).m * w.getD k 0 / mb.totalMass

/-- Column of the Jacobian of the (weighted) centre of mass. -/
def MultiBody.comCol (mb : MultiBody K) (w : List K) (q : List (List K)) (i a : Nat) : Vec3 K :=
  ∑ k ∈ Finset.range mb.bodies.length, mb.comCoeff w k • (mb.wcol q k (mb.corComAt k) i a).lin

/-- Column of the time derivative of the Jacobian of the (weighted) centre of mass. -/
def MultiBody.comDotCol (mb : MultiBody K) (w : List K) (q alpha : List (List K)) (i a : Nat) : Vec3 K :=
  ∑ k ∈ Finset.range mb.bodies.length, mb.comCoeff w k • (mb.wdot q alpha k (mb.corComAt k) i a).lin

theorem CoMJac.For.rd_coeff {w : List K} {c : CoMJac K} (h : c.For mb w) {k : Nat} (hk : k < mb.bodies.length) :
    rd c.coeff k = .ok (mb.comCoeff w k) := by
  rw [h.coeff]; exact rd_of_getElem? (range_map_getElem? hk)

theorem CoMJac.For.rd_com {w : List K} {c : CoMJac K} (h : c.For mb w) {k : Nat} (hk : k < mb.bodies.length) :
    rd c.com k = .ok (PTransform.ofTrans (mb.corComAt k)) := by
  rw [h.com]; exact rd_of_getElem? (range_map_getElem? hk)

/-- The sum over the list of a joint is the sum over all bodies of what vanishes elsewhere. -/
theorem sub_sum {M : Type} [AddCommMonoid M] {l : List Nat} {i : Nat} (hl : l.Perm (mb.subtree i).toList) (f : Nat → M) :
    (l.map f).sum = ∑ k ∈ Finset.range mb.bodies.length, if i ∈ pathUp mb.par k then f k else 0 := by
  rw [(hl.map f).sum_eq, Finset.sum_map_toList, MultiBody.subtree, Finset.sum_filter]

theorem sub_mem {l : List Nat} {i k : Nat} (hl : l.Perm (mb.subtree i).toList) (hk : k ∈ l) : k < mb.bodies.length := by
  have := hl.mem_iff.1 hk
  rw [Finset.mem_toList, MultiBody.subtree, Finset.mem_filter, Finset.mem_range] at this
  exact this.1

theorem CoMJac.For.jacobian_eq (wf : mb.WF) {mbc : MBC K} (hv : mbc.PosReady mb) {w : List K} {c : CoMJac K} (h : c.For mb w) :
    ∃ c', c.jacobian mb mbc = .ok c' ∧ c'.For mb w ∧ c'.jacDot = c.jacDot ∧ ∀ i a, i < mb.bodies.length → a < mb.dofAt i →
      c'.jac.getD (mb.dofPosAt i + a) 0 = mb.comCol w mbc.q i a := by
  unfold CoMJac.jacobian
  refine (foldlM_range_inv (CoMJac.worldStep mbc) (fun k s =>
    Filled s.comWorld (fun k => some (PTransform.ofTrans (PTransform.ofTrans (mb.corComAt k) * mb.posAt mbc.q k).r)) k mb.bodies.length ∧
    s = { c with comWorld := s.comWorld }) mb.nrBodies c ⟨.zero h.comWorld, rfl⟩ ?_).elim ?_
  · rintro i s hi ⟨f1, hs⟩
    have hi : i < mb.bodies.length := hi
    have ec : rd s.com i = .ok (PTransform.ofTrans (mb.corComAt i)) := by rw [hs]; exact h.rd_com hi
    have b1 : i < s.comWorld.length := by rw [f1.1]; exact hi
    simp only [CoMJac.worldStep, ec, Res.bind_ok, hv.rd_pos hi, wr_ok b1, Res.pure_eq, Except.ok.injEq, exists_eq_left']
    exact ⟨f1.set hi rfl, by rw [hs]⟩
  · rintro s ⟨e, f1, hs⟩
    have f1 : Filled s.comWorld _ mb.bodies.length mb.bodies.length := f1
    have hf : s.For mb w := by
      rw [hs]
      exact ⟨h.jac, h.jacDot, h.coeff, h.com, h.sub, f1.1, h.comVelB, h.normalAcc, h.weight, h.weights, h.subs⟩
    rw [e, Res.bind_ok]
    have hk : ∀ i, ∃ l : List Nat, i < mb.bodies.length → s.sub[i]? = some l ∧ l.Perm (mb.subtree i).toList := fun i => by
      by_cases hi : i < mb.bodies.length
      · obtain ⟨l, hl⟩ := hf.sub i hi
        exact ⟨l, fun _ => hl⟩
      · exact ⟨[], fun h => absurd h hi⟩
    choose sub hsub using hk
    obtain ⟨cols, ec, hl, hg⟩ := jointCols wf (s.jacStep mb mbc) sub (fun i b a => mb.comCoeff w b •
      (PTransform.ofTrans (PTransform.ofTrans (mb.corComAt b) * mb.posAt mbc.q b).r * (mb.posAt mbc.q i).inv).linearMul ((mb.SAt i).getD a 0))
      (fun i hi cols hc => by
        obtain ⟨j, hj, hd⟩ := wf.rd_joint hi
        obtain ⟨hs1, hs2⟩ := hsub i hi
        obtain ⟨c2, e2, l2, g2⟩ := accCols (fun (jac : List (Vec3 K)) b => do
            let X := (← rd s.comWorld b) * (mb.posAt mbc.q i).inv
            writeCols jac (mb.dofPosAt i) j.dof fun a old => do
              return old + (← rd s.coeff b) • X.linearMul (← rd (← rd mbc.motionSubspace i) a)) (mb.dofPosAt i) (mb.dofAt i)
          (fun b a => mb.comCoeff w b • (PTransform.ofTrans (PTransform.ofTrans (mb.corComAt b) * mb.posAt mbc.q b).r *
            (mb.posAt mbc.q i).inv).linearMul ((mb.SAt i).getD a 0)) (sub i) mb.nrDof (wf.dofPosAt_add_le hi)
          (fun b hb cs hcs => by
            have hb' := sub_mem hs2 hb
            refine ⟨_, by simp only [f1.rd hb', Res.bind_ok, hd]; rfl, fun a ha old => ?_⟩
            simp only [hf.rd_coeff hb', Res.bind_ok, hv.rd_S hi, wf.rd_SAt hi ha, Res.pure_eq]) cols hc
        refine ⟨c2, ?_, l2, g2⟩
        simp only [hd, Res.pure_eq] at e2
        simp only [CoMJac.jacStep, hv.rd_pos hi, Res.bind_ok, hj, rd_of_getElem? hs1, e2, Res.pure_eq, hd])
      (s.jac.map fun _ => 0) (by rw [List.length_map]; exact hf.jac) (fun c => by
        rw [List.getD_eq_getElem?_getD, List.getElem?_map]; cases s.jac[c]? <;> rfl)
    rw [ec, Res.bind_ok]
    refine ⟨_, rfl, ⟨hl, hf.jacDot, hf.coeff, hf.com, hf.sub, hf.comWorld, hf.comVelB, hf.normalAcc, hf.weight, hf.weights, hf.subs⟩,
      by rw [hs], fun i a hi ha => ?_⟩
    dsimp only
    rw [hg i a hi ha, sub_sum (hsub i hi).2]
    refine Finset.sum_congr rfl fun k _ => ?_
    unfold MultiBody.wcol MultiBody.pathCol
    split
    · rfl
    · exact (smul_zero _).symm

theorem CoMJac.For.jacobianDot_eq (wf : mb.WF) {mbc : MBC K} (hv : mbc.VelReady mb) {w : List K} {c : CoMJac K} (h : c.For mb w) :
    ∃ c', c.jacobianDot mb mbc = .ok c' ∧ c'.For mb w ∧ c'.jac = c.jac ∧ ∀ i a, i < mb.bodies.length → a < mb.dofAt i →
      c'.jacDot.getD (mb.dofPosAt i + a) 0 = mb.comDotCol w mbc.q mbc.alpha i a := by
  unfold CoMJac.jacobianDot
  refine (foldlM_range_inv (CoMJac.worldVelStep mbc) (fun k s =>
    Filled s.comWorld (fun k => some (PTransform.ofTrans (mb.corComAt k) * mb.posAt mbc.q k)) k mb.bodies.length ∧
    Filled s.comVelB (fun k => some ((PTransform.ofTrans (mb.corComAt k)).mulMotion (mb.velAt mbc.q mbc.alpha k))) k mb.bodies.length ∧
    s = { c with comWorld := s.comWorld, comVelB := s.comVelB }) mb.nrBodies c ⟨.zero h.comWorld, .zero h.comVelB, rfl⟩ ?_).elim ?_
  · rintro i s hi ⟨f1, f2, hs⟩
    have hi : i < mb.bodies.length := hi
    have ec : rd s.com i = .ok (PTransform.ofTrans (mb.corComAt i)) := by rw [hs]; exact h.rd_com hi
    have b1 : i < s.comWorld.length := by rw [f1.1]; exact hi
    have b2 : i < s.comVelB.length := by rw [f2.1]; exact hi
    simp only [CoMJac.worldVelStep, ec, Res.bind_ok, hv.rd_pos hi, hv.rd_vB hi, wr_ok b1, wr_ok b2, Res.pure_eq, Except.ok.injEq,
      exists_eq_left']
    exact ⟨f1.set hi rfl, f2.set hi rfl, by rw [hs]⟩
  · rintro s ⟨e, f1, f2, hs⟩
    have f1 : Filled s.comWorld _ mb.bodies.length mb.bodies.length := f1
    have f2 : Filled s.comVelB _ mb.bodies.length mb.bodies.length := f2
    have hf : s.For mb w := by
      rw [hs]
      exact ⟨h.jac, h.jacDot, h.coeff, h.com, h.sub, f1.1, f2.1, h.normalAcc, h.weight, h.weights, h.subs⟩
    rw [e, Res.bind_ok]
    have hk : ∀ i, ∃ l : List Nat, i < mb.bodies.length → s.sub[i]? = some l ∧ l.Perm (mb.subtree i).toList := fun i => by
      by_cases hi : i < mb.bodies.length
      · obtain ⟨l, hl⟩ := hf.sub i hi
        exact ⟨l, fun _ => hl⟩
      · exact ⟨[], fun h => absurd h hi⟩
    choose sub hsub using hk
    obtain ⟨cols, ec, hl, hg⟩ := jointCols wf (s.jacDotStep mb mbc) sub (fun i b a => mb.comCoeff w b •
      (mb.dotHom mbc.q mbc.alpha b (mb.corComAt b) i ((mb.SAt i).getD a 0)).lin)
      (fun i hi cols hc => by
        obtain ⟨j, hj, hd⟩ := wf.rd_joint hi
        obtain ⟨hs1, hs2⟩ := hsub i hi
        obtain ⟨c2, e2, l2, g2⟩ := accCols (fun (jac : List (Vec3 K)) b => do
            let X := (← rd s.comWorld b) * (mb.posAt mbc.q i).inv
            let E := PTransform.ofRot (← rd mbc.bodyPosW b).E.tr
            let EV : MotionVec K := ⟨(← rd mbc.bodyVelW b).ang, 0⟩
            let XV := X.mulMotion (mb.velAt mbc.q mbc.alpha i) - (← rd s.comVelB b)
            writeCols jac (mb.dofPosAt i) j.dof fun a old => do
              let S ← rd (← rd mbc.motionSubspace i) a
              return old + (← rd s.coeff b) • ((EV.cross ((E * X).mulMotion S)).lin + (E.mulMotion (XV.cross (X.mulMotion S))).lin))
          (mb.dofPosAt i) (mb.dofAt i)
          (fun b a => mb.comCoeff w b • (mb.dotHom mbc.q mbc.alpha b (mb.corComAt b) i ((mb.SAt i).getD a 0)).lin)
          (sub i) mb.nrDof (wf.dofPosAt_add_le hi)
          (fun b hb cs hcs => by
            have hb' := sub_mem hs2 hb
            refine ⟨_, by simp only [f1.rd hb', f2.rd hb', hv.rd_pos hb', hv.rd_vW hb', Res.bind_ok, hd]; rfl, fun a ha old => ?_⟩
            simp only [hf.rd_coeff hb', Res.bind_ok, hv.rd_S hi, wf.rd_SAt hi ha, Res.pure_eq]
            rfl) cols hc
        refine ⟨c2, ?_, l2, g2⟩
        simp only [hd, Res.pure_eq] at e2
        simp only [CoMJac.jacDotStep, hv.rd_pos hi, hv.rd_vB hi, Res.bind_ok, hj, rd_of_getElem? hs1, e2, Res.pure_eq, hd])
      (s.jacDot.map fun _ => 0) (by rw [List.length_map]; exact hf.jacDot) (fun c => by
        rw [List.getD_eq_getElem?_getD, List.getElem?_map]; cases s.jacDot[c]? <;> rfl)
    rw [ec, Res.bind_ok]
    refine ⟨_, rfl, ⟨hf.jac, hl, hf.coeff, hf.com, hf.sub, hf.comWorld, hf.comVelB, hf.normalAcc, hf.weight, hf.weights, hf.subs⟩,
      by rw [hs], fun i a hi ha => ?_⟩
    dsimp only
    rw [hg i a hi ha, sub_sum (hsub i hi).2]
    refine Finset.sum_congr rfl fun k _ => ?_
    unfold MultiBody.wdot MultiBody.pathCol
    split
    · rfl
    · exact (smul_zero _).symm

end RBDyn
