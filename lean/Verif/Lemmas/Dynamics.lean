import Verif.Model.Dynamics
import Verif.Spec.Dynamics
import Verif.Lemmas.Kinematics
import Verif.Lemmas.Accum

/-! Inverse dynamics computes the specified values. -/

namespace RBDyn
variable {K : Type} [Scalar K] {mb : MultiBody K}

section rec
variable {q : List (List K)}

theorem MultiBody.relAt_self (hr : mb.Rigid) (hq : ValidQ mb q) (i : Nat) : mb.relAt q i i = 1 :=
  PTransform.mul_inv (mb.posAt_rigid hr hq i)

theorem MultiBody.relAt_rigid (hr : mb.Rigid) (hq : ValidQ mb q) (i k : Nat) : IsRigid (mb.relAt q i k) :=
  (mb.posAt_rigid hr hq k).mul (mb.posAt_rigid hr hq i).inv

theorem MultiBody.relAt_mul (hr : mb.Rigid) (hq : ValidQ mb q) (i j k : Nat) :
    mb.relAt q j k * mb.relAt q i j = mb.relAt q i k := by
  unfold MultiBody.relAt
  rw [PTransform.mul_assoc', ← PTransform.mul_assoc' (mb.posAt q j).inv, PTransform.inv_mul (mb.posAt_rigid hr hq j),
    PTransform.one_mul']

/-- The transform from the parent is the parent-to-son transform. -/
theorem MultiBody.WF.relAt_parent (wf : mb.WF) (hr : mb.Rigid) (hq : ValidQ mb q) {i c : Nat} (h : mb.par c = some i) :
    mb.relAt q i c = mb.ptsAt q c := by
  unfold MultiBody.relAt
  rw [wf.posAt_some q h, PTransform.mul_assoc', PTransform.mul_inv (mb.posAt_rigid hr hq i), PTransform.mul_one']

/-- The wrench carried by a body is its own force plus the wrenches of its children. -/
theorem MultiBody.WF.wrenchAt_rec (wf : mb.WF) (hr : mb.Rigid) (hq : ValidQ mb q) (f : Nat → ForceVec K) :
    SubRec mb.par (fun c => (mb.ptsAt q c).transMul) f (mb.wrenchAt q f) mb.bodies.length := by
  intro i hi
  unfold MultiBody.wrenchAt MultiBody.subtree
  rw [subtree_sum wf.par_lt _ i hi, mb.relAt_self hr hq, PTransform.one_transMul]
  congr 1
  refine Finset.sum_congr rfl fun c hc => ?_
  rw [Finset.mem_filter] at hc
  show _ = (mb.ptsAt q c).transMul _
  rw [← PTransform.transHom_apply, map_sum]
  refine Finset.sum_congr rfl fun k _ => ?_
  rw [PTransform.transHom_apply, ← PTransform.mul_transMul _ _ _ (mb.ptsAt_rigid hr hq c), ← wf.relAt_parent hr hq hc.2,
    mb.relAt_mul hr hq]

end rec

section sizes

theorem MultiBody.WF.SAt_length (wf : mb.WF) {i : Nat} (hi : i < mb.bodies.length) : (mb.SAt i).length = mb.dofAt i := by
  obtain ⟨j, hj, hb⟩ := wf.joint_get hi
  have h1 : mb.SAt i = j.S := by simp [MultiBody.SAt, hj]
  have h2 : mb.dofAt i = j.dof := by simp [MultiBody.dofAt, hj]
  rw [h1, h2]
  obtain ⟨t, a, f, n, rfl | ⟨mn, m, o, rfl⟩⟩ := hb.exists_mk <;> exact Joint.mkS_length ..

theorem MultiBody.WF.rd_joint (wf : mb.WF) {i : Nat} (hi : i < mb.bodies.length) :
    ∃ j, rd mb.joints i = .ok j ∧ j.dof = mb.dofAt i := by
  obtain ⟨j, hj, -⟩ := wf.joint_get hi
  exact ⟨j, rd_of_getElem? hj, by simp [MultiBody.dofAt, hj]⟩

theorem MultiBody.rd_body {i : Nat} (hi : i < mb.bodies.length) :
    ∃ b, rd mb.bodies i = .ok b ∧ b.inertia = mb.inertiaAt i :=
  ⟨_, rd_ok hi, by simp [MultiBody.inertiaAt, hi]⟩

theorem SizedDof.rd_length (wf : mb.WF) {v : List (List K)} (h : SizedDof mb v) {i : Nat} (hi : i < mb.bodies.length) :
    ∃ x, rd v i = .ok x ∧ x.length = mb.dofAt i := by
  obtain ⟨j, hj, -⟩ := wf.joint_get hi
  have hi' : i < v.length := by rw [h.length, wf.njoints]; exact hi
  have hx := List.getElem?_eq_getElem hi'
  exact ⟨_, rd_of_getElem? hx, by rw [h.get hx hj]; simp [MultiBody.dofAt, hj]⟩

end sizes

theorem projectInto_eq (S : List (MotionVec K)) (f : ForceVec K) (t : List K) {n : Nat} (h1 : S.length = n)
    (h2 : t.length = n) : projectInto S f n t = .ok (S.map fun c => c.dot f) := by
  unfold projectInto
  refine (foldlM_range_inv (fun t j => do
    let c ← rd S j
    wr t j (c.dot f)) (fun k t => Filled t (fun i => (S[i]?).map fun c => c.dot f) k n) n t (.zero h2) ?_).elim ?_
  · intro i s hi hs
    have b1 : i < S.length := by omega
    have b2 : i < s.length := by rw [hs.1]; exact hi
    simp only [rd_ok b1, Res.bind_ok, wr_ok b2, Except.ok.injEq, exists_eq_left']
    exact hs.set hi (by simp [b1])
  · rintro s ⟨hs, hf⟩
    rw [hs, hf.eq_map h1]

/-- What `computeJointTorques` does to the memory of `InverseDynamics` and to a configuration, for given forces. -/
theorem torques_eq (wf : mb.WF) {mbc : MBC K} {q : List (List K)} {d : ID K} {f sub : Nat → ForceVec K} {n : Nat}
    (hn : n = mb.bodies.length) (ht : SizedDof mb mbc.jointTorque)
    (hX : Filled mbc.parentToSon (fun i => some (mb.ptsAt q i)) n n)
    (hS : Filled mbc.motionSubspace (fun i => some (mb.SAt i)) n n)
    (hd : Filled d.f (fun i => some (f i)) n n)
    (hs : SubRec mb.par (fun c => (mb.ptsAt q c).transMul) f sub n) :
    d.computeJointTorques mb mbc = .ok (⟨(List.range n).map sub⟩,
      { mbc with jointTorque := (List.range n).map fun i => mb.project i (sub i) }) := by
  unfold ID.computeJointTorques
  rw [← hn]
  have htl : mbc.jointTorque.length = n := by rw [ht.length, wf.njoints, hn]
  refine (foldlM_range_reverse_inv (torqueStep mb) (fun k s =>
    Accum mb.par (fun c => (mb.ptsAt q c).transMul) f sub s.1.f k n ∧
    FilledFrom s.2.jointTorque (fun i => mb.project i (sub i)) k n ∧
    (∀ i, i < k → s.2.jointTorque[i]? = mbc.jointTorque[i]?) ∧
    s.2 = { mbc with jointTorque := s.2.jointTorque }) n (d, mbc)
    ⟨.start hd, .start htl, fun _ _ => rfl, rfl⟩ ?_).elim ?_
  · rintro i ⟨d', s⟩ hi ⟨f1, f2, f3, e⟩
    dsimp only at f1 f2 f3 e
    have hi' : i < mb.bodies.length := hn ▸ hi
    obtain ⟨j, hj, hdof⟩ := wf.rd_joint hi'
    have hf := f1.get wf.par_lt hs hi
    have hf' : rd d'.f i = .ok (sub i) := rd_of_getElem? hf
    have hXs : rd s.parentToSon i = .ok (mb.ptsAt q i) := by rw [e]; exact hX.rd hi
    have hSs : rd s.motionSubspace i = .ok (mb.SAt i) := by rw [e]; exact hS.rd hi
    obtain ⟨t, ht1, ht2⟩ := ht.rd_length wf hi'
    have htt : rd s.jointTorque i = .ok t := by
      rw [rd_eq_ok_iff] at ht1 ⊢
      rw [f3 i (by omega)]; exact ht1
    have b1 : i < s.jointTorque.length := by rw [f2.1]; exact hi
    have hp := projectInto_eq (mb.SAt i) (sub i) t (wf.SAt_length hi') ht2
    rw [← hdof] at hp
    have f2' := f2.set (a := (mb.SAt i).map fun c => c.dot (sub i)) hi rfl
    have f3' : ∀ m, m < i → (s.jointTorque.set i ((mb.SAt i).map fun c => c.dot (sub i)))[m]? = mbc.jointTorque[m]? := by
      intro m hm
      rw [List.getElem?_set_ne (by omega)]
      exact f3 m (by omega)
    obtain ⟨p, hpr, ⟨rfl, hpar⟩ | ⟨k, rfl, hpar, hk⟩⟩ := wf.pred_cases hi'
    · simp only [torqueStep, hj, hf', hSs, htt, hp, hpr, wr_ok b1, Res.bind_ok, ne_eq, not_true_eq_false, if_false, Res.pure_eq,
        Except.ok.injEq, exists_eq_left']
      exact ⟨f1.skip hpar, f2', f3', by rw [e]⟩
    · have hne : ((k : Int) ≠ -1) := by omega
      have bk : k < d'.f.length := by rw [f1.1]; omega
      simp only [torqueStep, hj, hf', hSs, htt, hp, hpr, hXs, wr_ok b1, Res.bind_ok, ne_eq, hne, not_false_eq_true, if_true,
        rdI_ofNat, wrI_ofNat, rd_ok bk, wr_ok bk, Res.pure_eq, Except.ok.injEq, exists_eq_left']
      exact ⟨f1.step hi hpar (by omega) (List.getElem?_eq_getElem bk), f2', f3', by rw [e]⟩
  · rintro ⟨d', s⟩ ⟨h, f1, f2, -, e⟩
    rw [h]
    simp only at f1 f2 e
    have e1 := f1.range_map wf.par_lt hs
    rw [e, f2.range_map, ← e1]

/-- The state after the first loop of `inverseDynamics`. -/
theorem idLoop_eq (wf : mb.WF) (hr : mb.Rigid) {mbc : MBC K} (sz : mbc.Sized mb) (hq : ValidQ mb mbc.q)
    (hv : mbc.VelReady mb) {d : ID K} (hd : d.f.length = mb.bodies.length) :
    (List.range mb.bodies.length).foldlM (idStep mb) (d, mbc) = .ok
      (⟨(List.range mb.bodies.length).map (mb.netForceAt mbc.q mbc.alpha mbc.alphaD ⟨0, mbc.gravity⟩ mbc.forceAt)⟩,
       { mbc with bodyAccB := (List.range mb.bodies.length).map (mb.accAt mbc.q mbc.alpha mbc.alphaD ⟨0, mbc.gravity⟩) }) := by
  set n := mb.bodies.length with hn
  set a0 : MotionVec K := ⟨0, mbc.gravity⟩ with ha0
  have hX : Filled mbc.parentToSon (fun i => some (mb.ptsAt mbc.q i)) n n := by rw [hv.parentToSon]; exact .of_range_map
  have hW : Filled mbc.bodyPosW (fun i => some (mb.posAt mbc.q i)) n n := by rw [hv.bodyPosW]; exact .of_range_map
  have hb : Filled mbc.bodyVelB (fun i => some (mb.velAt mbc.q mbc.alpha i)) n n := by rw [hv.bodyVelB]; exact .of_range_map
  have hj : Filled mbc.jointVelocity (fun i => some (mb.jointMotion mbc.alpha i)) n n := by
    rw [hv.jointVelocity]; exact .of_range_map
  refine (foldlM_range_inv (idStep mb) (fun k s =>
    Filled s.1.f (fun i => some (mb.netForceAt mbc.q mbc.alpha mbc.alphaD a0 mbc.forceAt i)) k n ∧
    Filled s.2.bodyAccB (fun i => some (mb.accAt mbc.q mbc.alpha mbc.alphaD a0 i)) k n ∧
    s.2 = { mbc with bodyAccB := s.2.bodyAccB }) n (d, mbc) ⟨.zero hd, .zero sz.bodyAccB, rfl⟩ ?_).elim ?_
  · rintro i ⟨d', s⟩ hi ⟨f1, f2, e⟩
    dsimp only at f1 f2 e
    obtain ⟨j, x, hj', hx, -, hm⟩ := wf.rd_motion sz.alphaD hi
    have hxs : rd s.alphaD i = .ok x := by rw [e]; exact hx
    have hXs : rd s.parentToSon i = .ok (mb.ptsAt mbc.q i) := by rw [e]; exact hX.rd hi
    have hvs : rd s.bodyVelB i = .ok (mb.velAt mbc.q mbc.alpha i) := by rw [e]; exact hb.rd hi
    have hvj : rd s.jointVelocity i = .ok (mb.jointMotion mbc.alpha i) := by rw [e]; exact hj.rd hi
    have hWs : rd s.bodyPosW i = .ok (mb.posAt mbc.q i) := by rw [e]; exact hW.rd hi
    have hfs : rd s.force i = .ok (mbc.forceAt i) := by
      have : i < mbc.force.length := by rw [sz.force]; exact hi
      rw [e, rd_ok this]; simp [MBC.forceAt, this]
    have hg : s.gravity = mbc.gravity := by rw [e]
    obtain ⟨b, hbd, hI⟩ := mb.rd_body hi
    have b1 : i < s.bodyAccB.length := by rw [f2.1]; exact hi
    have b2 : i < d'.f.length := by rw [f1.1]; exact hi
    obtain ⟨p, hp, ⟨rfl, hpar⟩ | ⟨k, rfl, hpar, hk⟩⟩ := wf.pred_cases hi
    · have ea := wf.accAt_none hr hq mbc.alpha mbc.alphaD a0 hi hpar
      rw [← add_assoc] at ea
      simp only [idStep, hXs, hvj, hj', hxs, hm, hvs, hp, Res.bind_ok, ne_eq, not_true_eq_false, if_false, hg, ← ha0, Res.pure_eq,
        wr_ok b1, hbd, hWs, hfs, wr_ok b2, ← ea, hI, Except.ok.injEq, exists_eq_left']
      exact ⟨f1.set hi rfl, f2.set hi rfl, by rw [e]⟩
    · have ea := wf.accAt_some hr hq mbc.alpha mbc.alphaD a0 hi hpar
      rw [← add_assoc] at ea
      have hne : ((k : Int) ≠ -1) := by omega
      simp only [idStep, hXs, hvj, hj', hxs, hm, hvs, hp, Res.bind_ok, ne_eq, hne, not_false_eq_true, if_true, rdI_ofNat, f2.rd hk,
        Res.pure_eq, wr_ok b1, hbd, hWs, hfs, wr_ok b2, ← ea, hI, Except.ok.injEq, exists_eq_left']
      exact ⟨f1.set hi rfl, f2.set hi rfl, by rw [e]⟩
  · rintro ⟨d', s⟩ ⟨h, f1, f2, e⟩
    dsimp only at f1 f2 e
    rw [h, e]
    rw [← f2.range_map, ← f1.range_map]

/-- Inverse dynamics computes accelerations, carried wrenches and their projections. -/
theorem id_eq (wf : mb.WF) (hr : mb.Rigid) {mbc : MBC K} (sz : mbc.Sized mb) (hq : ValidQ mb mbc.q) (hv : mbc.VelReady mb)
    {d : ID K} (hd : d.f.length = mb.bodies.length) {net : Nat → ForceVec K}
    (hnet : net = mb.netForceAt mbc.q mbc.alpha mbc.alphaD ⟨0, mbc.gravity⟩ mbc.forceAt) :
    d.inverseDynamics mb mbc = .ok (⟨(List.range mb.bodies.length).map (mb.wrenchAt mbc.q net)⟩,
      { mbc with
        bodyAccB := (List.range mb.bodies.length).map (mb.accAt mbc.q mbc.alpha mbc.alphaD ⟨0, mbc.gravity⟩)
        jointTorque := (List.range mb.bodies.length).map fun i => mb.project i (mb.wrenchAt mbc.q net i) }) := by
  unfold ID.inverseDynamics
  rw [idLoop_eq wf hr sz hq hv hd, ← hnet]
  simp only [Res.bind_ok]
  exact torques_eq (q := mbc.q) (f := net) wf rfl sz.jointTorque (by simp only [hv.parentToSon]; exact .of_range_map)
    (by simp only [hv.motionSubspace]; exact .of_range_map) .of_range_map (wf.wrenchAt_rec hr hq net)

/-- Inverse dynamics without inertia projects the external forces. -/
theorem idNoInertia_eq (wf : mb.WF) (hr : mb.Rigid) {mbc : MBC K} (sz : mbc.Sized mb) (hq : ValidQ mb mbc.q)
    (hv : mbc.PosReady mb) {d : ID K} (hd : d.f.length = mb.bodies.length) {net : Nat → ForceVec K}
    (hnet : net = fun k => (mb.posAt mbc.q k).dualMul (mbc.forceAt k)) :
    d.inverseDynamicsNoInertia mb mbc = .ok (⟨(List.range mb.bodies.length).map (mb.wrenchAt mbc.q net)⟩,
      { mbc with jointTorque := (List.range mb.bodies.length).map fun i => mb.project i (mb.wrenchAt mbc.q net i) }) := by
  unfold ID.inverseDynamicsNoInertia
  have hW : Filled mbc.bodyPosW (fun i => some (mb.posAt mbc.q i)) mb.bodies.length mb.bodies.length := by
    rw [hv.bodyPosW]; exact .of_range_map
  refine (foldlM_range_inv (fun (d : ID K) i => do
    let W ← rd mbc.bodyPosW i
    let fe ← rd mbc.force i
    let f ← wr d.f i (W.dualMul fe)
    pure { d with f }) (fun k s => Filled s.f (fun i => some (net i)) k mb.bodies.length) mb.bodies.length d (.zero hd) ?_).elim ?_
  · intro i s hi hs
    have hfs : rd mbc.force i = .ok (mbc.forceAt i) := by
      have : i < mbc.force.length := by rw [sz.force]; exact hi
      rw [rd_ok this]; simp [MBC.forceAt, this]
    have b1 : i < s.f.length := by rw [hs.1]; exact hi
    simp only [hW.rd hi, hfs, Res.bind_ok, wr_ok b1, Res.pure_eq, Except.ok.injEq, exists_eq_left']
    exact hs.set hi (by rw [hnet])
  · rintro s ⟨h, hs⟩
    have h' : (List.range mb.nrBodies).foldlM _ d = Except.ok s := h
    rw [h']
    simp only [Res.bind_ok]
    exact torques_eq (q := mbc.q) (f := net) wf rfl sz.jointTorque (by simp only [hv.parentToSon]; exact .of_range_map)
      (by simp only [hv.motionSubspace]; exact .of_range_map) hs (wf.wrenchAt_rec hr hq net)

end RBDyn
