import Verif.Lemmas.Flatten
import Verif.Lemmas.Sample
import Verif.Props.Joint

/-! Properties C10-C12: `MultiBodyConfig`. -/

namespace RBDyn
variable {K : Type} [Scalar K]

/-! ### C10 -/

/-- C10: the constructor of `MultiBodyConfig` succeeds, whatever the uninitialised memory `u` contains, with one entry per
joint (body) in every per-joint (per-body) vector, each of the size the joint asks for. -/
theorem C10_fresh_sizes (u : Uninit K) (mb : MultiBody K) (_hm : mb.Made) :
    ∃ c, MBC.mk' u mb = .ok c ∧
      SizedQ mb c.q ∧ SizedDof mb c.alpha ∧ SizedDof mb c.alphaD ∧ SizedDof mb c.jointTorque ∧
      c.motionSubspace.map List.length = mb.joints.map (·.dof) ∧
      c.jointConfig.length = mb.joints.length ∧ c.jointVelocity.length = mb.joints.length ∧
      c.force.length = mb.bodies.length ∧ c.bodyPosW.length = mb.bodies.length ∧
      c.parentToSon.length = mb.bodies.length ∧ c.bodyVelW.length = mb.bodies.length ∧
      c.bodyVelB.length = mb.bodies.length ∧ c.bodyAccB.length = mb.bodies.length := by
  refine ⟨_, MBC.mk'_eq u mb, ?_, ?_, ?_, ?_, ?_, by simp, by simp, by simp, by simp, by simp, by simp, by simp, by simp⟩
  · simp [SizedQ, Function.comp_def]
  · simp [SizedDof, Function.comp_def]
  · simp [SizedDof, Function.comp_def]
  · simp [SizedDof, Function.comp_def]
  · apply List.ext_getElem?
    intro i
    by_cases hi : i < mb.joints.length
    · simp [hi]
    · rw [List.getElem?_eq_none (by simp; omega), List.getElem?_eq_none (by simp; omega)]

/-- C10: after `zero(mb)` a fresh configuration passes every size check of the library; every joint is at its neutral
position, velocity, acceleration and torque, and there is no external force. -/
theorem C10_zero_neutral (u : Uninit K) (mb : MultiBody K) (hm : mb.Made) :
    ∃ c, (MBC.mk' u mb >>= MBC.zero mb) = .ok c ∧
      c.q = mb.joints.map (·.zeroParam) ∧ c.alpha = mb.joints.map (·.zeroDof) ∧
      c.alphaD = mb.joints.map (·.zeroDof) ∧ c.jointTorque = mb.joints.map (·.zeroDof) ∧
      c.force = List.replicate mb.bodies.length 0 ∧
      checkMatchBodyPos mb c = .ok () ∧ checkMatchParentToSon mb c = .ok () ∧ checkMatchBodyVel mb c = .ok () ∧
      checkMatchBodyAcc mb c = .ok () ∧ checkMatchJointConf mb c = .ok () ∧ checkMatchJointVelocity mb c = .ok () ∧
      checkMatchJointTorque mb c = .ok () ∧ checkMatchMotionSubspace mb c = .ok () ∧ checkMatchQ mb c = .ok () ∧
      checkMatchAlpha mb c = .ok () ∧ checkMatchAlphaD mb c = .ok () ∧ checkMatchForce mb c = .ok () := by
  have hn := hm.njoints
  have hb := hm.built
  obtain ⟨c, hc, -, -, -, -, hS, -⟩ := C10_fresh_sizes u mb hm
  rw [MBC.mk'_eq] at hc
  rw [MBC.mk'_eq, Res.bind_ok, MBC.zero_eq _ _ (by simp) (by simp) (by simp) (by simp)]
  have hp : (mb.joints.map (·.zeroParam)).map List.length = mb.joints.map (·.params) := by
    rw [List.map_map]; exact List.map_congr_left fun j hj => (hb j hj).zeroParam_length
  have hd : (mb.joints.map (·.zeroDof)).map List.length = mb.joints.map (·.dof) := by
    rw [List.map_map]; exact List.map_congr_left fun j hj => (hb j hj).zeroDof_length
  cases hc
  refine ⟨_, rfl, rfl, rfl, rfl, rfl, ?_, ?_, ?_, ?_, ?_, ?_, ?_, ?_, ?_, ?_, ?_, ?_, ?_⟩
  · apply List.ext_getElem?; intro i; simp [List.getElem?_replicate]
    by_cases hi : i < mb.bodies.length <;> simp [hi]
  all_goals
    simp only [checkMatchBodyPos, checkMatchParentToSon, checkMatchBodyVel, checkMatchBodyAcc, checkMatchJointConf,
      checkMatchJointVelocity, checkMatchJointTorque, checkMatchMotionSubspace, checkMatchQ, checkMatchAlpha,
      checkMatchAlphaD, checkMatchForce, checkMatchBodiesVector, checkMatchJointsVector, MultiBody.nrBodies,
      MultiBody.nrJoints, List.length_map, List.length_range, hn, ne_eq, not_true_eq_false, if_false, Res.bind_ok]
  all_goals try rw [checkJointVecSizes_eq _ _ _ _ (by simp [hn]) (by simp [hn])]
  · simp [hd]
  · rw [if_pos]; simpa [hn] using hS
  · simp [hp]
  · simp [hd]
  · simp [hd]

/-- C10 with C01: "neutral" means that at every non-mimic joint the pose is the identity and the joint velocity is zero. -/
theorem C10_neutral_pose (u : Uninit K) (mb : MultiBody K) (hm : mb.Made) :
    ∃ c, (MBC.mk' u mb >>= MBC.zero mb) = .ok c ∧
      ∀ (i : Nat) t axis fwd name, mb.joints[i]? = some (Joint.mk' t axis fwd name) →
        ∃ q a, c.q[i]? = some q ∧ c.alpha[i]? = some a ∧ (Joint.mk' t axis fwd name).pose q = .ok 1 ∧
          (Joint.mk' t axis fwd name).motion a = .ok 0 := by
  obtain ⟨c, hc, hq, ha, -⟩ := C10_zero_neutral u mb hm
  refine ⟨c, hc, fun i t axis fwd name hj => ?_⟩
  refine ⟨_, _, by rw [hq, List.getElem?_map, hj]; rfl, by rw [ha, List.getElem?_map, hj]; rfl, ?_, ?_⟩
  · exact (C01_neutral_pose t axis fwd name).1
  · exact (C01_neutral_pose t axis fwd name).2.1

/-- C10 is not vacuous: a robot with a free base and three more joints came out of the constructor. -/
example : Sample.mb.Made ∧ Sample.mb.joints.length = 4 := ⟨Sample.made, by decide +kernel⟩

/-! ### C11 -/

/-- C11: flattening parameters is the concatenation of the joint vectors, entry `k` of joint `i` is at
`jointPosInParam(i) + k`, and unflattening gives the original back; checked and unchecked versions agree. -/
theorem C11_param_roundtrip (junk : Nat → K) (mb : MultiBody K) (hm : mb.Made) (v : List (List K)) (hv : SizedQ mb v) :
    ∃ e, paramToVector junk mb v = .ok e ∧ sParamToVector junk mb v = .ok e ∧ e.length = mb.nrParams ∧
      vectorToParam mb e = .ok v ∧ sVectorToParam mb e = .ok v ∧
      ∀ (i k : Nat) x y, v[i]? = some x → x[k]? = some y →
        ∃ pos, mb.posInParam i = .ok pos ∧ e[pos + k]? = some y := by
  have hf : v.flatten.length = mb.nrParams := by rw [flatten_length_eq, hv, hm.nParams]
  have hvl : v.length = mb.joints.length := by simpa using congrArg List.length hv
  have h1 : paramToVector junk mb v = .ok v.flatten := by
    unfold paramToVector
    rw [paramToVectorInto_eq _ _ (by simp [hf]), List.drop_of_length_le (by simp [hf])]
    simp
  have h2 : vectorToParam mb v.flatten = .ok v := by
    unfold vectorToParam vectorToParamInto
    have hr : (mb.joints.map fun j => List.replicate j.params (0 : K)).map List.length = v.map List.length := by
      rw [hv]; simp
    obtain ⟨r, e1, e2, e3⟩ := fillAllFrom_eq v.flatten (mb.joints.map fun j => List.replicate j.params (0 : K)) 0
      (by rw [flatten_length_eq, flatten_length_eq, hr]; omega)
    rw [e1]
    have : r = v := by
      refine blocks_ext (e2.trans hr) ?_
      rw [e3, flatten_length_eq, hr, ← flatten_length_eq]
      simp
    simp [this]
  refine ⟨v.flatten, h1, ?_, hf, h2, ?_, ?_⟩
  · unfold sParamToVector
    rw [if_neg (by simpa [MultiBody.nrJoints] using hvl), checkJointVecSizes_eq (n := mb.nrJoints) _ _ _ _ hvl rfl, if_pos (by exact hv)]
    exact h1
  · unfold sVectorToParam
    rw [if_neg (by simpa using hf.symm)]; exact h2
  · intro i k x y hx hy
    obtain ⟨hi, -⟩ := List.getElem?_eq_some_iff.1 hx
    refine ⟨_, hm.posParam i (by omega), ?_⟩
    have := flatten_getElem? v hx hy
    rwa [List.map_take, hv, ← List.map_take] at this

/-- C11: the same for velocities (`dofToVector`, `vectorToDof`). -/
theorem C11_dof_roundtrip (junk : Nat → K) (mb : MultiBody K) (hm : mb.Made) (v : List (List K)) (hv : SizedDof mb v) :
    ∃ e, dofToVector junk mb v = .ok e ∧ sDofToVector junk mb v = .ok e ∧ e.length = mb.nrDof ∧
      vectorToDof mb e = .ok v ∧ sVectorToDof mb e = .ok v ∧
      ∀ (i k : Nat) x y, v[i]? = some x → x[k]? = some y →
        ∃ pos, mb.posInDof i = .ok pos ∧ e[pos + k]? = some y := by
  have hf : v.flatten.length = mb.nrDof := by rw [flatten_length_eq, hv, hm.nDof]
  have hvl : v.length = mb.joints.length := by simpa using congrArg List.length hv
  have h1 : dofToVector junk mb v = .ok v.flatten := by
    unfold dofToVector
    rw [paramToVectorInto_eq _ _ (by simp [hf]), List.drop_of_length_le (by simp [hf])]
    simp
  have h2 : vectorToDof mb v.flatten = .ok v := by
    unfold vectorToDof vectorToParamInto
    have hr : (mb.joints.map fun j => List.replicate j.dof (0 : K)).map List.length = v.map List.length := by
      rw [hv]; simp
    obtain ⟨r, e1, e2, e3⟩ := fillAllFrom_eq v.flatten (mb.joints.map fun j => List.replicate j.dof (0 : K)) 0
      (by rw [flatten_length_eq, flatten_length_eq, hr]; omega)
    rw [e1]
    have : r = v := by
      refine blocks_ext (e2.trans hr) ?_
      rw [e3, flatten_length_eq, hr, ← flatten_length_eq]
      simp
    simp [this]
  refine ⟨v.flatten, h1, ?_, hf, h2, ?_, ?_⟩
  · unfold sDofToVector
    rw [if_neg (by simpa [MultiBody.nrJoints] using hvl), checkJointVecSizes_eq (n := mb.nrJoints) _ _ _ _ hvl rfl, if_pos (by exact hv)]
    exact h1
  · unfold sVectorToDof
    rw [if_neg (by simpa using hf.symm)]; exact h2
  · intro i k x y hx hy
    obtain ⟨hi, -⟩ := List.getElem?_eq_some_iff.1 hx
    refine ⟨_, hm.posDof i (by omega), ?_⟩
    have := flatten_getElem? v hx hy
    rwa [List.map_take, hv, ← List.map_take] at this

/-- C11, the other direction: unflattening any vector of `nrParams` (`nrDof`) entries gives well-sized joint vectors, which
flatten to the original vector. -/
theorem C11_vector_roundtrip (junk : Nat → K) (mb : MultiBody K) (hm : mb.Made) (e : List K) :
    (e.length = mb.nrParams → ∃ v, vectorToParam mb e = .ok v ∧ SizedQ mb v ∧ paramToVector junk mb v = .ok e) ∧
    (e.length = mb.nrDof → ∃ v, vectorToDof mb e = .ok v ∧ SizedDof mb v ∧ dofToVector junk mb v = .ok e) := by
  have aux : ∀ (sz : Joint K → Nat), e.length = (mb.joints.map sz).sum →
      ∃ v, vectorToParamInto e (mb.joints.map fun j => List.replicate (sz j) 0) = .ok v ∧
        v.map List.length = mb.joints.map sz ∧ v.flatten = e := by
    intro sz he
    have hr : (mb.joints.map fun j => List.replicate (sz j) (0 : K)).map List.length = mb.joints.map sz := by simp
    obtain ⟨r, e1, e2, e3⟩ := fillAllFrom_eq e (mb.joints.map fun j => List.replicate (sz j) (0 : K)) 0
      (by rw [flatten_length_eq, hr]; omega)
    refine ⟨r, by simp [vectorToParamInto, e1], e2.trans hr, ?_⟩
    rw [e3, flatten_length_eq, hr, ← he]; simp
  constructor
  · intro he
    obtain ⟨v, h1, h2, h3⟩ := aux (·.params) (he.trans hm.nParams)
    refine ⟨v, h1, h2, ?_⟩
    unfold paramToVector
    rw [paramToVectorInto_eq _ _ (by simp [h3, he]), h3, List.drop_of_length_le (by simp [he])]
    simp
  · intro he
    obtain ⟨v, h1, h2, h3⟩ := aux (·.dof) (he.trans hm.nDof)
    refine ⟨v, h1, h2, ?_⟩
    unfold dofToVector
    rw [paramToVectorInto_eq _ _ (by simp [h3, he]), h3, List.drop_of_length_le (by simp [he])]
    simp

/-- C11: the checked versions throw `out_of_range` exactly on a size mismatch. -/
theorem C11_checked (junk : Nat → K) (mb : MultiBody K) (hm : mb.Made) (v : List (List K)) (e : List K) :
    (sParamToVector junk mb v = .error .outOfRange ↔ ¬ SizedQ mb v) ∧
    (sDofToVector junk mb v = .error .outOfRange ↔ ¬ SizedDof mb v) ∧
    (sVectorToParam mb e = .error .outOfRange ↔ e.length ≠ mb.nrParams) ∧
    (sVectorToDof mb e = .error .outOfRange ↔ e.length ≠ mb.nrDof) ∧
    (sParamToVectorInto v e = .error .outOfRange ↔ (v.map List.length).sum ≠ e.length) ∧
    (sVectorToParamInto e v = .error .outOfRange ↔ (v.map List.length).sum ≠ e.length) := by
  have noerr : ∀ {α : Type} {x : Res α} {a : α}, x = .ok a → ¬ x = .error .outOfRange := by
    intro α x a h h'; rw [h] at h'; cases h'
  refine ⟨?_, ?_, ?_, ?_, ?_, ?_⟩
  · constructor
    · intro h hv
      obtain ⟨e, -, h2, -⟩ := C11_param_roundtrip junk mb hm v hv
      exact noerr h2 h
    · intro h
      unfold sParamToVector
      by_cases hl : v.length = mb.joints.length
      · rw [if_neg (by simpa [MultiBody.nrJoints] using hl), checkJointVecSizes_eq (n := mb.nrJoints) _ _ _ _ hl rfl, if_neg (by exact h)]; rfl
      · rw [if_pos (by simpa [MultiBody.nrJoints] using hl)]; rfl
  · constructor
    · intro h hv
      obtain ⟨e, -, h2, -⟩ := C11_dof_roundtrip junk mb hm v hv
      exact noerr h2 h
    · intro h
      unfold sDofToVector
      by_cases hl : v.length = mb.joints.length
      · rw [if_neg (by simpa [MultiBody.nrJoints] using hl), checkJointVecSizes_eq (n := mb.nrJoints) _ _ _ _ hl rfl, if_neg (by exact h)]; rfl
      · rw [if_pos (by simpa [MultiBody.nrJoints] using hl)]; rfl
  · constructor
    · intro h he
      obtain ⟨v, h2, -⟩ := (C11_vector_roundtrip junk mb hm e).1 he
      unfold sVectorToParam at h
      rw [if_neg (by simp [he])] at h
      exact noerr h2 h
    · intro h
      unfold sVectorToParam; rw [if_pos (Ne.symm h)]
  · constructor
    · intro h he
      obtain ⟨v, h2, -⟩ := (C11_vector_roundtrip junk mb hm e).2 he
      unfold sVectorToDof at h
      rw [if_neg (by simp [he])] at h
      exact noerr h2 h
    · intro h
      unfold sVectorToDof; rw [if_pos (Ne.symm h)]
  · unfold sParamToVectorInto
    by_cases he : (v.map List.length).sum = e.length
    · rw [if_neg (by simpa using he), paramToVectorInto_eq _ _ (by rw [flatten_length_eq]; omega)]
      simp [he]
    · simp [he]
  · unfold sVectorToParamInto
    by_cases he : (v.map List.length).sum = e.length
    · obtain ⟨r, e1, -⟩ := fillAllFrom_eq e v 0 (by rw [flatten_length_eq]; omega)
      rw [if_neg (by simpa using he)]
      simp [vectorToParamInto, e1, he]
    · simp [he]

/-- C11 is not vacuous: the sample robot and its configuration of 13 parameters. -/
example : Sample.mb.Made ∧ SizedQ Sample.mb Sample.q ∧ SizedDof Sample.mb Sample.alpha ∧ Sample.mb.nrParams = 13 :=
  ⟨Sample.made, Sample.sizedQ, Sample.sizedAlpha, by decide +kernel⟩

/-! ### C12 -/

/-- Two `MultiBody` objects made of the same bodies and the same non-root joints (recognised by their distinct names),
possibly in different orders. -/
structure SameNames (src dst : MultiBody K) : Prop where
  srcMade : src.Made
  dstMade : dst.Made
  srcRoot : src.joints ≠ []
  dstRoot : dst.joints ≠ []
  srcJoints : (src.joints.map (·.name)).Nodup
  dstJoints : (dst.joints.map (·.name)).Nodup
  srcBodies : (src.bodies.map (·.name)).Nodup
  dstBodies : (dst.bodies.map (·.name)).Nodup
  joints : (src.joints.tail.map (·.name)).Perm (dst.joints.tail.map (·.name))
  bodies : (src.bodies.map (·.name)).Perm (dst.bodies.map (·.name))

theorem SameNames.symm {src dst : MultiBody K} (h : SameNames src dst) : SameNames dst src :=
  ⟨h.dstMade, h.srcMade, h.dstRoot, h.srcRoot, h.dstJoints, h.srcJoints, h.dstBodies, h.srcBodies, h.joints.symm,
    h.bodies.symm⟩

/-- The configuration has one entry per joint (body) in the vectors the converter touches. -/
structure ConvSized (mb : MultiBody K) (c : MBC K) : Prop where
  q : c.q.length = mb.joints.length
  alpha : c.alpha.length = mb.joints.length
  alphaD : c.alphaD.length = mb.joints.length
  force : c.force.length = mb.bodies.length

theorem SameNames.joint_index {src dst : MultiBody K} (h : SameNames src dst) {i : Nat}
    (hi : i < src.joints.length - 1) :
    ∃ k : Nat, (do let j ← rd src.joints (i + 1); dst.jointIndexByName j.name : Res Int) = .ok (k : Int) ∧ 0 < k ∧
      k < dst.joints.length ∧ (dst.joints[k]?).map (·.name) = (src.joints[i + 1]?).map (·.name) := by
  have hi' : i + 1 < src.joints.length := by omega
  have hmem : (src.joints[i + 1]).name ∈ src.joints.tail.map (·.name) := by
    refine List.mem_map.2 ⟨_, ?_, rfl⟩
    have : src.joints.tail[i]? = some src.joints[i + 1] := by simp [hi']
    exact List.mem_of_getElem? this
  obtain ⟨x, hx, hxn⟩ := List.mem_map.1 (h.joints.mem_iff.1 hmem)
  obtain ⟨m, hm, rfl⟩ := List.mem_iff_getElem.1 hx
  simp only [List.length_tail] at hm
  have hm' : m + 1 < dst.joints.length := by omega
  have hmn : (dst.joints[m + 1]?).map (·.name) = some (src.joints[i + 1]).name := by
    simp only [List.getElem_tail] at hxn
    simp [hm', hxn]
  obtain ⟨k, e1, e2, e3⟩ := h.dstMade.inv.joint_find (h.dstMade.njoints ▸ hm') hmn
  have hk : k < dst.joints.length := h.dstMade.njoints ▸ e2
  have : k = m + 1 := nodup_getElem?_inj h.dstJoints (by simpa using hk) (by simp [e3, hmn])
  refine ⟨k, ?_, by omega, hk, ?_⟩
  · simp only [rd_ok hi', Res.bind_ok, MultiBody.jointIndexByName, SMap.get, e1]
  · rw [e3]; simp [hi']

theorem SameNames.body_index {src dst : MultiBody K} (h : SameNames src dst) {i : Nat} (hi : i < src.bodies.length) :
    ∃ k : Nat, (do let b ← rd src.bodies i; dst.bodyIndexByName b.name : Res Int) = .ok (k : Int) ∧
      k < dst.bodies.length ∧ (dst.bodies[k]?).map (·.name) = (src.bodies[i]?).map (·.name) := by
  have hmem : (src.bodies[i]).name ∈ src.bodies.map (·.name) := List.mem_map.2 ⟨_, List.getElem_mem hi, rfl⟩
  obtain ⟨x, hx, hxn⟩ := List.mem_map.1 (h.bodies.mem_iff.1 hmem)
  obtain ⟨m, hm, rfl⟩ := List.mem_iff_getElem.1 hx
  obtain ⟨k, e1, e2, e3⟩ := h.dstMade.inv.body_find (m := m) (s := (src.bodies[i]).name) hm (by simp [hm, hxn])
  refine ⟨k, ?_, e2, ?_⟩
  · simp only [rd_ok hi, Res.bind_ok, MultiBody.bodyIndexByName, SMap.get, e1]
  · rw [e3]; simp [hi]

/-- C12: the converter can be built, and converting copies position, velocity and acceleration of every non-root joint to
the joint of the same name and the force on every body to the body of the same name; the root joint of the destination and
everything else in it are left alone. -/
theorem C12_convert (src dst : MultiBody K) (h : SameNames src dst) (s d : MBC K) (hs : ConvSized src s)
    (hd : ConvSized dst d) :
    ∃ c d', ConfigConverter.mk' src dst = .ok c ∧ c.convert s d = .ok d' ∧
      (∀ (i k : Nat) ji jk, 0 < i → src.joints[i]? = some ji → dst.joints[k]? = some jk → ji.name = jk.name →
        d'.q[k]? = s.q[i]? ∧ d'.alpha[k]? = s.alpha[i]? ∧ d'.alphaD[k]? = s.alphaD[i]?) ∧
      (d'.q[0]? = d.q[0]? ∧ d'.alpha[0]? = d.alpha[0]? ∧ d'.alphaD[0]? = d.alphaD[0]?) ∧
      (∀ (i k : Nat) bi bk, src.bodies[i]? = some bi → dst.bodies[k]? = some bk → bi.name = bk.name →
        d'.force[k]? = s.force[i]?) ∧
      ConvSized dst d' ∧
      { d' with q := d.q, alpha := d.alpha, alphaD := d.alphaD, force := d.force } = d := by
  classical
  set n := src.joints.length - 1 with hn
  set nb := src.bodies.length with hnb
  have hsr : src.joints.length ≠ 0 := by simpa using h.srcRoot
  let ks : Nat → Nat := fun i => if hi : i < n then (h.joint_index hi).choose else 0
  let bs : Nat → Nat := fun i => if hi : i < nb then (h.body_index hi).choose else 0
  have hks : ∀ i, i < n → (do let j ← rd src.joints (i + 1); dst.jointIndexByName j.name : Res Int) = .ok (ks i : Int) ∧
      0 < ks i ∧ ks i < dst.joints.length ∧ (dst.joints[ks i]?).map (·.name) = (src.joints[i + 1]?).map (·.name) := by
    intro i hi
    have := (h.joint_index hi).choose_spec
    simpa only [ks, dif_pos hi] using this
  have hbs : ∀ i, i < nb → (do let b ← rd src.bodies i; dst.bodyIndexByName b.name : Res Int) = .ok (bs i : Int) ∧
      bs i < dst.bodies.length ∧ (dst.bodies[bs i]?).map (·.name) = (src.bodies[i]?).map (·.name) := by
    intro i hi
    have := (h.body_index hi).choose_spec
    simpa only [bs, dif_pos hi] using this
  have kinj : ∀ i j, i < n → j < n → ks i = ks j → i = j := by
    intro i j hi hj e
    have h1 := (hks i hi).2.2.2
    have h2 := (hks j hj).2.2.2
    rw [e, h2] at h1
    have := nodup_getElem?_inj h.srcJoints (i := j + 1) (k := i + 1) (by simp; omega) (by simpa using h1)
    omega
  have binj : ∀ i j, i < nb → j < nb → bs i = bs j → i = j := by
    intro i j hi hj e
    have h1 := (hbs i hi).2.2
    have h2 := (hbs j hj).2.2
    rw [e, h2] at h1
    have := nodup_getElem?_inj h.srcBodies (i := j) (k := i) (by simp; omega) (by simpa using h1)
    omega
  -- the constructor
  have hc : ConfigConverter.mk' src dst =
      .ok ⟨(List.range n).map fun i => (ks i : Int), (List.range nb).map fun i => (bs i : Int)⟩ := by
    unfold ConfigConverter.mk'
    have e1 := indexLoop n (fun i => do let j ← rd src.joints (i + 1); dst.jointIndexByName j.name) ks
      (fun i hi => (hks i hi).1)
    have e2 := indexLoop nb (fun i => do let b ← rd src.bodies i; dst.bodyIndexByName b.name) bs
      (fun i hi => (hbs i hi).1)
    simp only [bind_assoc] at e1 e2
    rw [if_neg (by simpa [MultiBody.nrJoints] using hsr)]
    simp only [MultiBody.nrJoints, MultiBody.nrBodies, ← hn, ← hnb]
    rw [e1, Res.bind_ok, e2, Res.bind_ok]; rfl
  refine ⟨⟨(List.range n).map fun i => (ks i : Int), (List.range nb).map fun i => (bs i : Int)⟩, ?_⟩
  -- first loop
  refine (foldlM_range_inv (ConfigConverter.convertStep ⟨(List.range n).map fun i => (ks i : Int),
      (List.range nb).map fun i => (bs i : Int)⟩ s)
    (fun k x => Scat k ks 1 s.q d.q x.q ∧ Scat k ks 1 s.alpha d.alpha x.alpha ∧ Scat k ks 1 s.alphaD d.alphaD x.alphaD ∧
      { x with q := d.q, alpha := d.alpha, alphaD := d.alphaD } = d) n d
    ⟨.zero .., .zero .., .zero .., rfl⟩ ?_).elim ?_
  · rintro i x hi ⟨s1, s2, s3, s4⟩
    have hk := (hks i hi).2.2.1
    have g1 : i + 1 < s.q.length := by rw [hs.q]; omega
    have g2 : i + 1 < s.alpha.length := by rw [hs.alpha]; omega
    have g3 : i + 1 < s.alphaD.length := by rw [hs.alphaD]; omega
    have l1 : ks i < x.q.length := by rw [s1.1, hd.q]; exact hk
    have l2 : ks i < x.alpha.length := by rw [s2.1, hd.alpha]; exact hk
    have l3 : ks i < x.alphaD.length := by rw [s3.1, hd.alphaD]; exact hk
    have r : rd ((List.range n).map fun i => (ks i : Int)) i = .ok (ks i : Int) :=
      rd_of_getElem? (by simp [hi])
    simp only [ConfigConverter.convertStep, r, Res.bind_ok, rd_ok g1, rd_ok g2, rd_ok g3, wrI_ofNat, wr_ok l1, wr_ok l2,
      wr_ok l3, Res.pure_eq, Except.ok.injEq, exists_eq_left']
    have hne : ∀ j, j < i → ks j ≠ ks i := fun j hj e => by
      have := kinj j i (by omega) hi e; omega
    exact ⟨s1.step hne (hd.q ▸ hk) (List.getElem?_eq_getElem g1), s2.step hne (hd.alpha ▸ hk) (List.getElem?_eq_getElem g2),
      s3.step hne (hd.alphaD ▸ hk) (List.getElem?_eq_getElem g3), s4⟩
  rintro x ⟨hx, s1, s2, s3, s4⟩
  -- second loop
  refine (foldlM_range_inv (ConfigConverter.convertForceStep ⟨(List.range n).map fun i => (ks i : Int),
      (List.range nb).map fun i => (bs i : Int)⟩ s)
    (fun k y => Scat k bs 0 s.force x.force y.force ∧ { y with force := x.force } = x) nb x
    ⟨.zero .., rfl⟩ ?_).elim ?_
  · rintro i y hi ⟨t1, t2⟩
    have hxf : x.force = d.force := by rw [← s4]
    have hk := (hbs i hi).2.1
    have g1 : i < s.force.length := by rw [hs.force]; exact hi
    have l1 : bs i < y.force.length := by rw [t1.1, hxf, hd.force]; exact hk
    have r : rd ((List.range nb).map fun i => (bs i : Int)) i = .ok (bs i : Int) :=
      rd_of_getElem? (by simp [hi])
    simp only [ConfigConverter.convertForceStep, r, Res.bind_ok, rd_ok g1, wrI_ofNat, wr_ok l1, Res.pure_eq,
      Except.ok.injEq, exists_eq_left']
    have hne : ∀ j, j < i → bs j ≠ bs i := fun j hj e => by
      have := binj j i (by omega) hi e; omega
    exact ⟨t1.step hne (by rw [hxf, hd.force]; exact hk) (List.getElem?_eq_getElem g1), t2⟩
  rintro y ⟨hy, t1, t2⟩
  have hxf : x.force = d.force := by rw [← s4]
  have yq : y.q = x.q := by rw [← t2]
  have ya : y.alpha = x.alpha := by rw [← t2]
  have yd : y.alphaD = x.alphaD := by rw [← t2]
  refine ⟨y, hc, ?_, ?_, ?_, ?_, ?_, ?_⟩
  · unfold ConfigConverter.convert
    simp only [List.length_map, List.length_range]
    rw [hx, Res.bind_ok, hy]
  · intro i k ji jk hi hji hjk hname
    obtain ⟨hil, -⟩ := List.getElem?_eq_some_iff.1 hji
    obtain ⟨hkl, -⟩ := List.getElem?_eq_some_iff.1 hjk
    obtain ⟨i, rfl⟩ : ∃ m, i = m + 1 := ⟨i - 1, by omega⟩
    have hin : i < n := by omega
    have hk : ks i = k := by
      have e := (hks i hin).2.2.2
      rw [hji] at e
      refine nodup_getElem?_inj h.dstJoints (by simpa using (hks i hin).2.2.1) ?_
      simp [e, hjk, hname]
    subst hk
    rw [yq, ya, yd]
    exact ⟨s1.2.1 i hin, s2.2.1 i hin, s3.2.1 i hin⟩
  · have hne : ∀ i, i < n → ks i ≠ 0 := fun i hi => Nat.pos_iff_ne_zero.1 (hks i hi).2.1
    rw [yq, ya, yd]
    exact ⟨s1.2.2 0 hne, s2.2.2 0 hne, s3.2.2 0 hne⟩
  · intro i k bi bk hbi hbk hname
    obtain ⟨hil, -⟩ := List.getElem?_eq_some_iff.1 hbi
    have hk : bs i = k := by
      have e := (hbs i hil).2.2
      rw [hbi] at e
      refine nodup_getElem?_inj h.dstBodies (by simpa using (hbs i hil).2.1) ?_
      simp [e, hbk, hname]
    subst hk
    exact t1.2.1 i hil
  · exact ⟨by rw [yq, s1.1, hd.q], by rw [ya, s2.1, hd.alpha], by rw [yd, s3.1, hd.alphaD], by rw [t1.1, hxf, hd.force]⟩
  · rw [← s4]
    simp only at t2 ⊢
    rw [← t2]

/-- C12: converting there and back restores everything: for any intermediate configuration `d` of the other `MultiBody`,
converting `s` to it and the result back onto `s` gives `s`; converting back onto another configuration `s₀` restores all
values except those of the root joint. -/
theorem C12_roundtrip (src dst : MultiBody K) (h : SameNames src dst) (s d s₀ : MBC K) (hs : ConvSized src s)
    (hd : ConvSized dst d) (hs₀ : ConvSized src s₀) :
    ∃ c c' d' s', ConfigConverter.mk' src dst = .ok c ∧ ConfigConverter.mk' dst src = .ok c' ∧ c.convert s d = .ok d' ∧
      c'.convert d' s = .ok s ∧ c'.convert d' s₀ = .ok s' ∧
      s'.q.tail = s.q.tail ∧ s'.alpha.tail = s.alpha.tail ∧ s'.alphaD.tail = s.alphaD.tail ∧ s'.force = s.force ∧
      s'.q.head? = s₀.q.head? := by
  obtain ⟨c, d', hc, hcv, f1, -, f3, f4, -⟩ := C12_convert src dst h s d hs hd
  have key : ∀ x, ConvSized src x → ∃ c' s', ConfigConverter.mk' dst src = .ok c' ∧ c'.convert d' x = .ok s' ∧
      (∀ i, 0 < i → s'.q[i]? = s.q[i]? ∧ s'.alpha[i]? = s.alpha[i]? ∧ s'.alphaD[i]? = s.alphaD[i]?) ∧
      (s'.q[0]? = x.q[0]? ∧ s'.alpha[0]? = x.alpha[0]? ∧ s'.alphaD[0]? = x.alphaD[0]?) ∧ s'.force = s.force ∧
      { s' with q := x.q, alpha := x.alpha, alphaD := x.alphaD, force := x.force } = x := by
    intro x hx
    obtain ⟨c', s', hc', hcv', g1, g2, g3, g4, g5⟩ := C12_convert dst src h.symm d' x f4 hx
    refine ⟨c', s', hc', hcv', ?_, g2, ?_, g5⟩
    · intro i hi
      by_cases hil : i < src.joints.length
      · -- find the joint of the same name
        obtain ⟨k, -, hk0, hkl, hkn⟩ := h.joint_index (i := i - 1) (by omega)
        rw [Nat.sub_add_cancel hi] at hkn
        have e1 : dst.joints[k]? = some dst.joints[k] := List.getElem?_eq_getElem hkl
        have e2 : src.joints[i]? = some src.joints[i] := List.getElem?_eq_getElem hil
        have hname : (dst.joints[k]).name = (src.joints[i]).name := by simpa [e1, e2] using hkn
        obtain ⟨a1, a2, a3⟩ := g1 k i _ _ hk0 e1 e2 hname
        obtain ⟨b1, b2, b3⟩ := f1 i k _ _ hi e2 e1 hname.symm
        exact ⟨a1.trans b1, a2.trans b2, a3.trans b3⟩
      · have q1 := g4.q
        have q2 := g4.alpha
        have q3 := g4.alphaD
        have q4 := hs.q
        have q5 := hs.alpha
        have q6 := hs.alphaD
        refine ⟨?_, ?_, ?_⟩ <;> rw [List.getElem?_eq_none (by omega), List.getElem?_eq_none (by omega)]
    · apply List.ext_getElem?
      intro i
      by_cases hil : i < src.bodies.length
      · obtain ⟨k, -, hkl, hkn⟩ := h.body_index hil
        have e1 : dst.bodies[k]? = some dst.bodies[k] := List.getElem?_eq_getElem hkl
        have e2 : src.bodies[i]? = some src.bodies[i] := List.getElem?_eq_getElem hil
        have hname : (dst.bodies[k]).name = (src.bodies[i]).name := by simpa [e1, e2] using hkn
        exact (g3 k i _ _ e1 e2 hname).trans (f3 i k _ _ e2 e1 hname.symm)
      · have q1 := g4.force
        have q2 := hs.force
        rw [List.getElem?_eq_none (by omega), List.getElem?_eq_none (by omega)]
  obtain ⟨c', s', hc', hcv', k1, k2, k3, k4⟩ := key s₀ hs₀
  obtain ⟨c'', s'', hc'', hcv'', l1, l2, l3, l4⟩ := key s hs
  rw [hc'] at hc''
  cases hc''
  have tails : ∀ {α : Type} {a b : List α}, (∀ i, 0 < i → a[i]? = b[i]?) → a.tail = b.tail := by
    intro α a b hab
    apply List.ext_getElem?
    intro i
    simpa using hab (i + 1) (by omega)
  refine ⟨c, c', d', s', hc, hc', hcv, ?_, hcv', tails fun i hi => (k1 i hi).1, tails fun i hi => (k1 i hi).2.1,
    tails fun i hi => (k1 i hi).2.2, k3, ?_⟩
  · have full : ∀ {α : Type} {a b : List α}, (∀ i, 0 < i → a[i]? = b[i]?) → a[0]? = b[0]? → a = b := by
      intro α a b hab h0
      apply List.ext_getElem?
      intro i
      cases i with
      | zero => exact h0
      | succ i => exact hab _ (by omega)
    have e1 : s''.q = s.q := full (fun i hi => (l1 i hi).1) l2.1
    have e2 : s''.alpha = s.alpha := full (fun i hi => (l1 i hi).2.1) l2.2.1
    have e3 : s''.alphaD = s.alphaD := full (fun i hi => (l1 i hi).2.2) l2.2.2
    have : s'' = s := by
      rw [← l4, ← e1, ← e2, ← e3, ← l3]
    rw [hcv'', this]
  · rw [List.head?_eq_getElem?, List.head?_eq_getElem?]; exact k2.1

/-- C12: the checked versions do the same thing when all names (also that of the root joint) and sizes agree. -/
theorem C12_checked (src dst : MultiBody K) (h : SameNames src dst)
    (hroot : (src.joints.map (·.name)).Perm (dst.joints.map (·.name))) (s d : MBC K) (hs : ConvSized src s)
    (hd : ConvSized dst d) :
    ConfigConverter.sConstructor src dst = ConfigConverter.mk' src dst ∧
      ∀ c : ConfigConverter, c.sConvert s d = c.convert s d := by
  have hj : src.joints.length = dst.joints.length := by simpa using hroot.length_eq
  have hb : src.bodies.length = dst.bodies.length := by simpa using h.bodies.length_eq
  constructor
  · unfold ConfigConverter.sConstructor
    rw [if_neg (by simp [MultiBody.nrBodies, MultiBody.nrJoints, hj, hb]), if_neg, if_neg]
    · rw [not_not, List.all_eq_true]
      intro b hbm
      have hmem : b.name ∈ dst.bodies.map (·.name) := h.bodies.mem_iff.1 (List.mem_map.2 ⟨_, hbm, rfl⟩)
      obtain ⟨x, hx, hxn⟩ := List.mem_map.1 hmem
      obtain ⟨m, hm, rfl⟩ := List.mem_iff_getElem.1 hx
      obtain ⟨k, e1, -⟩ := h.dstMade.inv.body_find (m := m) (s := b.name) hm (by simp [hm, hxn])
      rw [e1]; rfl
    · rw [not_not, List.all_eq_true]
      intro b hbm
      have hmem : b.name ∈ dst.joints.map (·.name) := hroot.mem_iff.1 (List.mem_map.2 ⟨_, hbm, rfl⟩)
      obtain ⟨x, hx, hxn⟩ := List.mem_map.1 hmem
      obtain ⟨m, hm, rfl⟩ := List.mem_iff_getElem.1 hx
      obtain ⟨k, e1, -⟩ := h.dstMade.inv.joint_find (m := m) (s := b.name) (h.dstMade.njoints ▸ hm) (by simp [hm, hxn])
      rw [e1]; rfl
  · intro c
    unfold ConfigConverter.sConvert
    rw [if_neg]
    simp [hs.q, hs.alpha, hs.alphaD, hs.force, hd.q, hd.alpha, hd.alphaD, hd.force, hj, hb]

/-- The converter of two robots with the same names, as the table of the joints. -/
theorem SameNames.converter {src dst : MultiBody K} (h : SameNames src dst) :
    ∃ (ks : Nat → Nat) (b : List Int),
      ConfigConverter.mk' src dst = .ok ⟨(List.range (src.joints.length - 1)).map fun i => (ks i : Int), b⟩ ∧
      (∀ i, i < src.joints.length - 1 → 0 < ks i ∧ ks i < dst.joints.length ∧
        (dst.joints[ks i]?).map (·.name) = (src.joints[i + 1]?).map (·.name)) ∧
      ∀ i j, i < src.joints.length - 1 → j < src.joints.length - 1 → ks i = ks j → i = j := by
  classical
  set n := src.joints.length - 1 with hn
  set nb := src.bodies.length with hnb
  have hsr : src.joints.length ≠ 0 := by simpa using h.srcRoot
  let ks : Nat → Nat := fun i => if hi : i < n then (h.joint_index hi).choose else 0
  let bs : Nat → Nat := fun i => if hi : i < nb then (h.body_index hi).choose else 0
  have hks : ∀ i, i < n → (do let j ← rd src.joints (i + 1); dst.jointIndexByName j.name : Res Int) = .ok (ks i : Int) ∧
      0 < ks i ∧ ks i < dst.joints.length ∧ (dst.joints[ks i]?).map (·.name) = (src.joints[i + 1]?).map (·.name) := by
    intro i hi
    have := (h.joint_index hi).choose_spec
    simpa only [ks, dif_pos hi] using this
  have hbs : ∀ i, i < nb → (do let b ← rd src.bodies i; dst.bodyIndexByName b.name : Res Int) = .ok (bs i : Int) := by
    intro i hi
    have := (h.body_index hi).choose_spec.1
    simpa only [bs, dif_pos hi] using this
  refine ⟨ks, (List.range nb).map fun i => (bs i : Int), ?_, fun i hi => (hks i hi).2, ?_⟩
  · unfold ConfigConverter.mk'
    have e1 := indexLoop n (fun i => do let j ← rd src.joints (i + 1); dst.jointIndexByName j.name) ks
      (fun i hi => (hks i hi).1)
    have e2 := indexLoop nb (fun i => do let b ← rd src.bodies i; dst.bodyIndexByName b.name) bs hbs
    simp only [bind_assoc] at e1 e2
    rw [if_neg (by simpa [MultiBody.nrJoints] using hsr)]
    simp only [MultiBody.nrJoints, MultiBody.nrBodies, ← hn, ← hnb]
    rw [e1, Res.bind_ok, e2, Res.bind_ok]; rfl
  · intro i j hi hj e
    have h1 := (hks i hi).2.2.2
    have h2 := (hks j hj).2.2.2
    rw [e, h2] at h1
    have := nodup_getElem?_inj h.srcJoints (i := j + 1) (k := i + 1) (by simp; omega) (by simpa using h1)
    omega

/-- C12: `convertJoint` on any vectors with one entry per joint copies the entry of every non-root joint to the joint of
the same name and leaves the entry of the root joint alone; the version returning a new vector gives the root joint a
default entry. The checked version is the same on vectors of the same size and refuses others. -/
theorem C12_convert_joint {α : Type} (src dst : MultiBody K) (h : SameNames src dst) (s d : List α) (dflt : α)
    (hs : s.length = src.joints.length) (hd : d.length = dst.joints.length) :
    ∃ c d' e', ConfigConverter.mk' src dst = .ok c ∧ c.convertJoint s d = .ok d' ∧ c.sConvertJoint s d = .ok d' ∧
      c.convertJointNew dflt s = .ok e' ∧ d'.length = dst.joints.length ∧ e'.length = dst.joints.length ∧
      (∀ (i k : Nat) ji jk, 0 < i → src.joints[i]? = some ji → dst.joints[k]? = some jk → ji.name = jk.name →
        d'[k]? = s[i]? ∧ e'[k]? = s[i]?) ∧
      d'[0]? = d[0]? ∧ e'[0]? = some dflt ∧
      ∀ x y : List α, x.length ≠ y.length → c.sConvertJoint x y = .error .domainError := by
  obtain ⟨ks, b, hc, hks, kinj⟩ := h.converter
  have hsr : src.joints.length ≠ 0 := by simpa using h.srcRoot
  have hdr : dst.joints.length ≠ 0 := by simpa using h.dstRoot
  have hlen : src.joints.length = dst.joints.length := by
    have := h.joints.length_eq
    simp only [List.length_map, List.length_tail] at this
    omega
  have key : ∀ d : List α, d.length = dst.joints.length → ∃ d',
      (List.range (src.joints.length - 1)).foldlM (fun (dst : List α) i => do
        let k ← rd ((List.range (src.joints.length - 1)).map fun i => (ks i : Int)) i
        wrI dst k (← rd s (i + 1))) d = .ok d' ∧ Scat (src.joints.length - 1) ks 1 s d d' := by
    intro d hd
    refine foldlM_range_inv _ (fun k x => Scat k ks 1 s d x) _ d (.zero ..) ?_
    intro i x hi s1
    have hk := (hks i hi).2.1
    have g1 : i + 1 < s.length := by omega
    have l1 : ks i < x.length := by rw [s1.1, hd]; exact hk
    have r : rd ((List.range (src.joints.length - 1)).map fun i => (ks i : Int)) i = .ok (ks i : Int) :=
      rd_of_getElem? (by simp [hi])
    simp only [r, Res.bind_ok, rd_ok g1, wrI_ofNat, wr_ok l1, Except.ok.injEq, exists_eq_left']
    exact s1.step (fun j hj e => by have := kinj j i (by omega) hi e; omega) (hd ▸ hk) (List.getElem?_eq_getElem g1)
  obtain ⟨d', e1, t1⟩ := key d hd
  obtain ⟨e', e2, t2⟩ := key (List.replicate s.length dflt) (by simp [hs, hlen])
  have hne : ∀ i, i < src.joints.length - 1 → ks i ≠ 0 := fun i hi => Nat.pos_iff_ne_zero.1 (hks i hi).1
  have c1 : ConfigConverter.convertJoint ⟨(List.range (src.joints.length - 1)).map fun i => (ks i : Int), b⟩ s d = .ok d' := by
    simpa only [ConfigConverter.convertJoint, List.length_map, List.length_range] using e1
  refine ⟨_, d', e', hc, c1, ?_, ?_, by rw [t1.1, hd], by rw [t2.1]; simp [hs, hlen], ?_, t1.2.2 0 hne, ?_, ?_⟩
  · unfold ConfigConverter.sConvertJoint
    rw [if_neg (by omega), c1]
  · simpa only [ConfigConverter.convertJointNew, List.length_map, List.length_range] using e2
  · intro i k ji jk hi hji hjk hname
    obtain ⟨hil, -⟩ := List.getElem?_eq_some_iff.1 hji
    obtain ⟨i, rfl⟩ : ∃ m, i = m + 1 := ⟨i - 1, by omega⟩
    have hin : i < src.joints.length - 1 := by omega
    have hk : ks i = k := by
      have e := (hks i hin).2.2
      rw [hji] at e
      refine nodup_getElem?_inj h.dstJoints (by simpa using (hks i hin).2.1) ?_
      simp [e, hjk, hname]
    subst hk
    exact ⟨t1.2.1 i hin, t2.2.1 i hin⟩
  · rw [t2.2.2 0 hne]
    simp [hs, Nat.pos_of_ne_zero hsr]
  · intro x y hxy
    unfold ConfigConverter.sConvertJoint
    rw [if_pos hxy]

/-- C12 is not vacuous: the sample robot and the same robot with joints 2 and 3 and the corresponding bodies exchanged. -/
example : ∃ mb', MultiBody.mk' [Sample.bodies[0], Sample.bodies[1], Sample.bodies[3], Sample.bodies[2]]
    [Sample.joints[0], Sample.joints[1], Sample.joints[3], Sample.joints[2]] [-1, 0, 0, 1] [0, 1, 2, 3] [-1, 0, 0, 1]
    [Sample.Xt[0], Sample.Xt[1], Sample.Xt[3], Sample.Xt[2]] = .ok mb' ∧ SameNames Sample.mb mb' := by
  obtain ⟨mb', h1, h2⟩ := ctor_inv [Sample.bodies[0], Sample.bodies[1], Sample.bodies[3], Sample.bodies[2]]
    [Sample.joints[0], Sample.joints[1], Sample.joints[3], Sample.joints[2]] [-1, 0, 0, 1] [0, 1, 2, 3] [-1, 0, 0, 1]
    [Sample.Xt[0], Sample.Xt[1], Sample.Xt[3], Sample.Xt[2]] rfl
  have hb : Sample.mb.bodies = Sample.bodies := by decide +kernel
  have hj : Sample.mb.joints = Sample.joints := by decide +kernel
  refine ⟨mb', h1, Sample.made, ⟨_, _, _, _, _, _, rfl, ?_, h1⟩, ?_, ?_, ?_, ?_, ?_, ?_, ?_, ?_⟩
  · intro x hx
    refine (Sample.units x ?_).built
    simp only [List.mem_cons, List.not_mem_nil, or_false] at hx
    rcases hx with rfl | rfl | rfl | rfl <;> exact List.getElem_mem _
  all_goals simp only [h2.joints, h2.bodies, hb, hj]
  all_goals decide +kernel

end RBDyn
