import Verif.Lemmas.FD
import Verif.Props.Kinematics
import Mathlib.LinearAlgebra.FiniteDimensional.Basic

/-! Properties C26, C27, C28, C29 (algebraic part). -/

namespace RBDyn
variable {K : Type} [Scalar K] {mb : MultiBody K}
open scoped Mat3

/-! ### C26 -/

/-- C26: inverse dynamics stores the same body accelerations as forward acceleration with the base accelerating against gravity,
and as torque of every joint the projection, on each column of its motion subspace, of the sum over the bodies `k` it carries of
`I a + v ×* (I v) - f_ext` transported from body `k` to body `i`. Nothing else changes. -/
theorem C26_inverse_dynamics (wf : mb.WF) (hr : mb.Rigid) {mbc : MBC K} (sz : mbc.Sized mb) (hq : ValidQ mb mbc.q)
    (hv : mbc.VelReady mb) {d : ID K} (hd : d.f.length = mb.nrBodies) :
    ∃ d' m, d.inverseDynamics mb mbc = .ok (d', m) ∧
      (∃ m', forwardAcceleration mb mbc ⟨0, mbc.gravity⟩ = .ok m' ∧ m'.bodyAccB = m.bodyAccB) ∧
      (∀ (i : Nat) (j : Joint K) (Wi : PTransform K), mb.joints[i]? = some j → mbc.bodyPosW[i]? = some Wi → m.jointTorque[i]? = some (j.S.map fun c => c.dot
        (∑ k ∈ (Finset.range mb.nrBodies).filter (fun k => i ∈ pathUp mb.par k),
          (((mbc.bodyPosW[k]?).getD 1) * Wi.inv).transMul
            ((mb.inertiaAt k).mulMotion ((m.bodyAccB[k]?).getD 0) +
              ((mbc.bodyVelB[k]?).getD 0).crossDual
                ((mb.inertiaAt k).mulMotion ((mbc.bodyVelB[k]?).getD 0)) -
              ((mbc.bodyPosW[k]?).getD 1).dualMul ((mbc.force[k]?).getD 0))))) ∧
      { m with bodyAccB := mbc.bodyAccB, jointTorque := mbc.jointTorque } = mbc ∧ d'.f.length = mb.nrBodies ∧ m.Sized mb := by
  refine ⟨_, _, id_eq wf hr sz hq hv hd rfl, ⟨_, sz.fa wf hr hq hv _, rfl⟩, ?_, rfl, by simp [MultiBody.nrBodies], ?_⟩
  · intro i j Wi hj hW
    have hi : i < mb.bodies.length := by rw [← wf.njoints]; exact (List.getElem?_eq_some_iff.1 hj).1
    rw [hv.bodyPosW, range_map_getElem? hi] at hW
    cases hW
    simp only [range_map_getElem? hi, Option.some.injEq, MultiBody.project, MultiBody.SAt, hj, Option.map_some, Option.getD_some]
    congr 1
    funext c
    congr 1
    unfold MultiBody.wrenchAt
    refine Finset.sum_congr rfl fun k hk => ?_
    have hk : k < mb.bodies.length := (MultiBody.mem_subtree.1 hk).1
    rw [hv.bodyPosW, hv.bodyVelB, range_map_getElem? hk, range_map_getElem? hk, range_map_getElem? hk]
    rfl
  · refine { sz with bodyAccB := by simp, jointTorque := ?_ }
    unfold SizedDof
    apply List.ext_getElem?
    intro i
    by_cases hi : i < mb.bodies.length
    · have hi' : i < mb.joints.length := by rw [wf.njoints]; exact hi
      simp only [List.getElem?_map, List.getElem?_range hi, Option.map_some, List.getElem?_eq_getElem hi', MultiBody.project,
        List.length_map, wf.SAt_length hi]
      simp [MultiBody.dofAt, hi']
    · rw [List.getElem?_eq_none (by simp; omega), List.getElem?_eq_none (by simp [wf.njoints]; omega)]

/-- C26 for `inverseDynamicsNoInertia`: the torques are the projections of the external forces (with a plus sign). -/
theorem C26_no_inertia (wf : mb.WF) (hr : mb.Rigid) {mbc : MBC K} (sz : mbc.Sized mb) (hq : ValidQ mb mbc.q)
    (hv : mbc.PosReady mb) {d : ID K} (hd : d.f.length = mb.nrBodies) :
    ∃ d' m, d.inverseDynamicsNoInertia mb mbc = .ok (d', m) ∧
      (∀ (i : Nat) (j : Joint K) (Wi : PTransform K), mb.joints[i]? = some j → mbc.bodyPosW[i]? = some Wi → m.jointTorque[i]? = some (j.S.map fun c => c.dot
        (Wi.dualMul (∑ k ∈ (Finset.range mb.nrBodies).filter (fun k => i ∈ pathUp mb.par k), (mbc.force[k]?).getD 0)))) ∧
      { m with jointTorque := mbc.jointTorque } = mbc := by
  refine ⟨_, _, idNoInertia_eq wf hr sz hq hv hd rfl, ?_, rfl⟩
  intro i j Wi hj hW
  have hi : i < mb.bodies.length := by rw [← wf.njoints]; exact (List.getElem?_eq_some_iff.1 hj).1
  rw [hv.bodyPosW, range_map_getElem? hi] at hW
  cases hW
  simp only [range_map_getElem? hi, Option.some.injEq, MultiBody.project, MultiBody.SAt, hj, Option.map_some, Option.getD_some]
  congr 1
  funext c
  congr 1
  unfold MultiBody.wrenchAt
  rw [← PTransform.dualHom_apply, map_sum]
  refine Finset.sum_congr rfl fun k hk => ?_
  have hW := mb.posAt_rigid hr hq k
  have hWi := mb.posAt_rigid hr hq i
  rw [MultiBody.relAt, PTransform.mul_transMul _ _ _ hWi.inv, PTransform.transMul_dualMul hW, PTransform.dualHom_apply,
    PTransform.dualMul_eq _ hWi]
  rfl

/-- Inverse dynamics of the sample robot. -/
def Sample.id : ID ℚ := ID.mk' (fun _ => 0) Sample.mb

example : ∃ d' m, Sample.id.inverseDynamics Sample.mb Sample.mbcV = .ok (d', m) ∧ m.jointTorque[1]? ≠ some [0] ∧
    m.jointTorque[1]? ≠ m.jointTorque[3]? := by
  obtain ⟨h1, h2, h3⟩ := Sample.ready
  obtain ⟨d', m, h, -⟩ := C26_inverse_dynamics Sample.wf Sample.rigid h2 h3 h1 (d := Sample.id) (by decide +kernel)
  refine ⟨d', m, h, ?_⟩
  have : m = ((Sample.id.inverseDynamics Sample.mb Sample.mbcV).toOption.getD (d', Sample.mbcV)).2 := by rw [h]; rfl
  have e : (Sample.id.inverseDynamics Sample.mb Sample.mbcV).toOption.isSome = true := by rw [h]; rfl
  have : m.jointTorque = ((Sample.id.inverseDynamics Sample.mb Sample.mbcV).toOption.map (·.2.jointTorque)).getD [] := by
    rw [h]; rfl
  rw [this]
  decide +kernel

/-! ### C27 -/

theorem entry_torque (wf : mb.WF) {w : Nat → ForceVec K} {i a : Nat} (hi : i < mb.bodies.length) (ha : a < mb.dofAt i) :
    entry ((List.range mb.bodies.length).map fun i => mb.project i (w i)) i a = ((mb.SAt i).getD a 0).dot (w i) := by
  have hl : a < (mb.SAt i).length := by rw [wf.SAt_length hi]; exact ha
  simp [entry, range_map_getElem? hi, MultiBody.project, List.getD_eq_getElem?_getD, hl]

theorem HSpec.mulVecAt (wf : mb.WF) {q : List (List K)} {H : DMat K} (h : HSpec mb q (fun _ _ => True) H) {v : List (List K)}
    (hv : SizedDof mb v) {i a : Nat} (hi : i < mb.bodies.length) (ha : a < mb.dofAt i) :
    H.mulVecAt v.flatten (mb.dofPosAt i + a) = mb.dofSum fun j b => mb.massAt q i a j b * entry v j b := by
  unfold DMat.mulVecAt
  rw [h.2.1, wf.sum_range_dof]
  refine dofSum_congr fun j b hj hb => ?_
  rw [(h.2.2 i a j b hi hj ha hb).1 trivial, List.getD_eq_getElem?_getD, hv.flatten_getD wf hj hb]
  rfl

/-- The constructor of `ForwardDynamics` allocates the working memory that the other functions need. -/
theorem C27_constructor (wf : mb.WF) (junk : FD K) : ∃ d, FD.mk' junk mb = .ok d ∧ d.Fits mb := FD.mk'_fits wf junk

/-- C27: for the matrix `H` of `computeH` and the vector `C` of `computeC`, the torques of inverse dynamics are `H * alphaD + C`
(all as flattened vectors). -/
theorem C27_equation_of_motion (wf : mb.WF) (hr : mb.Rigid) {mbc : MBC K} (sz : mbc.Sized mb) (hq : ValidQ mb mbc.q)
    (hv : mbc.VelReady mb) {d : ID K} (hd : d.f.length = mb.nrBodies) {fd : FD K} (hf : fd.Fits mb) :
    ∃ d' m fd₁ fd₂, d.inverseDynamics mb mbc = .ok (d', m) ∧ fd.computeH mb mbc = .ok fd₁ ∧ fd₁.computeC mb mbc = .ok fd₂ ∧
      fd₂.H = fd₁.H ∧ fd₂.Fits mb ∧ m.jointTorque.flatten.length = mb.nrDof ∧
      ∀ r, r < mb.nrDof → m.jointTorque.flatten[r]? = some (fd₂.H.mulVecAt mbc.alphaD.flatten r + fd₂.C.getD r 0) := by
  obtain ⟨d', m, e, -, -, -, -, sz'⟩ := C26_inverse_dynamics wf hr sz hq hv hd
  obtain ⟨fd₁, e1, h1, f1, -⟩ := computeH_eq wf hr hq hv.toPosReady hf
  obtain ⟨fd₂, e2, h2, f2, g2⟩ := computeC_eq wf hr sz.force hq hv f1
  have hH : fd₂.H = fd₁.H := by rw [g2]
  refine ⟨d', m, fd₁, fd₂, e, e1, e2, hH, f2, sz'.jointTorque.flatten_length wf, fun r hr' => ?_⟩
  rw [id_eq wf hr sz hq hv hd rfl] at e
  cases e
  obtain ⟨i, a, hi, ha, rfl⟩ := wf.exists_segment hr'
  rw [sz'.jointTorque.flatten_getD wf hi ha, entry_torque wf hi ha, hH, h1.mulVecAt wf sz.alphaD hi ha, List.getD_eq_getElem?_getD (l := fd₂.C),
    h2 i a hi ha, wf.torque_split]
  rfl

/-- `solve` solves the linear system with matrix `H` exactly. -/
def ExactSolve (solve : DMat K → List K → List K) (H : DMat K) : Prop :=
  ∀ b : List K, b.length = H.rows → (solve H b).length = H.cols ∧ ∀ r, r < H.rows → b[r]? = some (H.mulVecAt (solve H b) r)

/-- Two states that differ only in accelerations and torques. -/
def SamePosVel (m m' : MBC K) : Prop :=
  { m with alphaD := m'.alphaD, bodyAccB := m'.bodyAccB, jointTorque := m'.jointTorque } = m'

theorem hUp_congr {m m' : MBC K} (h : SamePosVel m m') (i : Nat) : ∀ n j (d : FD K), hUp mb m i n j d = hUp mb m' i n j d := by
  have h1 : m.parentToSon = m'.parentToSon := by rw [← h]
  have h2 : m.motionSubspace = m'.motionSubspace := by rw [← h]
  intro n
  induction n with
  | zero => intro j d; rfl
  | succ n ih =>
    intro j d
    simp only [hUp, h1, h2, ih]

theorem computeH_congr {m m' : MBC K} (h : SamePosVel m m') (fd : FD K) : fd.computeH mb m = fd.computeH mb m' := by
  have h1 : m.parentToSon = m'.parentToSon := by rw [← h]
  have h2 : m.motionSubspace = m'.motionSubspace := by rw [← h]
  have e : hStep mb m = hStep mb m' := by
    funext d i
    simp only [hStep, h1, h2, hUp_congr h]
  unfold FD.computeH
  rw [e]

theorem computeC_congr {m m' : MBC K} (h : SamePosVel m m') (fd : FD K) : fd.computeC mb m = fd.computeC mb m' := by
  have h1 : m.parentToSon = m'.parentToSon := by rw [← h]
  have h2 : m.motionSubspace = m'.motionSubspace := by rw [← h]
  have h3 : m.bodyPosW = m'.bodyPosW := by rw [← h]
  have h4 : m.jointVelocity = m'.jointVelocity := by rw [← h]
  have h5 : m.bodyVelB = m'.bodyVelB := by rw [← h]
  have h6 : m.gravity = m'.gravity := by rw [← h]
  have h7 : m.force = m'.force := by rw [← h]
  have e1 : cStep mb m = cStep mb m' := by
    funext d i
    simp only [cStep, h1, h3, h4, h5, h6, h7]
  have e2 : cBackStep mb m = cBackStep mb m' := by
    funext d i
    simp only [cBackStep, h1, h2]
  unfold FD.computeC
  rw [e1, e2]

theorem SamePosVel.ready {m m' : MBC K} (h : SamePosVel m m') (hv : m'.VelReady mb) (hq : ValidQ mb m'.q) : m.VelReady mb ∧ ValidQ mb m.q := by
  have q1 : m.parentToSon = m'.parentToSon := by rw [← h]
  have q2 : m.bodyPosW = m'.bodyPosW := by rw [← h]
  have q3 : m.motionSubspace = m'.motionSubspace := by rw [← h]
  have q4 : m.jointVelocity = m'.jointVelocity := by rw [← h]
  have q5 : m.bodyVelB = m'.bodyVelB := by rw [← h]
  have q6 : m.bodyVelW = m'.bodyVelW := by rw [← h]
  have q7 : m.q = m'.q := by rw [← h]
  have q8 : m.alpha = m'.alpha := by rw [← h]
  refine ⟨⟨⟨?_, ?_, ?_⟩, ?_, ?_, ?_⟩, q7 ▸ hq⟩
  · rw [q1, q7]; exact hv.parentToSon
  · rw [q2, q7]; exact hv.bodyPosW
  · rw [q3]; exact hv.motionSubspace
  · rw [q4, q8]; exact hv.jointVelocity
  · rw [q5, q7, q8]; exact hv.bodyVelB
  · rw [q6, q7, q8]; exact hv.bodyVelW

/-- Forward dynamics solves for accelerations whose equation of motion has the applied torques as left-hand side. -/
theorem forwardDynamics_eq (wf : mb.WF) (hr : mb.Rigid) {mbc : MBC K} (sz : mbc.Sized mb) (hq : ValidQ mb mbc.q)
    (hv : mbc.VelReady mb) {fd : FD K} (hf : fd.Fits mb)
    {solve : DMat K → List K → List K} (hs : ∀ fd₁, fd.computeH mb mbc = .ok fd₁ → ExactSolve solve fd₁.H) :
    ∃ fd₁ fd₂ r, fd.computeH mb mbc = .ok fd₁ ∧ fd₁.computeC mb mbc = .ok fd₂ ∧ fd₂.Fits mb ∧ SizedDof mb r ∧
      (∃ fd', fd.forwardDynamics solve mb mbc = .ok (fd', { mbc with alphaD := r }) ∧ fd'.Fits mb) ∧
      ∀ k, k < mb.nrDof → mbc.jointTorque.flatten[k]? = some (fd₂.H.mulVecAt r.flatten k + fd₂.C.getD k 0) := by
  obtain ⟨fd₁, e1, -, f1, g1⟩ := computeH_eq wf hr hq hv.toPosReady hf
  obtain ⟨fd₂, e2, -, f2, g2⟩ := computeC_eq wf hr sz.force hq hv f1
  have hH : fd₂.H = fd₁.H := by rw [g2]
  have htau := sz.jointTorque.flatten_length wf
  have e3 : paramToVectorInto mbc.jointTorque fd₂.tmpFd = .ok mbc.jointTorque.flatten := by
    rw [paramToVectorInto_eq _ _ (by rw [f2.tmpFd, htau]), List.drop_of_length_le (by rw [f2.tmpFd, htau]), List.append_nil]
  obtain ⟨rhs, hrhs⟩ : ∃ rhs, rhs = List.zipWith (· - ·) mbc.jointTorque.flatten fd₂.C := ⟨_, rfl⟩
  have e4 : vecSub mbc.jointTorque.flatten fd₂.C = .ok rhs := by
    unfold vecSub; rw [if_pos (by rw [htau, f2.C]), hrhs]
  have hrl : rhs.length = mb.nrDof := by simp [hrhs, htau, f2.C]
  have hs' := hs _ e1
  rw [← hH] at hs'
  obtain ⟨hxl, hx⟩ := hs' rhs (by rw [hrl, f2.Hrows])
  rw [f2.Hcols] at hxl
  rw [f2.Hrows] at hx
  have haD := sz.alphaD.flatten_length wf
  obtain ⟨r, r1, r2, r3⟩ := fillAllFrom_eq (solve fd₂.H rhs) mbc.alphaD 0 (by omega)
  have e5 : vectorToParamInto (solve fd₂.H rhs) mbc.alphaD = .ok r := by simp [vectorToParamInto, r1]
  rw [List.drop_zero, List.take_of_length_le (by omega)] at r3
  refine ⟨fd₁, fd₂, r, e1, e2, f2, r2.trans sz.alphaD, ⟨{ fd₂ with tmpFd := solve fd₂.H rhs }, ?_, { f2 with tmpFd := hxl }⟩, ?_⟩
  · simp only [FD.forwardDynamics, e1, e2, e3, e4, e5, Res.bind_ok, Res.pure_eq]
  · intro k hk
    have h1 := hx k hk
    have hk1 : k < mbc.jointTorque.flatten.length := by omega
    have hk2 : k < fd₂.C.length := by rw [f2.C]; exact hk
    rw [hrhs, List.getElem?_zipWith, List.getElem?_eq_getElem hk1, List.getElem?_eq_getElem hk2] at h1
    have h1 := Option.some.inj h1
    rw [List.getElem?_eq_getElem hk1, r3, hrhs, ← h1, List.getD_eq_getElem?_getD, List.getElem?_eq_getElem hk2]
    simp

/-- C27: if the linear system is solved exactly, the accelerations found by forward dynamics reproduce the applied torques through
inverse dynamics. Forward dynamics changes nothing but the accelerations. -/
theorem C27_forward_then_inverse (wf : mb.WF) (hr : mb.Rigid) {mbc : MBC K} (sz : mbc.Sized mb) (hq : ValidQ mb mbc.q)
    (hv : mbc.VelReady mb) {d : ID K} (hd : d.f.length = mb.nrBodies) {fd : FD K} (hf : fd.Fits mb)
    {solve : DMat K → List K → List K} (hs : ∀ fd₁, fd.computeH mb mbc = .ok fd₁ → ExactSolve solve fd₁.H) :
    ∃ fd' m d' m', fd.forwardDynamics solve mb mbc = .ok (fd', m) ∧ { m with alphaD := mbc.alphaD } = mbc ∧ fd'.Fits mb ∧
      m.Sized mb ∧ d.inverseDynamics mb m = .ok (d', m') ∧ m'.jointTorque = mbc.jointTorque := by
  obtain ⟨fd₁, fd₂, r, e1, e2, f2, hsr, ⟨fd', e3, f3⟩, hx⟩ := forwardDynamics_eq wf hr sz hq hv hf hs
  have sz' : MBC.Sized mb { mbc with alphaD := r } := { sz with alphaD := hsr }
  have hsp : SamePosVel { mbc with alphaD := r } mbc := rfl
  obtain ⟨hv', hq'⟩ := hsp.ready hv hq
  obtain ⟨d', m', fd₃, fd₄, i1, i2, i3, -, f4, i6, i7⟩ := C27_equation_of_motion wf hr sz' hq' hv' hd hf
  rw [computeH_congr hsp, e1] at i2
  cases i2
  rw [computeC_congr hsp, e2] at i3
  cases i3
  obtain ⟨d'', m'', e6, -, -, -, -, sz''⟩ := C26_inverse_dynamics wf hr sz' hq' hv' hd
  rw [i1] at e6
  cases e6
  have htau := sz.jointTorque.flatten_length wf
  refine ⟨fd', { mbc with alphaD := r }, d', m', e3, rfl, f3, sz', i1, ?_⟩
  refine blocks_ext (sz''.jointTorque.trans sz.jointTorque.symm) ?_
  apply List.ext_getElem?
  intro k
  by_cases hk : k < mb.nrDof
  · rw [i7 k hk, hx k hk]
  · rw [List.getElem?_eq_none (by omega), List.getElem?_eq_none (by omega)]

/-- C27, the other direction: if the linear system is solved exactly and `H` is regular, forward dynamics of the torques that inverse
dynamics computed for some accelerations gives back these accelerations. -/
theorem C27_inverse_then_forward (wf : mb.WF) (hr : mb.Rigid) {mbc : MBC K} (sz : mbc.Sized mb) (hq : ValidQ mb mbc.q)
    (hv : mbc.VelReady mb) {d : ID K} (hd : d.f.length = mb.nrBodies) {fd : FD K} (hf : fd.Fits mb)
    {solve : DMat K → List K → List K} (hs : ∀ fd₁, fd.computeH mb mbc = .ok fd₁ → ExactSolve solve fd₁.H ∧
      ∀ x y : List K, x.length = mb.nrDof → y.length = mb.nrDof →
        (∀ r, r < mb.nrDof → fd₁.H.mulVecAt x r = fd₁.H.mulVecAt y r) → x = y) :
    ∃ d' m fd' m', d.inverseDynamics mb mbc = .ok (d', m) ∧ fd.forwardDynamics solve mb m = .ok (fd', m') ∧
      m'.alphaD = mbc.alphaD := by
  obtain ⟨d', m, fd₁, fd₂, i1, e1, e2, hH, f2, i6, i7⟩ := C27_equation_of_motion wf hr sz hq hv hd hf
  obtain ⟨d'', m'', e6, -, -, hm, -, sz'⟩ := C26_inverse_dynamics wf hr sz hq hv hd
  rw [i1] at e6
  cases e6
  have hsp : SamePosVel m mbc := by
    have : m.alphaD = mbc.alphaD := by rw [← hm]
    unfold SamePosVel; rw [← this]; exact hm
  obtain ⟨hv', hqm⟩ := hsp.ready hv hq
  have eH := computeH_congr hsp (mb := mb) fd
  obtain ⟨fd₃, fd₄, r, k1, k2, -, hsr, ⟨fd', e3, -⟩, hx⟩ := forwardDynamics_eq wf hr sz' hqm hv' hf (solve := solve) (fun g h => by
    rw [eH] at h; exact (hs g h).1)
  refine ⟨d', m, fd', _, i1, e3, ?_⟩
  rw [eH, e1] at k1
  cases k1
  rw [computeC_congr hsp, e2] at k2
  cases k2
  refine blocks_ext (hsr.trans sz.alphaD.symm) ?_
  refine (hs _ e1).2 _ _ (hsr.flatten_length wf) (sz.alphaD.flatten_length wf) fun k hk => ?_
  have h1 := i7 k hk
  have h2 := hx k hk
  rw [h1] at h2
  have := add_right_cancel (Option.some.inj h2)
  rw [hH] at this
  exact this.symm

/-- Memory of forward dynamics of the sample robot. -/
def Sample.fd : FD ℚ := (FD.mk' ⟨⟨0, 0, fun _ _ => 0⟩, [], [], [], [], [], [], []⟩ Sample.mb).toOption.getD
  ⟨⟨0, 0, fun _ _ => 0⟩, [], [], [], [], [], [], []⟩

theorem Sample.fd_fits : Sample.fd.Fits Sample.mb := by
  obtain ⟨d, h, hd⟩ := C27_constructor Sample.wf ⟨⟨0, 0, fun _ _ => 0⟩, [], [], [], [], [], [], []⟩
  have : Sample.fd = d := by unfold Sample.fd; rw [h]; rfl
  rw [this]; exact hd

/-- The equation of motion on the sample robot: the mass matrix is `11 × 11` and has non-zero coupling between the base and the
wrist, none between the wrist and the slider. -/
example : ∃ fd₁, Sample.fd.computeH Sample.mb Sample.mbcV = .ok fd₁ ∧ fd₁.H.rows = 11 ∧ fd₁.H.get 0 7 ≠ 0 ∧ fd₁.H.get 7 10 = 0 := by
  obtain ⟨h1, h2, h3⟩ := Sample.ready
  obtain ⟨-, -, fd₁, fd₂, -, e, -⟩ := C27_equation_of_motion Sample.wf Sample.rigid h2 h3 h1 (d := Sample.id) (by decide +kernel) Sample.fd_fits
  refine ⟨fd₁, e, ?_⟩
  have h : ((Sample.fd.computeH Sample.mb Sample.mbcV).toOption.map fun x => (x.H.rows = 11 && x.H.get 0 7 ≠ 0 && x.H.get 7 10 = 0 : Bool)) =
    some true := by decide +kernel
  rw [e] at h
  have h : (fd₁.H.rows = 11 && fd₁.H.get 0 7 ≠ 0 && fd₁.H.get 7 10 = 0 : Bool) = true := Option.some.inj h
  simpa [and_assoc] using h

/-! ### C28 -/

/-- C28: the matrix computed by `computeH` is symmetric; entries of joints on different branches are zero. -/
theorem C28_symmetric (wf : mb.WF) (hr : mb.Rigid) {mbc : MBC K} (hq : ValidQ mb mbc.q) (hv : mbc.PosReady mb) {d : FD K}
    (hd : d.Fits mb) :
    ∃ d', d.computeH mb mbc = .ok d' ∧ d'.H.rows = mb.nrDof ∧ d'.H.cols = mb.nrDof ∧
      (∀ r c, r < mb.nrDof → c < mb.nrDof → d'.H.get r c = d'.H.get c r) ∧
      ∀ i j a b, i ∉ pathUp mb.par j → j ∉ pathUp mb.par i → i < mb.nrBodies → j < mb.nrBodies → a < mb.dofAt i → b < mb.dofAt j →
        d'.H.get (mb.dofPosAt i + a) (mb.dofPosAt j + b) = 0 := by
  obtain ⟨d', e, h, f, -⟩ := computeH_eq wf hr hq hv hd
  refine ⟨d', e, f.Hrows, f.Hcols, fun r c hr' hc' => ?_, fun i j a b h1 h2 hi hj ha hb => ?_⟩
  · obtain ⟨i, a, hi, ha, rfl⟩ := wf.exists_segment hr'
    obtain ⟨j, b, hj, hb, rfl⟩ := wf.exists_segment hc'
    rw [(h.2.2 i a j b hi hj ha hb).1 trivial, (h.2.2 j b i a hj hi hb ha).1 trivial, mb.massAt_comm]
  · rw [(h.2.2 i a j b hi hj ha hb).1 trivial, mb.massAt_unrelated h1 h2]

example : ∃ d', Sample.fd.computeH Sample.mb Sample.mbcV = .ok d' ∧ ∀ r c, r < Sample.mb.nrDof → c < Sample.mb.nrDof → d'.H.get r c = d'.H.get c r := by
  obtain ⟨h1, h2, h3⟩ := Sample.ready
  obtain ⟨d', e, -, -, h, -⟩ := C28_symmetric Sample.wf Sample.rigid h3 h1.toPosReady Sample.fd_fits
  exact ⟨d', e, h⟩

/-! ### C29 -/

/-- C29: for every generalized velocity, `alphaᵀ H alpha` is the sum over the bodies of `vᵀ I v` with the body velocities computed by
forward velocity. -/
theorem C29_kinetic_energy (wf : mb.WF) (hr : mb.Rigid) {mbc : MBC K} (sz : mbc.Sized mb) (hq : ValidQ mb mbc.q)
    (hv : mbc.VelReady mb) {d : FD K} (hd : d.Fits mb) :
    ∃ d', d.computeH mb mbc = .ok d' ∧
      (∑ r ∈ Finset.range mb.nrDof, mbc.alpha.flatten.getD r 0 * d'.H.mulVecAt mbc.alpha.flatten r) =
        ∑ k ∈ Finset.range mb.nrBodies, ((mbc.bodyVelB[k]?).getD 0).dot
          ((mb.inertiaAt k).mulMotion ((mbc.bodyVelB[k]?).getD 0)) := by
  obtain ⟨d', e, h, f, -⟩ := computeH_eq wf hr hq hv.toPosReady hd
  refine ⟨d', e, ?_⟩
  have e2 : ∑ k ∈ Finset.range mb.nrBodies, ((mbc.bodyVelB[k]?).getD 0).dot
      ((mb.inertiaAt k).mulMotion ((mbc.bodyVelB[k]?).getD 0)) =
      ∑ k ∈ Finset.range mb.bodies.length, (mb.velAt mbc.q mbc.alpha k).dot ((mb.inertiaAt k).mulMotion (mb.velAt mbc.q mbc.alpha k)) := by
    refine Finset.sum_congr rfl fun k hk => ?_
    rw [hv.bodyVelB, range_map_getElem? (Finset.mem_range.1 hk)]
    rfl
  rw [e2, ← wf.kinetic, wf.sum_range_dof]
  refine dofSum_congr fun i a hi ha => ?_
  rw [h.mulVecAt wf sz.alpha hi ha, List.getD_eq_getElem?_getD, sz.alpha.flatten_getD wf hi ha]
  rfl

/-- C29: the mass matrix is positive semidefinite when the body inertias are. -/
theorem C29_nonneg (wf : mb.WF) (hr : mb.Rigid) {mbc : MBC K} (sz : mbc.Sized mb) (hq : ValidQ mb mbc.q) (hv : mbc.VelReady mb)
    {d : FD K} (hd : d.Fits mb) (hI : ∀ b ∈ mb.bodies, ∀ v : MotionVec K, 0 ≤ v.dot (b.inertia.mulMotion v)) :
    ∃ d', d.computeH mb mbc = .ok d' ∧
      0 ≤ ∑ r ∈ Finset.range mb.nrDof, mbc.alpha.flatten.getD r 0 * d'.H.mulVecAt mbc.alpha.flatten r := by
  obtain ⟨d', e, h⟩ := C29_kinetic_energy wf hr sz hq hv hd
  refine ⟨d', e, ?_⟩
  rw [h]
  refine Finset.sum_nonneg fun k hk => ?_
  have hk : k < mb.bodies.length := Finset.mem_range.1 hk
  have : mb.inertiaAt k = (mb.bodies[k]).inertia := by simp [MultiBody.inertiaAt, hk]
  rw [this]
  exact hI _ (List.getElem_mem hk) _

theorem Joint.BuiltUnit.subspace_injective {j : Joint K} (h : j.BuiltUnit) (hc : ∀ c ∈ j.S, c ≠ 0) {a : List K}
    (ha : a.length = j.dof) (h0 : applyCols j.S a = 0) : ∀ x ∈ a, x = 0 := by
  obtain ⟨t, ax, f, n, hax, hj⟩ := h.exists_mk
  have hS : j.S = Joint.mkS (if f then 1 else -1) t ax ∧ j.dof = Joint.nDof t := by
    rcases hj with rfl | ⟨_, _, _, rfl⟩ <;> exact ⟨rfl, rfl⟩
  rw [hS.2] at ha
  rw [hS.1] at h0 hc
  have hd : (if f then (1 : K) else -1) ≠ 0 := by cases f <;> simp
  generalize (if f then (1 : K) else -1) = d at *
  cases t
  case Rev =>
    obtain ⟨x, rfl⟩ := List.length_eq_one_iff.1 ha
    have := hc (d • ⟨ax, 0⟩) (by simp [Joint.mkS])
    simp only [applyCols, Joint.mkS, List.zipWith_cons_cons, List.zipWith_nil_right, List.sum_cons, List.sum_nil, add_zero] at h0
    simpa [this] using h0
  case Prism =>
    obtain ⟨x, rfl⟩ := List.length_eq_one_iff.1 ha
    have := hc (d • ⟨0, ax⟩) (by simp [Joint.mkS])
    simp only [applyCols, Joint.mkS, List.zipWith_cons_cons, List.zipWith_nil_right, List.sum_cons, List.sum_nil, add_zero] at h0
    simpa [this] using h0
  case Spherical =>
    obtain ⟨x, y, z, rfl⟩ := List.length_eq_three.1 ha
    simp [applyCols, Joint.mkS, MotionVec.ext_iff, Vec3.ext_iff] at h0
    simp_all
  case Planar =>
    obtain ⟨x, y, z, rfl⟩ := List.length_eq_three.1 ha
    simp [applyCols, Joint.mkS, MotionVec.ext_iff, Vec3.ext_iff] at h0
    simp_all
  case Cylindrical =>
    obtain ⟨x, y, rfl⟩ := List.length_eq_two.1 ha
    have h1 : (⟨ax, 0⟩ : MotionVec K) ≠ 0 := by
      intro h; exact hc (d • ⟨ax, 0⟩) (by simp [Joint.mkS]) (by rw [h, smul_zero])
    have hax : ax.x ≠ 0 ∨ ax.y ≠ 0 ∨ ax.z ≠ 0 := by
      by_contra hcon
      push Not at hcon
      exact h1 (by ext <;> simp [hcon.1, hcon.2.1, hcon.2.2])
    simp [applyCols, Joint.mkS, MotionVec.ext_iff, Vec3.ext_iff, hd] at h0
    simp
    grind
  case Free =>
    match a, ha with
    | [a1, a2, a3, a4, a5, a6], _ =>
      simp [applyCols, Joint.mkS, MotionVec.ext_iff, Vec3.ext_iff] at h0
      simp_all
  case Fixed =>
    rw [List.length_eq_zero_iff.1 ha]; simp

theorem exists_blocks (wf : mb.WF) {x : List K} (hx : x.length = mb.nrDof) : ∃ v, SizedDof mb v ∧ v.flatten = x := by
  have hs : SizedDof mb (mb.joints.map fun j => List.replicate j.dof (0 : K)) := by
    simp [SizedDof, Function.comp_def]
  have hl := hs.flatten_length wf
  obtain ⟨r, r1, r2, r3⟩ := fillAllFrom_eq x (mb.joints.map fun j => List.replicate j.dof (0 : K)) 0 (by omega)
  rw [List.drop_zero, List.take_of_length_le (by omega)] at r3
  exact ⟨r, r2.trans hs, r3⟩

/-- C29: if all body inertias are positive definite and no motion subspace has a zero column (which only a prismatic joint with a
zero axis has), the mass matrix is positive definite. -/
theorem C29_positive_definite (wf : mb.WF) (hr : mb.Rigid) {mbc : MBC K} (hq : ValidQ mb mbc.q) (hv : mbc.PosReady mb)
    {d : FD K} (hd : d.Fits mb) (hI : ∀ b ∈ mb.bodies, ∀ v : MotionVec K, v ≠ 0 → 0 < v.dot (b.inertia.mulMotion v))
    (hS : ∀ j ∈ mb.joints, ∀ c ∈ j.S, c ≠ 0) :
    ∃ d', d.computeH mb mbc = .ok d' ∧ ∀ x : List K, x.length = mb.nrDof → (∃ y ∈ x, y ≠ 0) →
      0 < ∑ r ∈ Finset.range mb.nrDof, x.getD r 0 * d'.H.mulVecAt x r := by
  obtain ⟨d', e, h, f, -⟩ := computeH_eq wf hr hq hv hd
  refine ⟨d', e, fun x hx hne => ?_⟩
  obtain ⟨v, hsv, rfl⟩ := exists_blocks wf hx
  have e1 : (∑ r ∈ Finset.range mb.nrDof, v.flatten.getD r 0 * d'.H.mulVecAt v.flatten r) =
      ∑ k ∈ Finset.range mb.bodies.length, (mb.velAt mbc.q v k).dot ((mb.inertiaAt k).mulMotion (mb.velAt mbc.q v k)) := by
    rw [← wf.kinetic, wf.sum_range_dof]
    refine dofSum_congr fun i a hi ha => ?_
    rw [h.mulVecAt wf hsv hi ha, List.getD_eq_getElem?_getD, hsv.flatten_getD wf hi ha]
    rfl
  rw [e1]
  have hin : ∀ k, k < mb.bodies.length → mb.velAt mbc.q v k ≠ 0 →
      0 < (mb.velAt mbc.q v k).dot ((mb.inertiaAt k).mulMotion (mb.velAt mbc.q v k)) := by
    intro k hk hne
    have : mb.inertiaAt k = (mb.bodies[k]).inertia := by simp [MultiBody.inertiaAt, hk]
    rw [this]
    exact hI _ (List.getElem_mem hk) _ hne
  by_contra hcon
  have hz : ∀ k, k < mb.bodies.length → mb.velAt mbc.q v k = 0 := by
    by_contra hc
    push Not at hc
    obtain ⟨k, hk, hk0⟩ := hc
    refine hcon (Finset.sum_pos' (fun k hk => ?_) ⟨k, Finset.mem_range.2 hk, hin k hk hk0⟩)
    by_cases hk0 : mb.velAt mbc.q v k = 0
    · rw [hk0]; simp [MotionVec.dot]
    · exact (hin k (Finset.mem_range.1 hk) hk0).le
  obtain ⟨y, hy, hy0⟩ := hne
  obtain ⟨w, hw, hyw⟩ := List.mem_flatten.1 hy
  obtain ⟨i, hi, rfl⟩ := List.mem_iff_getElem.1 hw
  have hl : v.length = mb.joints.length := by have := congrArg List.length hsv; simpa using this
  have hij : i < mb.joints.length := by omega
  have hib : i < mb.bodies.length := by rw [← wf.njoints]; exact hij
  have hm : mb.jointMotion v i = 0 := by
    have h0 := hz i hib
    cases hp : mb.par i with
    | none => rw [← wf.velAt_none hr hq v hib hp, h0]
    | some k =>
      have hk := wf.par_lt _ _ hp
      rw [wf.velAt_some hr hq v hib hp, hz k (by omega)] at h0
      simpa using h0
  have hlen : (v[i]).length = (mb.joints[i]).dof := by
    have := congrArg (fun l => l[i]?) hsv
    simpa [hi, hij] using this
  have hm' : applyCols (mb.joints[i]).S v[i] = 0 := by
    have : mb.jointMotion v i = applyCols (mb.joints[i]).S v[i] := by
      simp [MultiBody.jointMotion, MultiBody.SAt, hi, hij]
    rw [← this]; exact hm
  exact hy0 ((hr.joints _ (List.getElem_mem hij)).subspace_injective (hS _ (List.getElem_mem hij)) hlen hm' _ hyw)

theorem DMat.mulVecAt_sub (H : DMat K) {x y : List K} (h : x.length = y.length) (r : Nat) :
    H.mulVecAt (List.zipWith (· - ·) x y) r = H.mulVecAt x r - H.mulVecAt y r := by
  unfold DMat.mulVecAt
  rw [← Finset.sum_sub_distrib]
  refine Finset.sum_congr rfl fun c _ => ?_
  rw [← mul_sub]
  congr 1
  simp only [List.getD_eq_getElem?_getD, List.getElem?_zipWith]
  by_cases hc : c < x.length
  · simp [hc, show c < y.length by omega]
  · simp [List.getElem?_eq_none (show x.length ≤ c by omega), List.getElem?_eq_none (show y.length ≤ c by omega)]

/-- C29, C27: with positive definite inertias the mass matrix is regular, so forward dynamics inverts inverse dynamics whenever the
linear system is solved exactly. -/
theorem C27_inverse_then_forward_physical (wf : mb.WF) (hr : mb.Rigid) {mbc : MBC K} (sz : mbc.Sized mb) (hq : ValidQ mb mbc.q)
    (hv : mbc.VelReady mb) {d : ID K} (hd : d.f.length = mb.nrBodies) {fd : FD K} (hf : fd.Fits mb)
    (hI : ∀ b ∈ mb.bodies, ∀ v : MotionVec K, v ≠ 0 → 0 < v.dot (b.inertia.mulMotion v)) (hS : ∀ j ∈ mb.joints, ∀ c ∈ j.S, c ≠ 0)
    {solve : DMat K → List K → List K} (hs : ∀ fd₁, fd.computeH mb mbc = .ok fd₁ → ExactSolve solve fd₁.H) :
    ∃ d' m fd' m', d.inverseDynamics mb mbc = .ok (d', m) ∧ fd.forwardDynamics solve mb m = .ok (fd', m') ∧
      m'.alphaD = mbc.alphaD := by
  refine C27_inverse_then_forward wf hr sz hq hv hd hf fun fd₁ e => ⟨hs _ e, fun x y hx hy hxy => ?_⟩
  obtain ⟨d', e', h⟩ := C29_positive_definite wf hr hq hv.toPosReady hf hI hS
  rw [e] at e'
  cases e'
  by_contra hne
  have hz : ∃ z ∈ List.zipWith (· - ·) x y, z ≠ 0 := by
    by_contra hcon
    push Not at hcon
    refine hne (List.ext_getElem (by omega) fun i h1 h2 => ?_)
    have := hcon (x[i] - y[i]) (List.mem_iff_getElem.2 ⟨i, by simp; omega, by simp⟩)
    exact sub_eq_zero.1 this
  have := h _ (by simp; omega) hz
  rw [Finset.sum_eq_zero] at this
  · exact lt_irrefl _ this
  · intro r hr'
    rw [DMat.mulVecAt_sub _ (by omega), hxy r (Finset.mem_range.1 hr'), sub_self, mul_zero]

theorem RBInertia.pos_of {a : RBInertia K} (hm : 0 < a.m)
    (h : ∀ w : Vec3 K, w ≠ 0 → (a.h.cross w).dot (a.h.cross w) < a.m * w.dot (a.I.toMat *ᵥ w)) (v : MotionVec K) (hv : v ≠ 0) :
    0 < v.dot (a.mulMotion v) := by
  have e : a.m * v.dot (a.mulMotion v) = (a.m • v.lin - a.h.cross v.ang).dot (a.m • v.lin - a.h.cross v.ang) +
      (a.m * v.ang.dot (a.I.toMat *ᵥ v.ang) - (a.h.cross v.ang).dot (a.h.cross v.ang)) := by
    simp [MotionVec.dot, RBInertia.mulMotion, Vec3.dot, Vec3.cross]
    ring
  have hn : ∀ u : Vec3 K, 0 ≤ u.dot u := fun u => by
    simp only [Vec3.dot]; nlinarith [mul_self_nonneg u.x, mul_self_nonneg u.y, mul_self_nonneg u.z]
  by_contra hcon
  push Not at hcon
  have h1 : a.m * v.dot (a.mulMotion v) ≤ 0 := mul_nonpos_of_nonneg_of_nonpos hm.le hcon
  have h2 := hn (a.m • v.lin - a.h.cross v.ang)
  by_cases hw : v.ang = 0
  · have h3 : (a.m • v.lin).dot (a.m • v.lin) ≤ 0 := by
      rw [e, hw] at h1
      simpa [Vec3.cross, Vec3.dot] using h1
    have hl : v.lin ≠ 0 := fun hl => hv (by ext <;> simp [hw, hl])
    simp only [Vec3.dot, Vec3.smul_x, Vec3.smul_y, Vec3.smul_z] at h3
    apply hl
    have hx : a.m * v.lin.x = 0 := by nlinarith [mul_self_nonneg (a.m * v.lin.x), mul_self_nonneg (a.m * v.lin.y), mul_self_nonneg (a.m * v.lin.z)]
    have hy : a.m * v.lin.y = 0 := by nlinarith [mul_self_nonneg (a.m * v.lin.x), mul_self_nonneg (a.m * v.lin.y), mul_self_nonneg (a.m * v.lin.z)]
    have hz : a.m * v.lin.z = 0 := by nlinarith [mul_self_nonneg (a.m * v.lin.x), mul_self_nonneg (a.m * v.lin.y), mul_self_nonneg (a.m * v.lin.z)]
    ext
    · simpa [hm.ne'] using hx
    · simpa [hm.ne'] using hy
    · simpa [hm.ne'] using hz
  · have := h v.ang hw
    linarith

theorem Sample.inertia_pos : ∀ b ∈ Sample.mb.bodies, ∀ v : MotionVec ℚ, v ≠ 0 → 0 < v.dot (b.inertia.mulMotion v) := by
  have hb : Sample.mb.bodies = Sample.bodies := by decide +kernel
  rw [hb]
  intro b hb
  have key : ∀ w : Vec3 ℚ, w ≠ 0 → 0 < w.x ^ 2 + w.y ^ 2 + w.z ^ 2 := by
    intro w hw
    by_contra hcon
    push Not at hcon
    apply hw
    ext
    · simp only [Vec3.zero_x]; nlinarith [sq_nonneg w.x, sq_nonneg w.y, sq_nonneg w.z]
    · simp only [Vec3.zero_y]; nlinarith [sq_nonneg w.x, sq_nonneg w.y, sq_nonneg w.z]
    · simp only [Vec3.zero_z]; nlinarith [sq_nonneg w.x, sq_nonneg w.y, sq_nonneg w.z]
  simp only [Sample.bodies, List.mem_cons, List.not_mem_nil, or_false] at hb
  rcases hb with rfl | rfl | rfl | rfl <;> refine RBInertia.pos_of (by norm_num) fun w hw => ?_ <;> have := key w hw <;>
    simp [Vec3.dot, Vec3.cross, Sym3.toMat] <;>
    nlinarith [sq_nonneg w.x, sq_nonneg w.y, sq_nonneg w.z, sq_nonneg (w.x + w.y), sq_nonneg (w.x - w.y), sq_nonneg (w.x + w.z),
      sq_nonneg (w.x - w.z), sq_nonneg (w.y + w.z), sq_nonneg (w.y - w.z)]

theorem Sample.subspace_ne : ∀ j ∈ Sample.mb.joints, ∀ c ∈ j.S, c ≠ 0 := by
  have hj : Sample.mb.joints = Sample.joints := by decide +kernel
  rw [hj]
  decide +kernel

/-- The sample robot has positive definite inertias, so its mass matrix is positive definite. -/
example : ∃ d', Sample.fd.computeH Sample.mb Sample.mbcV = .ok d' ∧ ∀ x : List ℚ, x.length = Sample.mb.nrDof → (∃ y ∈ x, y ≠ 0) →
    0 < ∑ r ∈ Finset.range Sample.mb.nrDof, x.getD r 0 * d'.H.mulVecAt x r := by
  obtain ⟨h1, h2, h3⟩ := Sample.ready
  exact C29_positive_definite Sample.wf Sample.rigid h3 h1.toPosReady Sample.fd_fits Sample.inertia_pos Sample.subspace_ne

/-- A square matrix with trivial kernel can be solved exactly. -/
theorem ExactSolve.exists_of_regular (n : Nat) : ∃ solve : DMat K → List K → List K, ∀ H : DMat K, H.rows = n → H.cols = n →
    (∀ x : List K, x.length = n → (∃ y ∈ x, y ≠ 0) → ∃ r, r < n ∧ H.mulVecAt x r ≠ 0) → ExactSolve solve H := by
  classical
  have key : ∀ H : DMat K, H.rows = n → H.cols = n →
      (∀ x : List K, x.length = n → (∃ y ∈ x, y ≠ 0) → ∃ r, r < n ∧ H.mulVecAt x r ≠ 0) → ∀ b : List K, b.length = n →
      ∃ x : List K, x.length = n ∧ ∀ r, r < n → b[r]? = some (H.mulVecAt x r) := by
    intro H h1 h2 hk b hb
    let L : (Fin n → K) →ₗ[K] (Fin n → K) :=
      { toFun := fun x r => ∑ c : Fin n, H.get r c * x c
        map_add' := fun x y => by funext r; simp [mul_add, Finset.sum_add_distrib]
        map_smul' := fun t x => by
          funext r
          simp only [Pi.smul_apply, smul_eq_mul, RingHom.id_apply, Finset.mul_sum]
          exact Finset.sum_congr rfl fun c _ => by ring }
    have hL : ∀ (x : Fin n → K) (r : Fin n), L x r = H.mulVecAt (List.ofFn x) r := by
      intro x r
      simp only [DMat.mulVecAt, h2, ← Fin.sum_univ_eq_sum_range (fun c => H.get r c * (List.ofFn x).getD c 0)]
      show ∑ c : Fin n, H.get r c * x c = _
      exact Finset.sum_congr rfl fun c _ => by simp [List.getD_eq_getElem?_getD]
    have inj : Function.Injective L := by
      rw [injective_iff_map_eq_zero]
      intro x hx
      by_contra hne
      obtain ⟨i, hi⟩ := Function.ne_iff.1 hne
      obtain ⟨r, hr, hne⟩ := hk (List.ofFn x) (by simp) ⟨x i, List.mem_ofFn.2 ⟨i, rfl⟩, hi⟩
      exact hne (by rw [← hL x ⟨r, hr⟩, hx]; rfl)
    obtain ⟨x, hx⟩ := LinearMap.injective_iff_surjective.1 inj (fun r => b[r])
    refine ⟨List.ofFn x, by simp, fun r hr => ?_⟩
    rw [← hL x ⟨r, hr⟩, hx, List.getElem?_eq_getElem (by omega)]
    rfl
  refine ⟨fun H b => if h : ∃ x : List K, x.length = n ∧ ∀ r, r < n → b[r]? = some (H.mulVecAt x r) then h.choose else [], ?_⟩
  intro H h1 h2 hk b hb
  rw [h1] at hb
  have h := key H h1 h2 hk b hb
  dsimp only
  rw [dif_pos h, h1, h2]
  exact h.choose_spec

/-- The hypotheses of the theorems about forward dynamics can be met: on the sample robot an exact solve exists, and forward dynamics
inverts inverse dynamics. -/
example : ∃ solve : DMat ℚ → List ℚ → List ℚ, ∃ d' m fd' m', Sample.id.inverseDynamics Sample.mb Sample.mbcV = .ok (d', m) ∧
    Sample.fd.forwardDynamics solve Sample.mb m = .ok (fd', m') ∧ m'.alphaD = Sample.mbcV.alphaD := by
  obtain ⟨h1, h2, h3⟩ := Sample.ready
  obtain ⟨solve, hs⟩ := ExactSolve.exists_of_regular (K := ℚ) Sample.mb.nrDof
  refine ⟨solve, C27_inverse_then_forward_physical Sample.wf Sample.rigid h2 h3 h1 (by decide +kernel) Sample.fd_fits Sample.inertia_pos
    Sample.subspace_ne fun fd₁ e => ?_⟩
  obtain ⟨d', e', h⟩ := C29_positive_definite Sample.wf Sample.rigid h3 h1.toPosReady Sample.fd_fits Sample.inertia_pos Sample.subspace_ne
  obtain ⟨d'', e'', hr, hc, -⟩ := C28_symmetric Sample.wf Sample.rigid h3 h1.toPosReady Sample.fd_fits
  rw [e] at e' e''
  cases e'
  cases e''
  refine hs _ hr hc fun x hx hne => ?_
  by_contra hcon
  push Not at hcon
  have := h x hx hne
  rw [Finset.sum_eq_zero fun r hr => by rw [hcon r (Finset.mem_range.1 hr), mul_zero]] at this
  exact lt_irrefl _ this

end RBDyn
