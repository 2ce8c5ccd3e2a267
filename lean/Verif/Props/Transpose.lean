import Verif.Model.IS
import Verif.Lemmas.Transpose

/-! Property C79: the Jacobians are the same linear maps in all algorithms. -/

namespace RBDyn
variable {K : Type} [Scalar K] {mb : MultiBody K}
open scoped Mat3

/-- The state with the force vector `F` (about the world origin) added to what acts on body `N`. -/
def MBC.push (mbc : MBC K) (N : Nat) (F : ForceVec K) : MBC K := { mbc with force := mbc.force.set N ((mbc.force[N]?).getD 0 + F) }

theorem MBC.push_forceAt (mbc : MBC K) {N : Nat} (hN : N < mbc.force.length) (F : ForceVec K) (k : Nat) :
    (mbc.push N F).forceAt k = mbc.forceAt k + if k = N then F else 0 := by
  unfold MBC.forceAt MBC.push
  by_cases h : k = N
  · subst h
    simp [hN]
  · simp [h, List.getElem?_set, Ne.symm h]

theorem MBC.Sized.push {mbc : MBC K} (sz : mbc.Sized mb) (N : Nat) (F : ForceVec K) : (mbc.push N F).Sized mb :=
  { sz with force := by rw [← sz.force]; exact List.length_set }

theorem MBC.VelReady.push {mbc : MBC K} (hv : mbc.VelReady mb) (N : Nat) (F : ForceVec K) : (mbc.push N F).VelReady mb :=
  { hv with }

theorem MBC.PosReady.push {mbc : MBC K} (hv : mbc.PosReady mb) (N : Nat) (F : ForceVec K) : (mbc.push N F).PosReady mb :=
  { hv with }

/-- Row `r` of the transpose of a matrix with six rows, times a wrench. -/
def DMat.trMulAt (A : DMat K) (w : ForceVec K) (r : Nat) : K := ∑ x ∈ Finset.range 6, A.get x r * w.toList.getD x 0

theorem project_sized (wf : mb.WF) (w : Nat → ForceVec K) :
    SizedDof mb ((List.range mb.bodies.length).map fun i => mb.project i (w i)) := by
  unfold SizedDof
  apply List.ext_getElem?
  intro i
  by_cases hi : i < mb.bodies.length
  · have hi' : i < mb.joints.length := by rw [wf.njoints]; exact hi
    simp only [List.getElem?_map, List.getElem?_range hi, Option.map_some, List.getElem?_eq_getElem hi', MultiBody.project,
      List.length_map, wf.SAt_length hi]
    simp [MultiBody.dofAt, hi']
  · rw [List.getElem?_eq_none (by simp; omega), List.getElem?_eq_none (by simp [wf.njoints]; omega)]

theorem netForceAt_push {mbc : MBC K} {N : Nat} (hN : N < mbc.force.length) (q alpha alphaD : List (List K)) (a0 : MotionVec K)
    (F : ForceVec K) (k : Nat) : mb.netForceAt q alpha alphaD a0 (mbc.push N F).forceAt k =
      mb.netForceAt q alpha alphaD a0 mbc.forceAt k + if k = N then (-1 : K) • (mb.posAt q N).dualMul F else 0 := by
  unfold MultiBody.netForceAt
  rw [mbc.push_forceAt hN, ← PTransform.dualHom_apply, ← PTransform.dualHom_apply, map_add, neg_smul, one_smul]
  split
  · rename_i h
    subst h
    rw [PTransform.dualHom_apply _ F]
    abel
  · rw [map_zero]
    abel

theorem DMat.trMulAt_eq {A : DMat K} {v : MotionVec K} {r : Nat} (h : ∀ x, x < 6 → A.get x r = v.toList.getD x 0) (w : ForceVec K) :
    A.trMulAt w r = v.dot w := by
  rw [← sum_toList]
  exact Finset.sum_congr rfl fun x hx => by rw [h x (Finset.mem_range.1 hx)]

/-- C79: a wrench `w` that acts at the point `p` of body `N` changes the torques of inverse dynamics by minus the transposed Jacobian of this
point times `w`, and nothing else of its result. -/
theorem C79_contact_torques (wf : mb.WF) (hr : mb.Rigid) {mbc : MBC K} (sz : mbc.Sized mb) (hq : ValidQ mb mbc.q) (hv : mbc.VelReady mb)
    {d : ID K} (hd : d.f.length = mb.nrBodies) {J : Jac K} {N : Nat} {p : Vec3 K} (h : J.Of mb N p) (w : ForceVec K)
    {res : DMat K} (hrr : res.rows = 6) (hrc : res.cols = mb.nrDof) :
    ∃ (J₁ : Jac K) (A : DMat K) (W : PTransform K) (d₁ d₂ : ID K) (m₁ m₂ : MBC K), J.jacobian mb mbc = .ok J₁ ∧
      J₁.fullJacobian mb (DMat.ofCols J₁.jac) res = .ok A ∧ mbc.bodyPosW[N]? = some W ∧ d.inverseDynamics mb mbc = .ok (d₁, m₁) ∧
      d.inverseDynamics mb (mbc.push N (pointForce W p w)) = .ok (d₂, m₂) ∧ m₂.bodyAccB = m₁.bodyAccB ∧
      m₂.jointTorque.flatten.length = mb.nrDof ∧
      ∀ r, r < mb.nrDof → m₂.jointTorque.flatten.getD r 0 = m₁.jointTorque.flatten.getD r 0 - A.trMulAt w r := by
  obtain ⟨J₁, A, e1, e2, -, -, hA⟩ := h.full_cols wf hv.toPosReady hrr hrc
  have hN : N < mb.bodies.length := h.isBody
  have hNf : N < mbc.force.length := by rw [sz.force]; exact hN
  have i1 := id_eq wf hr sz hq hv hd rfl
  have i2 := id_eq wf hr (sz.push N (pointForce (mb.posAt mbc.q N) p w)) hq (hv.push N _) hd rfl
  obtain ⟨d', m', j1, -, -, -, -, s1⟩ := C26_inverse_dynamics wf hr sz hq hv hd
  rw [i1] at j1
  cases j1
  obtain ⟨d', m', j2, -, -, -, -, s2⟩ := C26_inverse_dynamics wf hr (sz.push N (pointForce (mb.posAt mbc.q N) p w)) hq (hv.push N _) hd
  rw [i2] at j2
  cases j2
  refine ⟨J₁, A, mb.posAt mbc.q N, _, _, _, _, e1, e2, by rw [hv.bodyPosW, range_map_getElem? hN], i1, i2, rfl,
    s2.jointTorque.flatten_length wf, fun r hr' => ?_⟩
  obtain ⟨i, a, hi, ha, rfl⟩ := wf.exists_segment hr'
  rw [List.getD_eq_getElem?_getD, List.getD_eq_getElem?_getD, s2.jointTorque.flatten_getD wf hi ha, s1.jointTorque.flatten_getD wf hi ha,
    entry_torque wf hi ha, entry_torque wf hi ha, DMat.trMulAt_eq (fun x hx => hA x i a hx hi ha)]
  have := mb.dot_wrenchAt_point hr hq hN p w (-1)
    (netForceAt_push (mb := mb) hNf mbc.q mbc.alpha mbc.alphaD ⟨0, mbc.gravity⟩ (pointForce (mb.posAt mbc.q N) p w)) i a
  rw [Option.getD_some, Option.getD_some, sub_eq_add_neg, neg_eq_neg_one_mul]
  exact this

theorem computeH_same {m m' : MBC K} (h1 : m.parentToSon = m'.parentToSon) (h2 : m.motionSubspace = m'.motionSubspace) (fd : FD K) :
    fd.computeH mb m = fd.computeH mb m' := by
  have hu : ∀ i n j (d : FD K), hUp mb m i n j d = hUp mb m' i n j d := by
    intro i n
    induction n with
    | zero => intro j d; rfl
    | succ n ih =>
      intro j d
      simp only [hUp, h1, h2, ih]
  have e : hStep mb m = hStep mb m' := by
    funext d i
    simp only [hStep, h1, h2, hu]
  unfold FD.computeH
  rw [e]

theorem computeH_push (mbc : MBC K) (N : Nat) (F : ForceVec K) (fd : FD K) : fd.computeH mb (mbc.push N F) = fd.computeH mb mbc :=
  computeH_same (m := mbc.push N F) (m' := mbc) rfl rfl fd

/-- C79: the same for the vector `C` of forward dynamics; the mass matrix does not change. -/
theorem C79_contact_bias (wf : mb.WF) (hr : mb.Rigid) {mbc : MBC K} (sz : mbc.Sized mb) (hq : ValidQ mb mbc.q) (hv : mbc.VelReady mb)
    {fd : FD K} (hf : fd.Fits mb) {J : Jac K} {N : Nat} {p : Vec3 K} (h : J.Of mb N p) (w : ForceVec K)
    {res : DMat K} (hrr : res.rows = 6) (hrc : res.cols = mb.nrDof) :
    ∃ (J₁ : Jac K) (A : DMat K) (W : PTransform K) (f₁ f₂ : FD K), J.jacobian mb mbc = .ok J₁ ∧
      J₁.fullJacobian mb (DMat.ofCols J₁.jac) res = .ok A ∧ mbc.bodyPosW[N]? = some W ∧ fd.computeC mb mbc = .ok f₁ ∧
      fd.computeC mb (mbc.push N (pointForce W p w)) = .ok f₂ ∧ fd.computeH mb (mbc.push N (pointForce W p w)) = fd.computeH mb mbc ∧
      ∀ r, r < mb.nrDof → f₂.C.getD r 0 = f₁.C.getD r 0 - A.trMulAt w r := by
  obtain ⟨J₁, A, e1, e2, -, -, hA⟩ := h.full_cols wf hv.toPosReady hrr hrc
  have hN : N < mb.bodies.length := h.isBody
  have hNf : N < mbc.force.length := by rw [sz.force]; exact hN
  obtain ⟨f₁, i1, h1, -, -⟩ := computeC_eq wf hr sz.force hq hv hf
  obtain ⟨f₂, i2, h2, -, -⟩ := computeC_eq wf hr (sz.push N (pointForce (mb.posAt mbc.q N) p w)).force hq (hv.push N _) hf
  refine ⟨J₁, A, mb.posAt mbc.q N, f₁, f₂, e1, e2, by rw [hv.bodyPosW, range_map_getElem? hN], i1, i2,
    computeH_push mbc N _ fd, fun r hr' => ?_⟩
  obtain ⟨i, a, hi, ha, rfl⟩ := wf.exists_segment hr'
  rw [List.getD_eq_getElem?_getD, List.getD_eq_getElem?_getD, h1 i a hi ha, h2 i a hi ha, DMat.trMulAt_eq (fun x hx => hA x i a hx hi ha)]
  have := mb.dot_wrenchAt_point hr hq hN p w (-1)
    (netForceAt_push (mb := mb) hNf mbc.q mbc.alpha [] ⟨0, mbc.gravity⟩ (pointForce (mb.posAt mbc.q N) p w)) i a
  rw [Option.getD_some, Option.getD_some, sub_eq_add_neg, neg_eq_neg_one_mul]
  exact this

/-- C79: forward dynamics with a wrench `w` at the point `p` of body `N`: the accelerations solve `H * alphaD + C = torques + Jᵀ * w`, where
`H`, `C` and the Jacobian `J` of the point are those of the state without this wrench. -/
theorem C79_contact_accelerations (wf : mb.WF) (hr : mb.Rigid) {mbc : MBC K} (sz : mbc.Sized mb) (hq : ValidQ mb mbc.q) (hv : mbc.VelReady mb)
    {fd : FD K} (hf : fd.Fits mb) {J : Jac K} {N : Nat} {p : Vec3 K} (h : J.Of mb N p) (w : ForceVec K)
    {res : DMat K} (hrr : res.rows = 6) (hrc : res.cols = mb.nrDof)
    {solve : DMat K → List K → List K} (hs : ∀ fd₁, fd.computeH mb mbc = .ok fd₁ → ExactSolve solve fd₁.H) :
    ∃ (J₁ : Jac K) (A : DMat K) (W : PTransform K) (f₁ f₂ f₃ : FD K) (m : MBC K), J.jacobian mb mbc = .ok J₁ ∧
      J₁.fullJacobian mb (DMat.ofCols J₁.jac) res = .ok A ∧ mbc.bodyPosW[N]? = some W ∧ fd.computeH mb mbc = .ok f₁ ∧
      f₁.computeC mb mbc = .ok f₂ ∧ fd.forwardDynamics solve mb (mbc.push N (pointForce W p w)) = .ok (f₃, m) ∧
      m.alphaD.flatten.length = mb.nrDof ∧
      ∀ r, r < mb.nrDof → f₁.H.mulVecAt m.alphaD.flatten r + f₂.C.getD r 0 = mbc.jointTorque.flatten.getD r 0 + A.trMulAt w r := by
  obtain ⟨f₁, k1, -, hf1, -⟩ := computeH_eq wf hr hq hv.toPosReady hf
  obtain ⟨J₁, A, W, f₂, g₂, e1, e2, hW, c1, c2, hH, hC⟩ := C79_contact_bias wf hr sz hq hv hf1 h w hrr hrc
  have hH' : fd.computeH mb (mbc.push N (pointForce W p w)) = fd.computeH mb mbc := computeH_push mbc N _ fd
  obtain ⟨fd₁, fd₂, x, i1, i2, -, hx, ⟨fd', i3, -⟩, hm⟩ := forwardDynamics_eq wf hr (sz.push N (pointForce W p w)) hq (hv.push N _) hf
    (solve := solve) (fun fd₁ e => hs fd₁ (by rw [← hH', e]))
  rw [hH', k1] at i1
  cases i1
  rw [c2] at i2
  cases i2
  refine ⟨J₁, A, W, f₁, f₂, fd', _, e1, e2, hW, k1, c1, i3, hx.flatten_length wf, fun r hr' => ?_⟩
  have h1 : mbc.jointTorque.flatten[r]? = _ := hm r hr'
  have h2 := hC r hr'
  obtain ⟨g, j1, -, -, j2⟩ := computeC_eq wf hr (sz.push N (pointForce W p w)).force hq (hv.push N _) hf1
  rw [c2] at j1
  cases j1
  have hH2 : g₂.H = f₁.H := by rw [j2]
  rw [hH2, h2] at h1
  rw [List.getD_eq_getElem?_getD (l := mbc.jointTorque.flatten), h1, Option.getD_some]
  dsimp only
  ring

/-- C79: `InverseStatics::inverseStatics` likewise. -/
theorem C79_contact_statics (wf : mb.WF) (hr : mb.Rigid) {mbc : MBC K} (sz : mbc.Sized mb) (hq : ValidQ mb mbc.q) (hv : mbc.PosReady mb)
    {d : ID K} (hd : d.f.length = mb.nrBodies) {J : Jac K} {N : Nat} {p : Vec3 K} (h : J.Of mb N p) (w : ForceVec K)
    {res : DMat K} (hrr : res.rows = 6) (hrc : res.cols = mb.nrDof) :
    ∃ (J₁ : Jac K) (A : DMat K) (W : PTransform K) (d₁ d₂ : ID K) (m₁ m₂ : MBC K), J.jacobian mb mbc = .ok J₁ ∧
      J₁.fullJacobian mb (DMat.ofCols J₁.jac) res = .ok A ∧ mbc.bodyPosW[N]? = some W ∧ inverseStatics d mb mbc = .ok (d₁, m₁) ∧
      inverseStatics d mb (mbc.push N (pointForce W p w)) = .ok (d₂, m₂) ∧
      ∀ r, r < mb.nrDof → m₂.jointTorque.flatten.getD r 0 = m₁.jointTorque.flatten.getD r 0 - A.trMulAt w r := by
  obtain ⟨J₁, A, e1, e2, -, -, hA⟩ := h.full_cols wf hv hrr hrc
  have hN : N < mb.bodies.length := h.isBody
  have hNf : N < mbc.force.length := by rw [sz.force]; exact hN
  have i1 := is_eq wf hr sz hq hv hd rfl
  have i2 := is_eq wf hr (sz.push N (pointForce (mb.posAt mbc.q N) p w)) hq (hv.push N _) hd rfl
  refine ⟨J₁, A, mb.posAt mbc.q N, _, _, _, _, e1, e2, by rw [hv.bodyPosW, range_map_getElem? hN], i1, i2, fun r hr' => ?_⟩
  obtain ⟨i, a, hi, ha, rfl⟩ := wf.exists_segment hr'
  rw [List.getD_eq_getElem?_getD, List.getD_eq_getElem?_getD, (project_sized wf _).flatten_getD wf hi ha, (project_sized wf _).flatten_getD wf hi ha,
    entry_torque wf hi ha, entry_torque wf hi ha, DMat.trMulAt_eq (fun x hx => hA x i a hx hi ha)]
  rw [Option.getD_some, Option.getD_some, sub_eq_add_neg, neg_eq_neg_one_mul]
  refine mb.dot_wrenchAt_point hr hq hN p w (-1) (fun k => ?_) i a
  rw [mbc.push_forceAt hNf, ← PTransform.dualHom_apply, map_add, PTransform.dualHom_apply, neg_smul, one_smul]
  split
  · rename_i hk
    subst hk
    rw [PTransform.dualHom_apply]
    show _ - (_ + _) = _
    abel
  · rw [map_zero]
    show _ - (_ + _) = _
    abel

/-- C79: in `inverseDynamicsNoInertia` the forces count with the opposite sign: the torques grow by the transposed Jacobian times `w`. -/
theorem C79_contact_no_inertia (wf : mb.WF) (hr : mb.Rigid) {mbc : MBC K} (sz : mbc.Sized mb) (hq : ValidQ mb mbc.q) (hv : mbc.PosReady mb)
    {d : ID K} (hd : d.f.length = mb.nrBodies) {J : Jac K} {N : Nat} {p : Vec3 K} (h : J.Of mb N p) (w : ForceVec K)
    {res : DMat K} (hrr : res.rows = 6) (hrc : res.cols = mb.nrDof) :
    ∃ (J₁ : Jac K) (A : DMat K) (W : PTransform K) (d₁ d₂ : ID K) (m₁ m₂ : MBC K), J.jacobian mb mbc = .ok J₁ ∧
      J₁.fullJacobian mb (DMat.ofCols J₁.jac) res = .ok A ∧ mbc.bodyPosW[N]? = some W ∧ d.inverseDynamicsNoInertia mb mbc = .ok (d₁, m₁) ∧
      d.inverseDynamicsNoInertia mb (mbc.push N (pointForce W p w)) = .ok (d₂, m₂) ∧
      ∀ r, r < mb.nrDof → m₂.jointTorque.flatten.getD r 0 = m₁.jointTorque.flatten.getD r 0 + A.trMulAt w r := by
  obtain ⟨J₁, A, e1, e2, -, -, hA⟩ := h.full_cols wf hv hrr hrc
  have hN : N < mb.bodies.length := h.isBody
  have hNf : N < mbc.force.length := by rw [sz.force]; exact hN
  have i1 := idNoInertia_eq wf hr sz hq hv hd rfl
  have i2 := idNoInertia_eq wf hr (sz.push N (pointForce (mb.posAt mbc.q N) p w)) hq (hv.push N _) hd rfl
  refine ⟨J₁, A, mb.posAt mbc.q N, _, _, _, _, e1, e2, by rw [hv.bodyPosW, range_map_getElem? hN], i1, i2, fun r hr' => ?_⟩
  obtain ⟨i, a, hi, ha, rfl⟩ := wf.exists_segment hr'
  rw [List.getD_eq_getElem?_getD, List.getD_eq_getElem?_getD, (project_sized wf _).flatten_getD wf hi ha, (project_sized wf _).flatten_getD wf hi ha,
    entry_torque wf hi ha, entry_torque wf hi ha, DMat.trMulAt_eq (fun x hx => hA x i a hx hi ha)]
  rw [Option.getD_some, Option.getD_some, ← one_mul ((mb.wcol mbc.q N p i a).dot w)]
  refine mb.dot_wrenchAt_point hr hq hN p w 1 (fun k => ?_) i a
  rw [mbc.push_forceAt hNf, ← PTransform.dualHom_apply, map_add, PTransform.dualHom_apply, one_smul]
  split
  · rename_i hk
    subst hk
    rfl
  · rw [map_zero]
    rfl

/-- C79: gravity. The torques of inverse dynamics are those without gravity plus total mass times the transposed Jacobian of the centre of
mass times gravity. -/
theorem C79_weight (wf : mb.WF) (hr : mb.Rigid) (hm : mb.MassOK) (hM : 0 < mb.totalMass) {mbc : MBC K} (sz : mbc.Sized mb)
    (hq : ValidQ mb mbc.q) (hv : mbc.VelReady mb) {d : ID K} (hd : d.f.length = mb.nrBodies) {fd : FD K} (hf : fd.Fits mb)
    {c : CoMJac K} (h : c.For mb mb.ones) :
    ∃ (c' : CoMJac K) (d₁ d₂ : ID K) (m₁ m₂ : MBC K) (f₁ f₂ : FD K), c.jacobian mb mbc = .ok c' ∧ d.inverseDynamics mb mbc = .ok (d₁, m₁) ∧
      d.inverseDynamics mb { mbc with gravity := 0 } = .ok (d₂, m₂) ∧ fd.computeC mb mbc = .ok f₁ ∧
      fd.computeC mb { mbc with gravity := 0 } = .ok f₂ ∧
      (∀ r, r < mb.nrDof → m₁.jointTorque.flatten.getD r 0 =
        m₂.jointTorque.flatten.getD r 0 + mb.totalMass * (c'.jac.getD r 0).dot mbc.gravity) ∧
      ∀ r, r < mb.nrDof → f₁.C.getD r 0 = f₂.C.getD r 0 + mb.totalMass * (c'.jac.getD r 0).dot mbc.gravity := by
  obtain ⟨c', e1, -, -, hg⟩ := h.jacobian_eq wf hv.toPosReady
  have sz' : MBC.Sized mb { mbc with gravity := 0 } := { sz with }
  have hv' : MBC.VelReady mb { mbc with gravity := 0 } := { hv with }
  have i1 := id_eq wf hr sz hq hv hd rfl
  have i2 := id_eq wf hr sz' hq hv' hd rfl
  obtain ⟨f₁, j1, h1, -, -⟩ := computeC_eq wf hr sz.force hq hv hf
  obtain ⟨f₂, j2, h2, -, -⟩ := computeC_eq wf hr sz'.force hq hv' hf
  have key : ∀ alphaD k, mb.netForceAt mbc.q mbc.alpha alphaD ⟨0, mbc.gravity⟩ mbc.forceAt k =
      mb.netForceAt mbc.q mbc.alpha alphaD ⟨0, 0⟩ mbc.forceAt k + (mb.inertiaAt k).mulMotion ((mb.posAt mbc.q k).mulMotion ⟨0, mbc.gravity⟩) := by
    intro alphaD k
    unfold MultiBody.netForceAt
    rw [mb.accAt_base, show (⟨0, 0⟩ : MotionVec K) = 0 from rfl, RBInertia.mulMotion_add]
    abel
  refine ⟨c', _, _, _, _, f₁, f₂, e1, i1, i2, j1, j2, fun r hr' => ?_, fun r hr' => ?_⟩
  · obtain ⟨i, a, hi, ha, rfl⟩ := wf.exists_segment hr'
    rw [List.getD_eq_getElem?_getD, List.getD_eq_getElem?_getD, (project_sized wf _).flatten_getD wf hi ha,
      (project_sized wf _).flatten_getD wf hi ha, entry_torque wf hi ha, entry_torque wf hi ha, hg i a hi ha]
    exact mb.dot_wrenchAt_gravity hr hm hM hq mbc.gravity (key mbc.alphaD) i a
  · obtain ⟨i, a, hi, ha, rfl⟩ := wf.exists_segment hr'
    rw [List.getD_eq_getElem?_getD, List.getD_eq_getElem?_getD, h1 i a hi ha, h2 i a hi ha, hg i a hi ha]
    exact mb.dot_wrenchAt_gravity hr hm hM hq mbc.gravity (key []) i a

/-- C79: without external forces the torques of inverse statics are total mass times the transposed Jacobian of the centre of mass times
gravity. -/
theorem C79_weight_statics (wf : mb.WF) (hr : mb.Rigid) (hm : mb.MassOK) (hM : 0 < mb.totalMass) {mbc : MBC K} (sz : mbc.Sized mb)
    (hq : ValidQ mb mbc.q) (hv : mbc.PosReady mb) (h0 : ∀ f ∈ mbc.force, f = 0) {d : ID K} (hd : d.f.length = mb.nrBodies)
    {c : CoMJac K} (h : c.For mb mb.ones) :
    ∃ (c' : CoMJac K) (d' : ID K) (m : MBC K), c.jacobian mb mbc = .ok c' ∧ inverseStatics d mb mbc = .ok (d', m) ∧
      ∀ r, r < mb.nrDof → m.jointTorque.flatten.getD r 0 = mb.totalMass * (c'.jac.getD r 0).dot mbc.gravity := by
  obtain ⟨c', e1, -, -, hg⟩ := h.jacobian_eq wf hv
  have i1 := is_eq wf hr sz hq hv hd rfl
  have hz : ∀ k, mbc.forceAt k = 0 := by
    intro k
    unfold MBC.forceAt
    cases hk : mbc.force[k]? with
    | none => rfl
    | some f => exact h0 f (List.mem_of_getElem? hk)
  refine ⟨c', _, _, e1, i1, fun r hr' => ?_⟩
  obtain ⟨i, a, hi, ha, rfl⟩ := wf.exists_segment hr'
  rw [List.getD_eq_getElem?_getD, (project_sized wf _).flatten_getD wf hi ha, entry_torque wf hi ha, hg i a hi ha, Option.getD_some]
  have := mb.dot_wrenchAt_gravity hr hm hM hq mbc.gravity (f := fun _ => 0) (f' := fun k => (mb.inertiaAt k).mulMotion
    ((mb.posAt mbc.q k).mulMotion ⟨0, mbc.gravity⟩) - (mb.posAt mbc.q k).dualMul (mbc.forceAt k)) (fun k => by
      rw [hz, ← PTransform.dualHom_apply, map_zero, sub_zero, zero_add]) i a
  rw [this, mb.dot_wrenchAt]
  simp

/-- C79: the last three rows of the centroidal momentum matrix are total mass times the Jacobian of the centre of mass, for all weights and
all points `com`. -/
theorem C79_linear_momentum (wf : mb.WF) (hr : mb.Rigid) (hm : mb.MassOK) (hM : 0 < mb.totalMass) {mbc : MBC K} (hq : ValidQ mb mbc.q)
    (hv : mbc.PosReady mb) {w : List K} {c : CMM K} (hc : c.For mb w) {j : CoMJac K} (hj : j.For mb w) (com : Vec3 K) :
    ∃ c' j', c.computeMatrix mb mbc com = .ok c' ∧ j.jacobian mb mbc = .ok j' ∧
      ∀ x l, x < 3 → l < mb.nrDof → c'.cmMat.get (3 + x) l = mb.totalMass * ((j'.jac.getD l 0).toList).getD x 0 := by
  obtain ⟨c', e1, -, -, h1⟩ := hc.computeMatrix_eq wf hr hq hv com
  obtain ⟨j', e2, -, -, h2⟩ := hj.jacobian_eq wf hv
  refine ⟨c', j', e1, e2, fun x l hx hl => ?_⟩
  obtain ⟨i, a, hi, ha, rfl⟩ := wf.exists_segment hl
  rw [h1 _ i a (by omega) hi ha, h2 i a hi ha]
  have e := mb.cmCol_force hr hm hM hq w com i a
  have : ((mb.cmCol (fun k => w.getD k 0) mbc.q com i a).toList).getD (3 + x) 0 =
      ((mb.cmCol (fun k => w.getD k 0) mbc.q com i a).force.toList).getD x 0 := by
    obtain rfl | rfl | rfl : x = 0 ∨ x = 1 ∨ x = 2 := by omega
    all_goals rfl
  rw [this, e]
  obtain rfl | rfl | rfl : x = 0 ∨ x = 1 ∨ x = 2 := by omega
  all_goals rfl

/-- Column `r` of a matrix with six rows, as a force vector. -/
def DMat.forceCol (A : DMat K) (r : Nat) : ForceVec K := ⟨⟨A.get 0 r, A.get 1 r, A.get 2 r⟩, ⟨A.get 3 r, A.get 4 r, A.get 5 r⟩⟩

/-- C79: the mass matrix is the sum over the bodies of `Jᵀ * I * J`, where `J` is the Jacobian of the body (in the frame of the body) that
`bodyJacobian` computes and `I` its inertia. -/
theorem C79_mass_matrix (wf : mb.WF) (hr : mb.Rigid) {mbc : MBC K} (hq : ValidQ mb mbc.q) (hv : mbc.PosReady mb) {fd : FD K}
    (hf : fd.Fits mb) {J : Nat → Jac K} (hJ : ∀ k, k < mb.nrBodies → (J k).Of mb k 0) {res : DMat K} (hrr : res.rows = 6)
    (hrc : res.cols = mb.nrDof) :
    ∃ (J₁ : Nat → Jac K) (A : Nat → DMat K) (f : FD K), (∀ k, k < mb.nrBodies → (J k).bodyJacobian mb mbc = .ok (J₁ k) ∧
        (J₁ k).fullJacobian mb (DMat.ofCols (J₁ k).jac) res = .ok (A k)) ∧ fd.computeH mb mbc = .ok f ∧
      ∀ r s, r < mb.nrDof → s < mb.nrDof → f.H.get r s =
        ∑ k ∈ Finset.range mb.nrBodies, ((A k).motionCol r).dot ((mb.inertiaAt k).mulMotion ((A k).motionCol s)) := by
  have hx : ∀ k, ∃ (J₁ : Jac K) (A : DMat K), k < mb.nrBodies → ((J k).bodyJacobian mb mbc = .ok J₁ ∧
      J₁.fullJacobian mb (DMat.ofCols J₁.jac) res = .ok A) ∧ ∀ i a, i < mb.bodies.length → a < mb.dofAt i →
        A.motionCol (mb.dofPosAt i + a) = mb.colAt mbc.q k i a := by
    intro k
    by_cases hk : k < mb.nrBodies
    · obtain ⟨J₁, A, e1, e2, -, -, hA⟩ := (hJ k hk).full_body_cols wf hr hq hv hrr hrc
      refine ⟨J₁, A, fun _ => ⟨⟨e1, e2⟩, fun i a hi ha => ?_⟩⟩
      have h1 : ∀ V : MotionVec K, (PTransform.ofTrans (0 : Vec3 K)).mulMotion V = V := by
        intro V
        rw [pointVelB_eq]; unfold pointVelB; ext <;> simp
      simp only [h1] at hA
      unfold DMat.motionCol
      rw [hA 0 i a (by omega) hi ha, hA 1 i a (by omega) hi ha, hA 2 i a (by omega) hi ha, hA 3 i a (by omega) hi ha,
        hA 4 i a (by omega) hi ha, hA 5 i a (by omega) hi ha]
      rfl
    · exact ⟨J k, res, fun h => absurd h hk⟩
  choose J₁ A hA using hx
  obtain ⟨f, e, hs, -, -⟩ := computeH_eq wf hr hq hv hf
  refine ⟨J₁, A, f, fun k hk => (hA k hk).1, e, fun r s hr' hs' => ?_⟩
  obtain ⟨i, a, hi, ha, rfl⟩ := wf.exists_segment hr'
  obtain ⟨j, b, hj, hb, rfl⟩ := wf.exists_segment hs'
  rw [(hs.2.2 i a j b hi hj ha hb).1 trivial]
  refine Finset.sum_congr rfl fun k hk => ?_
  rw [(hA k (Finset.mem_range.1 hk)).2 i a hi ha, (hA k (Finset.mem_range.1 hk)).2 j b hj hb]

theorem ForceVec.about_add (f g : ForceVec K) (p : Vec3 K) : (f + g).about p = f.about p + g.about p := by
  unfold ForceVec.about
  ext <;> simp <;> ring

theorem ForceVec.about_about_neg (f : ForceVec K) (p : Vec3 K) : (f.about p).about (-p) = f := by
  unfold ForceVec.about
  ext <;> simp <;> ring

/-- C79: the rows of the root joint of the mass matrix are the centroidal momentum matrix, carried from `com` to the frame of the root body and
projected on the motion subspace of the joint (for a free joint forward: the whole momentum matrix in the frame of the root body). -/
theorem C79_root_rows (wf : mb.WF) (hr : mb.Rigid) (ho : mb.OneRoot) {mbc : MBC K} (hq : ValidQ mb mbc.q) (hv : mbc.PosReady mb)
    {fd : FD K} (hf : fd.Fits mb) {c : CMM K} (hc : c.For mb mb.ones) (com : Vec3 K) {j : Joint K} (hj : mb.joints[0]? = some j) :
    ∃ (f : FD K) (c' : CMM K) (W : PTransform K), fd.computeH mb mbc = .ok f ∧ c.computeMatrix mb mbc com = .ok c' ∧
      mbc.bodyPosW[0]? = some W ∧ ∀ a l, a < j.dof → l < mb.nrDof →
        f.H.get a l = (j.S.getD a 0).dot (W.dualMul ((c'.cmMat.forceCol l).about (-com))) := by
  obtain ⟨f, e1, hs, -, -⟩ := computeH_eq wf hr hq hv hf
  obtain ⟨c', e2, -, -, h2⟩ := hc.computeMatrix_eq wf hr hq hv com
  have h0 : 0 < mb.bodies.length := by rw [← wf.njoints]; exact (List.getElem?_eq_some_iff.1 hj).1
  refine ⟨f, c', mb.posAt mbc.q 0, e1, e2, by rw [hv.bodyPosW, range_map_getElem? h0], fun a l ha hl => ?_⟩
  have ha' : a < mb.dofAt 0 := by unfold MultiBody.dofAt; rw [hj]; exact ha
  obtain ⟨i, b, hi, hb, rfl⟩ := wf.exists_segment hl
  have hp : mb.dofPosAt 0 = 0 := by simp [MultiBody.dofPosAt]
  have hH := (hs.2.2 0 a i b h0 hi ha' hb).1 trivial
  rw [hp, zero_add] at hH
  have hcol : c'.cmMat.forceCol (mb.dofPosAt i + b) = mb.cmCol (fun k => mb.ones.getD k 0) mbc.q com i b := by
    unfold DMat.forceCol
    rw [h2 0 i b (by omega) hi hb, h2 1 i b (by omega) hi hb, h2 2 i b (by omega) hi hb, h2 3 i b (by omega) hi hb,
      h2 4 i b (by omega) hi hb, h2 5 i b (by omega) hi hb]
    rfl
  have hab : (mb.cmCol (fun k => mb.ones.getD k 0) mbc.q com i b).about (-com) =
      ∑ k ∈ Finset.range mb.bodies.length, (mb.posAt mbc.q k).transMul ((mb.inertiaAt k).mulMotion (mb.colAt mbc.q k i b)) := by
    unfold MultiBody.cmCol
    have := map_sum (⟨⟨fun f : ForceVec K => f.about (-com), by unfold ForceVec.about; ext <;> simp⟩, fun f g => f.about_add g _⟩ :
      ForceVec K →+ ForceVec K) (fun k => mb.ones.getD k 0 • momHom (mb.posAt mbc.q k) com (mb.inertiaAt k) (mb.colAt mbc.q k i b))
      (Finset.range mb.bodies.length)
    refine this.trans (Finset.sum_congr rfl fun k hk => ?_)
    show ForceVec.about _ _ = _
    rw [mb.ones_getD (Finset.mem_range.1 hk), one_smul, momHom_apply, transMul_about, ForceVec.about_about_neg]
  have hS : j.S.getD a 0 = (mb.SAt 0).getD a 0 := by unfold MultiBody.SAt; rw [hj]; rfl
  rw [hH, hcol, hab, hS, ← PTransform.dualHom_apply, map_sum, MotionVec.dot_sum]
  refine Finset.sum_congr rfl fun k hk => ?_
  have h1 := ho.mem_path wf (Finset.mem_range.1 hk)
  rw [show mb.colAt mbc.q k 0 a = (mb.relAt mbc.q 0 k).mulMotion ((mb.SAt 0).getD a 0) from if_pos h1, PTransform.mulMotion_dot,
    PTransform.dualHom_apply, MultiBody.relAt, PTransform.mul_transMul _ _ _ (mb.posAt_rigid hr hq 0).inv,
    PTransform.dualMul_eq _ (mb.posAt_rigid hr hq 0)]

/-! ### Hypotheses can be met -/

/-- C79 on the sample robot: a push at a point of the hand changes the torques of the wrist. -/
example : ∃ (J J₁ : Jac ℚ) (A : DMat ℚ) (W : PTransform ℚ) (d₁ d₂ : ID ℚ) (m₁ m₂ : MBC ℚ), Jac.mk' (fun _ => 0) Sample.mb "hand" ⟨1, 2, 3⟩ = .ok J ∧
    J.jacobian Sample.mb Sample.mbcV = .ok J₁ ∧ J₁.fullJacobian Sample.mb (DMat.ofCols J₁.jac) ⟨6, 11, fun _ _ => 42⟩ = .ok A ∧
    Sample.mbcV.bodyPosW[2]? = some W ∧ Sample.id.inverseDynamics Sample.mb Sample.mbcV = .ok (d₁, m₁) ∧
    Sample.id.inverseDynamics Sample.mb (Sample.mbcV.push 2 (pointForce W ⟨1, 2, 3⟩ ⟨⟨1, 0, 2⟩, ⟨5, 7, 0⟩⟩)) = .ok (d₂, m₂) ∧
    (∀ r, r < 11 → m₂.jointTorque.flatten.getD r 0 = m₁.jointTorque.flatten.getD r 0 - A.trMulAt ⟨⟨1, 0, 2⟩, ⟨5, 7, 0⟩⟩ r) ∧
    m₂.jointTorque.flatten.getD 8 0 ≠ m₁.jointTorque.flatten.getD 8 0 := by
  obtain ⟨h1, h2, h3⟩ := Sample.ready
  obtain ⟨J, e, h⟩ := C34_constructor Sample.wf (fun _ => 0) (name := "hand") (N := 2) (by decide +kernel) (by decide +kernel)
    (⟨1, 2, 3⟩ : Vec3 ℚ)
  have hn : Sample.mb.nrDof = 11 := by decide +kernel
  obtain ⟨J₁, A, W, d₁, d₂, m₁, m₂, k1, k2, k3, k4, k5, -, -, k6⟩ := C79_contact_torques Sample.wf Sample.rigid h2 h3 h1 (d := Sample.id)
    (by decide +kernel) h ⟨⟨1, 0, 2⟩, ⟨5, 7, 0⟩⟩ (res := ⟨6, 11, fun _ _ => 42⟩) rfl hn.symm
  rw [hn] at k6
  refine ⟨J, J₁, A, W, d₁, d₂, m₁, m₂, e, k1, k2, k3, k4, k5, k6, ?_⟩
  have hW : W = (Sample.mbcV.bodyPosW[2]?).getD 1 := by rw [k3]; rfl
  have t1 : m₁.jointTorque = ((Sample.id.inverseDynamics Sample.mb Sample.mbcV).toOption.map (·.2.jointTorque)).getD [] := by rw [k4]; rfl
  have t2 : m₂.jointTorque = ((Sample.id.inverseDynamics Sample.mb (Sample.mbcV.push 2 (pointForce ((Sample.mbcV.bodyPosW[2]?).getD 1)
      ⟨1, 2, 3⟩ ⟨⟨1, 0, 2⟩, ⟨5, 7, 0⟩⟩))).toOption.map (·.2.jointTorque)).getD [] := by rw [← hW, k5]; rfl
  rw [t1, t2]
  decide +kernel

/-- C79 on the sample robot: the weight, the linear momentum and the rows of its free root joint. -/
example : ∃ (c c' : CoMJac ℚ) (d₁ d₂ : ID ℚ) (m₁ m₂ : MBC ℚ) (k k' : CMM ℚ) (f : FD ℚ) (W : PTransform ℚ),
    CoMJac.mk' (fun _ => 0) (fun _ => 7) (fun _ => 1) (fun _ => ⟨1, 2, 3⟩) Sample.mb Sample.mb.ones = .ok c ∧
    c.jacobian Sample.mb Sample.mbcV = .ok c' ∧ Sample.id.inverseDynamics Sample.mb Sample.mbcV = .ok (d₁, m₁) ∧
    Sample.id.inverseDynamics Sample.mb { Sample.mbcV with gravity := 0 } = .ok (d₂, m₂) ∧
    CMM.mk' (fun _ => 0) (fun _ => 0) (fun _ _ => 3) Sample.mb Sample.mb.ones = .ok k ∧ k.computeMatrix Sample.mb Sample.mbcV ⟨1, 2, 3⟩ = .ok k' ∧
    Sample.fd.computeH Sample.mb Sample.mbcV = .ok f ∧ Sample.mbcV.bodyPosW[0]? = some W ∧
    (∀ r, r < 11 → m₁.jointTorque.flatten.getD r 0 =
      m₂.jointTorque.flatten.getD r 0 + Sample.mb.totalMass * (c'.jac.getD r 0).dot Sample.mbcV.gravity) ∧
    (∀ x l, x < 3 → l < 11 → k'.cmMat.get (3 + x) l = Sample.mb.totalMass * ((c'.jac.getD l 0).toList).getD x 0) ∧
    (∀ a l, a < 6 → l < 11 → f.H.get a l = ((Joint.mk' .Free (⟨0, 0, 1⟩ : Vec3 ℚ) true "root").S.getD a 0).dot
      (W.dualMul ((k'.cmMat.forceCol l).about (-⟨1, 2, 3⟩)))) ∧
    m₁.jointTorque.flatten.getD 8 0 ≠ m₂.jointTorque.flatten.getD 8 0 := by
  obtain ⟨h1, h2, h3⟩ := Sample.ready
  obtain ⟨⟨c, e, hc⟩, -, -⟩ := C39_constructor Sample.wf (fun _ => 0) (fun _ => 7) (fun _ => 1) (fun _ => ⟨1, 2, 3⟩) (fun _ _ => 3)
    (w := Sample.mb.ones) (by decide +kernel)
  obtain ⟨k, ek, hk⟩ := (C40_constructor Sample.wf Sample.names (fun _ => 0) (fun _ => 0) (fun _ _ => 3) Sample.mb.ones).1 (by decide +kernel)
  have hn : Sample.mb.nrDof = 11 := by decide +kernel
  have hm : Sample.mb.MassOK := by unfold MultiBody.MassOK; decide +kernel
  have hM : 0 < Sample.mb.totalMass := by decide +kernel
  obtain ⟨c', d₁, d₂, m₁, m₂, f₁, f₂, k1, k2, k3, -, -, k4, -⟩ := C79_weight Sample.wf Sample.rigid hm hM h2 h3 h1 (d := Sample.id) (by decide +kernel)
    Sample.fd_fits hc
  obtain ⟨k', c'', l1, l2, l3⟩ := C79_linear_momentum Sample.wf Sample.rigid hm hM h3 h1.toPosReady hk hc ⟨1, 2, 3⟩
  rw [k1] at l2
  cases l2
  obtain ⟨f, k'', W, r1, r2, r3, r4⟩ := C79_root_rows Sample.wf Sample.rigid Sample.oneRoot h3 h1.toPosReady Sample.fd_fits hk ⟨1, 2, 3⟩
    (by decide +kernel : Sample.mb.joints[0]? = some (Joint.mk' .Free ⟨0, 0, 1⟩ true "root"))
  rw [l1] at r2
  cases r2
  rw [hn] at k4 l3 r4
  refine ⟨c, c', d₁, d₂, m₁, m₂, k, k', f, W, e, k1, k2, k3, ek, l1, r1, r3, k4, l3, r4, ?_⟩
  have t1 : m₁.jointTorque = ((Sample.id.inverseDynamics Sample.mb Sample.mbcV).toOption.map (·.2.jointTorque)).getD [] := by rw [k2]; rfl
  have t2 : m₂.jointTorque = ((Sample.id.inverseDynamics Sample.mb { Sample.mbcV with gravity := 0 }).toOption.map (·.2.jointTorque)).getD [] := by
    rw [k3]; rfl
  rw [t1, t2]
  decide +kernel

/-- Every body of the sample robot has a Jacobian of its origin, as `C79_mass_matrix` asks. -/
example : ∃ J : Nat → Jac ℚ, (∀ k, k < Sample.mb.nrBodies → (J k).Of Sample.mb k 0) ∧ Sample.mb.nrBodies = 4 := by
  have h : ∀ k, ∃ J : Jac ℚ, k < Sample.mb.nrBodies → J.Of Sample.mb k 0 := by
    intro k
    by_cases hk : k < Sample.mb.nrBodies
    · obtain ⟨J, h⟩ := Jac.exists_of Sample.wf hk (0 : Vec3 ℚ)
      exact ⟨J, fun _ => h⟩
    · exact ⟨⟨[], [], 1, [], [], 0, 0⟩, fun h => absurd h hk⟩
  choose J hJ using h
  exact ⟨J, hJ, by decide +kernel⟩

/-- The state of C71's example meets the hypotheses of `C79_contact_accelerations`; at rest and without forces also those of
`C79_weight_statics` can be met. -/
example : ∃ (solve : DMat ℚ → List ℚ → List ℚ) (m : MBC ℚ), Sample.pushed.Sized Sample.mb ∧ Sample.pushed.VelReady Sample.mb ∧
    (∀ fd₁, Sample.fd.computeH Sample.mb Sample.pushed = .ok fd₁ → ExactSolve solve fd₁.H) ∧
    m = { Sample.mbcV with force := [0, 0, 0, 0] } ∧ m.Sized Sample.mb ∧ m.PosReady Sample.mb ∧ (∀ f ∈ m.force, f = 0) := by
  obtain ⟨h1, h2, h3⟩ := Sample.ready
  have hp : MBC.PosReady Sample.mb Sample.pushed := ⟨h1.parentToSon, h1.bodyPosW, h1.motionSubspace⟩
  obtain ⟨solve, hs⟩ := ExactSolve.exists_of_regular (K := ℚ) Sample.mb.nrDof
  refine ⟨solve, _, ⟨h2.q, h2.alpha, h2.alphaD, by unfold SizedDof; decide +kernel, by decide +kernel, h2.jointConfig, h2.jointVelocity,
      h2.motionSubspace, h2.bodyPosW, h2.parentToSon, h2.bodyVelW, h2.bodyVelB, h2.bodyAccB⟩,
    ⟨⟨h1.parentToSon, h1.bodyPosW, h1.motionSubspace⟩, h1.jointVelocity, h1.bodyVelB, h1.bodyVelW⟩, fun fd₁ e => ?_, rfl,
    { h2 with force := by decide +kernel }, { h1.toPosReady with }, by decide +kernel⟩
  obtain ⟨d', e', h⟩ := C29_positive_definite Sample.wf Sample.rigid (mbc := Sample.pushed) h3 hp Sample.fd_fits Sample.inertia_pos Sample.subspace_ne
  obtain ⟨d'', e'', hr, hc, -⟩ := C28_symmetric Sample.wf Sample.rigid (mbc := Sample.pushed) h3 hp Sample.fd_fits
  rw [e] at e' e''
  cases e'
  cases e''
  refine hs _ hr hc fun x hx hne => ?_
  by_contra hcon
  push Not at hcon
  have := h x hx hne
  rw [Finset.sum_eq_zero fun r hr' => by rw [hcon r (Finset.mem_range.1 hr'), mul_zero]] at this
  exact lt_irrefl _ this

end RBDyn
